import Verif.Model.Cloud
import Verif.Props.History

/-!
# What a reader should see of runs on object storage
-/

namespace Mabel.Cloud
open Mabel.Paths
variable {ρ : Type}

/-- What is known of a run on object storage: what is known of one on disk, and that it is not marked complete if it has
stored nothing (of which Google Cloud Storage shows nothing: C79). -/
structure Proper (w : Naming.Job) (r : History.Run ρ) : Prop extends History.Run.OK w r where
  marked : r.records.filter r.config.valid ≠ [] ∨ r.config.alwaysComplete = false

/-- A run that finalized, stored all it had to store, and had something to store. -/
def Finished (r : History.Run ρ) : Prop :=
  r.ending = .finalized ∧ r.records.filter r.config.valid ≠ [] ∧ r.stored.length ≤ r.stop

/-- What a reader should see of a day: the valid records of the last of its runs that came to its end, and
nothing if there is none. -/
def LastOf (runs : List (DateTime × History.Run ρ)) (t : DateTime) (rows : List ρ) : Prop :=
  (∃ pre r post, runs = pre ++ (t, r) :: post ∧ Finished r ∧
    (∀ p ∈ post, p.1 = t → ¬ Finished p.2) ∧ rows = r.records.filter r.config.valid) ∨
  ((∀ p ∈ runs, p.1 = t → ¬ Finished p.2) ∧ rows = [])

end Mabel.Cloud
