import Verif.Model.CloudOverlap
import Verif.Spec.Cloud

/-! Vocabulary for runs of batch writers on object storage that overlap in time. -/

namespace Mabel.CloudOverlap
open Mabel.Py Mabel.Paths Mabel.Naming
variable {ρ : Type}

/-- The `i`-th run finalizes and has something to store, and by this schedule it has stored all it has, with its marker. -/
def Done (runs : List (DateTime × History.Run ρ)) (schedule : List Nat) (i : Nat) : Prop :=
  ∃ p, runs[i]? = some p ∧ p.2.ending = .finalized ∧ p.2.records.filter p.2.config.valid ≠ [] ∧
    p.2.stored.length ≤ schedule.count i

/-- The records of a day after this schedule: those that were valid for the last run of the day (in the order in which
the runs began) that is done. -/
def Rows (runs : List (DateTime × History.Run ρ)) (schedule : List Nat) (t : DateTime) (rows : List ρ) : Prop :=
  (∃ i r, runs[i]? = some (t, r) ∧ Done runs schedule i ∧ rows = r.records.filter r.config.valid ∧
    ∀ j r', i < j → runs[j]? = some (t, r') → ¬ Done runs schedule j) ∨
  ((∀ j r', runs[j]? = some (t, r') → ¬ Done runs schedule j) ∧ rows = [])

end Mabel.CloudOverlap
