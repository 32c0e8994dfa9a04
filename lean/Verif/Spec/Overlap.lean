import Verif.Model.Overlap
import Verif.Props.Days
import Verif.Spec.StreamStorage

/-! Vocabulary for runs of batch writers that overlap in time. -/

namespace Mabel.Overlap
open Mabel.Py Mabel.Paths Mabel.Naming
open Mabel.History (Run on)
open Mabel.StreamStorage (share)
variable {ρ : Type}

/-- The steps, in this order, are taken by these runs (the step marked `i` by the `i`-th): each takes its own in
order, from the first on, and may take all of them or (if it dies) only some. -/
def Taken (w : Job) (runs : List (DateTime × Run ρ)) (steps : List (Nat × Disk.Op)) : Prop :=
  (∀ i p, runs[i]? = some p → ∃ ops, p.2.ops (on w p.1) = .ok ops ∧ share steps i <+: ops) ∧
  ∀ x ∈ steps, x.1 < runs.length

/-- The `i`-th run is to be marked complete (it has something to store, or is to be marked even if not), and by these steps
it has stored all it has, with its marker. -/
def Done (w : Job) (runs : List (DateTime × Run ρ)) (steps : List (Nat × Disk.Op)) (i : Nat) : Prop :=
  ∃ p, runs[i]? = some p ∧ p.2.Marks ∧ p.2.ops (on w p.1) = .ok (share steps i)

/-- The records of a day after these steps: those that were valid for the last run of the day (in the order in which
the runs began) that is done. -/
def Rows (w : Job) (runs : List (DateTime × Run ρ)) (steps : List (Nat × Disk.Op)) (t : DateTime) (rows : List ρ) : Prop :=
  (∃ i r, runs[i]? = some (t, r) ∧ Done w runs steps i ∧ rows = r.records.filter r.config.valid ∧
    ∀ j r', i < j → runs[j]? = some (t, r') → ¬ Done w runs steps j) ∨
  ((∀ j r', runs[j]? = some (t, r') → ¬ Done w runs steps j) ∧ rows = [])

end Mabel.Overlap
