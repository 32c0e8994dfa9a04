import Verif.Model.TempFiles

/-!
# What programs with sets on disk have

Nothing here mentions files.
-/

namespace Mabel.TempFiles.Spec
open Mabel.Py Mabel.TempFiles

variable {α : Type}

/-- The sets that process `p` has made, in order: their records, or `none` for one that it has dropped. -/
def sets (p : Nat) : List (Option (List α)) → List (Event α) → List (Option (List α))
  | made, [] => made
  | made, .store q records :: events => sets p (if q = p then made ++ [some records] else made) events
  | made, .drop q i :: events => sets p (if q = p then made.set i none else made) events
  | made, _ :: events => sets p made events

/-- Process `p` has made these records its set number `i`, and has not dropped it. -/
def Has (events : List (Event α)) (p i : Nat) (records : List α) : Prop :=
  (sets p [] events)[i]? = some (some records)

/-- Process `p` has not ended. -/
def Runs (events : List (Event α)) (p : Nat) : Prop := Event.exit p ∉ events ∧ Event.kill p ∉ events

/-- No two processes have ever had the same name for a file. -/
def OwnNames (events : List (Event α)) : Prop :=
  ∀ p q name, Event.pick p name ∈ events → Event.pick q name ∈ events → p = q

end Mabel.TempFiles.Spec
