import Verif.Model.StreamStorage

/-! Vocabulary for what is read of what a stream writer has stored. -/

namespace Mabel.StreamStorage
open Mabel.Py
variable {ρ β : Type}

/-- The calls `hist`, in this order, are those that threads have made, each thread in the order of its own
calls, and `left` are those they have yet to make. -/
def Served (calls : Nat → List (Call ρ β)) (hist : List (Nat × Call ρ β)) (left : Nat → List (Call ρ β)) : Prop :=
  ∀ t, calls t = (hist.filter (fun x => x.1 == t)).map (·.2) ++ left t

/-- The records that appends among the calls give, in order, if they pass the validation and the append is at
a time (or for a date, if the writer has one) of which `p` is true. -/
def appended (date : Option DateTime) (valid : ρ → Bool) (p : DateTime → Prop) [DecidablePred p]
    (hist : List (Nat × Call ρ β)) : List ρ :=
  hist.filterMap fun
    | (_, .append now r _ _) => if valid r = true ∧ p (date.getD now) then some r else none
    | _ => none

/-- A record has, for a field, a value (one of them, if it has a list) that when sanitised is this text when
sanitised. -/
def has (str : β → Str) (field : ρ → Str → Targets.Field β) (F x : Str) (r : ρ) : Bool :=
  (field r F).values.any fun v => Text.sanitize (str v) == Text.sanitize x

/-- No record has two values for a field that are this text when sanitised. -/
def OneValue (str : β → Str) (field : ρ → Str → Targets.Field β) (F x : Str) (records : List ρ) : Prop :=
  ∀ r ∈ records, ∀ v ∈ (field r F).values, ∀ v' ∈ (field r F).values,
    Text.sanitize (str v) = Text.sanitize x → Text.sanitize (str v') = Text.sanitize x → v = v'

/-- An identifier comes before another, whatever follows them: they differ at some character, and there it has
the lesser. -/
abbrev Before (i j : Str) : Prop := i < j ∧ ¬ i <+: j

/-- What is marked `i`, in order. -/
def share {α : Type} (l : List (Nat × α)) (i : Nat) : List α := (l.filter (fun x => x.1 == i)).map (·.2)

/-- All steps on the disk for what the pool has stored are among the first `k`. -/
def Written (s : Setup) (ids : List Str) (store : List (Str × Writer.Stored)) (k : Nat) : Prop :=
  ∀ ops, diskOps s ids store = .ok ops → ops.length ≤ k

end Mabel.StreamStorage
