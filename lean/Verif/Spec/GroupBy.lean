import Verif.Model.GroupBy

/-!
# What grouping should answer

Stated with the records, the grouping columns and the requested aggregations only.  From the model it uses
the shapes of the data: `Func`, `Cell`, `Row` and reading a dictionary (`dget`).
-/

namespace Mabel.GroupBy.Spec
open Mabel.Py

/-- Two records have the same values in the grouping columns. -/
def agree (columns : List Str) (r s : Record) : Bool := columns.all (fun c => r.get c == s.get c)

/-- The records with the same values in the grouping columns as `r`. -/
def groupOf (columns : List Str) (rs : List Record) (r : Record) : List Record := rs.filter (agree columns r)

/-- The values of a column that are not null; for `*`, one for every record. -/
def nonNull (c : Str) (rs : List Record) : List Value :=
  if c = "*".toList then rs.map (fun _ => .str "*".toList)
  else (rs.map (fun r => r.get c)).filter (fun v => v != .none)

/-- The number a value is: a whole number, or a truth value taken as one or nought. -/
def number : Value → Option Int
  | .int i => some i
  | .bool b => some (if b then 1 else 0)
  | _ => none

/-- Order of values of one kind: texts, or numbers. -/
def NotAbove : Value → Value → Prop
  | .str a, .str b => a ≤ b
  | a, b => ∃ i j, number a = some i ∧ number b = some j ∧ i ≤ j

/-- The right answer of an aggregation over some values. -/
def Answer : Func → List Value → Cell → Prop
  | .count, vs, x => x = .val (if vs = [] then .none else .int vs.length)
  | .sum, vs, x => ∃ ns : List Int, vs.map number = ns.map some ∧ ((vs = [] ∧ x = .val .none) ∨
      vs ≠ [] ∧ ∃ v, x = .val v ∧ number v = some ns.sum ∧ (vs = ns.map Value.int → v = .int ns.sum))
  | .avg, vs, x => ∃ ns : List Int, vs.map number = ns.map some ∧ ns ≠ [] ∧ x = .ratio ns.sum ns.length
  | .max, vs, x => (vs = [] ∧ x = .val .none) ∨ ∃ m ∈ vs, x = .val m ∧ ∀ v ∈ vs, NotAbove v m
  | .min, vs, x => (vs = [] ∧ x = .val .none) ∨ ∃ m ∈ vs, x = .val m ∧ ∀ v ∈ vs, NotAbove m v

/-- `c` is `n` with 28 digits: `n` itself if it has no more; otherwise the nearest number with zeros after its 28th digit,
and of two that are as near the one whose 28th digit is even. -/
def Rounded (n c : Int) : Prop :=
  (n.natAbs < 10 ^ 28 → c = n) ∧
  ∀ e : Nat, 10 ^ (28 + e) ≤ n.natAbs → n.natAbs < 10 ^ (29 + e) →
    ∃ q : Int, c = q * 10 ^ (e + 1) ∧ 2 * (c - n).natAbs ≤ 10 ^ (e + 1) ∧ (2 * (c - n).natAbs = 10 ^ (e + 1) → q % 2 = 0)

/-- The name of an aggregation in a row, for example `SUM(a)`. -/
def entryName (f : Func) (c : Str) : Str :=
  (match f with
    | .sum => "SUM".toList
    | .max => "MAX".toList
    | .min => "MIN".toList
    | .count => "COUNT".toList
    | .avg => "AVG".toList) ++ "(".toList ++ c ++ ")".toList

/-- No aggregation is asked for twice, nor the sum or the count of a column next to its average. -/
def Apart (aggs : List (Func × Str)) : Prop :=
  aggs.Nodup ∧ ∀ a ∈ aggs, a.1 = .avg → (Func.sum, a.2) ∉ aggs ∧ (Func.count, a.2) ∉ aggs

instance (aggs : List (Func × Str)) : Decidable (Apart aggs) := by unfold Apart; infer_instance

/-- Does a row carry the grouping values of a record? -/
def carries (columns : List Str) (r : Record) (row : Row) : Bool :=
  columns.all (fun c => dget row c == some (.val (r.get c)))

/-- The rows answer the aggregations: every row carries the grouping values of some record and the right
answers over all records with these values; a record with a value to aggregate has exactly one row
with its grouping values; rows have no other entries. -/
structure Answers (aggs : List (Func × Str)) (columns : List Str) (rs : List Record) (rows : List Row) : Prop where
  right : ∀ row ∈ rows, ∃ r ∈ rs, carries columns r row = true ∧
    ∀ f c, (f, c) ∈ aggs → ∃ x, dget row (entryName f c) = some x ∧ Answer f (nonNull c (groupOf columns rs r)) x
  one : ∀ r ∈ rs, (∃ a ∈ aggs, nonNull a.2 (groupOf columns rs r) ≠ []) →
    (rows.filter (carries columns r)).length = 1
  none : ∀ r ∈ rs, (∀ a ∈ aggs, nonNull a.2 (groupOf columns rs r) = []) → rows.filter (carries columns r) = []
  only : ∀ row ∈ rows, ∀ k ∈ row.map Prod.fst, k ∈ columns ∨ ∃ a ∈ aggs, k = entryName a.1 a.2

/-- The texts of the grouping values of a record, one after the other; nothing for a column it does not have. -/
def texts (columns : List Str) (r : Record) : Str :=
  columns.flatMap fun c => match r.lookup c with
    | some v => Value.toStr v
    | none => []

/-- The hashed texts tell the groups of the records apart: equal exactly when the grouping values are. -/
def Faithful (hash : Str → Nat) (columns : List Str) (rs : List Record) : Prop :=
  ∀ r ∈ rs, ∀ s ∈ rs, hash (texts columns r) = hash (texts columns s) ↔ agree columns r s = true

/-- Numbers whose magnitudes add up to less than 29 digits. -/
def Moderate (ns : List Int) : Prop := (ns.map Int.natAbs).sum < 10 ^ 28

instance (ns : List Int) : Decidable (Moderate ns) := by unfold Moderate; infer_instance

/-- Requests the code answers rightly, by function and values of a group: sums, averages of whole
numbers (or truth values) that are not too great; greatest and least of whole numbers or texts where zero (or the empty text) does not matter. -/
def Fine : Func → List Value → Prop
  | .count, _ => True
  | .sum, vs => ∃ ns : List Int, vs.map number = ns.map some ∧ Moderate ns
  | .avg, vs => ∃ ns : List Int, vs.map number = ns.map some ∧ ns ≠ [] ∧ Moderate ns
  | .max, vs => (∃ ns : List Int, vs.map number = ns.map some ∧ (0 ∈ ns → (∃ n ∈ ns, n < 0) → ∃ n ∈ ns, 0 < n)) ∨
      ∃ ss : List Str, vs = ss.map Value.str
  | .min, vs => (∃ ns : List Int, vs.map number = ns.map some ∧ (0 ∈ ns → (∃ n ∈ ns, 0 < n) → ∃ n ∈ ns, n < 0)) ∨
      ∃ ss : List Str, vs = ss.map Value.str ∧ ([] ∈ ss → ∀ s ∈ ss, s = [])

end Mabel.GroupBy.Spec
