import Verif.Py.Basic
import Verif.Py.Value

/-!
# Grouping

Models mabel/data/internals/group_by.py.

Simplifications: the hash (xxh3) is a parameter; the iteration order of the set of columns to collect is that
of first mention (the code's is arbitrary; it only decides the order in which columns of one record are
handled, and they do not meet); numbers are whole numbers, with fewer than a million digits, and the quotient
of an average is kept as a fraction; numeric text is not accepted by SUM (`Decimal("1")` is, in the code);
mapping and reducing take turns in the code and are done one after the other here, which differs only in
which exception is raised if both raise; rows yielded before an exception are left out.
-/

namespace Mabel.GroupBy
open Mabel.Py

/-- group_by.py:22-28 -/
inductive Func | sum | max | min | count | avg
  deriving DecidableEq, Repr

def Func.name : Func → Str
  | .sum => "SUM".toList
  | .max => "MAX".toList
  | .min => "MIN".toList
  | .count => "COUNT".toList
  | .avg => "AVG".toList

/-! ## Dictionaries -/

def dget {κ β : Type} [DecidableEq κ] (d : List (κ × β)) (k : κ) : Option β := (d.find? (fun kv => kv.1 == k)).map (·.2)

/-- `d[k] = v` -/
def dput {κ β : Type} [DecidableEq κ] : List (κ × β) → κ → β → List (κ × β)
  | [], k, v => [(k, v)]
  | kv :: d, k, v => if kv.1 = k then (k, v) :: d else kv :: dput d k v

/-! ## Values -/

/-- Python's truth of a value. -/
def truthy : Value → Bool
  | .none => false
  | .bool b => b
  | .int i => i != 0
  | .str s => !s.isEmpty

/-- The number a value is, if it is one. -/
def num : Value → Option Int
  | .int i => some i
  | .bool b => some (if b then 1 else 0)
  | _ => none

/-- `a < b`; TypeError for values of different kinds. -/
def less (a b : Value) : Except Err Bool :=
  match num a, num b with
  | some x, some y => .ok (x < y)
  | _, _ => match a, b with
    | .str x, .str y => .ok (decide (x < y))
    | _, _ => .error .typeError

/-- What `decimal` makes of a result, with its 28 digits: a number with more is rounded to the nearest with 28, of two that are
as near to the one whose last digit is even. -/
def round28 (n : Int) : Int :=
  if n.natAbs < 10 ^ 28 then n
  else
    let unit := 10 ^ ((natStr n.natAbs).length - 28)
    let q := n.natAbs / unit
    let r := n.natAbs % unit
    let q := if unit < 2 * r ∨ (2 * r = unit ∧ q % 2 = 1) then q + 1 else q
    if n < 0 then -((q * unit : Nat) : Int) else ((q * unit : Nat) : Int)

/-- group_by.py:15-28 AGGREGATORS. -/
def aggregator : Func → Value → Value → Except Err Value
  | .sum, x, y => match num x, num y with
    | some a, some b => .ok (.int (round28 (a + b)))
    | _, _ => .error .valueError
  | .max, x, y => do if (← less x y) then pure y else pure x
  | .min, x, y => do if (← less y x) then pure y else pure x
  | .count, x, _ => match num x with
    | some a => .ok (.int (a + 1))
    | none => .error .typeError
  | .avg, _, _ => .ok (.int 1)

/-! ## The object -/

/-- group_by.py:43-49: the records still to come, the grouping columns, and `_group_keys`.
(dictset.py:315 passes `iter(...)`, so the records can be gone through once.) -/
structure Obj where
  source : List Record
  columns : List Str
  keys : List (Nat × List (Str × Value)) := []

/-- group_by.py:75-84: the text that is hashed; `record[column]`, or '' if any column is missing and it is this. -/
def groupText (columns : List Str) (r : Record) : Str :=
  (columns.map (fun c => match r.lookup c with | some v => Value.toStr v | none => [])).flatten

/-- group_by.py:88 -/
def groupLimit : Nat := 4999999

/-- What the mapper yields: group, column, value. -/
structure Mapped where
  group : Nat
  column : Str
  value : Value
  deriving DecidableEq, Repr

/-- group_by.py:94-99: what one column of a record yields, if it is not null. -/
def collected (c : Str) (r : Record) : Option Value :=
  if c = "*".toList then some (.str "*".toList)
  else match r.get c with
    | .none => none
    | v => some v

/-- group_by.py:93-99: what one record yields. -/
def emit (collect : List Str) (g : Nat) (r : Record) : List Mapped :=
  collect.filterMap (fun c => (collected c r).map (fun v => ⟨g, c, v⟩))

/-- group_by.py:74-99 `_map`. -/
def mapGo (hash : Str → Nat) (columns collect : List Str) :
    List Record → List (Nat × List (Str × Value)) → Except Err (List (Nat × List (Str × Value)) × List Mapped)
  | [], keys => .ok (keys, [])
  | r :: rs, keys =>
    let g := hash (groupText columns r)
    if (dget keys g).isNone then
      let keys := dput keys g (columns.map (fun c => (c, r.get c)))
      if keys.length ≥ groupLimit then .error .tooManyGroups
      else do
        let (keys, ms) ← mapGo hash columns collect rs keys
        pure (keys, emit collect g r ++ ms)
    else do
      let (keys, ms) ← mapGo hash columns collect rs keys
      pure (keys, emit collect g r ++ ms)

/-- The partial results: per group, per key such as `SUM(a)`. -/
abbrev Collector := List (Nat × List (Str × Value))

/-- `f"{func}({col})"` -/
def aggKey (f : Func) (c : Str) : Str := f.name ++ "(".toList ++ c ++ ")".toList

/-- group_by.py:141-154: the new partial result. -/
def accumulate (f : Func) (existing : Option Value) (value : Value) : Except Err Value :=
  match existing with
  | some e =>
    if truthy e then
      if truthy value || f == .count then aggregator f e value else .ok e
    else if f = .count then .ok (.int 1) else .ok value
  | none => if f = .count then .ok (.int 1) else .ok value

/-- group_by.py:132-157: one aggregation for one mapped value. -/
def update (m : Mapped) (d : Collector) (agg : Func × Str) : Except Err Collector :=
  if agg.2 ≠ m.column then .ok d
  else do
    let group := (dget d m.group).getD []
    let value ← accumulate agg.1 (dget group (aggKey agg.1 agg.2)) m.value
    pure (dput d m.group (dput group (aggKey agg.1 agg.2) value))

/-- group_by.py:117-120: averages need the sum and the count. -/
def extend (aggs : List (Func × Str)) : List (Func × Str) :=
  aggs ++ aggs.flatMap (fun a => if a.1 = .avg then [(.sum, a.2), (.count, a.2)] else [])

/-- A result: a value or, for an average, a quotient. -/
inductive Cell
  | val (v : Value)
  | ratio (total count : Int)
  deriving DecidableEq, Repr

abbrev Row := List (Str × Cell)

/-- group_by.py:166-167: an average. -/
def average (group : List (Str × Value)) (c : Str) : Except Err Cell :=
  match dget group (aggKey .sum c), dget group (aggKey .count c) with
  | some s, some n => match num s, num n with
    | some s, some n => if n = 0 then .error .zeroDivision else .ok (.ratio s n)
    | _, _ => .error .typeError
  | _, _ => .error .keyError

/-- group_by.py:165-177: the row of a group. -/
def row (requested : List (Func × Str)) (keys : List (Str × Value)) (group : List (Str × Value)) : Except Err Row := do
  -- the averages, in `results`
  let avgs ← (requested.filter (fun a => a.1 = .avg)).mapM (fun a => do
    let x ← average group a.2
    pure (aggKey a.1 a.2, x))
  let lookup (a : Func × Str) : Cell :=
    if a.1 = .avg then (dget avgs (aggKey a.1 a.2)).getD (.val .none)
    else .val ((dget group (aggKey a.1 a.2)).getD .none)
  let results := requested.foldl (fun d a => dput d (aggKey a.1 a.2) (lookup a)) []
  pure (keys.foldl (fun d kv => dput d kv.1 (.val kv.2)) results)

/-- group_by.py:101-177 `aggregate`. -/
def aggregate (hash : Str → Nat) (o : Obj) (aggs : List (Func × Str)) : Obj × Except Err (List Row) :=
  let aggregations := extend aggs
  let collect := dedup (aggregations.map (·.2))
  match mapGo hash o.columns collect o.source o.keys with
  | .error e => ({ o with source := [] }, .error e)
  | .ok (keys, mapped) =>
    let o := { o with source := [], keys := keys }
    (o, do
      let collector ← mapped.foldlM (fun d m => aggregations.foldlM (update m) d) []
      let collector := sorted (fun a b => decide (a.1 ≤ b.1)) collector
      collector.mapM (fun g => row aggs ((dget keys g.1).getD []) g.2))

/-- group_by.py:112-120: the list the caller gave to `aggregate` is added to (`+=` changes it in place): what it is
afterwards. -/
def callersList (aggs : List (Func × Str)) : List (Func × Str) := extend aggs

/-- group_by.py:193-195 `max`. -/
def max (hash : Str → Nat) (o : Obj) (columns : List Str) := aggregate hash o (columns.map (fun c => (Func.max, c)))

/-- group_by.py:208-210 `min`. -/
def min (hash : Str → Nat) (o : Obj) (columns : List Str) := aggregate hash o (columns.map (fun c => (Func.min, c)))

/-- group_by.py:223-225 `sum`. -/
def sum (hash : Str → Nat) (o : Obj) (columns : List Str) := aggregate hash o (columns.map (fun c => (Func.sum, c)))

/-- group_by.py:239 `count`. -/
def count (hash : Str → Nat) (o : Obj) := aggregate hash o [(.count, "*".toList)]

/-- group_by.py:242-244 `average`. -/
def mean (hash : Str → Nat) (o : Obj) (columns : List Str) := aggregate hash o (columns.map (fun c => (Func.avg, c)))

/-- group_by.py:246-254 `groups`. -/
def groups (hash : Str → Nat) (o : Obj) : Obj × Except Err (List Record) :=
  match mapGo hash o.columns ["*".toList] o.source o.keys with
  | .error e => ({ o with source := [] }, .error e)
  | .ok (keys, _) =>
    ({ o with source := [], keys := keys }, .ok (keys.map (fun g => g.2.foldl (fun d kv => dput d kv.1 kv.2) [])))

end Mabel.GroupBy
