import Verif.Model.DictSet

/-!
# Sets that are not stored, sampling and column types

Models mabel/data/internals/dictset.py for a set made from a generator (`STORAGE_CLASS.NO_PERSISTANCE`).
`iter()` of a generator is the generator itself, so a set, and every set derived from it, take their
records from the same source: reading one moves all of them on.  A derived set is a generator with a
state of its own.  Predicates and the functions that select columns do not raise here.
-/

namespace Mabel.DictSet
open Mabel.Py

variable {α : Type}

/-- The generators that derived sets are made of, with what they remember. -/
inductive Stage (α : Type)
  /-- dictset.py:412-443 `filter` -/
  | filter (keep : α → Bool)
  /-- dictset.py:462-485 `select` -/
  | select (columns : α → α)
  /-- dictset.py:384-404 `take` and `itake`: `count` records have been yielded -/
  | take (items : Int) (count : Nat)
  /-- dictset.py:285-309 `distinct`; `seen` is `hash_list` -/
  | distinct (fingerprint : α → BitVec 64) (seen : List (BitVec 64))
  /-- dictset.py:131-147 `sample`; `draws` are the random values to come -/
  | sample (selector : Nat) (draws : List Nat)

/-- A generator is given a record by the one below: its state afterwards and the record it yields, if
any. -/
def Stage.step : Stage α → α → Stage α × Option α
  | .filter keep, x => (.filter keep, if keep x then some x else none)
  | .select columns, x => (.select columns, some (columns x))
  | .take items count, x => (.take items (count + 1), some x)
  | .distinct fp seen, x =>
    if seen.contains (fp x) then (.distinct fp seen, none) else (.distinct fp (fp x :: seen), some x)
  | .sample selector draws, x => (.sample selector draws.tail, if draws.headD 0 % selector = 0 then some x else none)

/-- dictset.py:402-404: the generator has returned, it does not ask for another record. -/
def Stage.closed : Stage α → Bool
  | .take items count => count > 0 && (count : Int) == items
  | _ => false

/-- A record goes through the generators of a derived set, the one nearest the source first. -/
def feed : List (Stage α) → α → List (Stage α) × Option α
  | [], x => ([], some x)
  | s :: ss, x =>
    match s.step x with
    | (s', none) => (s' :: ss, none)
    | (s', some y) => let (ss', z) := feed ss y; (s' :: ss', z)

/-- `next()` on a derived set: the record, its generators afterwards and what is left in the source. -/
def pull : List (Stage α) → List α → Option α × List (Stage α) × List α
  | ss, [] => (none, ss, [])
  | ss, x :: xs =>
    if ss.any Stage.closed then (none, ss, x :: xs)
    else match feed ss x with
      | (ss', some y) => (some y, ss', xs)
      | (ss', none) => pull ss' xs

/-- Reading a derived set to its end: collect_list, keys, a for loop, … -/
def drain : List (Stage α) → List α → List α × List (Stage α) × List α
  | ss, [] => ([], ss, [])
  | ss, x :: xs =>
    if ss.any Stage.closed then ([], ss, x :: xs)
    else
      let (ss', y) := feed ss x
      let (ys, ss'', rest) := drain ss' xs
      (y.toList ++ ys, ss'', rest)

/-- A derived set: what it was derived from (`none` is the set made from the source) and its generator. -/
structure Node (α : Type) where
  parent : Option Nat
  stage : Stage α

/-- The source and the sets derived so far. -/
structure Session (α : Type) where
  source : List α
  nodes : List (Node α) := []

/-- The generators a set takes its records through, its own first; `fuel` bounds the length. -/
def pathOf (nodes : List (Node α)) : Nat → Option Nat → List Nat
  | 0, _ => []
  | _, none => []
  | fuel + 1, some i =>
    match nodes[i]? with
    | none => []
    | some n => i :: pathOf nodes fuel n.parent

/-- The same, the one nearest the source first. -/
def Session.path (s : Session α) (of : Option Nat) : List Nat := (pathOf s.nodes s.nodes.length of).reverse

/-- The states of the generators of a path. -/
def stagesAt (nodes : List (Node α)) (path : List Nat) : List (Stage α) :=
  path.filterMap fun i => (nodes[i]?).map (·.stage)

/-- The generators of a path have moved on. -/
def writeStages (nodes : List (Node α)) : List Nat → List (Stage α) → List (Node α)
  | i :: is, s :: ss => writeStages (nodes.modify i fun n => { n with stage := s }) is ss
  | _, _ => nodes

/-- What a program does with the set and the sets derived from it. -/
inductive Command (α : Type)
  /-- derive a set by filter, select, take, distinct or sample -/
  | derive (parent : Option Nat) (stage : Stage α)
  /-- `next(set)`, `set.first()` or one turn of a for loop -/
  | next (of : Option Nat)
  /-- a method which reads the set to its end -/
  | all (of : Option Nat)

/-- dictset.py:74-483: one command: the records handed out and the session afterwards.  A set can be derived
only from one that exists. -/
def Session.run (s : Session α) : Command α → List α × Session α
  | .derive parent stage =>
    if parent.all (· < s.nodes.length) then ([], { s with nodes := s.nodes ++ [⟨parent, stage⟩] }) else ([], s)
  | .next of =>
    let p := s.path of
    let (y, ss, rest) := pull (stagesAt s.nodes p) s.source
    (y.toList, ⟨rest, writeStages s.nodes p ss⟩)
  | .all of =>
    let p := s.path of
    let (ys, ss, rest) := drain (stagesAt s.nodes p) s.source
    (ys, ⟨rest, writeStages s.nodes p ss⟩)

/-- A history of commands: what each handed out, and the session afterwards. -/
def Session.runAll (s : Session α) : List (Command α) → List (List α) × Session α
  | [] => ([], s)
  | c :: cs =>
    let (ys, s') := s.run c
    let (yss, s'') := s'.runAll cs
    (ys :: yss, s'')

/-! ## Sampling -/

/-- dictset.py:141 `selector = int(1 / fraction)`, for exact division (Python divides floats). -/
def selectorOf (fraction : Rat) : Except Err Int :=
  if fraction = 0 then .error .zeroDivision else .ok ((1 / fraction).num.tdiv (1 / fraction).den)

/-- dictset.py:142-145: the loop; `draws` are the 16-bit random values, one per record. -/
def sampleLoop (selector : Int) : List Nat → List α → Except Err (List α)
  | _, [] => .ok []
  | draws, x :: xs => do
    if selector = 0 then throw .zeroDivision
    if (draws.headD 0 : Int) % selector = 0 then return x :: (← sampleLoop selector draws.tail xs)
    else sampleLoop selector draws.tail xs

/-- dictset.py:131-147 `sample(fraction)`, read to the end. -/
def sampleOf (fraction : Rat) (draws : List Nat) (l : List α) : Except Err (List α) := do
  sampleLoop (← selectorOf fraction) draws l

/-! ## Types of columns -/

/-- dictset.py:187: the names of the types of the values which are not None, each once.  `typeName` is
`type(val).__name__`, nothing for None. -/
def keyTypes {V : Type} (typeName : V → Option Str) (values : List V) : List Str :=
  (values.filterMap typeName).foldl (fun acc n => if acc.contains n then acc else acc ++ [n]) []

/-- dictset.py:188-195: the description of a column.  `"empty"` (189) is always overwritten, 192 and 194 being
alternatives to 190 only. -/
def describe (types : List Str) : Str :=
  let response : Option Str := if types.length = 0 then some "empty".toList else none
  let response :=
    if types.length = 1 then types.head?
    else if sorted strLe types = ["float".toList, "int".toList] then some "numeric".toList
    else some "mixed".toList
  response.getD []

/-- The values of a column, as `collect_list` gives them (dictset.py:167), for values of any kind. -/
def column {V : Type} (key : Str) (l : List (List (Str × V))) : List V :=
  l.filterMap fun r => (r.find? fun kv => kv.1 == key).map (·.2)

/-- dictset.py:169-181 `keys()`, for values of any kind. -/
def keysOf {V : Type} (l : List (List (Str × V))) : List Str :=
  l.foldl (fun x y => x ++ ((y.map (·.1)).filter fun a => !x.contains a)) []

/-- dictset.py:183-196 `types(number_of_rows)`.  `top` has the storage class of the set; if it is not stored,
`top.keys()` reads it to its end and `collect_list` finds nothing. -/
def types {V : Type} (typeName : V → Option Str) (sc : StorageClass) (rows : Int) (l : List (List (Str × V))) :
    List (Str × Str) :=
  let top := itake rows l
  let again := if sc = .noPersistance then [] else top
  (keysOf top).map fun key => (key, describe (keyTypes typeName (column key again)))

/-! ## Looping -/

/-- `for record in set`, dictset.py:112-121, on a new set: `next()` of a list is a TypeError. -/
def loopOver {β : Type} (parse : Str → α) (unpack : β → List α) (falsy : α → Bool) :
    Held α β → Except Err (List α)
  | .list _ => .error .typeError
  | .iterator l _ => .ok l
  | .memory l => .ok l
  | .disk file => readDisk parse file
  | .compressed batches => .ok (readBatches unpack falsy batches)

end Mabel.DictSet
