import Verif.Model.StoredSets

/-!
# What programs with stored sets should see

A set is what it was made from: every set has a list of records, given once and for all when the set is made.
Nothing here knows of iterators, files or batches.
-/

namespace Mabel.Spec
open Mabel.Py Mabel.DictSet

variable {α : Type}

/-- Of records with the same key the first. -/
def firsts {κ : Type} [DecidableEq κ] (key : α → κ) (l : List α) : List α :=
  (l.zipIdx.filter fun xi => !((l.take xi.2).map key).contains (key xi.1)).map (·.1)

/-- The records of the set that an operation makes from the records `l`. -/
def outcome : Op α → List α → Except Err (List α)
  | .filter keep, l => .ok (l.filter keep)
  | .select columns, l => .ok (l.map columns)
  | .take n, l => .ok (if 0 < n then l.take n.toNat else l)
  | .distinct key, l => .ok (firsts key l)
  | .sample k draws, l =>
    if k = 0 ∧ l ≠ [] then .error .zeroDivision
    else .ok ((l.zipIdx.filter fun xi => (((draws[xi.2]?).getD 0 : Nat) : Int) % k == 0).map (·.1))

/-- What can be read of a set that was made from `l`: on disk a set without records cannot be read, and in
compressed memory records without fields are not delivered. -/
def readable (sc : StoredClass) (falsy : α → Bool) (l : List α) : Except Err (List α) :=
  match sc with
  | .memory => .ok l
  | .disk => if l = [] then .error .valueError else .ok l
  | .compressed => .ok (l.filter fun r => !falsy r)

/-- The sets, as what each was made from, after one command: only deriving a set changes them. -/
def setsAfter (sc : StoredClass) (falsy : α → Bool) (sets : List (List α)) : StoredCommand α → List (List α)
  | .derive i op =>
    match sets[i]? with
    | none => sets
    | some l =>
      match readable sc falsy l with
      | .error _ => sets
      | .ok l => match outcome op l with
        | .error _ => sets
        | .ok l' => sets ++ [l']
  | _ => sets

/-- What a command gives, by the set alone.  Nothing is said of `next` and of for loops. -/
def answer (sc : StoredClass) (falsy : α → Bool) (sets : List (List α)) : StoredCommand α → Option (Answer α)
  | .derive i op => some <|
    match sets[i]? with
    | none => .noSet
    | some l => match readable sc falsy l >>= outcome op with
      | .error e => .raised e
      | .ok _ => .made
  | .scan i => some <|
    match sets[i]? with
    | none => .noSet
    | some l => match readable sc falsy l with
      | .error e => .raised e
      | .ok l => .records l
  | .first i => some <|
    match sets[i]? with
    | none => .noSet
    | some l => match readable sc falsy l with
      | .error e => .raised e
      | .ok l => .record l.head?
  | .count i => some <|
    match sets[i]? with
    | none => .noSet
    | some l => .number l.length
  | .next _ => none
  | .loop _ => none

/-- The sets after a program. -/
def setsAfterAll (sc : StoredClass) (falsy : α → Bool) (sets : List (List α)) (program : List (StoredCommand α)) :
    List (List α) :=
  program.foldl (setsAfter sc falsy) sets

end Mabel.Spec
