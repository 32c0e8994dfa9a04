import Verif.Py.DateTime
import Verif.Model.Like

/-!
# Filters written as lists and tuples

Models mabel/data/internals/dnf_filters.py and the operators of Python that it uses.

Values: a field of a record or a literal is None, a boolean, an integer, a float (a rational number: no nan
and no infinities), a text, a date or a list of those.  What `str` makes of a float, a date or a list, lower
case, regular expressions in general, and the identity of objects other than None, True and False are
parameters (`Lib`).
-/

namespace Mabel.Filters
open Mabel.Py

inductive Scalar
  | none
  | bool (b : Bool)
  | int (i : Int)
  | float (q : Rat)
  | str (s : Str)
  | date (d : DateTime)
  deriving DecidableEq, Repr

inductive Datum
  | one (s : Scalar)
  | list (l : List Scalar)
  deriving DecidableEq, Repr

/-- A record. -/
abbrev Row := List (Str × Datum)

/-- `key in record` with the value if so. -/
def Row.lookup (r : Row) (k : Str) : Option Datum := (r.find? (fun kv => kv.1 == k)).map (·.2)

/-- The library functions that are not modelled. -/
structure Lib where
  /-- `str.lower` -/
  lower : Str → Str
  /-- `str` of a float, a date or a list -/
  text : Datum → Str
  /-- `re.compile(y).search(x) != None` -/
  compile : Str → Except Err (Str → Bool)
  /-- `is` between other objects than None, True and False -/
  same : Datum → Datum → Bool

/-! ## Python's operators -/

/-- The number that a number is. -/
def Scalar.num : Scalar → Option Rat
  | .bool b => some (if b then 1 else 0)
  | .int i => some i
  | .float q => some q
  | _ => Option.none

/-- `a == b` -/
def Scalar.eq (a b : Scalar) : Bool :=
  match a.num, b.num with
  | some p, some q => p = q
  | _, _ => a = b

/-- `a < b` (TypeError for values of different kinds) -/
def Scalar.lt (a b : Scalar) : Except Err Bool :=
  match a.num, b.num with
  | some p, some q => .ok (p < q)
  | _, _ =>
    match a, b with
    | .str s, .str t => .ok (!strLe t s)
    | .date d, .date e => .ok (!DateTime.le e d)
    | _, _ => .error .typeError

/-- `a == b` for lists -/
def eqList : List Scalar → List Scalar → Bool
  | [], [] => true
  | a :: as, b :: bs => a.eq b && eqList as bs
  | _, _ => false

/-- `a < b` for lists: decided by the first pair that differs -/
def ltList : List Scalar → List Scalar → Except Err Bool
  | _, [] => .ok false
  | [], _ :: _ => .ok true
  | a :: as, b :: bs => if a.eq b then ltList as bs else a.lt b

/-- `a == b` -/
def Datum.eq : Datum → Datum → Bool
  | .one a, .one b => a.eq b
  | .list a, .list b => eqList a b
  | _, _ => false

/-- `a < b` -/
def Datum.lt : Datum → Datum → Except Err Bool
  | .one a, .one b => a.lt b
  | .list a, .list b => ltList a b
  | _, _ => .error .typeError

/-- `a <= b` (`a > b` is `b < a` and `a >= b` is `b <= a`; where `<` raises, so does `<=`) -/
def Datum.le (a b : Datum) : Except Err Bool := (b.lt a).map (!·)

/-- `a in b` -/
def memberOf (a b : Datum) : Except Err Bool :=
  match b with
  | .list l => .ok (l.any (fun s => a.eq (.one s)))
  | .one (.str t) => match a with
    | .one (.str s) => .ok (contains s t)
    | _ => .error .typeError
  | _ => .error .typeError

/-- `str(x)` -/
def str (lib : Lib) : Datum → Str
  | .one .none => "None".toList
  | .one (.bool true) => "True".toList
  | .one (.bool false) => "False".toList
  | .one (.int i) => intStr i
  | .one (.str s) => s
  | d => lib.text d

/-- text.py:42-43 `like(x, y)`: `y.lower()` needs a text -/
def like (lib : Lib) (x y : Datum) : Except Err Bool :=
  match y with
  | .one (.str p) => .ok (Like.likeText lib.lower (str lib x) p)
  | _ => .error .attributeError

/-- text.py:50-51 `matches(x, y)` -/
def «matches» (lib : Lib) (x y : Datum) : Except Err Bool :=
  match y with
  | .one (.str p) => do
    let f ← lib.compile p
    match x with
    | .one (.str s) => .ok (f s)
    | _ => .error .typeError
  | _ => .error .typeError

/-! ## dnf_filters.py -/

inductive Op
  | eq | ne | lt | gt | le | ge | like | «matches» | isIn | notIn | contains | notContains
  deriving DecidableEq, Repr

/-- dnf_filters.py:17-35 `OPERATORS` -/
def operators : List (Str × Op) := [
  ("=".toList, .eq), ("==".toList, .eq), ("is".toList, .eq), ("!=".toList, .ne), ("<>".toList, .ne),
  ("<".toList, .lt), (">".toList, .gt), ("<=".toList, .le), (">=".toList, .ge), ("like".toList, .like),
  ("matches".toList, .matches), ("~".toList, .matches), ("in".toList, .isIn), ("!in".toList, .notIn),
  ("not in".toList, .notIn), ("contains".toList, .contains), ("!contains".toList, .notContains)]

/-- dnf_filters.py:17-35: what each operator does -/
def Op.apply (lib : Lib) (op : Op) (x y : Datum) : Except Err Bool :=
  match op with
  | .eq => .ok (x.eq y)
  | .ne => .ok (!x.eq y)
  | .lt => x.lt y
  | .gt => y.lt x
  | .le => x.le y
  | .ge => y.le x
  | .like => Filters.like lib x y
  | .matches => Filters.matches lib x y
  | .isIn => memberOf x y
  | .notIn => (memberOf x y).map (!·)
  | .contains => memberOf y x
  | .notContains => (memberOf y x).map (!·)

/-- The forms a filter can have.  (Keys that cannot be hashed are not modelled; operators are texts.) -/
inductive Pred
  /-- `None` -/
  | none
  /-- `(key, op, value)` -/
  | tup (key : Scalar) (op : Str) (value : Datum)
  /-- a tuple that does not have three entries -/
  | badTuple
  | list (ps : List Pred)
  /-- anything else -/
  | other

def Pred.isTuple : Pred → Bool
  | .tup _ _ _ => true
  | .badTuple => true
  | _ => false

def Pred.isList : Pred → Bool
  | .list _ => true
  | _ => false

/-- `record.get(key, None)`; the keys of a record are texts -/
def field (r : Row) (key : Scalar) : Datum :=
  match key with
  | .str k => (r.lookup k).getD (.one .none)
  | _ => .one .none

/-- dnf_filters.py:56-59: one predicate -/
def atom (lib : Lib) (key : Scalar) (op : Str) (value : Datum) (r : Row) : Except Err Bool :=
  if field r key = .one .none then .ok false
  else match operators.lookup (lib.lower op) with
    | Option.none => .error .keyError
    | some o => o.apply lib (field r key) value

mutual
/-- dnf_filters.py:38-75 `evaluate`, its truth value -/
def evaluate (lib : Lib) : Pred → Row → Except Err Bool
  | .none, _ => .ok true
  | .tup key op value, r => atom lib key op value r
  | .badTuple, _ => .error .valueError
  | .list ps, r =>
    if ps.all Pred.isTuple then evalAll lib ps r
    else if ps.all Pred.isList then evalAny lib ps r
    else .error .invalidSyntax
  | .other, _ => .error .invalidSyntax

/-- dnf_filters.py:65 `all(evaluate(p, record) for p in predicate)` -/
def evalAll (lib : Lib) : List Pred → Row → Except Err Bool
  | [], _ => .ok true
  | p :: ps, r => do if ← evaluate lib p r then evalAll lib ps r else .ok false

/-- dnf_filters.py:70 `any(evaluate(p, record) for p in predicate)` -/
def evalAny (lib : Lib) : List Pred → Row → Except Err Bool
  | [], _ => .ok false
  | p :: ps, r => do if ← evaluate lib p r then .ok true else evalAny lib ps r
end

/-- `if filters` -/
def Pred.truthy : Pred → Bool
  | .none => false
  | .list [] => false
  | _ => true

/-- dnf_filters.py:78-125 `DnfFilters` -/
structure DnfFilters where
  emptyFilter : Bool
  predicates : Pred

/-- dnf_filters.py:81-105 `__init__` -/
def DnfFilters.init (filters : Pred) : DnfFilters where
  emptyFilter := match filters with | .none => true | _ => false
  predicates := if filters.truthy then filters else .list []

/-- dnf_filters.py:124-125 `__call__` -/
def DnfFilters.call (lib : Lib) (f : DnfFilters) (r : Row) : Except Err Bool := evaluate lib f.predicates r

/-- `(record for record in dictset if test(record))`, to the end or to the first exception -/
def keep (test : Row → Except Err Bool) : List Row → Except Err (List Row)
  | [] => .ok []
  | r :: rs => do
    let b ← test r
    let rest ← keep test rs
    .ok (if b then r :: rest else rest)

/-- dnf_filters.py:107-122 `filter_dictset`, read to the end -/
def DnfFilters.filterDictset (lib : Lib) (f : DnfFilters) (rs : List Row) : Except Err (List Row) :=
  if f.emptyFilter then .ok rs else keep (evaluate lib f.predicates) rs

end Mabel.Filters
