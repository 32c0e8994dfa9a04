import Verif.Model.Sql
import Verif.Model.Evaluator
import Verif.Model.DictSet
import Verif.Model.GroupBy
import Verif.Model.Blobs

/-!
# Running SQL statements

Models `SqlReader` (mabel/data/readers/internals/sql_reader.py:234-354) with the methods of the sets it uses
(mabel/data/internals/dictset.py: filter, select, distinct, sort_and_take, take), and the way the reader applies columns
and filters to the records of a blob (mabel/data/readers/reader.py:195-231, internals/parallel_reader.py:140-173).

A set is a generator (`Gen`): what it yields and the exception that ends it, if any.  The generators have no side effects
on each other, so they are run one after the other.

Simplifications: the records of the blobs of a dataset are given (`Env.blobs`; C14-C20 are about finding them and C21-C24
about decoding them), the reader is serial and has no cursor, and no other options are passed to it; evaluators and
expressions keep no memory of the records they have seen (C62_no_memory; C75 says when this is so for expressions);
grouping is modelled for records of None, booleans, integers and texts (others give NotImplementedError here); an average is
the exact quotient; sorting compares values of different kinds by their kind (Python raises TypeError).
-/

namespace Mabel.SqlReader
open Mabel.Py Mabel.Dates Mabel.Tokens Mabel.Filters Mabel.Records Mabel.Tokenizer Mabel.Blobs Mabel.Evaluator

/-- What the statements run on. -/
structure Env where
  re : Re
  lex : Lex
  ch : Sql.Chars
  lib : Filters.Lib
  funs : Funs
  /-- `hash` of a text (dictset.py:300-304) -/
  hash : Str → BitVec 64
  /-- the hash of group_by.py -/
  groupHash : Str → Nat
  /-- the records of the blobs of a dataset, in order, or why there are none -/
  blobs : Str → Except Err (List (List Row))

/-! ## The reader -/

/-- parallel_reader.py:157-173: the columns, then the filter; an exception ends the blob, and only that -/
def readBlob (columns : Row → Except Err Row) (filters : Row → Except Err Bool) (rows : List Row) : List Row :=
  (((Gen.of rows).map columns).filter filters).items

/-- reader.py:221-226: the filter, if there is one, is made an expression -/
def readerTree (env : Env) (filters : Option Str) : Except Err (Option Expression.Tree) :=
  match filters with
  | none => .ok none
  | some w => (parseText env.re env.lex w).map some

/-- reader.py:228-231: the evaluator, unless everything is selected -/
def readerTokens (env : Env) (select : Str) : Except Err (Option (List Tok)) :=
  if select = "*".toList then .ok none else (init env.re env.lex select).map some

/-- parallel_reader.py:161: what is done to each record -/
def readerColumns (env : Env) : Option (List Tok) → Row → Except Err Row
  | none, r => .ok r
  | some ts, r => (call env.funs env.lex ts r).1

/-- reader.py:233-300: the blobs are looked for, and the filter is converted (parallel_reader.py:115), when the first record is
wanted; without a filter the records are their own (reader.py:271 `pass_thru`), and an empty one is dropped -/
def readBlobs (env : Env) (tree : Option Expression.Tree) (columns : Row → Except Err Row) (dataset : Str) : Gen Row :=
  match env.blobs dataset with
  | .error e => Gen.fail e
  | .ok bs => match tree with
    | none => Gen.of (bs.flatMap (readBlob columns (fun r => .ok (decide (r ≠ [])))))
    | some t => match Expression.toDnf env.lib t with
      | .error e => Gen.fail e
      | .ok _ => Gen.of (bs.flatMap (readBlob columns (fun r => Expression.evaluate env.lib env.lex r t)))

/-- reader.py:202-300: the expression and the evaluator are made first -/
def openReader (env : Env) (select : Str) (dataset : Str) (filters : Option Str) : Except Err (Gen Row) := do
  let tree ← readerTree env filters
  let tokens ← readerTokens env select
  .ok (readBlobs env tree (readerColumns env tokens) dataset)

/-! ## GROUP BY -/

def toValue : Datum → Option Value
  | .one .none => some .none
  | .one (.bool b) => some (.bool b)
  | .one (.int i) => some (.int i)
  | .one (.str s) => some (.str s)
  | _ => none

def toRecord (r : Row) : Option Record := r.mapM (fun kv => (toValue kv.2).map (fun v => (kv.1, v)))

def ofValue : Value → Datum
  | .none => .one .none
  | .bool b => .one (.bool b)
  | .int i => .one (.int i)
  | .str s => .one (.str s)

/-- An average is a float. -/
def ofCell : GroupBy.Cell → Datum
  | .val v => ofValue v
  | .ratio t c => .one (.float ((t : Rat) / (c : Rat)))

def funcOf (s : Str) : Option GroupBy.Func := [GroupBy.Func.sum, .max, .min, .count, .avg].find? (fun f => f.name = s)

/-- sql_reader.py:288-292 -/
def groupColumns (groupBy : Option Str) : List Str :=
  match groupBy.filter (· ≠ []) with
  | some g => ((split ',' g).filter (fun c => strip c ≠ [])).map strip
  | none => ["*".toList]

/-- sql_reader.py:294-305: the aggregations; `(name, column)` of an aggregation without parameters is an IndexError -/
def aggregations (groups : List Str) : List Tok → Except Err (List (GroupBy.Func × Str))
  | [] => .ok []
  | t :: ts =>
    if t.type = .aggregator then
      match t.parameters with
      | [] => .error .indexError
      | p :: _ => match funcOf t.value with
        | none => .error .keyError
        | some f => do .ok ((f, p.value) :: (← aggregations groups ts))
    else if t.type = .variable ∧ t.value ∉ groups then .error .sqlError
    else aggregations groups ts

/-- The fields that `Groupby` looks at (data/internals/group_by.py:85-108: the columns it groups by, for the hash, and those it collects). -/
def looked (columns : List Str) (r : Row) : Row := r.filter (fun kv => columns.contains kv.1)

/-- sql_reader.py:307-313; the other fields of a record can hold anything. -/
def groupRows (env : Env) (groups : List Str) (aggs : List (GroupBy.Func × Str)) (g : Gen Row) : Gen Row :=
  match g.raised with
  | some e => Gen.fail e
  | none => match (g.items.map (looked (groups ++ aggs.map Prod.snd))).mapM toRecord with
    | none => Gen.fail .notImplemented
    | some rs =>
      if aggs = [] then
        match (GroupBy.groups env.groupHash { source := rs, columns := groups }).2 with
        | .error e => Gen.fail e
        | .ok rows => Gen.of (rows.map (fun r => r.map (fun kv => (kv.1, ofValue kv.2))))
      else
        match (GroupBy.aggregate env.groupHash { source := rs, columns := groups } aggs).2 with
        | .error e => Gen.fail e
        | .ok rows => Gen.of (rows.map (fun r => r.map (fun kv => (kv.1, ofCell kv.2))))

/-- sql_reader.py:280-313 -/
def groupStage (env : Env) (p : Sql.Parsed) (tokens : List Tok) (g : Gen Row) : Except Err (Gen Row) :=
  if (p.groupBy.filter (· ≠ [])).isSome ∨ tokens.any (fun t => t.type = .aggregator) then do
    let aggs ← aggregations (groupColumns p.groupBy) tokens
    .ok (groupRows env (groupColumns p.groupBy) aggs g)
  else .ok g

/-! ## HAVING -/

/-- sql_reader.py:315-318, dictset.py:406-424 -/
def havingStage (env : Env) (having : Option Str) (g : Gen Row) : Except Err (Gen Row) :=
  match having.filter (· ≠ []) with
  | none => .ok g
  | some h => do
    let t ← parseText env.re env.lex h
    .ok (g.filter (fun r => Expression.evaluate env.lib env.lex r t))

/-! ## SELECT -/

/-- sql_reader.py:321-324 -/
def renames (tokens : List Tok) : List (Str × Str) :=
  tokens.foldl (fun d t => match t.as_.filter (· ≠ []) with
    | some a => put d (functionName t) a
    | none => d) []

/-- `row.pop(k)` leaves -/
def remove (r : Row) (k : Str) : Row := r.filter (fun kv => kv.1 ≠ k)

/-- sql_reader.py:326-330 `_perform_renames`: one name -/
def renameOne (names : List (Str × Str)) (r : Row) (k : Str) : Row :=
  match names.lookup k with
  | none => r
  | some n => put (remove r k) n ((r.lookup k).getD ((r.lookup n).getD (.one .none)))

/-- sql_reader.py:326-330 `_perform_renames`: the names the record had to begin with -/
def performRenames (names : List (Str × Str)) (r : Row) : Row := (r.map (·.1)).foldl (renameOne names) r

/-- sql_reader.py:332-333 -/
def renameStage (tokens : List Tok) (g : Gen Row) : Gen Row :=
  if renames tokens = [] then g else ⟨g.items.map (performRenames (renames tokens)), g.raised⟩

/-- dictset.py:464-485 `select`, for a list of columns -/
def selectRow (columns : List Str) (r : Row) : Row :=
  if "*".toList ∈ columns then r.filter (fun kv => kv.1 ≠ "*".toList)
  else toDict (columns.map (fun k => (k, (r.lookup k).getD (.one .none))))

/-- sql_reader.py:335, dictset.py:464-485 -/
def selectStage (columns : List Str) (g : Gen Row) : Gen Row :=
  if columns = ["*".toList] then g else ⟨g.items.map (selectRow columns), g.raised⟩

/-! ## DISTINCT -/

/-- dictset.py:300-304 -/
def rowFingerprint (env : Env) (r : Row) : BitVec 64 :=
  (r.mapIdx fun i kv => env.hash (natStr i ++ [','] ++ str env.lib kv.2)).foldl (fun x y => x ^^^ y) 0

/-- sql_reader.py:337-338, dictset.py:285-309 -/
def distinctStage (env : Env) (distinct : Bool) (g : Gen Row) : Gen Row :=
  if distinct then ⟨DictSet.dedupeFrom (rowFingerprint env) [] g.items, g.raised⟩ else g

/-! ## ORDER BY -/

/-- The kind of a value. -/
def rank : Scalar → Nat
  | .none => 0
  | .bool _ => 1
  | .int _ => 1
  | .float _ => 1
  | .str _ => 2
  | .date _ => 3

/-- `a <= b`; values of different kinds are in the order of their kinds (they are not sorted, see `sortRecords`). -/
def scalarLe (a b : Scalar) : Bool :=
  match b.lt a with
  | .ok x => !x
  | .error _ => rank a ≤ rank b

def listLe : List Scalar → List Scalar → Bool
  | [], _ => true
  | _ :: _, [] => false
  | a :: as, b :: bs => if scalarLe a b && scalarLe b a then listLe as bs else scalarLe a b

def datumLe : Datum → Datum → Bool
  | .one a, .one b => scalarLe a b
  | .one _, .list _ => true
  | .list _, .one _ => false
  | .list a, .list b => listLe a b

/-- dictset.py:488-494: the value of the column; None counts as missing -/
def orderKey (column : Str) (r : Row) : Option Datum := (r.lookup column).filter (· ≠ .one .none)

/-- `l[:t]`, and what `del l[t:]` leaves -/
def upTo {α : Type} (t : Int) (l : List α) : List α := if 0 ≤ t then l.take t.toNat else l.take (l.length - (-t).toNat)

/-- dictset.py:488-494: the keys of two records can be compared: by whether there is a value, or else by the values -/
def keysCompare (column : Str) (a b : Row) : Bool :=
  match orderKey column a, orderKey column b with
  | some x, some y => (x.lt y).isOk
  | _, _ => true

/-- `sort(key=safety_key(column), reverse=descending)`.  It raises exactly when some two keys cannot be compared: a sort compares every
two that end up side by side, and numbers, texts and datetimes can be compared with all of their kind and with nothing else.  (For
lists, where this is not so, it may raise less often than here.) -/
def sortRecords (column : Str) (descending : Bool) (l : List Row) : Except Err (List Row) :=
  if l.Pairwise (fun a b => keysCompare column a b = true) then
    .ok (sorted (DictSet.directed (DictSet.keyLe datumLe (orderKey column)) descending) l)
  else .error .typeError

/-- dictset.py:507-511: one record arrives -/
def cacheStep (column : Str) (descending : Bool) (take : Int) (cache : List Row) (record : Row) : Except Err (List Row) :=
  let cache := cache ++ [record]
  if (cache.length : Int) > max (take * 2) 1 + 1 then (sortRecords column descending cache).map (upTo take) else .ok cache

/-- dictset.py:487-513 `sort_and_take` -/
def sortAndTake (sc : DictSet.StorageClass) (column : Str) (descending : Bool) (take : Int) (l : List Row) : Except Err (List Row) :=
  if sc = .memory then (sortRecords column descending l).map (upTo take)
  else do
    let cache ← l.foldlM (cacheStep column descending take) []
    (sortRecords column descending cache).map (upTo take)

/-- sql_reader.py:341-347 -/
def orderStage (orderBy : Option Str) (descending : Bool) (limit : Option Int) (g : Gen Row) : Gen Row :=
  match orderBy.filter (· ≠ []) with
  | none => g
  | some column => match g.raised with
    | some e => Gen.fail e
    | none => match sortAndTake .noPersistance column descending ((limit.filter (· ≠ 0)).getD 10000) g.items with
      | .ok rows => Gen.of rows
      | .error e => Gen.fail e

/-! ## LIMIT -/

/-- sql_reader.py:350-351, dictset.py:384-404: nothing is read after the last record that is wanted -/
def limitStage (limit : Option Int) (g : Gen Row) : Gen Row :=
  match limit.filter (· ≠ 0) with
  | none => g
  | some n => ⟨DictSet.itake n g.items, if 0 < n ∧ n ≤ g.items.length then none else g.raised⟩

/-! ## The statement -/

/-- sql_reader.py:280-353: everything after FROM and WHERE -/
def finishQuery (env : Env) (p : Sql.Parsed) (tokens : List Tok) (g : Gen Row) : Except Err (Gen Row) := do
  let g ← groupStage env p tokens g
  let g ← havingStage env p.having g
  let g := renameStage tokens g
  let g := selectStage (getFields tokens) g
  let g := distinctStage env p.distinct g
  let g := orderStage p.orderBy p.descending p.limit g
  .ok (limitStage p.limit g)

/-- sql_reader.py:256-260 -/
def actualSelect (select : Str) : Str := if select = "*".toList then select else select ++ ", *".toList

/-- sql_reader.py:234-354 `SqlReader`; the number bounds the turns of the parser's loop and the depth of subqueries, and
`none` is that it is not large enough (the parser may never end, C48) -/
def sqlReader (env : Env) : Nat → Str → Option (Except Err (Gen Row))
  | 0, _ => none
  | n + 1, statement =>
    match Sql.parse env.re env.lex env.ch n statement with
    | none => none
    | some (.error e) => some (.error e)
    | some (.ok p) =>
      let select := p.select.getD []
      match init env.re env.lex select with
      | .error e => some (.error e)
      | .ok tokens =>
        match p.source with
        | none => some (.error .sqlError)
        | some (.subquery ps) => (sqlReader env n ps.flatten).map (fun r => r.bind (finishQuery env p tokens))
        | some (.dataset d) => some ((openReader env (actualSelect select) d p.whereExpr).bind (finishQuery env p tokens))

end Mabel.SqlReader
