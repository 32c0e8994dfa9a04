import Verif.Model.Writer

/-!
# The BigQuery writer

Models mabel/adapters/google/bigquery_writer.py:41-108.  A project is its tables.
The library's calls are modelled by what they do to the tables; calls that fail (`raise err`) are not.
-/

namespace Mabel.BigQuery
open Mabel.Py

/-- A table: its columns, after how many days its partitions expire, and its rows. -/
structure Table where
  columns : List Str
  expiration : Option Nat
  rows : List Writer.Bytes
  deriving DecidableEq, Repr

/-- The tables of a project, by dataset and name. -/
abbrev Project := List ((Str × Str) × Table)

/-- bigquery_writer.py:50-85 `_get_table`: lines 61-75 describe a table with columns and an expiration, but `create_table` is given
the reference (line 77), which describes none.  `expiration` is therefore not used. -/
def getTable (p : Project) (dataset table : Str) (_expiration : Option Nat) : Project :=
  match p.lookup (dataset, table) with
  | some _ => p
  | none => p ++ [((dataset, table), ⟨[], none, []⟩)]

/-- bigquery_writer.py:87-108 `commit`: the name of the blob is made and not used, and neither are the bytes. -/
def commit (p : Project) (_byteData : Writer.Bytes) : Project × Str :=
  (getTable p "users".toList "justin".toList (some 90), [])

/-- What the writers (blob_writer.py:179-181, batch_writer.py:128-133) hand over, one after the other. -/
def commitAll (p : Project) (store : List Writer.Stored) : Project :=
  store.foldl (fun p x => match x with
    | .data bytes => (commit p bytes).1
    | .complete => (commit p []).1) p

end Mabel.BigQuery
