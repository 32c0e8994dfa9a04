import Verif.Model.SqlStorage

/-!
# The filters of a reader

Models what `Reader(select=…, filters=…)` makes of its filter (mabel/data/readers/reader.py:202-231) and how the filter is
applied to the records of the blobs (mabel/data/readers/internals/parallel_reader.py:140-173).

Simplifications: those of `Verif.Model.SqlReader`: the reader is serial and has no cursor.
-/

namespace Mabel.SqlReader
open Mabel.Py Mabel.Filters Mabel.Blobs Mabel.Evaluator

/-- What can be given as `filters`: a text, or something else: None (`Pred.none`), tuples and lists, or any other object, such
as a function (`Pred.other`). -/
inductive FilterArg
  | text (s : Str)
  | value (p : Pred)

/-- reader.py:221-303, parallel_reader.py:140-173: a reader with the columns `select` and a filter.  A text is made an expression,
a tuple or a list a `DnfFilters`; anything else is no filter. -/
def openFiltered (env : Env) (select : Str) (dataset : Str) : FilterArg → Except Err (Gen Row)
  | .text s => openReader env select dataset (some s)
  | .value p =>
    if p.isTuple || p.isList then do
      let tokens ← readerTokens env select
      .ok (match env.blobs dataset with
        | .error e => Gen.fail e
        | .ok bs => Gen.of (bs.flatMap (readBlob (readerColumns env tokens) ((DnfFilters.init p).call env.lib))))
    else openReader env select dataset none

end Mabel.SqlReader
