import Verif.Model.ReaderFilter

/-!
# The filters of a set

Models `DictSet.filter` (mabel/data/internals/dictset.py:406-443) for everything that can be given as a filter.

The set that is filtered is the list of records its iterator yields; the filtered set is a generator, which may raise when it
is read (`Gen`).
-/

namespace Mabel.SqlReader
open Mabel.Py Mabel.Filters Mabel.Blobs Mabel.Tokenizer

/-- What can be given to `filter`: a text; a function; or something else: tuples and lists, or any other object (None, a
dictionary, …). -/
inductive SetFilter
  | text (s : Str)
  | function (f : Row → Except Err Bool)
  | value (p : Pred)

/-- dictset.py:418-421 `inner_filter_where`: the expression is changed by evaluating it (expression.py:228-229). -/
def whereItems (lib : Filters.Lib) (lex : Tokens.Lex) : Expression.Tree → List Row → Gen Row
  | _, [] => ⟨[], none⟩
  | t, r :: rs => match Expression.evaluate lib lex r t with
    | .error e => ⟨[], some e⟩
    | .ok true => ⟨r :: (whereItems lib lex t.after rs).items, (whereItems lib lex t.after rs).raised⟩
    | .ok false => whereItems lib lex t.after rs

/-- dictset.py:406-443 `filter(filters)`: the filtered set; `none` is Python's None, which is what comes back if the filter is
not of a kind that is known. -/
def filterSet (env : Env) (rows : List Row) : SetFilter → Except Err (Option (Gen Row))
  | .text s => do
    let t ← parseText env.re env.lex s
    .ok (some (whereItems env.lib env.lex t rows))
  | .value p =>
    if p.isTuple || p.isList then .ok (some (filterItems ((DnfFilters.init p).call env.lib) none rows)) else .ok none
  | .function f => .ok (some (filterItems f none rows))

end Mabel.SqlReader
