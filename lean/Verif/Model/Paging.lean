import Verif.Py.Basic

/-!
# Paging

Models mabel/data/readers/internals/threaded_wrapper.py:23-50.  Records are taken as already serialised; the
empty text that marks a free place of a page is `none`.
-/

namespace Mabel.Paging
open Mabel.Py
variable {α : Type}

/-- threaded_wrapper.py:38-50: the loop, with the number of the next record and the page being filled. -/
def pageGo (size : Nat) : Nat → List (Option α) → List α → Except Err (List (List (Option α)))
  | i, chunk, [] => if i = 0 then .error .unboundLocal else .ok [chunk.take ((i - 1) % size)]
  | i, chunk, r :: rs =>
    if i > 0 ∧ i % size = 0 then do
      let rest ← pageGo size (i + 1) ((List.replicate size none).set 0 (some r)) rs
      .ok (chunk :: rest)
    else pageGo size (i + 1) (chunk.set (i % size) (some r)) rs

/-- threaded_wrapper.py:23-50 `page_dictset`, read to the end (`if chunk` is false only for pages of size 0) -/
def pageDictset (size : Nat) (rs : List α) : Except Err (List (List (Option α))) :=
  if size = 0 then (match rs with | [] => .ok [] | _ => .error .zeroDivision)
  else pageGo size 0 (List.replicate size none) rs

end Mabel.Paging
