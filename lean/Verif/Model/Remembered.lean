import Verif.Model.Filters
import Verif.Model.Tokens

/-!
# Functions that remember results

Models `functools.lru_cache(size)`, by which mabel remembers the results of `get_md5` (inline_functions.py:185-189), of
`_sql_like_fragment_to_regex` (text.py:32-39) and of `get_token_type` (token_labeler.py:105-172): the results of the last calls are
kept with their arguments, the one asked for last first; a result is looked up by `==` of the arguments; an argument that cannot be
hashed raises TypeError; what raises is not kept.
-/

namespace Mabel.Remembered
open Mabel.Py Mabel.Filters

variable {α β : Type}

/-- What is kept: arguments with their results, the last asked for first. -/
abbrev Cache (α β : Type) := List (α × β)

/-- A function with a memory: how many results it keeps, which arguments can be looked up, which are the same to it, and the
function itself. -/
structure Memo (α β : Type) where
  size : Nat
  hashable : α → Bool
  same : α → α → Bool
  f : α → Except Err β

/-- functools.lru_cache: the kept result for an argument, and the others -/
def find (same : α → α → Bool) (x : α) : Cache α β → Option ((α × β) × Cache α β)
  | [] => none
  | e :: rest => if same e.1 x then some (e, rest) else (find same x rest).map (fun r => (r.1, e :: r.2))

/-- functools.lru_cache: one call -/
def Memo.call (m : Memo α β) (c : Cache α β) (x : α) : Except Err β × Cache α β :=
  if m.hashable x then
    match find m.same x c with
    | some (e, rest) => (.ok e.2, e :: rest)
    | none =>
      match m.f x with
      | .error e => (.error e, c)
      | .ok r => (.ok r, ((x, r) :: c).take m.size)
  else (.error .typeError, c)

/-- The results of calls, one after the other. -/
def Memo.calls (m : Memo α β) (c : Cache α β) : List α → List (Except Err β)
  | [] => []
  | x :: xs => (m.call c x).1 :: m.calls (m.call c x).2 xs

/-- What is kept after calls. -/
def Memo.after (m : Memo α β) (c : Cache α β) : List α → Cache α β
  | [] => c
  | x :: xs => m.after (m.call c x).2 xs

/-- `==` of the keys `lru_cache` makes of a single argument: a whole number or a text stands for itself, anything else is put into a
tuple; tuples are the same if what is in them is equal, so that `True` and `1.0` are, but `True` and `1` are not -/
def sameKey : Datum → Datum → Bool
  | .one (.int i), .one (.int j) => i == j
  | .one (.str s), .one (.str t) => s == t
  | .one .none, .one .none => true
  | .one (.date s), .one (.date t) => s == t
  | .one (.bool a), .one (.bool b) => a == b
  | .one (.float p), .one (.float q) => p == q
  | .one (.bool a), .one (.float q) => (if a then 1 else 0) == q
  | .one (.float p), .one (.bool b) => p == (if b then 1 else 0)
  | _, _ => false

/-- A list cannot be hashed. -/
def hashable : Datum → Bool
  | .one _ => true
  | .list _ => false

/-- inline_functions.py:185-189 `get_md5`; `md5` is the digest of a text, in hexadecimal -/
def getMd5 (md5 : Str → Str) (lib : Lib) : Memo Datum Str where
  size := 8
  hashable := hashable
  same := sameKey
  f x := .ok (md5 (str lib x))

/-- A function of texts that remembers `size` results. -/
def ofTexts (size : Nat) (f : Str → Except Err β) : Memo Str β where
  size := size
  hashable := fun _ => true
  same := fun s t => s == t
  f := f

/-- text.py:42-43 `like`, one comparison after the other, with the patterns of the last four remembered -/
def likes (lower : Str → Str) (c : Cache Str (Option (List Like.Rx))) : List (Str × Str) → List Bool
  | [] => []
  | (x, y) :: rest =>
    let r := (ofTexts 4 (fun p => .ok (Like.readRx (Like.regexText p)))).call c (lower y)
    (match r.1 with
      | .ok (some rx) => Like.rxMatch rx (lower x)
      | _ => false) :: likes lower r.2 rest

end Mabel.Remembered
