import Verif.Model.History
import Verif.Model.StreamStorage

/-!
# How the names of blobs are made

Models `_build_path` and `_get_node` (mabel/data/writers/internals/base_inner_writer.py:39-45).  The clock, the number of the
machine (`uuid.getnode`) and the number of the process are the environment's.
-/

namespace Mabel.BlobIds
open Mabel.Py

/-- A hexadecimal digit, as `format` writes it. -/
def hexDigit (n : Nat) : Char := "0123456789abcdef".toList.getD n '0'

/-- `f"{n:x}"` -/
def hex (n : Nat) : Str := if n < 16 then [hexDigit n] else hex (n / 16) ++ [hexDigit (n % 16)]
  termination_by n
  decreasing_by omega

/-- base_inner_writer.py:43-45 `_get_node`, if its value is not in the cache -/
def node (machine process : Nat) : Str := hex machine ++ '-' :: hex process

/-- base_inner_writer.py:43: `lru_cache(1)` of a method keeps the value for the writer that asked last. -/
abbrev Cache := Option (Nat × Str)

/-- base_inner_writer.py:43-45 `_get_node`: `self` is the number of the writer -/
def getNode (cache : Cache) (self machine process : Nat) : Str × Cache :=
  match cache with
  | some (w, n) => if w = self then (n, cache) else (node machine process, some (self, node machine process))
  | none => (node machine process, some (self, node machine process))

/-- base_inner_writer.py:40: `time` is `time.time_ns()` -/
def blobId (time : Nat) (node : Str) : Str := hex time ++ '-' :: node

/-- The calls of `_build_path` in a process: the writer that calls and the time it reads. -/
def idsOf (machine process : Nat) : Cache → List (Nat × Nat) → List Str
  | _, [] => []
  | cache, (self, time) :: calls =>
    let r := getNode cache self machine process
    blobId time r.1 :: idsOf machine process r.2 calls

/-- The cache after these calls. -/
def cacheAfter (machine process : Nat) : Cache → List (Nat × Nat) → Cache
  | cache, [] => cache
  | cache, (self, _) :: calls => cacheAfter machine process (getNode cache self machine process).2 calls

end Mabel.BlobIds
