import Verif.Py.Basic

/-!
# Random values

Models mabel/utils/entropy.py.  What `os.urandom(n)` returns is a parameter: any list of n bytes.
`length * 0.75` is exact (as it is for lengths below 2^52).
-/

namespace Mabel.Entropy
open Mabel.Py

abbrev Byte := Fin 256

/-- entropy.py:52-53 `bytes_to_int` -/
def bytesToInt (b : List Byte) : Nat := b.foldl (fun n x => n * 256 + x.val) 0

/-- entropy.py:38-42 `random_int`; `os.urandom(8)` returned `b` -/
def randomInt (b : List Byte) : Nat := bytesToInt b

/-- entropy.py:45-49 `random_range(min, max)`; `%` is Python's, with the sign of the divisor -/
def randomRange (b : List Byte) (min max : Int) : Except Err Int :=
  if max + 1 - min = 0 then .error .zeroDivision else .ok ((randomInt b : Int).fmod (max + 1 - min) + min)

/-- entropy.py:56-61 `random_choice` -/
def randomChoice {α : Type} (b : List Byte) (options : List α) : Except Err α := do
  let r ← randomRange b 0 (options.length - 1)
  index options r

/-! ## base64 (the standard library's) -/

/-- The letters of base64, in order. -/
def alphabet : Str := "ABCDEFGHIJKLMNOPQRSTUVWXYZabcdefghijklmnopqrstuvwxyz0123456789+/".toList

def letter (n : Nat) : Char := alphabet.getD n 'A'

/-- `base64.b64encode(b).decode()` -/
def b64encode : List Byte → Str
  | [] => []
  | [a] => [letter (a.val / 4), letter (a.val % 4 * 16), '=', '=']
  | [a, b] => [letter (a.val / 4), letter (a.val % 4 * 16 + b.val / 16), letter (b.val % 16 * 4), '=']
  | a :: b :: c :: rest =>
    letter (a.val / 4) :: letter (a.val % 4 * 16 + b.val / 16) :: letter (b.val % 16 * 4 + c.val / 64)
      :: letter (c.val % 64) :: b64encode rest

/-- entropy.py:34: how many bytes are asked for: `ceil(length * 0.75)` -/
def bytesFor (length : Int) : Int := -((-(3 * length)).fdiv 4)

/-- entropy.py:28-35 `random_string(length)` with the default encoder; a negative number of bytes is a ValueError -/
def randomString (urandom : Nat → List Byte) (length : Int) : Except Err Str :=
  if bytesFor length < 0 then .error .valueError
  else .ok (sliceTo (b64encode (urandom (bytesFor length).toNat)) length)

end Mabel.Entropy
