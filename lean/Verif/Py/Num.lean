import Verif.Py.Basic

/-! # Decimal rendering of natural numbers -/

namespace Mabel.Py

/-- The character of a decimal digit. -/
def digitChar : Nat → Char
  | 0 => '0' | 1 => '1' | 2 => '2' | 3 => '3' | 4 => '4'
  | 5 => '5' | 6 => '6' | 7 => '7' | 8 => '8' | _ => '9'

/-- Worker of `natStr`, with fuel. -/
def natStrAux : Nat → Nat → Str
  | 0, _ => []
  | fuel + 1, n => if n < 10 then [digitChar n] else natStrAux fuel (n / 10) ++ [digitChar (n % 10)]

/-- `f"{n}"`, for a non-negative int. -/
def natStr (n : Nat) : Str := natStrAux (n + 1) n

/-- `f"{n:02d}"`, for a non-negative int. -/
def pad2 (n : Nat) : Str := if n < 10 then '0' :: natStr n else natStr n

/-- `f"{n}"` for any int. -/
def intStr : Int → Str
  | .ofNat n => natStr n
  | .negSucc n => '-' :: natStr (n + 1)

end Mabel.Py
