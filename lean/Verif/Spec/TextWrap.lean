import Verif.Spec.ErrorStack

/-! Vocabulary for what is to be seen of a text that is wrapped. -/

namespace Mabel.TextWrap.Spec
open Mabel.ErrorStack (visible)

/-- A word: characters that can be seen, none of them a hyphen (after which a line may be broken). -/
def Word (w : Str) : Prop := w ≠ [] ∧ ∀ c ∈ w, visible c = true ∧ c ≠ '-'

/-- Between words: white space of ASCII and ends of lines. -/
def gap (c : Char) : Bool :=
  [' ', '\t', '\n', '\x0b', '\x0c', '\r', '\x1c', '\x1d', '\x1e', '\u0085', '\u2028', '\u2029'].contains c

/-- The word stands by itself in the text: at its beginning or after a gap, and at its end or before a gap. -/
def StandsIn (w text : Str) : Prop :=
  ∃ a b, text = a ++ w ++ b ∧ (∀ c, a.getLast? = some c → gap c = true) ∧ (∀ c, b.head? = some c → gap c = true)

/-- A line that needs no wrapping: it is short, has no white space but blanks, and does not end with one. -/
def Plain (width : Int) (l : Str) : Prop :=
  (l.length : Int) ≤ width ∧ (∀ c ∈ l, visible c = true ∨ c = ' ') ∧ l.getLast? ≠ some ' '

end Mabel.TextWrap.Spec
