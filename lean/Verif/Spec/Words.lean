import Verif.Py.Basic

/-! # What the words of a text are, independently of the model -/

namespace Mabel.Text.Spec
open Mabel.Py

/-- White space. -/
def Blank (c : Char) : Prop := c = ' ' ∨ c = '\t' ∨ c = '\n' ∨ c = '\r' ∨ c = '\x0b' ∨ c = '\x0c'

instance (c : Char) : Decidable (Blank c) := by unfold Blank; infer_instance

/-- `Words s ws`: the text `s` is the words `ws` with white space between them, and perhaps around them. -/
inductive Words : Str → List Str → Prop
  | nil : Words [] []
  | blank {c : Char} {s : Str} {ws : List Str} (hc : Blank c) (h : Words s ws) : Words (c :: s) ws
  | word {w s : Str} {ws : List Str} (hne : w ≠ []) (hw : ∀ c ∈ w, ¬ Blank c) (hend : s = [] ∨ ∃ c r, s = c :: r ∧ Blank c)
      (h : Words s ws) : Words (w ++ s) (w :: ws)

/-- A letter or a digit of ASCII, or white space. -/
def Plain (c : Char) : Prop := c.isAlphanum = true ∨ Blank c

instance (c : Char) : Decidable (Plain c) := by unfold Plain; infer_instance

end Mabel.Text.Spec
