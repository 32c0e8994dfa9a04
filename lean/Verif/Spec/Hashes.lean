import Verif.Py.Num

/-! # Specification of hashes that tell records apart (C31, C49) -/

namespace Mabel.Hashes
open Mabel.Py

/-- What is hashed of a value: its place and its text. -/
def entries (texts : List Str) : List Str := texts.mapIdx (fun i t => natStr i ++ ',' :: t)

/-- No two different collections of these texts have the same XOR of their hashes: the XOR of some of them, each once, is not 0. -/
def Independent (hash : Str → BitVec 64) (among : List Str) : Prop :=
  ∀ T : List Str, (∀ t ∈ T, t ∈ among) → T.Nodup → T ≠ [] → T.foldr (fun t x => hash t ^^^ x) 0 ≠ 0

end Mabel.Hashes
