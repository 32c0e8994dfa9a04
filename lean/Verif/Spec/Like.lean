import Verif.Py.Basic

/-! # SQL's LIKE -/

namespace Mabel.Like.Spec
open Mabel.Py

/-- `%` stands for any text, `_` for any one character, everything else for itself. -/
inductive Like : Str → Str → Prop
  | nil : Like [] []
  | self {c p t} : c ≠ '%' → c ≠ '_' → Like p t → Like (c :: p) (c :: t)
  | one {c p t} : Like p t → Like ('_' :: p) (c :: t)
  | many {u p t} : Like p t → Like ('%' :: p) (u ++ t)

end Mabel.Like.Spec
