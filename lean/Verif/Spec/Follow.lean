import Verif.Model.Cursor

/-! Vocabulary for reading a dataset, in sittings, while it grows. -/

namespace Mabel.Cursor
open Mabel.Py
variable {ρ : Type}

/-- A caller reads in several sittings.  In each a new reader lists the blobs there are by then and goes on from the
cursor saved by the one before; the caller takes some records and saves the cursor.  Gives what each sitting
delivered and the last saved cursor. -/
def follow (hash : Str → Nat) (content : Str → List ρ) :
    List (List Str × Nat) → Option Doc → Except Err (List (List ρ) × Option Doc)
  | [], doc => .ok ([], doc)
  | (blobs, k) :: more, doc =>
    match session hash content blobs doc k with
    | .error e => .error e
    | .ok (l, doc) => (follow hash content more doc).map fun r => (l :: r.1, r.2)

/-- What is handed out if at each time some of the records that are available by then, in order, are taken,
from where the time before left off. -/
def handOut : Nat → List (List ρ × Nat) → List (List ρ)
  | _, [] => []
  | p, (available, k) :: more => (available.drop p).take k :: handOut (min (p + k) available.length) more

/-- The records of blobs in the order of their names. -/
def inOrder (content : Str → List ρ) (blobs : List Str) : List ρ := (sorted strLe blobs).flatMap content

/-- New blobs come after the old ones, and do not go beyond the next multiple of eight. -/
def Grows (a b : List Str) : Prop := sorted strLe a <+: sorted strLe b ∧ b.length ≤ 8 * ((a.length + 7) / 8)

end Mabel.Cursor
