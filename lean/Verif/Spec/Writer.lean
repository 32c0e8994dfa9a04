import Verif.Model.Writer

/-! Vocabulary for the writer properties: what a caller knows and what storage holds. -/

namespace Mabel.Writer.Spec
open Mabel.Py
variable {ρ : Type}

/-- The records whose append call returned normally, in call order. -/
def accepted (log : List (Op ρ × Except Err Unit)) : List ρ :=
  log.filterMap fun
    | (.append r, .ok _) => some r
    | _ => none

/-- The valid records that were offered, whether or not the call raised. -/
def offered (valid : ρ → Bool) (ops : List (Op ρ)) : List ρ :=
  ops.filterMap fun
    | .append r => if valid r then some r else none
    | _ => none

/-- The data blobs in storage, in the order they were stored. -/
def dataBlobs (store : List Stored) : List Bytes :=
  store.filterMap fun
    | .data b => some b
    | .complete => none

/-- The uncompressed text of a group of records: each serialisation followed by a newline. -/
def text (c : Codec ρ) (group : List ρ) : Bytes :=
  group.flatMap fun r => c.serialise r ++ [newline]

/-- The blob that holds exactly `group`. -/
def encode (c : Codec ρ) : Format → List ρ → Bytes
  | .parquet, group => c.parquet group
  | .zstd, group => c.compress (text c group)
  | .text, group => text c group

/-- The size the blob limit is compared with. -/
def size (c : Codec ρ) : Format → List ρ → Nat
  | .parquet, group => c.nbytes group
  | _, group => (text c group).length

/-- `blobs` hold exactly `records`: they encode consecutive, non-empty groups of them. -/
def Holds (c : Codec ρ) (f : Format) (blobs : List Bytes) (records : List ρ) : Prop :=
  ∃ groups : List (List ρ),
    blobs = groups.map (encode c f) ∧ groups.flatten = records ∧ ∀ g ∈ groups, g ≠ []

end Mabel.Writer.Spec
