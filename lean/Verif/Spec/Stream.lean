import Verif.Model.Stream
import Verif.Spec.Writer

/-! Vocabulary for the stream writer properties. -/

namespace Mabel.Stream.Spec
open Mabel.Py Mabel.Writer Mabel.Stream
variable {ρ : Type}

/-- The records routed to a target by these calls, in call order: a record once for each time the
target is among those computed for it. -/
def routed (calls : List (Op ρ)) (target : Str) : List ρ :=
  calls.flatMap fun
    | .append r targets => (targets.filter (· == target)).map (fun _ => r)
    | _ => []

/-- The blobs stored at a target, in the order they were stored. -/
def blobsAt (store : List (Str × Stored)) (target : Str) : List Bytes :=
  Writer.Spec.dataBlobs ((store.filter (fun x => x.1 == target)).map (·.2))

/-- The calls that threads have made, in the order they obtained the lock: the trace `hist` explains
what every thread has left to do. -/
def Explains (before after : Nat → List (Op ρ)) (hist : List (Nat × Op ρ)) : Prop :=
  ∀ t, before t = (hist.filter (fun x => x.1 == t)).map (·.2) ++ after t

end Mabel.Stream.Spec
