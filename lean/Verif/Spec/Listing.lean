import Verif.Py.Basic

/-!
# Frames and segments in storage

What a reader of blobs is promised, stated on blobs with named parts instead of texts.
-/

namespace Mabel.Spec
open Mabel.Py

/-- The kinds of blob that hold records. -/
def dataKinds : List Str :=
  ["csv".toList, "json".toList, "jsonl".toList, "lxml".toList, "lzma".toList, "parquet".toList,
    "txt".toList, "xml".toList, "zip".toList, "zstd".toList]

/-- A blob of a frame: `base/frame/name`. -/
structure Framed where
  base : Str
  frame : Str
  name : Str

/-- Its name in storage. -/
def Framed.path (b : Framed) : Str := b.base ++ '/' :: b.frame ++ '/' :: b.name

/-- The shape of the names: the frame is a folder called `as_at_…` and nothing else in the name looks
like one; the folder is not itself inside something that looks like a completion marker. -/
structure Framed.OK (b : Framed) : Prop where
  frame_as_at : "as_at_".toList <+: b.frame
  frame_once : contains "as_at_".toList b.frame.tail = false
  frame_flat : '/' ∉ b.frame
  base_plain : contains "as_at_".toList b.base = false
  base_marker : contains "/frame.complete".toList b.base = false
  name_flat : '/' ∉ b.name
  name_plain : contains "as_at_".toList b.name = false

/-- The blob is a completion marker. -/
def Framed.Marker (b : Framed) : Prop := "frame.complete".toList <+: b.name

instance (b : Framed) : Decidable b.Marker := by unfold Framed.Marker; infer_instance

/-- A frame is complete when it holds a completion marker, ignored when it holds an ignore marker. -/
def Complete (bs : List Framed) (f : Str) : Prop := ∃ b ∈ bs, b.frame = f ∧ "frame.complete".toList <+: b.name
def Ignored (bs : List Framed) (f : Str) : Prop := ∃ b ∈ bs, b.frame = f ∧ "frame.ignore".toList <+: b.name

/-- `f` is the newest frame that is complete and not ignored. -/
structure Newest (bs : List Framed) (f : Str) : Prop where
  complete : Complete bs f
  notIgnored : ¬ Ignored bs f
  newest : ∀ g, Complete bs g → ¬ Ignored bs g → strLe g f = true

/-- No frame's name is the beginning of another's (so for names of equal length). -/
def Unambiguous (bs : List Framed) : Prop :=
  ∀ b ∈ bs, ∀ b' ∈ bs, b.frame <+: b'.frame → b.frame = b'.frame

/-- A blob of a partitioning: `pre/by/segment/rest`. -/
structure Seg where
  pre : Str
  by_ : Str
  segment : Str
  rest : Str

def Seg.path (b : Seg) : Str := b.pre ++ '/' :: b.by_ ++ '/' :: b.segment ++ '/' :: b.rest

/-- The shape of the names: the partitioning is a folder called `by_…` and nothing else in the name
looks like one. -/
structure Seg.OK (b : Seg) : Prop where
  by_by : "by_".toList <+: b.by_
  by_once : contains "by_".toList b.by_.tail = false
  by_flat : '/' ∉ b.by_
  segment_flat : '/' ∉ b.segment
  pre_plain : contains "by_".toList b.pre = false
  segment_plain : contains "by_".toList b.segment = false
  rest_plain : contains "by_".toList b.rest = false

end Mabel.Spec
