import Verif.Model.Blobs

/-! # Texts of lines -/

namespace Mabel.Blobs.Spec
open Mabel.Py Mabel.Blobs

/-- A line: bytes without line feeds and carriage returns. -/
def Line (l : Bytes) : Prop := 10 ∉ l ∧ 13 ∉ l

instance (l : Bytes) : Decidable (Line l) := inferInstanceAs (Decidable (_ ∧ _))

/-- These lines, each ended by a line feed, a carriage return or both; the last may have no end (then it is not
empty).  A carriage return alone is not followed by a line feed. -/
inductive Lines : List Bytes → Bytes → Prop
  | nil : Lines [] []
  | last {l} : Line l → l ≠ [] → Lines [l] l
  | lf {l ls b} : Line l → Lines ls b → Lines (l :: ls) (l ++ 10 :: b)
  | crlf {l ls b} : Line l → Lines ls b → Lines (l :: ls) (l ++ 13 :: 10 :: b)
  | cr {l ls b} : Line l → Lines ls b → b.head? ≠ some 10 → Lines (l :: ls) (l ++ 13 :: b)

/-- These lines, each ended by a line feed. -/
def ended (ls : List Bytes) : Bytes := ls.flatMap (· ++ [10])

/-- The name of a blob: a bucket, perhaps folders, and a file whose name ends in a dot and this extension. -/
def Named (name ext : Str) : Prop :=
  ∃ (bucket : Str) (folders : List Str) (stem : Str),
    name = (bucket :: folders).flatMap (· ++ ['/']) ++ (stem ++ '.' :: ext) ∧
    '/' ∉ bucket ∧ bucket ≠ [] ∧ bucket ≠ ['.'] ∧
    stem ≠ [] ∧ '/' ∉ stem ∧ ext ≠ [] ∧ '/' ∉ ext ∧ '.' ∉ ext

/-- The extension of a name: what comes after its last dot (the whole name, if it has none), with a dot before it. -/
def lastPart (name : Str) : Str := '.' :: (name.reverse.takeWhile (· != '.')).reverse

/-- What the file `f` inside a ZIP gives when it is read by itself. -/
def member {ρ : Type} (lib : Lib ρ) (o : Options ρ) (f : Str × Bytes) : Gen (Item ρ) :=
  match handler (lastPart f.1) with
  | some (d, p, _) => stages lib o d p f.2
  | none => .of []

/-- The library that reads files of this name cannot read these bytes. -/
def Damaged {ρ : Type} (lib : Lib ρ) (f : Str × Bytes) : Prop :=
  (lastPart f.1 = ".zstd".toList ∧ ∃ e, lib.unzstd f.2 = .error e) ∨
  (lastPart f.1 = ".lzma".toList ∧ ∃ e, lib.unlzma f.2 = .error e) ∨
  (lastPart f.1 = ".parquet".toList ∧ ∃ e, lib.parquet f.2 = .error e) ∨
  (lastPart f.1 = ".csv".toList ∧ ∃ e, lib.csv f.2 = .error e)

end Mabel.Blobs.Spec
