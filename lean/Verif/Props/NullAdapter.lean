import Verif.Model.NullAdapter
import Verif.Lemmas.Layouts
import Verif.Lemmas.Torn
import Verif.Props.WriterInit

/-!
# Records that are given to a reader: C96
-/

namespace Mabel.NullAdapter
open Mabel.Py Mabel.Paths Mabel.Naming Mabel.Spec Mabel.Listing Mabel.EndToEnd Mabel.Dates Mabel.History
open Mabel.Blobs (Lib Faithful readBlob delivered BlobName Item)

variable {ρ : Type}

theorem joinLines_text (codec : Writer.Codec ρ) (init : List ρ) (last : ρ) :
    joinLines ((init ++ [last]).map codec.serialise) = Writer.Spec.text codec init ++ codec.serialise last := by
  unfold Writer.Spec.text
  induction init with
  | nil => rfl
  | cons r init ih =>
    obtain ⟨x, xs, hx⟩ : ∃ x xs, (init ++ [last]).map codec.serialise = x :: xs := by
      cases init <;> exact ⟨_, _, rfl⟩
    rw [List.cons_append, List.map_cons, hx, joinLines, ← hx, ih, List.flatMap_cons]
    · simp [Writer.newline]
    · rintro h; cases h

theorem splitLines_null (codec : Writer.Codec ρ) (data : List ρ) (h10 : ∀ r ∈ data, 10 ∉ codec.serialise r)
    (h13 : ∀ r ∈ data, 13 ∉ codec.serialise r) (hne : ∀ r ∈ data, codec.serialise r ≠ []) :
    Blobs.splitLines (joinLines (data.map codec.serialise)) = data.map codec.serialise := by
  rcases List.eq_nil_or_concat data with rfl | ⟨init, last, rfl⟩
  · rfl
  · rw [List.concat_eq_append] at h10 h13 hne ⊢
    rw [joinLines_text, Blobs.splitLines_torn codec init (fun r hr => h10 r (by simp [hr])) (fun r hr => h13 r (by simp [hr]))
      (h10 last (by simp)) (h13 last (by simp)), if_neg (hne last (by simp)), List.map_append]
    rfl

/-- The name of the blob of a day. -/
def nameAt (ls : List (List Piece)) (t : DateTime) : Str := join ['/'] (folderOf ls t) ++ "/null.jsonl".toList

theorem name_blob {w : Job} {ls : List (List Piece)} (hw : Daily w ls) {t : DateTime} (ht : Day t) :
    BlobName "jsonl".toList (nameAt ls t) := by
  obtain ⟨c, hc⟩ := List.exists_mem_of_ne_nil _ (StreamStorage.base_ne hw ht)
  have hcomp := StreamStorage.base_comp hw ht
  refine ⟨join ['/'] (folderOf ls t), "null".toList, rfl, by decide, by decide, by decide, c, ?_, (hcomp c hc).1, (hcomp c hc).2.1⟩
  rw [split_join (StreamStorage.base_ne hw ht) (fun c hc => (hcomp c hc).2.2)]
  exact hc

theorem read_null {codec : Writer.Codec ρ} {lib : Lib ρ} {data : List ρ} (hl : Faithful codec lib data)
    (hne : ∀ r ∈ data, codec.serialise r ≠ []) {name : Str} (hn : BlobName "jsonl".toList name) :
    readBlob lib {} name (blobBytes codec.serialise data name) = (data.filter lib.truthy).map .row := by
  have he := Blobs.extensionOf_blob (ρ := ρ) "jsonl".toList name hn {} rfl
  rw [if_neg (by decide), if_neg (by decide), if_neg (by decide)] at he
  obtain ⟨f1, f2⟩ := Blobs.filterMap_rows lib .json data (fun r => Item.raw (codec.serialise r)) (by
    intro r hr
    show (lib.json _).map Item.row = _
    rw [hl.json r hr]
    rfl)
  have hd : (Blobs.decompress lib 1 .lines (joinLines (data.map codec.serialise))).items
      = data.map (fun r => Item.raw (codec.serialise r)) := by
    show (Blobs.splitLines _).map Item.raw = _
    rw [splitLines_null codec data hl.no_lf hl.no_cr hne, List.map_map]
    rfl
  unfold blobBytes
  rw [Blobs.C24_no_failure lib {} name _ .lines .json .data _ he (by decide) (by rw [hd]; exact f1), hd, f2]

theorem day_list {w : Job} {ls : List (List Piece)} (hw : Daily w ls) {t : DateTime} (ht : Day t) :
    DayListAt w ls blobsAt t [nameAt ls t] := by
  have hstr : (⟨[], folderOf ls t⟩ : Posix).str = join ['/'] (folderOf ls t) := by
    unfold Posix.str
    rw [if_neg (fun h => StreamStorage.base_ne hw ht h.2)]
    rfl
  have hb := hw.plain t ht
  rw [StreamStorage.base_at] at hb
  have h1 : contains "/by_".toList (nameAt ls t) = false :=
    contains_sep (m := "by_".toList) (by decide) hb.by_ (by decide) (by decide)
  have h2 : contains "BACKOUT".toList (nameAt ls t) = false := by
    rw [← Bool.not_eq_true, nameAt, show "/null.jsonl".toList = '/' :: "null.jsonl".toList from rfl,
      contains_slash (by decide) (by decide), hb.backout]
    decide
  have h3 : contains "as_at_".toList (nameAt ls t) = false := by
    rw [← Bool.not_eq_true, nameAt, show "/null.jsonl".toList = '/' :: "null.jsonl".toList from rfl,
      contains_slash (by decide) (by decide), hb.as_at]
    decide
  refine ⟨⟨[nameAt ls t], ?_, List.Perm.refl _⟩, List.pairwise_singleton _ _, ?_, ?_⟩
  · have : blobsAt ⟨[], folderOf ls t⟩ = [nameAt ls t] := by unfold blobsAt; rw [hstr]; rfl
    rw [this]
    unfold cycleBlobs applyFilter
    have hf : [nameAt ls t].filter (fun b => !contains "BACKOUT".toList b) = [nameAt ls t] := by
      rw [List.filter_cons_of_pos (by rw [h2]; rfl)]; rfl
    simp only [hf, partitionings_nil (fun b hb => by rw [List.mem_singleton.1 hb]; exact h1), sorted, List.getLast?_nil]
    rw [segmentBlobs_plain _ (fun b hb => by rw [List.mem_singleton.1 hb]; simp [nameAt]),
      frameBlobs_unframed (fun b hb => by rw [List.mem_singleton.1 hb]; exact h3)]
  · intro x hx
    rw [List.mem_singleton.1 hx]
    exact ⟨"null.jsonl".toList, rfl⟩
  · intro x hx
    rw [List.mem_singleton.1 hx]
    have : nameAt ls t = (join ['/'] (folderOf ls t) ++ "/null".toList) ++ extension "jsonl".toList := by
      unfold nameAt
      rw [List.append_assoc]
      rfl
    rw [this]
    exact WriterInit.C83_readable _ _

/-- **C96.** A reader of a range of days that is given records delivers them once for each day of the range, in the order
they were given: all that are not empty, and nothing else. -/
theorem C96_once_a_day {w : Job} {ls : List (List Piece)} (hw : Daily w ls) {first last : DateTime} (hf : Day first)
    (hl : Day last) (hle : first.seconds ≤ last.seconds) {days : List DateTime} (hdays : DaysOf first last days)
    {codec : Writer.Codec ρ} {lib : Lib ρ} {data : List ρ} (hlib : Faithful codec lib data)
    (hne : ∀ r ∈ data, codec.serialise r ≠ []) (now : DateTime) (rnd : Str) (prefixes : List Str)
    (hallow : Reader.allowed prefixes w.dataset = true) (hash : Str → Nat) :
    ∃ blobs, Reader.openReader (rangeReader w first last prefixes) now rnd blobsAt = .ok (0, blobs) ∧
      delivered hash lib {} (blobBytes codec.serialise data) blobs =
        (days.flatMap fun _ => data.filter lib.truthy).map .row := by
  have hday : ∀ t ∈ days, Day t := fun t ht => ((hdays.mem t).1 ht).1
  obtain ⟨hopen, -, hdel⟩ := range_open_at (ρ := ρ) hw hf hl hle hdays blobsAt (fun t => [nameAt ls t])
    (fun t ht => day_list hw (hday t ht)) now rnd prefixes hallow
  have hmem : first ∈ days := (hdays.mem first).2 ⟨hf, Nat.le_refl _, hle⟩
  have hnil : days.flatMap (fun t => [nameAt ls t]) ≠ [] := by
    intro h
    exact absurd ((List.flatMap_eq_nil_iff.1 h) first hmem) (by simp)
  refine ⟨_, by rw [hopen, if_neg hnil], ?_⟩
  rw [hdel, List.map_flatMap]
  apply List.flatMap_congr
  intro t ht
  rw [List.flatMap_cons, List.flatMap_nil, List.append_nil, read_null hlib hne (name_blob hw (hday t ht))]

/-- **C96 (partial).** A reader of one day that is given records, as any is that is given no dates, delivers each of them
once.  For more than one day it does not (`C96_range_fails`). -/
theorem C96_one_day_partial {w : Job} {ls : List (List Piece)} (hw : Daily w ls) {t : DateTime} (ht : Day t)
    {codec : Writer.Codec ρ} {lib : Lib ρ} {data : List ρ} (hlib : Faithful codec lib data)
    (hne : ∀ r ∈ data, codec.serialise r ≠ []) (now : DateTime) (rnd : Str) (prefixes : List Str)
    (hallow : Reader.allowed prefixes w.dataset = true) (hash : Str → Nat) :
    ∃ blobs, Reader.openReader (rangeReader w t t prefixes) now rnd blobsAt = .ok (0, blobs) ∧
      delivered hash lib {} (blobBytes codec.serialise data) blobs = (data.filter lib.truthy).map .row := by
  have hdays : DaysOf t t [t] := by
    refine ⟨fun u => ?_, by simp⟩
    rw [List.mem_singleton]
    constructor
    · rintro rfl; exact ⟨ht, Nat.le_refl _, Nat.le_refl _⟩
    · rintro ⟨hu, h1, h2⟩
      exact hu.eq_of_seconds ht (by omega)
  obtain ⟨blobs, h1, h2⟩ := C96_once_a_day hw ht ht (Nat.le_refl _) hdays hlib hne now rnd prefixes hallow hash
  exact ⟨blobs, h1, by rw [h2]; simp⟩

theorem demo_dumps_ne (r : Fin 10) : Blobs.demoCodec.serialise r ≠ [] := by revert r; decide

example (now : DateTime) (rnd : Str) : ∃ blobs,
    Reader.openReader (rangeReader zJob feb29 feb29 []) now rnd blobsAt = .ok (0, blobs) ∧
      delivered (fun _ => 0) Blobs.demoLib' {} (blobBytes Blobs.demoCodec.serialise [3, 1, 3]) blobs = [.row 3, .row 1, .row 3] :=
  C96_one_day_partial daily feb29_day (Blobs.demo_faithful _) (fun r _ => demo_dumps_ne r) now rnd [] rfl (fun _ => 0)

/-- **C96.** Of a reader of three days that is given two records, six are delivered. -/
theorem C96_range_fails (now : DateTime) (rnd : Str) : ∃ blobs,
    Reader.openReader (rangeReader zJob feb28 mar1 []) now rnd blobsAt = .ok (0, blobs) ∧
      delivered (fun _ => 0) Blobs.demoLib' {} (blobBytes Blobs.demoCodec.serialise [3, 1]) blobs =
        [.row 3, .row 1, .row 3, .row 1, .row 3, .row 1] :=
  C96_once_a_day daily feb28_day mar1_day (by decide +kernel) three_days (Blobs.demo_faithful _)
    (fun r _ => demo_dumps_ne r) now rnd [] rfl (fun _ => 0)

end Mabel.NullAdapter
