import Verif.Props.Blobs

/-!
# Reading a blob that was stored in part
-/

namespace Mabel.Blobs
open Mabel.Py
variable {ρ : Type}

/-- What the libraries make of the beginning of something written: a line that is cut short is not the JSON of
a record; what is decompressed from the beginning of a file, if anything, is the beginning of what was
compressed; the beginning of a Parquet file is refused (its directory is at the end). -/
structure Torn (codec : Writer.Codec ρ) (lib : Lib ρ) (records : List ρ) : Prop where
  json : ∀ r ∈ records, ∀ c, c <+: codec.serialise r → c ≠ codec.serialise r → c ≠ [] → ∃ e, lib.json c = .error e
  zstd : ∀ b c, c <+: codec.compress b → (∃ e, lib.unzstd c = .error e) ∨ ∃ t, lib.unzstd c = .ok t ∧ t <+: b
  parquet : ∀ g, g ⊆ records → ∀ c, c <+: codec.parquet g → c ≠ codec.parquet g → ∃ e, lib.parquet c = .error e

theorem Torn.mono {codec : Writer.Codec ρ} {lib : Lib ρ} {l m : List ρ} (h : Torn codec lib l) (hs : m ⊆ l) :
    Torn codec lib m :=
  ⟨fun r hr => h.json r (hs hr), h.zstd, fun g hg => h.parquet g (fun _ hx => hs (hg hx))⟩

theorem prefix_append_cases {α : Type} {a b c : List α} (h : c <+: a ++ b) :
    c <+: a ∨ ∃ c', c = a ++ c' ∧ c' <+: b := by
  rcases List.prefix_or_prefix_of_prefix h (List.prefix_append a b) with h1 | ⟨c', h1⟩
  · exact Or.inl h1
  · subst h1
    exact Or.inr ⟨c', rfl, (List.prefix_append_right_inj a).1 h⟩

/-- The beginning of a text of lines: some lines and the beginning of another. -/
theorem prefix_text (codec : Writer.Codec ρ) (g : List ρ) {c : Bytes} (h : c <+: Writer.Spec.text codec g) :
    ∃ g1 p, g1 <+: g ∧ c = Writer.Spec.text codec g1 ++ p ∧
      (p = [] ∨ ∃ r, g1 ++ [r] <+: g ∧ p <+: codec.serialise r) := by
  induction g generalizing c with
  | nil =>
    have : c = [] := List.prefix_nil.1 h
    exact ⟨[], [], List.prefix_rfl, by rw [this]; rfl, Or.inl rfl⟩
  | cons r g ih =>
    have h' : c <+: (codec.serialise r ++ [Writer.newline]) ++ Writer.Spec.text codec g := h
    rcases prefix_append_cases h' with h1 | ⟨c', rfl, h1⟩
    · rcases List.prefix_concat_iff.1 h1 with e | h2
      · refine ⟨[r], [], ?_, ?_, Or.inl rfl⟩
        · exact ⟨g, rfl⟩
        · rw [e]; simp [Writer.Spec.text]
      · exact ⟨[], c, List.nil_prefix, rfl, Or.inr ⟨r, ⟨g, rfl⟩, h2⟩⟩
    · obtain ⟨g1, p, k1, k2, k3⟩ := ih h1
      refine ⟨r :: g1, p, List.cons_prefix_cons.2 ⟨rfl, k1⟩, ?_, ?_⟩
      · rw [k2]; simp [Writer.Spec.text]
      · rcases k3 with k3 | ⟨x, k4, k5⟩
        · exact Or.inl k3
        · exact Or.inr ⟨x, List.cons_prefix_cons.2 ⟨rfl, k4⟩, k5⟩

theorem splitLinesGo_end {p : Bytes} (h10 : 10 ∉ p) (h13 : 13 ∉ p) (cur : Bytes) :
    splitLinesGo cur false p = if cur ++ p = [] then [] else [cur ++ p] := by
  induction p generalizing cur with
  | nil => simp [splitLinesGo]
  | cons c p ih =>
    have hc : c ≠ 10 := fun h => h10 (by simp [h])
    have hc' : c ≠ 13 := fun h => h13 (by simp [h])
    rw [splitLinesGo, if_neg hc, if_neg hc', ih (fun h => h10 (by simp [h])) (fun h => h13 (by simp [h]))]
    simp

theorem splitLines_torn (codec : Writer.Codec ρ) (g : List ρ) (h10 : ∀ r ∈ g, 10 ∉ codec.serialise r)
    (h13 : ∀ r ∈ g, 13 ∉ codec.serialise r) {p : Bytes} (p10 : 10 ∉ p) (p13 : 13 ∉ p) :
    splitLines (Writer.Spec.text codec g ++ p) = g.map codec.serialise ++ if p = [] then [] else [p] := by
  unfold splitLines Writer.Spec.text
  induction g with
  | nil =>
    have := splitLinesGo_end p10 p13 []
    simpa using this
  | cons r g ih =>
    have := splitLinesGo_line [] (codec.serialise r) ((g.flatMap fun r => codec.serialise r ++ [Writer.newline]) ++ p)
      (h10 r (by simp)) (h13 r (by simp)) false (Or.inr rfl)
    rw [List.flatMap_cons, List.append_assoc]
    exact this.trans (by rw [ih (fun x hx => h10 x (by simp [hx])) (fun x hx => h13 x (by simp [hx]))]; simp)

theorem splitNewline_end {p : Bytes} (h10 : 10 ∉ p) (cur : Bytes) : splitNewline cur p = [cur ++ p] := by
  induction p generalizing cur with
  | nil => simp [splitNewline]
  | cons c p ih =>
    have hc : c ≠ 10 := fun h => h10 (by simp [h])
    rw [splitNewline, if_neg hc, ih (fun h => h10 (by simp [h]))]
    simp

theorem splitNewline_torn (codec : Writer.Codec ρ) (g : List ρ) (h10 : ∀ r ∈ g, 10 ∉ codec.serialise r)
    {p : Bytes} (p10 : 10 ∉ p) :
    splitNewline [] (Writer.Spec.text codec g ++ p) = g.map codec.serialise ++ [p] := by
  unfold Writer.Spec.text
  induction g with
  | nil =>
    have := splitNewline_end p10 []
    simpa using this
  | cons r g ih =>
    have := splitNewline_line [] (codec.serialise r) ((g.flatMap fun r => codec.serialise r ++ [Writer.newline]) ++ p)
      (h10 r (by simp))
    rw [List.flatMap_cons, List.append_assoc]
    exact this.trans (by rw [ih (fun x hx => h10 x (by simp [hx]))]; simp)

/-- Reading the beginning of a blob gives the beginning of its records. -/
theorem torn_read (codec : Writer.Codec ρ) (lib : Lib ρ) (fmt name : Str)
    (hfmt : fmt ≠ "text".toList) (hn : BlobName fmt name) (g : List ρ) (hl : Faithful codec lib g)
    (ht : Torn codec lib g) {c : Bytes} (hc : c <+: Writer.Spec.encode codec (formatOf fmt) g) :
    ∃ rows, rows <+: g ∧ readBlob lib {} name (.ok c) = (rows.filter lib.truthy).map .row := by
  have he := extensionOf_blob (ρ := ρ) fmt name hn {} rfl
  rw [if_neg hfmt] at he
  have hjson : ∀ r ∈ g, parse lib .json (.raw (codec.serialise r)) = .ok (.row r) := by
    intro r hr
    show (lib.json _).map Item.row = _
    rw [hl.json r hr]
    rfl
  have hlines : ∀ g1, g1 <+: g → ∀ (ext : Str) (d : Decompressor), extensionOf (ρ := ρ) {} name = .ok (some ext) →
      handler ext = some (d, .json, .data) → (decompress lib 1 d c).items = g1.map (fun r => Item.raw (codec.serialise r)) →
      readBlob lib {} name (.ok c) = (g1.filter lib.truthy).map .row := by
    intro g1 h1 ext d hx hh hd
    obtain ⟨f1, f2⟩ := filterMap_rows lib .json g1 (fun r => Item.raw (codec.serialise r))
      (fun r hr => hjson r (h1.subset hr))
    rw [C24_no_failure lib {} name _ d .json .data _ hx hh (by rw [hd]; exact f1), hd, f2]
  by_cases hz : fmt = "zstd".toList
  · rw [if_pos hz] at he
    have hc' : c <+: codec.compress (Writer.Spec.text codec g) := by
      simpa only [formatOf, if_pos hz, Writer.Spec.encode] using hc
    rcases ht.zstd _ c hc' with ⟨e, hx⟩ | ⟨t, hx, hpre⟩
    · refine ⟨[], List.nil_prefix, ?_⟩
      exact hlines [] List.nil_prefix _ .zstd he rfl (by simp only [decompress, hx, fromLib]; rfl)
    · obtain ⟨g1, p, k1, k2, k3⟩ := prefix_text codec g hpre
      refine ⟨g1, k1, hlines g1 k1 _ .zstd he rfl ?_⟩
      have p10 : 10 ∉ p := by
        rcases k3 with rfl | ⟨r, k4, k5⟩
        · simp
        · exact fun hm => hl.no_lf r (k4.subset (by simp)) (k5.subset hm)
      simp only [decompress, hx, fromLib, Gen.of]
      rw [k2, splitNewline_torn codec g1 (fun r hr => hl.no_lf r (k1.subset hr)) p10]
      simp
  · rw [if_neg hz] at he
    by_cases hp : fmt = "parquet".toList
    · by_cases hfull : c = Writer.Spec.encode codec (formatOf fmt) g
      · rw [hfull]
        exact ⟨g, List.prefix_rfl, C25_blob_round_trip codec lib fmt name hfmt hn g hl⟩
      · rw [if_pos hp] at he
        simp only [formatOf, if_neg hz, if_pos hp, Writer.Spec.encode] at hc hfull
        obtain ⟨e, hx⟩ := ht.parquet g (fun _ h => h) c hc hfull
        refine ⟨[], List.nil_prefix, ?_⟩
        unfold readBlob
        simp only [he]
        have : handler ".parquet".toList = some (.parquet, .passThru, .data) := rfl
        simp only [this, stages, decompress, hx]
        rfl
    · rw [if_neg hp] at he
      simp only [formatOf, if_neg hz, if_neg hp, Writer.Spec.encode] at hc
      obtain ⟨g1, p, k1, k2, k3⟩ := prefix_text codec g hc
      have hsp : ∀ (p10 : 10 ∉ p) (p13 : 13 ∉ p), (decompress lib 1 .lines c).items
          = g1.map (fun r => Item.raw (codec.serialise r)) ++ if p = [] then [] else [Item.raw p] := by
        intro p10 p13
        simp only [decompress, Gen.of]
        rw [k2, splitLines_torn codec g1 (fun r hr => hl.no_lf r (k1.subset hr)) (fun r hr => hl.no_cr r (k1.subset hr))
          p10 p13]
        split <;> simp
      rcases k3 with rfl | ⟨r, k4, k5⟩
      · refine ⟨g1, k1, hlines g1 k1 _ .lines he rfl ?_⟩
        rw [hsp (by simp) (by simp)]
        simp
      · have hrg : r ∈ g := k4.subset (by simp)
        have hd := hsp (fun hm => hl.no_lf r hrg (k5.subset hm)) (fun hm => hl.no_cr r hrg (k5.subset hm))
        by_cases hp0 : p = []
        · refine ⟨g1, k1, hlines g1 k1 _ .lines he rfl ?_⟩
          rw [hd]
          simp [hp0]
        · rw [if_neg hp0] at hd
          by_cases hpr : p = codec.serialise r
          · refine ⟨g1 ++ [r], k4, hlines _ k4 _ .lines he rfl ?_⟩
            rw [hd, hpr]
            simp
          · obtain ⟨e, hx⟩ := ht.json r hrg p k5 hpr hp0
            refine ⟨g1, k1, ?_⟩
            obtain ⟨f1, f2⟩ := filterMap_rows lib .json g1 (fun r => Item.raw (codec.serialise r))
              (fun r hr => hjson r (k1.subset hr))
            rw [C24_failure_part_way lib {} name _ .lines .json .data c he rfl
              (g1.map (fun r => Item.raw (codec.serialise r))) [] (.raw p) hd f1
              ⟨e, by unfold outcome; show (((lib.json p).map Item.row) >>= _) = _; rw [hx]; rfl⟩, f2]

end Mabel.Blobs
