import Verif.Model.Blobs
import Verif.Props.Cursor
import Verif.Props.Writer
import Verif.Lemmas.Listing

/-!
# Properties of reading blobs: C24, C25, C70, C71
-/

namespace Mabel.Blobs
open Mabel.Py
variable {α β ρ : Type}

/-! ## Specification -/

/-- What becomes of one piece of a blob on its own: a failure, nothing (filtered out) or a record. -/
def outcome (lib : Lib ρ) (o : Options ρ) (p : Parser) (x : Item ρ) : Except Err (Option (Item ρ)) := do
  let y ← parse lib p x
  let z ← o.select y
  let keep ← o.keep lib z
  return if keep then some z else none

/-- The record that one piece of a blob gives, if any. -/
def result (lib : Lib ρ) (o : Options ρ) (p : Parser) (x : Item ρ) : Option (Item ρ) :=
  match outcome lib o p x with
  | .ok r => r
  | .error _ => none

/-- A piece whose processing raises. -/
def Fails (lib : Lib ρ) (o : Options ρ) (p : Parser) (x : Item ρ) : Prop :=
  ∃ e, outcome lib o p x = .error e

/-! ## C24 -/

theorem stages_go (lib : Lib ρ) (o : Options ρ) (p : Parser) (r : Option Err) (l : List (Item ρ)) :
    (∀ x ∈ l, ¬ Fails lib o p x) →
    filterItems (o.keep lib) (mapItems o.select (mapItems (parse lib p) r l).raised
        (mapItems (parse lib p) r l).items).raised
      (mapItems o.select (mapItems (parse lib p) r l).raised (mapItems (parse lib p) r l).items).items
      = ⟨l.filterMap (result lib o p), r⟩ := by
  induction l with
  | nil => intro _; rfl
  | cons x l ih =>
    intro h
    have hx := h x (by simp)
    have ih := ih (fun y hy => h y (by simp [hy]))
    have hr : result lib o p x = match outcome lib o p x with
      | .ok r => r
      | .error _ => none := rfl
    rw [List.filterMap_cons, hr]
    unfold Fails at hx
    unfold outcome at hx ⊢
    cases h1 : parse lib p x with
    | error e => exact absurd ⟨e, by rw [h1]; rfl⟩ hx
    | ok y =>
      cases h2 : o.select y with
      | error e => exact absurd ⟨e, by rw [h1]; show (o.select y >>= _) = _; rw [h2]; rfl⟩ hx
      | ok z =>
        cases h3 : o.keep lib z with
        | error e =>
          refine absurd ⟨e, ?_⟩ hx
          rw [h1]; show (o.select y >>= _) = _; rw [h2]; show (o.keep lib z >>= _) = _; rw [h3]; rfl
        | ok k =>
          have e : (do let y ← (Except.ok y : Except Err (Item ρ))
                       let z ← o.select y
                       let keep ← o.keep lib z
                       return if keep then some z else none : Except Err (Option (Item ρ)))
              = .ok (if k then some z else none) := by
            show (o.select y >>= _) = _; rw [h2]; show (o.keep lib z >>= _) = _; rw [h3]; rfl
          rw [e]
          simp only [mapItems, h1, h2]
          cases k with
          | true => simp only [filterItems, h3, ih]; rfl
          | false => simp only [filterItems, h3, ih]; rfl

theorem stages_fail (lib : Lib ρ) (o : Options ρ) (p : Parser) (r : Option Err) (l : List (Item ρ))
    (bad : Item ρ) (rest : List (Item ρ)) (hb : Fails lib o p bad) :
    (∀ x ∈ l, ¬ Fails lib o p x) →
    (filterItems (o.keep lib) (mapItems o.select (mapItems (parse lib p) r (l ++ bad :: rest)).raised
        (mapItems (parse lib p) r (l ++ bad :: rest)).items).raised
      (mapItems o.select (mapItems (parse lib p) r (l ++ bad :: rest)).raised
        (mapItems (parse lib p) r (l ++ bad :: rest)).items).items).items
      = l.filterMap (result lib o p) := by
  induction l with
  | nil =>
    intro _
    obtain ⟨e, he⟩ := hb
    unfold outcome at he
    simp only [List.nil_append, List.filterMap_nil]
    cases h1 : parse lib p bad with
    | error e => simp only [mapItems, h1]; rfl
    | ok y =>
      cases h2 : o.select y with
      | error e => simp only [mapItems, h1, h2]; rfl
      | ok z =>
        cases h3 : o.keep lib z with
        | error e => simp only [mapItems, h1, h2, filterItems, h3]
        | ok k =>
          rw [h1] at he
          change (o.select y >>= _) = _ at he
          rw [h2] at he
          change (o.keep lib z >>= _) = _ at he
          rw [h3] at he
          cases he
  | cons x l ih =>
    intro h
    have hx := h x (by simp)
    have ih := ih (fun y hy => h y (by simp [hy]))
    have hr : result lib o p x = match outcome lib o p x with
      | .ok r => r
      | .error _ => none := rfl
    rw [List.filterMap_cons, hr]
    unfold Fails at hx
    unfold outcome at hx ⊢
    cases h1 : parse lib p x with
    | error e => exact absurd ⟨e, by rw [h1]; rfl⟩ hx
    | ok y =>
      cases h2 : o.select y with
      | error e => exact absurd ⟨e, by rw [h1]; show (o.select y >>= _) = _; rw [h2]; rfl⟩ hx
      | ok z =>
        cases h3 : o.keep lib z with
        | error e =>
          refine absurd ⟨e, ?_⟩ hx
          rw [h1]; show (o.select y >>= _) = _; rw [h2]; show (o.keep lib z >>= _) = _; rw [h3]; rfl
        | ok k =>
          have e : (do let y ← (Except.ok y : Except Err (Item ρ))
                       let z ← o.select y
                       let keep ← o.keep lib z
                       return if keep then some z else none : Except Err (Option (Item ρ)))
              = .ok (if k then some z else none) := by
            show (o.select y >>= _) = _; rw [h2]; show (o.keep lib z >>= _) = _; rw [h3]; rfl
          rw [e]
          simp only [List.cons_append, mapItems, h1, h2]
          cases k with
          | true => simp only [filterItems, h3, ih]; rfl
          | false => simp only [filterItems, h3, ih]; rfl

/-- **C24 (failure part way).**  If the processing of a piece of a blob fails, what the pieces before it
give is delivered, nothing after it is. -/
theorem C24_failure_part_way (lib : Lib ρ) (o : Options ρ) (name ext : Str) (d : Decompressor) (p : Parser)
    (k : Kind) (bytes : Bytes) (he : extensionOf o name = .ok (some ext)) (hh : handler ext = some (d, p, k))
    (before after : List (Item ρ)) (bad : Item ρ)
    (hd : (decompress lib o.depth d bytes).items = before ++ bad :: after)
    (hb : ∀ x ∈ before, ¬ Fails lib o p x) (hbad : Fails lib o p bad) :
    readBlob lib o name (.ok bytes) = before.filterMap (result lib o p) := by
  unfold readBlob
  simp only [he, hh]
  unfold stages Gen.filter Gen.map
  rw [hd]
  exact stages_fail lib o p _ before bad after hbad hb

/-- **C24 (whole blob).**  If no piece fails, all of them are delivered; if the decompressor itself
failed, all it produced before. -/
theorem C24_no_failure (lib : Lib ρ) (o : Options ρ) (name ext : Str) (d : Decompressor) (p : Parser)
    (k : Kind) (bytes : Bytes) (he : extensionOf o name = .ok (some ext)) (hh : handler ext = some (d, p, k))
    (hb : ∀ x ∈ (decompress lib o.depth d bytes).items, ¬ Fails lib o p x) :
    readBlob lib o name (.ok bytes)
      = (decompress lib o.depth d bytes).items.filterMap (result lib o p) := by
  unfold readBlob
  simp only [he, hh]
  unfold stages Gen.filter Gen.map
  rw [stages_go lib o p _ _ hb]

/-- The names of the blobs to read: different and not empty. -/
structure Names (blobs : List Str) : Prop where
  nodup : blobs.Nodup
  nonempty : [] ∉ blobs

/-- The records a serial reader of these blobs delivers, from the start. -/
def delivered (hash : Str → Nat) (lib : Lib ρ) (o : Options ρ) (storage : Str → Except Err Bytes)
    (blobs : List Str) : List (Item ρ) := (readSerial hash lib o storage blobs none).yields.map (·.1)

theorem delivered_eq (hash : Str → Nat) (lib : Lib ρ) (o : Options ρ) (storage : Str → Except Err Bytes)
    (blobs : List Str) (hn : Names blobs) :
    delivered hash lib o storage blobs
      = (sorted strLe blobs).flatMap (fun b => readBlob lib o b (storage b)) ∧
    ∃ c, (readSerial hash lib o storage blobs none).finish = .ok c := by
  -- without a saved cursor the hash is not used
  have e : readSerial hash lib o storage blobs none
      = readSerial (fun b => blobs.idxOf b) lib o storage blobs none := rfl
  unfold delivered
  rw [e]
  obtain ⟨h1, -, f, h3, -⟩ := Cursor.resumes_run (fun b => blobs.idxOf b)
    (fun b => readBlob lib o b (storage b)) blobs hn.nodup
    hn.nonempty (fun a ha b _ hab => (List.idxOf_inj ha).1 hab) none _ (Or.inl ⟨rfl, rfl⟩)
  exact ⟨h1, f, h3⟩

theorem delivered_one (hash : Str → Nat) (lib : Lib ρ) (o : Options ρ) (storage : Str → Except Err Bytes)
    (b : Str) (hb : b ≠ []) : delivered hash lib o storage [b] = readBlob lib o b (storage b) := by
  have hn : Names [b] := ⟨by simp, by simpa using hb.symm⟩
  rw [(delivered_eq hash lib o storage [b] hn).1]
  simp [sorted, insertBy]

/-- **C24 (the other blobs).**  The reader never raises because of a blob: it delivers, blob after blob
in name order, what a reader of that blob alone delivers.  So if storage changes for some blobs (they
become unreadable, truncated, corrupt), the records of all the others are delivered as before. -/
theorem C24_others_unaffected (hash : Str → Nat) (lib : Lib ρ) (o : Options ρ)
    (storage storage' : Str → Except Err Bytes) (blobs : List Str) (hn : Names blobs)
    (damaged : Str → Bool) (hsame : ∀ b ∈ blobs, damaged b = false → storage' b = storage b) :
    delivered hash lib o storage blobs
      = (sorted strLe blobs).flatMap (fun b => delivered hash lib o storage [b]) ∧
    delivered hash lib o storage' blobs
      = (sorted strLe blobs).flatMap (fun b =>
          if damaged b then delivered hash lib o storage' [b] else delivered hash lib o storage [b]) ∧
    ∃ c, (readSerial hash lib o storage' blobs none).finish = .ok c := by
  have hne : ∀ b ∈ sorted strLe blobs, b ≠ [] := fun b hb h => hn.nonempty (h ▸ mem_sorted.1 hb)
  refine ⟨?_, ?_, (delivered_eq hash lib o storage' blobs hn).2⟩
  · rw [(delivered_eq hash lib o storage blobs hn).1]
    exact List.flatMap_congr (fun b hb => (delivered_one hash lib o storage b (hne b hb)).symm)
  · rw [(delivered_eq hash lib o storage' blobs hn).1]
    refine List.flatMap_congr (fun b hb => ?_)
    cases hd : damaged b with
    | true => simp only [if_true]; exact (delivered_one hash lib o storage' b (hne b hb)).symm
    | false =>
      rw [if_neg (by simp), delivered_one hash lib o storage b (hne b hb),
        hsame b (mem_sorted.1 hb) hd]

/-! ### An example -/

/-- Records are numbers; a line `[n]` is the record `n`, anything else is malformed. -/
def demoLib : Lib Nat where
  unzstd := fun
    | 1 :: b => .ok b
    | _ => .error .valueError
  unlzma := fun _ => .error .valueError
  unzip := fun _ => .error .valueError
  parquet := fun b => .ok (b.map (·.toNat))
  csv := fun _ => .error .valueError
  json := fun
    | [n] => .ok n.toNat
    | _ => .error .valueError
  xml := fun _ => .error .valueError
  truthy := fun n => n ≠ 0

/-- Three blobs; the second has a malformed second line. -/
def demoStorage : Str → Except Err Bytes := fun b =>
  if b = "d/a.jsonl".toList then .ok [1, 10, 2, 10]
  else if b = "d/b.jsonl".toList then .ok [3, 10, 9, 9, 10, 4, 10]
  else .ok [1, 5, 10, 6, 10]

/-- The good blobs are delivered whole, the bad one up to the failure. -/
example : (readSerial (fun b => b.length + (b.getD 2 'x').toNat) demoLib {} demoStorage
      ["d/c.jsonl.zstd".toList, "d/b.jsonl".toList, "d/a.jsonl".toList] none).yields.map (·.1)
    = [.row 1, .row 2, .row 3, .row 5, .row 6] := by
  decide +kernel

example : Names ["d/c.jsonl.zstd".toList, "d/b.jsonl".toList, "d/a.jsonl".toList] := by
  constructor <;> decide

example : extensionOf ({} : Options Nat) "d/b.jsonl".toList = .ok (some ".jsonl".toList) ∧
    handler ".jsonl".toList = some (.lines, .json, .data) ∧
    (decompress demoLib 1 .lines [3, 10, 9, 9, 10, 4, 10]).items = [.raw [3]] ++ .raw [9, 9] :: [.raw [4]] ∧
    outcome demoLib {} .json (.raw [9, 9]) = .error .valueError := by
  decide +kernel

/-! ## C25 -/

/-- The format a format name stands for (blob_writer.py:50-53, 149-177). -/
def formatOf (fmt : Str) : Writer.Format :=
  if fmt = "zstd".toList then .zstd else if fmt = "parquet".toList then .parquet else .text

/-- The libraries for reading undo, for these records, those for writing, and a serialised record has no line
end in it (JSON writes them as escapes). -/
structure Faithful (codec : Writer.Codec ρ) (lib : Lib ρ) (records : List ρ) : Prop where
  json : ∀ r ∈ records, lib.json (codec.serialise r) = .ok r
  no_lf : ∀ r ∈ records, 10 ∉ codec.serialise r
  no_cr : ∀ r ∈ records, 13 ∉ codec.serialise r
  zstd : ∀ b, lib.unzstd (codec.compress b) = .ok b
  parquet : ∀ g, g ⊆ records → lib.parquet (codec.parquet g) = .ok g

theorem Faithful.mono {codec : Writer.Codec ρ} {lib : Lib ρ} {l m : List ρ} (h : Faithful codec lib l) (hs : m ⊆ l) :
    Faithful codec lib m :=
  ⟨fun r hr => h.json r (hs hr), fun r hr => h.no_lf r (hs hr), fun r hr => h.no_cr r (hs hr), h.zstd,
    fun g hg => h.parquet g (fun _ hx => hs (hg hx))⟩

/-- A name the writer gives to a blob in a folder (`Verif.Lemmas.Naming.batchBlob_eq`): the folder names
at least one directory; the identifier is not empty and has neither a dot nor a slash. -/
structure BlobName (fmt name : Str) : Prop where
  parts : ∃ folder i, name = folder ++ '/' :: (i ++ Paths.extension fmt) ∧ i ≠ [] ∧ '/' ∉ i ∧ '.' ∉ i ∧
    ∃ c ∈ split '/' folder, c ≠ [] ∧ c ≠ ['.']

theorem splitLinesGo_line (cur l rest : Bytes) (h10 : 10 ∉ l) (h13 : 13 ∉ l) (cr : Bool) (hl : l ≠ [] ∨ cr = false) :
    splitLinesGo cur cr (l ++ [10] ++ rest) = (cur ++ l) :: splitLinesGo [] false rest := by
  induction l generalizing cur cr with
  | nil =>
    have : cr = false := by simpa using hl
    subst this
    simp [splitLinesGo]
  | cons c l ih =>
    have hc : c ≠ 10 := fun h => h10 (by simp [h])
    have hc' : c ≠ 13 := fun h => h13 (by simp [h])
    rw [List.cons_append, List.cons_append, splitLinesGo, if_neg hc, if_neg hc',
      ih _ (fun h => h10 (by simp [h])) (fun h => h13 (by simp [h])) false (Or.inr rfl)]
    simp

theorem splitLines_text (codec : Writer.Codec ρ) (g : List ρ) (h10 : ∀ r ∈ g, 10 ∉ codec.serialise r)
    (h13 : ∀ r ∈ g, 13 ∉ codec.serialise r) :
    splitLines (Writer.Spec.text codec g) = g.map codec.serialise := by
  unfold splitLines Writer.Spec.text
  induction g with
  | nil => rfl
  | cons r g ih =>
    have := splitLinesGo_line [] (codec.serialise r) (g.flatMap fun r => codec.serialise r ++ [Writer.newline])
      (h10 r (by simp)) (h13 r (by simp)) false (Or.inr rfl)
    rw [List.flatMap_cons]
    exact this.trans (by rw [ih (fun x hx => h10 x (by simp [hx])) (fun x hx => h13 x (by simp [hx]))]; simp)

theorem splitNewline_line (cur l rest : Bytes) (h10 : 10 ∉ l) :
    splitNewline cur (l ++ [10] ++ rest) = (cur ++ l) :: splitNewline [] rest := by
  induction l generalizing cur with
  | nil => simp [splitNewline]
  | cons c l ih =>
    have hc : c ≠ 10 := fun h => h10 (by simp [h])
    rw [List.cons_append, List.cons_append, splitNewline, if_neg hc, ih _ (fun h => h10 (by simp [h]))]
    simp

theorem splitNewline_text (codec : Writer.Codec ρ) (g : List ρ) (h10 : ∀ r ∈ g, 10 ∉ codec.serialise r) :
    splitNewline [] (Writer.Spec.text codec g) = g.map codec.serialise ++ [[]] := by
  unfold Writer.Spec.text
  induction g with
  | nil => rfl
  | cons r g ih =>
    have := splitNewline_line [] (codec.serialise r) (g.flatMap fun r => codec.serialise r ++ [Writer.newline])
      (h10 r (by simp))
    rw [List.flatMap_cons]
    exact this.trans (by rw [ih (fun x hx => h10 x (by simp [hx]))]; simp)

theorem extension_split (fmt : Str) : ∃ mid e, Paths.extension fmt = mid ++ '.' :: e ∧ e ≠ [] ∧ '.' ∉ e ∧
    '/' ∉ Paths.extension fmt ∧
    '.' :: e = (if fmt = "text".toList then ".txt".toList else if fmt = "zstd".toList then ".zstd".toList
      else if fmt = "parquet".toList then ".parquet".toList else ".jsonl".toList) := by
  unfold Paths.extension
  by_cases h1 : fmt = "text".toList
  · rw [if_pos h1, if_pos h1]
    exact ⟨[], "txt".toList, rfl, by decide, by decide, by decide, rfl⟩
  · rw [if_neg h1, if_neg h1]
    by_cases h2 : fmt = "zstd".toList
    · rw [if_pos (Or.inl h2), if_pos h2, h2]
      exact ⟨".jsonl".toList, "zstd".toList, rfl, by decide, by decide, by decide, rfl⟩
    · by_cases h3 : fmt = "parquet".toList
      · rw [if_pos (Or.inr h3), if_neg h2, if_pos h3, h3]
        exact ⟨".jsonl".toList, "parquet".toList, rfl, by decide, by decide, by decide, rfl⟩
      · rw [if_neg (not_or.2 ⟨h2, h3⟩), if_neg h2, if_neg h3]
        exact ⟨[], "jsonl".toList, rfl, by decide, by decide, by decide, rfl⟩

theorem split_last (s n : Str) (hn : '/' ∉ n) : split '/' (s ++ '/' :: n) = split '/' s ++ [n] := by
  rw [split_slash, split_of_not_mem hn]

/-- The extension of a file in a folder. -/
theorem extensionOf_file (folder stem e : Str) (hs : stem ≠ []) (hsl : '/' ∉ stem) (he : e ≠ []) (hd : '.' ∉ e)
    (hsl' : '/' ∉ e) (c : Str) (hc : c ∈ split '/' folder) (hc1 : c ≠ []) (hc2 : c ≠ ['.'])
    (o : Options ρ) (ho : o.overrideFormat = []) :
    extensionOf o (folder ++ '/' :: (stem ++ '.' :: e)) = .ok (some ('.' :: e)) := by
  unfold extensionOf
  rw [if_neg (by rw [ho]; decide)]
  set n := stem ++ '.' :: e with hn
  have hne : n ≠ [] := by rw [hn]; simp
  have hnd : n ≠ ['.'] := by
    rw [hn]
    cases stem with
    | nil => exact absurd rfl hs
    | cons a i => simp
  have hflat : '/' ∉ n := by rw [hn]; simp [hsl, hsl']
  have hsuf : Paths.suffixOf n = '.' :: e := (Paths.suffixOf_append hs he hd).1
  have hcomps : ∃ l, l ≠ [] ∧ (Paths.Posix.parse (folder ++ '/' :: n)).comps = l ++ [n] := by
    refine ⟨(split '/' folder).filter (fun c => c != [] && c != ['.']), ?_, ?_⟩
    · intro h
      have : c ∈ (split '/' folder).filter (fun c => c != [] && c != ['.']) :=
        List.mem_filter.2 ⟨hc, by simp [hc1, hc2]⟩
      rw [h] at this
      cases this
    · have e1 : (Paths.Posix.parse (folder ++ '/' :: n)).comps
          = (split '/' (folder ++ '/' :: n)).filter (fun c => c != [] && c != ['.']) := by
        unfold Paths.Posix.parse
        dsimp only
        split <;> rfl
      rw [e1, split_last _ _ hflat, List.filter_append]
      simp [hne, hnd]
  obtain ⟨l, hl, hcm⟩ := hcomps
  set P := Paths.Posix.parse (folder ++ '/' :: n) with hP
  have hname : P.name = n := by simp [Paths.Posix.name, hcm]
  have hparts : ∃ a b t, P.parts = a :: b :: t := by
    cases l with
    | nil => exact absurd rfl hl
    | cons x l =>
      unfold Paths.Posix.parts
      rw [hcm]
      split
      · cases l with
        | nil => exact ⟨_, _, _, rfl⟩
        | cons y l => exact ⟨_, _, _, rfl⟩
      · exact ⟨_, _, _, rfl⟩
  obtain ⟨a, b, t, hp⟩ := hparts
  unfold Paths.getParts
  rw [if_neg (by simp)]
  dsimp only
  rw [← hP, hp]
  dsimp only
  rw [hname, hsuf, if_neg (by simp)]
  rfl

/-- The extension by which the reader recognises the blobs of each format. -/
theorem extensionOf_blob (fmt name : Str) (h : BlobName fmt name) (o : Options ρ) (ho : o.overrideFormat = []) :
    extensionOf o name = .ok (some (if fmt = "text".toList then ".txt".toList
      else if fmt = "zstd".toList then ".zstd".toList
      else if fmt = "parquet".toList then ".parquet".toList else ".jsonl".toList)) := by
  obtain ⟨folder, i, rfl, hi, hs, _, c, hc, hc1, hc2⟩ := h.parts
  obtain ⟨mid, e, h1, h2, h3, h4, h5⟩ := extension_split fmt
  rw [← h5]
  have hm : '/' ∉ mid ∧ '/' ∉ e := by
    rw [h1] at h4
    exact ⟨fun h => h4 (by simp [h]), fun h => h4 (by simp [h])⟩
  have := extensionOf_file folder (i ++ mid) e (by simp [hi]) (by simp [hs, hm.1]) h2 h3 hm.2 c hc hc1 hc2 o ho
  rw [← this, h1]
  simp

theorem filterMap_rows (lib : Lib ρ) (p : Parser) (g : List ρ) (f : ρ → Item ρ)
    (hf : ∀ r ∈ g, parse lib p (f r) = .ok (.row r)) :
    (∀ x ∈ g.map f, ¬ Fails lib {} p x) ∧
    (g.map f).filterMap (result lib {} p) = (g.filter lib.truthy).map .row := by
  have key : ∀ r ∈ g, outcome lib {} p (f r) = .ok (if lib.truthy r then some (.row r) else none) := by
    intro r hr
    unfold outcome
    rw [hf r hr]
    rfl
  constructor
  · intro x hx ⟨e, he⟩
    obtain ⟨r, hr, rfl⟩ := List.mem_map.1 hx
    rw [key r hr] at he
    cases he
  · induction g with
    | nil => rfl
    | cons r g ih =>
      rw [List.map_cons, List.filterMap_cons, ih (fun x hx => hf x (by simp [hx])) (fun x hx => key x (by simp [hx]))]
      unfold result
      rw [key r (by simp)]
      cases h : lib.truthy r with
      | true => rw [List.filter_cons_of_pos h]; rfl
      | false => rw [List.filter_cons_of_neg (by simp [h])]; rfl

/-- **C25 (one blob).**  Reading back a blob in the jsonl, flat, zstd or parquet format gives exactly the
records it was made from (but see C70 for records that are empty), in order. -/
theorem C25_blob_round_trip (codec : Writer.Codec ρ) (lib : Lib ρ) (fmt name : Str)
    (hfmt : fmt ≠ "text".toList) (hn : BlobName fmt name) (g : List ρ) (hl : Faithful codec lib g) :
    readBlob lib {} name (.ok (Writer.Spec.encode codec (formatOf fmt) g))
      = (g.filter lib.truthy).map .row := by
  have he := extensionOf_blob (ρ := ρ) fmt name hn {} rfl
  rw [if_neg hfmt] at he
  have hjson : ∀ r ∈ g, parse lib .json (.raw (codec.serialise r)) = .ok (.row r) := by
    intro r hr
    show (lib.json _).map Item.row = _
    rw [hl.json r hr]
    rfl
  by_cases hz : fmt = "zstd".toList
  · rw [if_pos hz] at he
    have hd : (decompress lib 1 .zstd (Writer.Spec.encode codec (formatOf fmt) g)).items
        = (g.map (fun r => Item.raw (codec.serialise r))) := by
      simp only [formatOf, if_pos hz, Writer.Spec.encode, decompress, hl.zstd, fromLib, Gen.of]
      rw [splitNewline_text codec g hl.no_lf]
      simp
    obtain ⟨f1, f2⟩ := filterMap_rows lib .json g (fun r => Item.raw (codec.serialise r)) hjson
    rw [C24_no_failure lib {} name _ .zstd .json .data _ he rfl (by rw [hd]; exact f1), hd, f2]
  · rw [if_neg hz] at he
    by_cases hp : fmt = "parquet".toList
    · rw [if_pos hp] at he
      have hd : (decompress lib 1 .parquet (Writer.Spec.encode codec (formatOf fmt) g)).items = g.map Item.row := by
        simp only [formatOf, if_neg hz, if_pos hp, Writer.Spec.encode, decompress, hl.parquet g (fun _ h => h), fromLib, Gen.of]
      obtain ⟨f1, f2⟩ := filterMap_rows lib .passThru g Item.row (fun _ _ => rfl)
      rw [C24_no_failure lib {} name _ .parquet .passThru .data _ he rfl (by rw [hd]; exact f1), hd, f2]
    · rw [if_neg hp] at he
      have hd : (decompress lib 1 .lines (Writer.Spec.encode codec (formatOf fmt) g)).items
          = (g.map (fun r => Item.raw (codec.serialise r))) := by
        simp only [formatOf, if_neg hz, if_neg hp, Writer.Spec.encode, decompress, Gen.of]
        rw [splitLines_text codec g hl.no_lf hl.no_cr]
        simp
      obtain ⟨f1, f2⟩ := filterMap_rows lib .json g (fun r => Item.raw (codec.serialise r)) hjson
      rw [C24_no_failure lib {} name _ .lines .json .data _ he rfl (by rw [hd]; exact f1), hd, f2]

/-- **C25.**  After any calls to a writer ending in a finalize, with working storage, reading back the
data blobs in the order they were stored, under whatever names, gives exactly the records the writer
accepted, in order. -/
theorem C25_round_trip (c : Writer.Config ρ) (lib : Lib ρ) (fmt : Str)
    (hfmt : fmt ≠ "text".toList) (hc : c.format = formatOf fmt)
    (ops : List (Writer.Op ρ)) (hl : Faithful c.codec lib (Writer.Spec.accepted (Writer.outcomes c {} ops)))
    (ht : ∀ r ∈ Writer.Spec.accepted (Writer.outcomes c {} ops), lib.truthy r = true) (f : Bool) (names : List Str) (hn : ∀ n ∈ names, BlobName fmt n)
    (hlen : names.length = (Writer.Spec.dataBlobs (Writer.run c {} (ops ++ [.finalize f])).store).length) :
    (names.zip (Writer.Spec.dataBlobs (Writer.run c {} (ops ++ [.finalize f])).store)).flatMap
        (fun nb => readBlob lib {} nb.1 (.ok nb.2))
      = (Writer.Spec.accepted (Writer.outcomes c {} ops)).map .row := by
  obtain ⟨⟨groups, h1, h2, -⟩, -⟩ := Writer.C01_conservation c ops f
  rw [h1] at hlen ⊢
  rw [← h2] at ht hl ⊢
  rw [hc]
  clear h1 h2
  induction groups generalizing names with
  | nil => simp
  | cons g groups ih =>
    cases names with
    | nil => simp at hlen
    | cons n names =>
      rw [List.map_cons, List.zip_cons_cons, List.flatMap_cons, List.flatten_cons, List.map_append,
        ih names (fun x hx => hn x (by simp [hx])) (hl.mono (by simp)) (fun r hr => ht r (by simp [hr])) (by simpa using hlen),
        C25_blob_round_trip c.codec lib fmt _ hfmt (hn n (by simp)) g (hl.mono (by simp)),
        List.filter_eq_self.2 (fun r hr => ht r (by simp [hr]))]

/-- Non-vacuity: the demonstration libraries, with records 1 to 9. -/
def demoCodec : Writer.Codec (Fin 10) where
  serialise n := [48 + n.val.toUInt8]
  compress b := 1 :: b
  parquet g := g.map (·.val.toUInt8)
  nbytes g := g.length

def demoLib' : Lib (Fin 10) where
  unzstd := fun
    | 1 :: b => .ok b
    | _ => .error .valueError
  unlzma := fun _ => .error .valueError
  unzip := fun _ => .error .valueError
  parquet := fun b => .ok (b.map (fun x => Fin.ofNat 10 x.toNat))
  csv := fun _ => .error .valueError
  json := fun
    | [n] => .ok (Fin.ofNat 10 (n.toNat - 48))
    | _ => .error .valueError
  xml := fun _ => .error .valueError
  truthy := fun _ => true

theorem demo_faithful (records : List (Fin 10)) : Faithful demoCodec demoLib' records where
  json := fun r _ => (show ∀ r, demoLib'.json (demoCodec.serialise r) = .ok r by decide) r
  no_lf := fun r _ => (show ∀ r, 10 ∉ demoCodec.serialise r by decide) r
  no_cr := fun r _ => (show ∀ r, 13 ∉ demoCodec.serialise r by decide) r
  zstd := fun _ => rfl
  parquet := by
    intro g _
    have : ∀ r : Fin 10, Fin.ofNat 10 (r.val.toUInt8).toNat = r := by decide
    show Except.ok _ = _
    congr 1
    show (g.map (fun r => r.val.toUInt8)).map _ = g
    rw [List.map_map]
    exact (List.map_congr_left (fun r _ => this r)).trans (List.map_id _)

example : BlobName "zstd".toList "ds/day_01/as_at_1/1a-2-3.jsonl.zstd".toList :=
  ⟨"ds/day_01/as_at_1".toList, "1a-2-3".toList, rfl, by decide, by decide, by decide, "ds".toList, by decide,
    by decide, by decide⟩

/-- Two blobs, stored by a writer with a limit of two bytes, read back. -/
example :
    let c : Writer.Config (Fin 10) :=
      { codec := demoCodec, format := .zstd, maximumBlobSize := 2, valid := fun n => n ≠ 7,
        alwaysComplete := false }
    let store := Writer.Spec.dataBlobs
      (Writer.run c {} [.append 1, .append 2, .append 7, .append 3, .finalize false]).store
    store = [[1, 49, 10, 50, 10], [1, 51, 10]] ∧
    store.flatMap (fun b => readBlob demoLib' {} "ds/as_at_1/1a-2-3.jsonl.zstd".toList (.ok b))
      = [.row 1, .row 2, .row 3] := by
  decide +kernel

/-- **C25 fails for the `text` format.**  A blob of lines is read back as one piece: records appended
separately are not separate again. -/
theorem C25_text_format_fails (codec : Writer.Codec ρ) (lib : Lib ρ) (name : Str)
    (hn : BlobName "text".toList name) (g : List ρ) (hg : g ≠ []) :
    readBlob lib {} name (.ok (Writer.Spec.encode codec (formatOf "text".toList) g))
      = [.raw (g.flatMap (fun r => codec.serialise r ++ [10]))] := by
  have he := extensionOf_blob (ρ := ρ) "text".toList name hn {} rfl
  rw [if_pos rfl] at he
  have hne : Writer.Spec.text codec g ≠ [] := by
    cases g with
    | nil => exact absurd rfl hg
    | cons r g => simp [Writer.Spec.text]
  have hf : outcome lib {} .passThru (.raw (Writer.Spec.text codec g))
      = .ok (some (.raw (Writer.Spec.text codec g))) := by
    show Except.ok (if decide (Writer.Spec.text codec g ≠ []) then _ else _) = _
    rw [decide_eq_true hne]
    rfl
  have hd : (decompress lib 1 .block (Writer.Spec.encode codec (formatOf "text".toList) g)).items
      = [.raw (Writer.Spec.text codec g)] := rfl
  rw [C24_no_failure lib {} name _ .block .passThru .data _ he rfl (by
    rw [hd]
    rintro x hx ⟨e, h⟩
    rw [List.mem_singleton.1 hx, hf] at h
    cases h), hd]
  unfold result
  simp only [List.filterMap_cons, hf, List.filterMap_nil]
  rfl

/-! ## C70: without a filter, what is dropped -/

/-- **C70.**  A reader given no filter drops exactly the records that are empty (Python's `bool` of the
record is false) and nothing else: every piece that can be decoded is delivered if it is not empty. -/
theorem C70_unfiltered (lib : Lib ρ) (o : Options ρ) (hf : o.filter = none) (hs : o.select = .ok)
    (name ext : Str) (d : Decompressor) (p : Parser) (k : Kind) (bytes : Bytes) (rows : List ρ)
    (he : extensionOf o name = .ok (some ext)) (hh : handler ext = some (d, p, k))
    (hd : (decompress lib o.depth d bytes).items.mapM (parse lib p) = .ok (rows.map .row)) :
    readBlob lib o name (.ok bytes) = (rows.filter lib.truthy).map .row := by
  have key : ∀ (l : List (Item ρ)) (rows : List ρ), l.mapM (parse lib p) = .ok (rows.map .row) →
      (∀ x ∈ l, ¬ Fails lib o p x) ∧
      l.filterMap (result lib o p) = (rows.filter lib.truthy).map .row := by
    intro l
    induction l with
    | nil =>
      intro rows h
      cases rows with
      | nil => simp
      | cons r rows => cases h
    | cons x l ih =>
      intro rows h
      rw [List.mapM_cons] at h
      cases hx : parse lib p x with
      | error e => rw [hx] at h; cases h
      | ok y =>
        cases hl : l.mapM (parse lib p) with
        | error e => rw [hx, hl] at h; cases h
        | ok ys =>
          rw [hx, hl] at h
          have h : y :: ys = rows.map .row := Except.ok.inj h
          cases rows with
          | nil => cases h
          | cons r rows =>
            obtain ⟨h1, h2⟩ := List.cons.inj h
            obtain ⟨i1, i2⟩ := ih rows (by rw [hl, h2])
            have ho : outcome lib o p x = .ok (if lib.truthy r then some (.row r) else none) := by
              unfold outcome
              rw [hx, hs]
              show (o.keep lib y >>= _) = _
              rw [h1]
              unfold Options.keep
              rw [hf]
              rfl
            refine ⟨?_, ?_⟩
            · intro z hz
              rcases List.mem_cons.1 hz with rfl | hz
              · rintro ⟨e, he⟩
                rw [ho] at he
                cases he
              · exact i1 z hz
            · rw [List.filterMap_cons, i2]
              unfold result
              rw [ho]
              cases ht : lib.truthy r with
              | true => rw [List.filter_cons_of_pos ht]; rfl
              | false => rw [List.filter_cons_of_neg (by simp [ht])]; rfl
  obtain ⟨k1, k2⟩ := key _ rows hd
  rw [C24_no_failure lib o name ext d p k bytes he hh k1, k2]

/-- **C70 fails for empty records**: a record that was stored is not delivered although no filter was
given (here the record `0` stands for an empty one). -/
theorem C70_empty_record_fails :
    ∃ (bytes : Bytes) (rows : List Nat),
      (decompress demoLib 1 .parquet bytes).items = rows.map .row ∧
      readBlob demoLib {} "d/a.parquet".toList (.ok bytes) ≠ rows.map .row :=
  ⟨[1, 0, 2], [1, 0, 2], by decide +kernel⟩

/-! ## C71: what a filter sees -/

/-- The records a user expects: those that satisfy the filter, then projected. -/
def filterThenSelect (select : ρ → ρ) (p : ρ → Bool) (rows : List ρ) : List ρ := (rows.filter p).map select

/-- A reader with a select and a filter that never raise. -/
def selecting (select : ρ → ρ) (p : ρ → Bool) : Options ρ where
  select := fun x => match x with
    | .row r => .ok (.row (select r))
    | .raw b => .ok (.raw b)
  filter := some (fun x => match x with
    | .row r => .ok (p r)
    | .raw _ => .ok false)

/-- **C71 (as the code does it).**  The select is applied first and the filter to its result. -/
theorem C71_select_then_filter (lib : Lib ρ) (select : ρ → ρ) (p : ρ → Bool) (bytes : Bytes) (rows : List ρ)
    (hp : lib.parquet bytes = .ok rows) (name : Str) (hn : BlobName "parquet".toList name) :
    readBlob lib (selecting select p) name (.ok bytes)
      = ((rows.map select).filter p).map .row := by
  generalize ho : selecting select p = o
  have he := extensionOf_blob (ρ := ρ) "parquet".toList name hn o (by rw [← ho]; rfl)
  rw [if_neg (by decide), if_neg (by decide), if_pos rfl] at he
  have hdep : o.depth = 1 := by rw [← ho]; rfl
  have hd : (decompress lib o.depth .parquet bytes).items = rows.map .row := by
    rw [hdep]
    simp only [decompress, hp, fromLib, Gen.of]
  have key : ∀ r, outcome lib o .passThru (.row r) = .ok (if p (select r) then some (.row (select r)) else none) := by
    intro r
    rw [← ho]
    rfl
  rw [C24_no_failure lib o name _ .parquet .passThru .data _ he rfl (by
    rw [hd]
    rintro x hx ⟨e, h⟩
    obtain ⟨r, -, rfl⟩ := List.mem_map.1 hx
    rw [key] at h
    cases h), hd]
  clear hd hp
  induction rows with
  | nil => rfl
  | cons r rows ih =>
    rw [List.map_cons, List.filterMap_cons, ih, List.map_cons]
    unfold result
    rw [key]
    cases ht : p (select r) with
    | true => rw [List.filter_cons_of_pos ht]; rfl
    | false => rw [List.filter_cons_of_neg (by simp [ht])]; rfl

/-- **C71 (partial).**  When the filter does not depend on what the select removes, the result is the
expected one: the records that satisfy the filter, projected. -/
theorem C71_filter_then_select_partial (lib : Lib ρ) (select : ρ → ρ) (p : ρ → Bool)
    (hps : ∀ r, p (select r) = p r) (bytes : Bytes) (rows : List ρ)
    (hp : lib.parquet bytes = .ok rows) (name : Str) (hn : BlobName "parquet".toList name) :
    readBlob lib (selecting select p) name (.ok bytes)
      = (filterThenSelect select p rows).map .row := by
  rw [C71_select_then_filter lib select p bytes rows hp name hn]
  unfold filterThenSelect
  rw [List.filter_map]
  congr 2
  exact List.filter_congr (fun r _ => hps r)

/-- **C71 fails in general**: a filter on a column that is not selected does not see it.  Here a record is
a pair of columns, the select keeps the first and the filter asks for the second. -/
theorem C71_filter_on_unselected_fails :
    ∃ (lib : Lib (Option Nat × Option Nat)) (select : Option Nat × Option Nat → Option Nat × Option Nat)
      (p : Option Nat × Option Nat → Bool) (bytes : Bytes) (rows : List (Option Nat × Option Nat)),
      lib.parquet bytes = .ok rows ∧
      readBlob lib (selecting select p) "d/e/a.parquet".toList (.ok bytes)
      ≠ (filterThenSelect select p rows).map .row :=
  ⟨{ unzstd := fun _ => .error .valueError, unlzma := fun _ => .error .valueError,
     unzip := fun _ => .error .valueError, parquet := fun b => .ok (b.map (fun x => (some x.toNat, some 5))),
     csv := fun _ => .error .valueError, json := fun _ => .error .valueError,
     xml := fun _ => .error .valueError, truthy := fun _ => true },
    fun r => (r.1, none), fun r => r.2 = some 5, [1], [(some 1, some 5)], by decide +kernel⟩

end Mabel.Blobs
