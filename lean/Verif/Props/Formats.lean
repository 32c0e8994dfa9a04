import Verif.Props.Blobs
import Verif.Spec.Formats
import Verif.Lemmas.Paths

/-! # The formats of blobs (C77) -/

namespace Mabel.Blobs
open Mabel.Py Spec
variable {ρ : Type}

theorem go_line (cur l : Bytes) (h : Line l) (cr : Bool) (rest : Bytes) (hr : l ≠ [] ∨ cr = false ∨ rest.head? ≠ some 10) :
    splitLinesGo cur cr (l ++ rest) = splitLinesGo (cur ++ l) (if l = [] then cr else false) rest := by
  induction l generalizing cur cr with
  | nil => simp
  | cons c l ih =>
    obtain ⟨h1, h2⟩ := h
    have hc1 : c ≠ 10 := fun h => h1 (by simp [h])
    have hc2 : c ≠ 13 := fun h => h2 (by simp [h])
    rw [List.cons_append, splitLinesGo, if_neg hc1, if_neg hc2,
      ih (cur ++ [c]) ⟨fun h => h1 (by simp [h]), fun h => h2 (by simp [h])⟩ false (Or.inr (Or.inl rfl))]
    simp

theorem go_cr (b : Bytes) (h : b.head? ≠ some 10) (cur : Bytes) : splitLinesGo cur true b = splitLinesGo cur false b := by
  cases b with
  | nil => rfl
  | cons c b =>
    have hc : c ≠ 10 := fun e => h (by simp [e])
    rw [splitLinesGo, splitLinesGo, if_neg hc, if_neg hc]

theorem lines_split {ls : List Bytes} {b : Bytes} (h : Lines ls b) : splitLines b = ls := by
  unfold splitLines
  induction h with
  | nil => rfl
  | last hl hne =>
    rename_i l
    have := go_line [] l hl false [] (Or.inl hne)
    rw [List.append_nil] at this
    rw [this, splitLinesGo, List.nil_append, if_neg hne]
  | lf hl _ ih =>
    rename_i l ls b _
    have hb : (if l = [] then false else false) = false := by split <;> rfl
    rw [go_line [] l hl false _ (Or.inr (Or.inl rfl)), hb, splitLinesGo, if_pos rfl]
    rw [if_neg (by simp), ih]
    simp
  | crlf hl _ ih =>
    rename_i l ls b _
    have hb : (if l = [] then false else false) = false := by split <;> rfl
    rw [go_line [] l hl false _ (Or.inr (Or.inl rfl)), hb, splitLinesGo, if_neg (by decide), if_pos rfl, splitLinesGo,
      if_pos rfl, if_pos rfl, ih]
    simp
  | cr hl _ hne ih =>
    rename_i l ls b _
    have hb : (if l = [] then false else false) = false := by split <;> rfl
    rw [go_line [] l hl false _ (Or.inr (Or.inl rfl)), hb, splitLinesGo, if_neg (by decide), if_pos rfl, go_cr _ hne, ih]
    simp

theorem extensionOf_named {name ext : Str} (h : Named name ext) (o : Options ρ) (ho : o.overrideFormat = []) :
    extensionOf o name = .ok (some ('.' :: ext)) := by
  obtain ⟨bucket, folders, stem, rfl, h1, h2, h3, h4, h5, h6, h7, h8⟩ := h
  have key : ∀ l : List Str, ∃ folder, bucket ∈ split '/' folder ∧
      (bucket :: l).flatMap (· ++ ['/']) = folder ++ ['/'] := by
    intro l
    rcases List.eq_nil_or_concat l with rfl | ⟨l, x, rfl⟩
    · exact ⟨bucket, by rw [split_of_not_mem h1]; simp, by simp⟩
    · refine ⟨bucket ++ '/' :: (l.flatMap (· ++ ['/']) ++ x), ?_, by simp⟩
      rw [split_slash, split_of_not_mem h1]
      simp
  obtain ⟨folder, hf, e⟩ := key folders
  rw [e]
  have := extensionOf_file folder stem ext h4 h5 h6 h8 h7 bucket hf h2 h3 o ho
  rw [← this]
  simp

/-- **C77**: JSONL: each line is a record, whatever ends the lines, with or without an end of the last. -/
theorem C77_jsonl (lib : Lib ρ) (name : Str) (he : Named name "jsonl".toList)
    (ls : List Bytes) (b : Bytes) (hb : Lines ls b) (rows : List ρ) (hj : ls.mapM lib.json = .ok rows) :
    readBlob lib {} name (.ok b) = (rows.filter lib.truthy).map .row := by
  refine C70_unfiltered lib {} rfl rfl name _ .lines .json .data b rows (extensionOf_named he _ rfl) rfl ?_
  show (((splitLines b).map Item.raw).mapM (parse lib .json)) = _
  rw [lines_split hb]
  clear hb
  induction ls generalizing rows with
  | nil => cases hj; rfl
  | cons l ls ih =>
    rw [List.mapM_cons] at hj
    cases h1 : lib.json l with
    | error e => rw [h1] at hj; cases hj
    | ok r =>
      cases h2 : ls.mapM lib.json with
      | error e => rw [h1, h2] at hj; cases hj
      | ok rs =>
        rw [h1, h2] at hj
        obtain rfl : r :: rs = rows := Except.ok.inj hj
        rw [List.map_cons, List.mapM_cons, ih rs h2, show parse lib .json (.raw l) = .ok (.row r) from by
          show (lib.json l).map _ = _
          rw [h1]; rfl]
        rfl

theorem newline_line (cur l rest : Bytes) (h : 10 ∉ l) :
    splitNewline cur (l ++ 10 :: rest) = (cur ++ l) :: splitNewline [] rest := by
  induction l generalizing cur with
  | nil => simp [splitNewline]
  | cons c l ih =>
    have hc : c ≠ 10 := fun e => h (by simp [e])
    rw [List.cons_append, splitNewline, if_neg hc, ih (cur ++ [c]) (fun e => h (by simp [e]))]
    simp

theorem newline_last (cur l : Bytes) (h : 10 ∉ l) : splitNewline cur l = [cur ++ l] := by
  induction l generalizing cur with
  | nil => simp [splitNewline]
  | cons c l ih =>
    have hc : c ≠ 10 := fun e => h (by simp [e])
    rw [splitNewline, if_neg hc, ih (cur ++ [c]) (fun e => h (by simp [e]))]
    simp

theorem newline_all (ls : List Bytes) (l : Bytes) (h : ∀ x ∈ ls, 10 ∉ x) (hl : 10 ∉ l) :
    splitNewline [] (ended ls ++ l) = ls ++ [l] := by
  induction ls with
  | nil => exact newline_last [] l hl
  | cons x ls ih =>
    have : ended (x :: ls) ++ l = x ++ 10 :: (ended ls ++ l) := by simp [ended]
    rw [this, newline_line [] x _ (h x (by simp)), ih (fun y hy => h y (by simp [hy]))]
    rfl

/-- **C77** (fails): ZSTD: the last line is lost if no line feed ends it. -/
theorem C77_zstd_last_line_fails (lib : Lib ρ) (n : Nat) (b : Bytes) (ls : List Bytes) (l : Bytes)
    (h : ∀ x ∈ ls, 10 ∉ x) (hl : 10 ∉ l) (hz : lib.unzstd b = .ok (ended ls ++ l)) :
    decompress lib n .zstd b = .of (ls.map .raw) := by
  rw [decompress, hz]
  show Gen.of ((splitNewline [] (ended ls ++ l)).dropLast.map Item.raw) = _
  rw [newline_all ls l h hl]
  simp

/-- **C77** (partial): ZSTD: each line is a record, if each is ended by a line feed. -/
theorem C77_zstd_partial (lib : Lib ρ) (n : Nat) (b : Bytes) (ls : List Bytes) (h : ∀ x ∈ ls, 10 ∉ x)
    (hz : lib.unzstd b = .ok (ended ls)) : decompress lib n .zstd b = .of (ls.map .raw) :=
  C77_zstd_last_line_fails lib n b ls [] h (by simp) (by rw [hz]; simp)

theorem file_line (cur l rest : Bytes) (h : 10 ∉ l) :
    fileLines cur (l ++ 10 :: rest) = (cur ++ l ++ [10]) :: fileLines [] rest := by
  induction l generalizing cur with
  | nil => simp [fileLines]
  | cons c l ih =>
    have hc : c ≠ 10 := fun e => h (by simp [e])
    rw [List.cons_append, fileLines, if_neg hc, ih (cur ++ [c]) (fun e => h (by simp [e]))]
    simp

theorem file_last (cur l : Bytes) (h : 10 ∉ l) : fileLines cur l = if cur ++ l = [] then [] else [cur ++ l] := by
  induction l generalizing cur with
  | nil => simp [fileLines]
  | cons c l ih =>
    have hc : c ≠ 10 := fun e => h (by simp [e])
    rw [fileLines, if_neg hc, ih (cur ++ [c]) (fun e => h (by simp [e]))]
    simp

/-- **C77**: LZMA: each line is a record, with or without a line feed after the last. -/
theorem C77_lzma (lib : Lib ρ) (n : Nat) (b : Bytes) (ls : List Bytes) (l : Bytes) (h : ∀ x ∈ ls, 10 ∉ x) (hl : 10 ∉ l)
    (hz : lib.unlzma b = .ok (ended ls ++ l)) :
    decompress lib n .lzma b = .of ((ls.map (· ++ [10]) ++ if l = [] then [] else [l]).map .raw) := by
  rw [decompress, hz]
  show Gen.of ((fileLines [] (ended ls ++ l)).map Item.raw) = _
  congr 2
  clear hz
  induction ls with
  | nil =>
    show fileLines [] l = _
    rw [file_last [] l hl]
    rfl
  | cons x ls ih =>
    have : ended (x :: ls) ++ l = x ++ 10 :: (ended ls ++ l) := by simp [ended]
    rw [this, file_line [] x _ (h x (by simp)), ih (fun y hy => h y (by simp [hy]))]
    simp

/-! ## ZIP -/

theorem filter_append (p : Item ρ → Except Err Bool) (a b : Gen (Item ρ)) :
    (a.append b).filter p = (a.filter p).append (b.filter p) := by
  have key : ∀ (l m : List (Item ρ)) (r : Option Err),
      filterItems p r (l ++ m) = Gen.append (filterItems p none l) (filterItems p r m) := by
    intro l m r
    induction l with
    | nil => simp [filterItems, Gen.append]
    | cons x l ih =>
      rw [List.cons_append, filterItems, filterItems]
      cases p x with
      | error e => rfl
      | ok k =>
        cases k with
        | true =>
          simp only [ih]
          unfold Gen.append
          simp only []
          split <;> rfl
        | false => exact ih
  have kerr : ∀ (l : List (Item ρ)) (e : Err) (g : Gen (Item ρ)),
      Gen.append (filterItems p (some e) l) g = filterItems p (some e) l := by
    intro l e g
    have : ∃ e', (filterItems p (some e) l).raised = some e' := by
      induction l with
      | nil => exact ⟨e, rfl⟩
      | cons x l ih =>
        rw [filterItems]
        cases p x with
        | error e' => exact ⟨e', rfl⟩
        | ok k => cases k <;> exact ih
    obtain ⟨e', he⟩ := this
    unfold Gen.append
    rw [he]
    simp only []
    rw [← he]
  unfold Gen.filter
  cases ha : a.raised with
  | none =>
    have : a.append b = ⟨a.items ++ b.items, b.raised⟩ := by unfold Gen.append; rw [ha]
    rw [this]
    exact key _ _ _
  | some e =>
    have : a.append b = ⟨a.items, some e⟩ := by unfold Gen.append; rw [ha]
    rw [this, kerr]

theorem map_ok (g : Gen (Item ρ)) (f : Item ρ → Except Err (Item ρ)) (hf : f = .ok) : g.map f = g := by
  subst hf
  obtain ⟨l, r⟩ := g
  show mapItems _ r l = _
  induction l with
  | nil => rfl
  | cons x l ih => rw [mapItems]; simp only [ih]

theorem map_passThru (lib : Lib ρ) (g : Gen (Item ρ)) : g.map (parse lib .passThru) = g :=
  map_ok g _ (by funext x; rfl)

theorem takeWhile_append_of_all {p : Char → Bool} {l : List Char} (m : List Char) (h : ∀ x ∈ l, p x = true) :
    (l ++ m).takeWhile p = l ++ m.takeWhile p := by
  induction l with
  | nil => rfl
  | cons x l ih => simp [h x (by simp), ih (fun y hy => h y (by simp [hy]))]

theorem takeWhile_append_of_some {p : Char → Bool} {l : List Char} (m : List Char) (h : ∃ x ∈ l, p x = false) :
    (l ++ m).takeWhile p = l.takeWhile p := by
  induction l with
  | nil => obtain ⟨x, hx, -⟩ := h; cases hx
  | cons x l ih =>
    cases hp : p x with
    | false => simp [hp]
    | true =>
      obtain ⟨y, hy, hpy⟩ := h
      have : ∃ y ∈ l, p y = false := by
        rcases List.mem_cons.1 hy with rfl | hy
        · rw [hp] at hpy; cases hpy
        · exact ⟨y, hy, hpy⟩
      simp [hp, ih this]

theorem lastPart_eq (name : Str) : lastPart name = memberExtension name := by
  unfold lastPart memberExtension
  congr 1
  induction name with
  | nil => rfl
  | cons c cs ih =>
    rw [List.reverse_cons]
    by_cases hd : '.' ∈ cs
    · rw [takeWhile_append_of_some _ ⟨'.', by simpa using hd, by decide⟩, ih]
      by_cases hc : c = '.'
      · subst hc
        rw [show split '.' ('.' :: cs) = [] :: split '.' cs by rw [split]; simp]
        rw [List.getLast?_cons]
        cases h : split '.' cs with
        | nil => exact absurd h (Mabel.Py.split_ne_nil _ _)
        | cons a as => simp
      · cases h : split '.' cs with
        | nil => exact absurd h (Mabel.Py.split_ne_nil _ _)
        | cons a as =>
          have has : as ≠ [] := by
            intro e
            have := Mabel.Py.split_length '.' cs
            rw [h, e] at this
            have := List.count_pos_iff.2 hd
            simp_all
          rw [split, if_neg hc, h]
          obtain ⟨y, ys, rfl⟩ := List.exists_cons_of_ne_nil has
          simp
    · have hall : ∀ x ∈ cs.reverse, (x != '.') = true := by
        intro x hx
        have : x ≠ '.' := by rintro rfl; exact hd (by simpa using hx)
        simpa using this
      rw [takeWhile_append_of_all _ hall]
      by_cases hc : c = '.'
      · subst hc
        rw [show split '.' ('.' :: cs) = [] :: split '.' cs by rw [split]; simp, Mabel.Py.split_of_not_mem hd]
        simp
      · rw [Mabel.Py.split_of_not_mem (by simp [hd, Ne.symm hc])]
        simp [hc]

/-- **C77**: ZIP: the files inside are read one after the other, each as a blob of its own, and those of unknown
formats are skipped (the first that cannot be read ends the blob). -/
theorem C77_zip (lib : Lib ρ) (filter : Option (Item ρ → Except Err Bool)) (n : Nat) (name : Str)
    (he : Named name "zip".toList) (b : Bytes)
    (files : List (Str × Bytes)) (hz : lib.unzip b = .ok files) :
    readBlob lib { filter := filter, depth := n + 1 } name (.ok b) =
      (files.foldr (fun f g => (member lib { filter := filter, depth := n } f).append g) (.of [])).items := by
  have he := extensionOf_named he ({ filter := filter, depth := n + 1 } : Options ρ) rfl
  unfold readBlob
  simp only [he]
  show (stages lib { filter := filter, depth := n + 1 } .unzip .passThru b).items = _
  unfold stages
  rw [map_passThru, map_ok _ _ rfl]
  show ((decompress lib (n + 1) .unzip b).filter _).items = _
  rw [decompress, hz]
  congr 1
  show (members (decompress lib n) lib files).filter (Options.keep { filter := filter, depth := n + 1 } lib) = _
  clear hz
  induction files with
  | nil => rfl
  | cons f files ih =>
    obtain ⟨fname, bytes⟩ := f
    rw [List.foldr_cons, members]
    rw [← lastPart_eq]
    have hm : member lib { filter := filter, depth := n } (fname, bytes) =
      match handler (lastPart fname) with
      | some (d, p, _) => stages lib { filter := filter, depth := n } d p bytes
      | none => .of [] := rfl
    cases hh : handler (lastPart fname) with
    | none =>
      rw [hh] at hm
      simp only [] at hm ⊢
      rw [ih, hm]
      rfl
    | some v =>
      obtain ⟨d, p, k⟩ := v
      rw [hh] at hm
      simp only [] at hm ⊢
      rw [filter_append, ih, hm]
      unfold stages
      rw [map_ok _ ({ filter := filter, depth := n } : Options ρ).select rfl]
      rfl

/-- A damaged file gives nothing, and raises. -/
theorem member_damaged {lib : Lib ρ} {f : Str × Bytes} (hd : Damaged lib f) (o : Options ρ) :
    ∃ e, member lib o f = ⟨[], some e⟩ := by
  rcases hd with ⟨hn, e, he⟩ | ⟨hn, e, he⟩ | ⟨hn, e, he⟩ | ⟨hn, e, he⟩ <;> refine ⟨e, ?_⟩ <;>
    unfold member <;> rw [hn]
  · show stages lib o .zstd .json f.2 = _
    unfold stages; rw [decompress, he]; rfl
  · show stages lib o .lzma .json f.2 = _
    unfold stages; rw [decompress, he]; rfl
  · show stages lib o .parquet .passThru f.2 = _
    unfold stages; rw [decompress, he]; rfl
  · show stages lib o .csv .passThru f.2 = _
    unfold stages; rw [decompress, he]; rfl

/-- **C77**: a file inside a ZIP that its library cannot read ends the ZIP: what is delivered is what is delivered
from a ZIP of only the files before it. -/
theorem C77_zip_damaged (lib : Lib ρ) (filter : Option (Item ρ → Except Err Bool)) (n : Nat) (name : Str)
    (he : Named name "zip".toList) (b b' : Bytes) (before after : List (Str × Bytes)) (f : Str × Bytes)
    (hz : lib.unzip b = .ok (before ++ f :: after)) (hd : Damaged lib f) (hz' : lib.unzip b' = .ok before) :
    readBlob lib { filter := filter, depth := n + 1 } name (.ok b) =
      readBlob lib { filter := filter, depth := n + 1 } name (.ok b') := by
  rw [C77_zip lib filter n name he b _ hz, C77_zip lib filter n name he b' _ hz']
  obtain ⟨e, hm⟩ := member_damaged hd { filter := filter, depth := n }
  rw [List.foldr_append, List.foldr_cons, hm]
  clear hz hz'
  induction before with
  | nil => rfl
  | cons g before ih =>
    rw [List.foldr_cons, List.foldr_cons]
    unfold Gen.append at ih ⊢
    cases (member lib { filter := filter, depth := n } g).raised with
    | some e => rfl
    | none => simp only []; rw [ih]

/-- A file that is not CSV. -/
example : Damaged (ρ := Nat) ⟨.ok, .ok, fun _ => .ok [], fun _ => .ok [], fun _ => .error .typeError,
    fun _ => .ok 0, fun _ => .ok 0, fun _ => true⟩ ("folder/b.csv".toList, [7]) :=
  .inr (.inr (.inr ⟨by decide, .typeError, rfl⟩))

/-- **C77**: the format given is the one used, whatever the blob is called; its case and a dot before it do not
matter. -/
theorem C77_override (lib : Lib ρ) (o : Options ρ) (fmt : Str) (hne : fmt ≠ []) (hdot : fmt.head? ≠ some '.')
    (name name' : Str) (fetched : Except Err Bytes) (given : Str) (hg : given = fmt ∨ given = '.' :: fmt)
    (hn : Named name' (fmt.map Char.toLower)) :
    readBlob lib { o with overrideFormat := given } name fetched
      = readBlob lib { o with overrideFormat := [] } name' fetched := by
  have hd : ∀ c : Char, c ≠ '.' → c.toLower ≠ '.' := by
    intro c hc hl
    unfold Char.toLower at hl
    split at hl
    · next h =>
      have := congrArg (fun c : Char => c.val.toNat) hl
      simp [UInt32.toNat_add] at this
      have h1 := UInt32.le_iff_toNat_le.1 h.1
      have h2 := UInt32.le_iff_toNat_le.1 h.2
      simp at h1 h2
      omega
    · exact hc hl
  have ho : override given = '.' :: fmt.map Char.toLower := by
    cases fmt with
    | nil => exact absurd rfl hne
    | cons c fmt =>
      have hc : c ≠ '.' := fun e => hdot (by simp [e])
      rcases hg with rfl | rfl
      · show (match c.toLower :: lower fmt with
          | [] => []
          | '.' :: cs => '.' :: cs
          | cs => '.' :: cs) = _
        have := hd c hc
        split
        · next h => cases h
        · next h => exact absurd (by simpa using (List.cons.inj h).1) this
        · rfl
      · rfl
  have he : extensionOf { o with overrideFormat := given } name = .ok (some ('.' :: fmt.map Char.toLower)) := by
    unfold extensionOf
    rw [if_pos (by rw [ho]; simp), ho]
  unfold readBlob
  rw [he, extensionOf_named hn { o with overrideFormat := [] } rfl]
  rfl

theorem rows_of {f : Bytes → Except Err ρ} {g : Item ρ → Except Err (Item ρ)}
    (hg : ∀ l, g (.raw l) = (f l).map .row) {ls : List Bytes} {rows : List ρ} (hj : ls.mapM f = .ok rows) :
    ((ls.map Item.raw).mapM g) = .ok (rows.map .row) := by
  induction ls generalizing rows with
  | nil => cases hj; rfl
  | cons l ls ih =>
    rw [List.mapM_cons] at hj
    cases h1 : f l with
    | error e => rw [h1] at hj; cases hj
    | ok r =>
      cases h2 : ls.mapM f with
      | error e => rw [h1, h2] at hj; cases hj
      | ok rs =>
        rw [h1, h2] at hj
        obtain rfl : r :: rs = rows := Except.ok.inj hj
        rw [List.map_cons, List.mapM_cons, ih h2, hg, h1]
        rfl

theorem pass_rows (lib : Lib ρ) (rows : List ρ) : (rows.map Item.row).mapM (parse lib .passThru) = .ok (rows.map .row) := by
  induction rows with
  | nil => rfl
  | cons r rows ih => rw [List.map_cons, List.mapM_cons, ih]; rfl

/-- **C77**: JSON and XML: the whole blob is one record; the lines of LXML are the records; the library's records of
Parquet and CSV are the records. -/
theorem C77_others (lib : Lib ρ) (name : Str) (b : Bytes) :
    (Named name "json".toList → ∀ r, lib.json b = .ok r →
      readBlob lib {} name (.ok b) = ([r].filter lib.truthy).map .row) ∧
    (Named name "xml".toList → ∀ r, lib.xml b = .ok r →
      readBlob lib {} name (.ok b) = ([r].filter lib.truthy).map .row) ∧
    (Named name "lxml".toList → ∀ ls, Lines ls b → ∀ rows, ls.mapM lib.xml = .ok rows →
      readBlob lib {} name (.ok b) = (rows.filter lib.truthy).map .row) ∧
    (Named name "parquet".toList → ∀ rows, lib.parquet b = .ok rows →
      readBlob lib {} name (.ok b) = (rows.filter lib.truthy).map .row) ∧
    (Named name "csv".toList → ∀ rows, lib.csv b = .ok rows →
      readBlob lib {} name (.ok b) = (rows.filter lib.truthy).map .row) := by
  refine ⟨?_, ?_, ?_, ?_, ?_⟩
  · intro he r hr
    exact C70_unfiltered lib {} rfl rfl name _ .block .json .data b [r] (extensionOf_named he _ rfl) rfl
      (rows_of (f := lib.json) (ls := [b]) (fun _ => rfl) (by rw [List.mapM_cons, hr]; rfl))
  · intro he r hr
    exact C70_unfiltered lib {} rfl rfl name _ .block .xml .data b [r] (extensionOf_named he _ rfl) rfl
      (rows_of (f := lib.xml) (ls := [b]) (fun _ => rfl) (by rw [List.mapM_cons, hr]; rfl))
  · intro he ls hl rows hr
    refine C70_unfiltered lib {} rfl rfl name _ .lines .xml .data b rows (extensionOf_named he _ rfl) rfl ?_
    show (((splitLines b).map Item.raw).mapM (parse lib .xml)) = _
    rw [lines_split hl]
    exact rows_of (f := lib.xml) (fun _ => rfl) hr
  · intro he rows hr
    refine C70_unfiltered lib {} rfl rfl name _ .parquet .passThru .data b rows (extensionOf_named he _ rfl) rfl ?_
    rw [decompress, hr]
    exact pass_rows lib rows
  · intro he rows hr
    refine C70_unfiltered lib {} rfl rfl name _ .csv .passThru .data b rows (extensionOf_named he _ rfl) rfl ?_
    rw [decompress, hr]
    exact pass_rows lib rows

/-- **C24**: a line of a JSONL blob that is not JSON: the records of the lines before it are delivered, and nothing after
it. -/
theorem C24_bad_line (lib : Lib ρ) (name : Str) (he : Named name "jsonl".toList) (before : List Bytes) (bad : Bytes)
    (after : List Bytes) (b : Bytes) (hb : Lines (before ++ bad :: after) b) (rows : List ρ)
    (hj : before.mapM lib.json = .ok rows) (e : Err) (hbad : lib.json bad = .error e) :
    readBlob lib {} name (.ok b) = (rows.filter lib.truthy).map .row := by
  have hrows : ∀ (ls : List Bytes) (rows : List ρ), ls.mapM lib.json = .ok rows →
      (∀ x ∈ ls.map Item.raw, ¬ Fails lib {} .json x) ∧
      (ls.map Item.raw).filterMap (result lib {} .json) = (rows.filter lib.truthy).map .row := by
    intro ls
    induction ls with
    | nil => intro rows hj; cases hj; exact ⟨by simp, rfl⟩
    | cons l ls ih =>
      intro rows hj
      rw [List.mapM_cons] at hj
      cases h1 : lib.json l with
      | error e => rw [h1] at hj; cases hj
      | ok r =>
        cases h2 : ls.mapM lib.json with
        | error e => rw [h1, h2] at hj; cases hj
        | ok rs =>
          rw [h1, h2] at hj
          obtain rfl : r :: rs = rows := Except.ok.inj hj
          obtain ⟨i1, i2⟩ := ih rs h2
          have key : outcome lib {} .json (.raw l) = .ok (if lib.truthy r then some (.row r) else none) := by
            unfold outcome
            rw [show parse lib .json (.raw l) = .ok (.row r) from by
              show (lib.json l).map _ = _
              rw [h1]; rfl]
            rfl
          constructor
          · intro x hx
            rcases List.mem_cons.1 hx with rfl | hx
            · rintro ⟨e, he⟩
              rw [key] at he
              cases he
            · exact i1 x hx
          · rw [List.map_cons, List.filterMap_cons, i2]
            unfold result
            rw [key]
            cases h : lib.truthy r with
            | true => rw [List.filter_cons_of_pos h]; rfl
            | false => rw [List.filter_cons_of_neg (by simp [h])]; rfl
  obtain ⟨h1, h2⟩ := hrows before rows hj
  rw [← h2]
  refine C24_failure_part_way lib {} name _ .lines .json .data b (extensionOf_named he _ rfl) rfl _ (after.map Item.raw) (.raw bad)
    ?_ h1 ⟨e, ?_⟩
  · show (splitLines b).map Item.raw = _
    rw [lines_split hb]
    simp
  · unfold outcome
    rw [show parse lib .json (.raw bad) = .error e from by
      show (lib.json bad).map _ = _
      rw [hbad]; rfl]
    rfl

/-! ### Examples -/

/-- A blob in the folder `d`. -/
theorem named_demo {ext : Str} (h : ext ≠ [] ∧ '/' ∉ ext ∧ '.' ∉ ext) : Named ("d/a.".toList ++ ext) ext :=
  ⟨"d".toList, [], "a".toList, rfl, by decide, by decide, by decide, by decide, by decide, h.1, h.2.1, h.2.2⟩

/-- The second of three lines is not JSON. -/
example : readBlob ({ demoLib with json := fun b => if b = [9] then .error .valueError else .ok (b.headD 0).toNat } : Lib Nat) {}
    "d/a.jsonl".toList (.ok [1, 10, 9, 13, 10, 3]) = [.row 1] :=
  C24_bad_line _ _ (named_demo (ext := "jsonl".toList) (by decide)) [[1]] [9] [[3]] _
    (.lf (l := [1]) (by decide) (.crlf (l := [9]) (by decide) (.last (by decide) (by decide)))) [1] (by decide) .valueError (by decide)

/-- A text with the three ends of lines and a last line without one. -/
theorem sample_lines : Lines [[1], [2, 3], [], [4], [5]] [1, 10, 2, 3, 13, 10, 10, 4, 13, 5] :=
  .lf (by decide) (.crlf (by decide) (.lf (l := []) (by decide) (.cr (by decide) (.last (by decide) (by decide))
    (by decide))))

/-- Three records, in lines with different ends. -/
example : Lines [[1], [2], [3]] [1, 13, 10, 2, 13, 3] ∧ [[1], [2], [3]].mapM demoLib.json = .ok [1, 2, 3] ∧
    Named "d/a.jsonl".toList "jsonl".toList :=
  ⟨.crlf (by decide) (.cr (by decide) (.last (by decide) (by decide)) (by decide)), by decide, named_demo (ext := "jsonl".toList) (by decide)⟩

/-- A ZSTD blob of two lines, the second without a line feed. -/
example : demoLib.unzstd [1, 5, 10, 6] = .ok (ended [[5]] ++ [6]) := by decide

/-- Libraries with which XML and JSON differ. -/
def demoXml : Lib Nat := { demoLib with
  json := fun _ => .error .valueError
  xml := fun b => .ok (b.headD 0).toNat
  csv := fun b => .ok (b.map (·.toNat)) }

/-- Blobs of the other formats. -/
example : Named "d/a.xml".toList "xml".toList ∧ demoXml.xml [7] = .ok 7 ∧
    demoXml.json [7] = .error .valueError ∧ Named "d/a.lxml".toList "lxml".toList ∧
    [[7], [8]].mapM demoXml.xml = .ok [7, 8] ∧ Lines [[7], [8]] [7, 10, 8] ∧
    Named "d/a.csv".toList "csv".toList ∧ demoXml.csv [1, 2] = .ok [1, 2] ∧
    Named "d/a.json".toList "json".toList ∧
    Named "d/a.parquet".toList "parquet".toList := by
  refine ⟨named_demo (ext := "xml".toList) (by decide), by decide, by decide, named_demo (ext := "lxml".toList) (by decide), by decide,
    .lf (l := [7]) (by decide) (.last (by decide) (by decide)), named_demo (ext := "csv".toList) (by decide), by decide,
    named_demo (ext := "json".toList) (by decide), named_demo (ext := "parquet".toList) (by decide)⟩

/-- An LZMA blob of two lines. -/
example : ({ demoLib with unlzma := .ok } : Lib Nat).unlzma [5, 10, 6] = .ok (ended [[5]] ++ [6]) := by decide

/-- A ZIP of three files, the second of an unknown format; the third is a ZIP of its own. -/
def demoZip : Lib Nat := { demoLib with
  unzip := fun
    | [0] => .ok [("a.jsonl".toList, [1, 10, 2]), ("b.exe".toList, [7]), ("c.zip".toList, [1])]
    | [1] => .ok [("d.jsonl".toList, [3])]
    | _ => .error .valueError }

example : Named "d/a.zip".toList "zip".toList ∧
    readBlob demoZip { depth := 2 } "d/a.zip".toList (.ok [0]) = [.row 1, .row 2, .row 3] :=
  ⟨named_demo (ext := "zip".toList) (by decide), by decide +kernel⟩

/-- A format given in capitals with a dot, for a blob whose name has no extension. -/
example : Named "d/a.jsonl".toList ("JSONL".toList.map Char.toLower) ∧
    readBlob demoLib { overrideFormat := ".JSONL".toList } "d/a".toList (.ok [1, 10, 2]) = [.row 1, .row 2] :=
  ⟨named_demo (ext := "jsonl".toList) (by decide), by decide +kernel⟩

end Mabel.Blobs
