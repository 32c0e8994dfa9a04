import Verif.Lemmas.TextWrap
import Verif.Props.ErrorStack

/-!
# C113 Wrapping a text keeps what can be seen of it, in lines that are not too long

`wrapText k text width` is `wrap_text(text, width)`; `k` says what `\w` and `\d` of regular expressions are, and is any.
-/

namespace Mabel.TextWrap
open Mabel.Py Mabel.ErrorStack Mabel.TextWrap.Spec

variable {k : Classes}

/-! ## The lines of what comes out -/

/-- The lines that one line of the text becomes. -/
def para (k : Classes) (width : Int) (text : Str) : List Str :=
  if wrapGo width.toNat (splitChunks k (munge text)).flatten.length false (splitChunks k (munge text)) = [] then [[]]
  else wrapGo width.toNat (splitChunks k (munge text)).flatten.length false (splitChunks k (munge text))

theorem para_ne (width : Int) (text : Str) : para k width text ≠ [] := by
  unfold para
  split
  · simp
  · assumption

theorem fill_para {width : Int} (hw : 0 < width) (text : Str) : fill k width text = .ok (join ['\n'] (para k width text)) := by
  unfold fill wrap para
  rw [if_neg (by omega)]
  split
  · rename_i h; rw [h]; rfl
  · rfl

theorem para_newline (width : Int) (text : Str) : ∀ l ∈ para k width text, '\n' ∉ l := by
  intro l hl hm
  unfold para at hl
  split at hl
  · rw [List.mem_singleton.1 hl] at hm
    cases hm
  · have := wrapGo_mem _ _ _ l hl '\n' hm
    rw [splitChunks_flatten] at this
    exact absurd (munge_ws this (by decide)) (by decide)

theorem join_append (c : Str) {a b : List Str} (ha : a ≠ []) (hb : b ≠ []) : join c (a ++ b) = join c a ++ c ++ join c b := by
  induction a with
  | nil => exact absurd rfl ha
  | cons x a ih =>
    cases a with
    | nil =>
      cases b with
      | nil => exact absurd rfl hb
      | cons y b => rfl
    | cons y a =>
      have e1 : join c (x :: y :: a) = x ++ c ++ join c (y :: a) := rfl
      have e2 : join c (x :: y :: a ++ b) = x ++ c ++ join c (y :: a ++ b) := rfl
      rw [e1, e2, ih (by simp)]
      simp

theorem join_join (c : Str) {L : List (List Str)} (h : ∀ l ∈ L, l ≠ []) : join c (L.map (join c)) = join c L.flatten := by
  induction L with
  | nil => rfl
  | cons l L ih =>
    cases L with
    | nil => simp [join]
    | cons m L =>
      have hm := h m (by simp)
      have e1 : join c ((l :: m :: L).map (join c)) = join c l ++ c ++ join c ((m :: L).map (join c)) := rfl
      rw [e1, ih (fun x hx => h x (by simp [hx])), List.flatten_cons (l := l), join_append c (h l (by simp)) (by simp [hm])]

theorem mapM_map {f : Str → Except Err Str} {g : Str → Str} (l : List Str) (h : ∀ s ∈ l, f s = .ok (g s)) : l.mapM f = .ok (l.map g) := by
  induction l with
  | nil => rfl
  | cons a l ih =>
    rw [List.mapM_cons, h a (by simp), ih (fun s hs => h s (by simp [hs]))]
    rfl

/-- What comes out, and its lines. -/
theorem wrapText_lines {width : Int} (hw : 0 < width) (text : Str) :
    wrapText k text width = .ok (join ['\n'] ((splitlines text).flatMap (para k width))) ∧
    (text ≠ [] → split '\n' (join ['\n'] ((splitlines text).flatMap (para k width))) = (splitlines text).flatMap (para k width)) := by
  refine ⟨?_, ?_⟩
  · unfold wrapText
    rw [mapM_map (g := fun t => join ['\n'] (para k width t)) _ (fun s _ => fill_para hw s)]
    show Except.ok _ = _
    rw [List.flatMap_def, ← join_join ['\n'] (by
      intro l hl
      obtain ⟨t, -, rfl⟩ := List.mem_map.1 hl
      exact para_ne width t), List.map_map]
    rfl
  · intro hne
    refine split_join ?_ ?_
    · cases hs : splitlines text with
      | nil => exact absurd (splitlines_eq_nil.1 hs) hne
      | cons a l => simp [para_ne]
    · intro l hl
      obtain ⟨t, -, hl⟩ := List.mem_flatMap.1 hl
      exact para_newline width t l hl

/-! ## The property -/

/-- **C113**: with a width above zero every text is wrapped. -/
theorem C113_ends {width : Int} (hw : 0 < width) (text : Str) : ∃ out, wrapText k text width = .ok out :=
  ⟨_, (wrapText_lines hw text).1⟩

/-- **C113**: another width is refused, but for the empty text. -/
theorem C113_refused {width : Int} (hw : width ≤ 0) (text : Str) :
    wrapText k text width = if text = [] then .ok [] else .error .valueError := by
  unfold wrapText
  split
  · rename_i h
    rw [h, splitlines_eq_nil.2 rfl]
    rfl
  · rename_i h
    cases hs : splitlines text with
    | nil => exact absurd (splitlines_eq_nil.1 hs) h
    | cons a l =>
      rw [List.mapM_cons]
      have : fill k width a = .error .valueError := by
        unfold fill wrap
        rw [if_pos hw]
        rfl
      rw [this]
      rfl

theorem para_visible {width : Int} (hw : 0 < width) (text : Str) : (para k width text).flatten.filter visible = text.filter visible := by
  have h := wrapGo_visible (width := width.toNat) (by omega) _ false _ (splitChunks_ne (k := k) (munge text)) (Nat.le_refl _)
  rw [splitChunks_flatten] at h
  rw [← munge_visible text, ← h]
  unfold para
  rw [splitChunks_flatten]
  split
  · rename_i h0; rw [h0]; rfl
  · rfl

/-- **C113**: whatever the text and the width, what can be seen of the text comes out, in the same order, and nothing
else that can be seen. -/
theorem C113_keeps {width : Int} {text out : Str} (h : wrapText k text width = .ok out) : out.filter visible = text.filter visible := by
  by_cases hw : 0 < width
  · rw [(wrapText_lines hw text).1] at h
    obtain rfl := Except.ok.inj h
    rw [join_visible, ← splitlines_visible text]
    induction splitlines text with
    | nil => rfl
    | cons a l ih =>
      rw [List.flatMap_cons, List.flatten_append, List.filter_append, List.flatten_cons, List.filter_append, ih, para_visible hw]
  · rw [C113_refused (by omega)] at h
    split at h
    · rename_i h0
      obtain rfl := Except.ok.inj h
      rw [h0]
    · cases h

theorem para_length {width : Int} (hw : 0 < width) (text : Str) : ∀ l ∈ para k width text, (l.length : Int) ≤ width := by
  intro l hl
  unfold para at hl
  split at hl
  · rw [List.mem_singleton.1 hl]
    simp only [List.length_nil]
    omega
  · have := wrapGo_length _ _ _ l hl
    omega

/-- **C113**: no line that comes out is longer than the width. -/
theorem C113_fits {width : Int} (hw : 0 < width) {text out : Str} (h : wrapText k text width = .ok out) :
    ∀ l ∈ split '\n' out, (l.length : Int) ≤ width := by
  rw [(wrapText_lines hw text).1] at h
  obtain rfl := Except.ok.inj h
  intro l hl
  by_cases hne : text = []
  · subst hne
    rw [splitlines_eq_nil.2 rfl] at hl
    have : l = [] := by simpa [join, split] using hl
    rw [this]
    simp only [List.length_nil]
    omega
  · rw [(wrapText_lines hw text).2 hne] at hl
    obtain ⟨t, -, hl⟩ := List.mem_flatMap.1 hl
    exact para_length hw t l hl

/-- **C113**: a word that is no longer than a line is not broken. -/
theorem C113_words {width : Int} (hw : 0 < width) {text out w : Str} (hwd : Word w) (hl : (w.length : Int) ≤ width) (hs : StandsIn w text)
    (h : wrapText k text width = .ok out) : ∃ l ∈ split '\n' out, w <:+: l := by
  obtain ⟨a, b, rfl, ha, hb⟩ := hs
  have hv : ∀ c ∈ w, visible c = true := fun c hc => (hwd.2 c hc).1
  obtain ⟨a1, b1, hm, ha1, hb1⟩ := splitlinesGo_word hwd.1 hv hb a.length [] a (Nat.le_refl _) (by simpa using ha) (by simp)
  obtain ⟨a2, b2, he, ha2, hb2⟩ := munge_around hv ha1 hb1
  have hin : w ∈ splitChunks k (munge (a1 ++ w ++ b1)) := by
    rw [he]
    exact splitGo_word hwd.1 (fun c hc => ⟨not_isWs (hv c hc), (hwd.2 c hc).2⟩) hb2 _ [] a2 ha2 (Nat.le_refl _)
  have hbl : blank w = false := by
    by_contra hb
    obtain ⟨c, w', rfl⟩ := List.exists_cons_of_ne_nil hwd.1
    have := hv c (by simp)
    rw [(blank_iff _).1 (by simpa using hb) c (by simp)] at this
    cases this
  obtain ⟨l, hl1, hl2⟩ := wrapGo_whole (width := width.toNat) (by omega) hbl (by omega) _ false _ (splitChunks_ne _) (Nat.le_refl _) hin
  rw [(wrapText_lines hw _).1] at h
  obtain rfl := Except.ok.inj h
  rw [(wrapText_lines hw _).2 (by simp [hwd.1])]
  refine ⟨l, List.mem_flatMap.2 ⟨_, hm, ?_⟩, hl2⟩
  unfold para
  rw [if_neg (List.ne_nil_of_mem hl1)]
  exact hl1

theorem para_plain {width : Int} {l : Str} (h : Plain width l) : para k width l = [l] := by
  obtain ⟨h1, h2, h3⟩ := h
  unfold para
  rw [munge_plain h2, splitChunks_flatten]
  have hlast : ∀ c, (splitChunks k l).flatten.getLast? = some c → visible c = true := by
    rw [splitChunks_flatten]
    intro c hc
    rcases h2 c (List.mem_of_getLast? hc) with hv | rfl
    · exact hv
    · exact absurd hc h3
  cases l with
  | nil => rfl
  | cons x l =>
    have hg : wrapGo width.toNat (x :: l).length false (splitChunks k (x :: l)) = [x :: l] := by
      rw [wrapGo_short (by simp) (splitChunks_ne _) (by rw [splitChunks_flatten]; omega) hlast, splitChunks_flatten, if_neg]
      intro h0
      have := splitChunks_flatten (k := k) (x :: l)
      rw [h0] at this
      cases this
    rw [hg, if_neg (by simp)]

/-- **C113**: lines that are short enough, with no white space but blanks and none at the end, stay as they are (the last
one is not empty). -/
theorem C113_unchanged {width : Int} (hw : 0 < width) {ls : List Str} (hl : ∀ l ∈ ls, Plain width l) (hlast : ls.getLast? ≠ some []) :
    wrapText k (join ['\n'] ls) width = .ok (join ['\n'] ls) := by
  rw [(wrapText_lines hw _).1, splitlines_join ?_ hlast]
  · congr 2
    rw [List.flatMap_def, List.map_congr_left (g := fun l => [l]) (fun l h => para_plain (hl l h)), ← List.flatMap_def,
      List.flatMap_singleton']
  · intro l h c hc
    by_contra hb
    rcases (hl l h).2.1 c hc with hv | rfl
    · rw [isBreak_invisible (by simpa using hb)] at hv
      cases hv
    · exact hb (by decide)

/-- **C113**: a word longer than a line fills lines completely, but for the last. -/
theorem C113_long {width : Int} (hw : 0 < width) {w out : Str} (hwd : Word w) (h : wrapText k w width = .ok out) :
    (split '\n' out).flatten = w ∧ ∀ l ∈ (split '\n' out).dropLast, (l.length : Int) = width := by
  have hv : ∀ c ∈ w, visible c = true := fun c hc => (hwd.2 c hc).1
  rw [(wrapText_lines hw _).1] at h
  obtain rfl := Except.ok.inj h
  have hb : ∀ l ∈ [w], ∀ c ∈ l, isBreak c = false := by
    intro l hl c hc
    rw [List.mem_singleton.1 hl] at hc
    by_contra hb
    have := hv c hc
    rw [isBreak_invisible (by simpa using hb)] at this
    cases this
  have hsl : splitlines w = [w] := by
    have := splitlines_join hb (by simpa using hwd.1)
    simpa [join] using this
  have hch : splitChunks k (munge w) = [w] := by
    rw [munge_plain (fun c hc => Or.inl (hv c hc))]
    obtain ⟨x, w', rfl⟩ := List.exists_cons_of_ne_nil hwd.1
    have hx := hwd.2 x (by simp)
    have hat : chunkAt k [] (x :: w') = (x :: w', []) := by
      unfold chunkAt
      rw [if_neg (by simp [not_isWs hx.1]), if_neg (by simp)]
      have := scanWord_word (k := k) (b := []) hwd.1 (fun c hc => ⟨not_isWs (hv c hc), (hwd.2 c hc).2⟩) (by simp) []
      simpa using this
    unfold splitChunks
    rw [List.length_cons, splitGo, if_neg (by simp), hat]
    cases w' <;> simp [splitGo]
  have hp : para k width w = wrapGo width.toNat w.length false [w] := by
    unfold para
    rw [hch, List.flatten_singleton]
    rw [if_neg]
    intro h0
    have := (wrapGo_long (width := width.toNat) (by omega) w.length false w hwd (Nat.le_refl _)).1
    rw [h0] at this
    exact hwd.1 this.symm
  rw [(wrapText_lines hw _).2 hwd.1, hsl, List.flatMap_cons, List.flatMap_nil, List.append_nil, hp]
  obtain ⟨h1, h2⟩ := wrapGo_long (width := width.toNat) (by omega) w.length false w hwd (Nat.le_refl _)
  refine ⟨h1, fun l hl => ?_⟩
  rw [h2 l hl]
  omega

/-- **C113**: of a text that is one line the lines but the first begin with something to be seen. -/
theorem C113_begin {width : Int} (hw : 0 < width) {text out : Str} (ht : ∀ c ∈ text, visible c = true ∨ c = ' ' ∨ c = '\t')
    (h : wrapText k text width = .ok out) : ∀ l ∈ (split '\n' out).drop 1, ∃ c, l.head? = some c ∧ visible c = true := by
  rw [(wrapText_lines hw _).1] at h
  obtain rfl := Except.ok.inj h
  by_cases hne : text = []
  · subst hne
    rw [splitlines_eq_nil.2 rfl]
    intro l hl
    simp [join, split] at hl
  · have hsl : splitlines text = [text] := by
      have := splitlines_join (ls := [text]) (by
        intro l hl c hc
        rw [List.mem_singleton.1 hl] at hc
        by_contra hb
        rcases ht c hc with hv | rfl | rfl
        · rw [isBreak_invisible (by simpa using hb)] at hv
          cases hv
        · exact hb (by decide)
        · exact hb (by decide)) (by simpa using hne)
      simpa [join] using this
    have hmunge : ∀ c ∈ munge text, visible c = true ∨ c = ' ' := by
      have hexp : ∀ (s : Str) (col : Nat), (∀ c ∈ s, visible c = true ∨ c = ' ' ∨ c = '\t') →
          ∀ c ∈ expandTabs col s, visible c = true ∨ c = ' ' := by
        intro s
        induction s with
        | nil => intro _ _ c hc; cases hc
        | cons d s ih =>
          intro col hs c hc
          have hd := hs d (by simp)
          have hs' := fun c hc => hs c (List.mem_cons_of_mem _ hc)
          rw [expandTabs] at hc
          split at hc
          · rcases List.mem_append.1 hc with hc | hc
            · exact Or.inr (List.eq_of_mem_replicate hc)
            · exact ih _ hs' c hc
          · rename_i hnt
            split at hc
            · rename_i hnl
              rcases hnl with rfl | rfl <;> exact absurd hd (by decide)
            · rcases List.mem_cons.1 hc with rfl | hc
              · rcases hd with hd | hd | hd
                · exact Or.inl hd
                · exact Or.inr hd
                · exact absurd hd hnt
              · exact ih _ hs' c hc
      intro c hc
      obtain ⟨d, hd, rfl⟩ := List.mem_map.1 hc
      split
      · exact Or.inr rfl
      · exact hexp text 0 ht d hd
    rw [(wrapText_lines hw _).2 hne, hsl, List.flatMap_cons, List.flatMap_nil, List.append_nil]
    intro l hl
    unfold para at hl
    split at hl
    · simp at hl
    · refine wrapGo_head (width := width.toNat) (by omega) _ false _ ?_ l hl
      exact ⟨splitChunks_ne _, splitGo_uniform _ _ _, splitGo_alternate _ _ _, by rw [splitChunks_flatten]; exact hmunge⟩

/-! ## What is not so -/

/-- ASCII's letters, digits and the underscore, and its digits. -/
def ascii : Classes := ⟨fun c => c.isAlphanum || c = '_', Char.isDigit⟩

/-- **C113** (fails): a line may end with a blank, if a word longer than a line comes next; wrapping what came out once
more then changes it. -/
theorem C113_again_fails : wrapText ascii "aaa bbbbbb".toList 4 = .ok "aaa \nbbbb\nbb".toList ∧
    wrapText ascii "aaa \nbbbb\nbb".toList 4 = .ok "aaa\nbbbb\nbb".toList := by
  decide +kernel

/-- **C113** (fails): the end of the last line is lost. -/
theorem C113_last_feed_fails : wrapText ascii "a\n\nb\n".toList 4 = .ok "a\n\nb".toList := by decide +kernel

/-- **C113** (fails): a word next to a blank that is not of ASCII can be broken although it is short. -/
theorem C113_wide_blank_fails : wrapText ascii "aa\u00a0bbb".toList 4 = .ok "aa\u00a0b\nbb".toList := by decide +kernel

/-! ## The error that is being handled -/

/-- **C113**: what rendering an error asks of `textwrap.fill` is so. -/
theorem C113_fills {lib : Lib} (h : ∀ s, fill k 120 s = .ok (lib.fill s)) : Fills lib := by
  have hf : ∀ s, lib.fill s = join ['\n'] (para k 120 s) := fun s => by
    have := h s
    rw [fill_para (by decide)] at this
    exact (Except.ok.inj this).symm
  refine ⟨fun s => ?_, fun s l hl => ?_⟩
  · rw [hf, join_visible, para_visible (by decide)]
  · rw [hf, split_join (para_ne _ _) (para_newline _ _)] at hl
    have := para_length (by decide) s l hl
    omega

/-- **C93**: what is rendered of an error, with the library's `textwrap.fill` as modelled. -/
theorem C113_error_partial {lib : Lib} {h : Heap} {i : Nat} {l : List Nat} (hs : Story h i l) (ht : Texts h l)
    (ha : Absolute lib) (hf : ∀ s, fill k 120 s = .ok (lib.fill s)) {rounds : Nat} (hr : l.length ≤ rounds) :
    ∃ text blocks, render lib h rounds (some i) = some (.ok text) ∧
      List.Forall₂ (Shows lib) (l.flatMap (placesOf h)) blocks ∧
      text.filter visible = blocks.flatten.flatten.filter visible ∧
      ∀ line ∈ split '\n' text, line.length ≤ 120 :=
  C93_text_partial hs ht ha (C113_fills hf) hr

/-! ## Non-vacuity -/

/-- A text of three lines, with a tab, words longer than a line and hyphens. -/
def sample : Str := "The quick\tbrown fox-trot\n\n  unbelievablylong words--here".toList

example : wrapText ascii sample 9 = .ok "The quick\nbrown\nfox-trot\n\n  unbelie\nvablylong\nwords--\nhere".toList := by decide +kernel

example : Word "quick".toList ∧ StandsIn "quick".toList sample ∧ StandsIn "words".toList "in words\tonly".toList :=
  ⟨⟨by decide, by decide⟩, ⟨"The ".toList, "\tbrown fox-trot\n\n  unbelievablylong words--here".toList, by decide, by decide, by decide⟩,
    ⟨"in ".toList, "\tonly".toList, by decide, by decide, by decide⟩⟩

example : (∀ l ∈ ["one two".toList, [], "  three".toList], Plain 7 l) ∧ wrapText ascii "one two\n\n  three".toList 7 = .ok "one two\n\n  three".toList := by
  refine ⟨?_, by decide +kernel⟩
  intro l hl
  simp only [List.mem_cons, List.not_mem_nil, or_false] at hl
  rcases hl with rfl | rfl | rfl <;> exact ⟨by decide, by decide, by decide⟩

example : Word "abcdefghij".toList ∧ wrapText ascii "abcdefghij".toList 4 = .ok "abcd\nefgh\nij".toList := ⟨⟨by decide, by decide⟩, by decide +kernel⟩

example : (∀ c ∈ "a  bb ccc".toList, visible c = true ∨ c = ' ' ∨ c = '\t') ∧ wrapText ascii "a  bb ccc".toList 3 = .ok "a\nbb\nccc".toList := by
  decide +kernel

example : wrapText ascii "ab".toList 0 = .error .valueError ∧ wrapText ascii [] 0 = .ok [] := by decide +kernel

example : Absolute { smallLib with fill := fun s => join ['\n'] (para ascii 120 s) } ∧
    ∀ s, fill ascii 120 s = .ok (join ['\n'] (para ascii 120 s)) := ⟨smallLib_absolute, fun s => fill_para (by decide) s⟩

end Mabel.TextWrap
