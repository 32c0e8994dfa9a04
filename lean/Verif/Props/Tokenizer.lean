import Mathlib.Data.List.Forall2
import Verif.Lemmas.Rows
import Verif.Props.Expression

/-! # Splitting statements into tokens (C64) -/

namespace Mabel.Tokenizer
open Mabel.Py Mabel.Dates Mabel.Tokens Mabel.Tokenizer.Spec
open Mabel.Expression.Spec (quote Sane Name Written)
open Mabel.Expression (of_ascii label_quote label_name label_int label_keyword label_quotedName upper_ascii)

variable {re : Re} {lex : Lex}

def visible (s : Str) : Str := s.filter (fun c => !isSpace c)

/-! ## Splitting loses nothing -/

/-- **C64**: the pieces into which a statement is cut are the statement. -/
theorem C64_split (re : Re) (text : Str) : (reSplit re keywords text).flatten = text := by
  rw [reSplit_scan, scan_flatten keywords_solid _ _ _ _ (Nat.le_refl _)]
  rfl

theorem visible_append (a b : Str) : visible (a ++ b) = visible a ++ visible b := List.filter_append ..

theorem visible_blank {s : Str} (h : Blank s) : visible s = [] := by
  unfold visible
  rw [List.filter_eq_nil_iff]
  intro c hc
  rw [h c hc]
  simp

theorem visible_collapse (s : Str) : visible (collapse s) = visible s := by
  induction s with
  | nil => rfl
  | cons c s ih =>
    rw [collapse]
    split
    · rename_i hc
      have hv : visible (c :: s) = visible s := by
        unfold visible
        rw [List.filter_cons_of_neg (by rw [hc]; simp)]
      rw [hv, ← ih]
      split
      · rename_i r hr
        rw [hr]
      · unfold visible
        rw [List.filter_cons_of_neg (by decide)]
    · rename_i hc
      have hc : isSpace c = false := by simpa using hc
      unfold visible at ih ⊢
      rw [List.filter_cons_of_pos (by rw [hc]; rfl), List.filter_cons_of_pos (by rw [hc]; rfl), ih]

theorem visible_dropWhile (s : Str) : visible (s.dropWhile isSpace) = visible s := by
  induction s with
  | nil => rfl
  | cons c s ih =>
    rw [List.dropWhile_cons]
    split
    · rename_i hc
      rw [ih]
      unfold visible
      rw [List.filter_cons_of_neg (by rw [hc]; simp)]
    · rfl

theorem visible_strip (s : Str) : visible (strip s) = visible s := by
  have hrev : ∀ x : Str, visible x.reverse = (visible x).reverse := fun x => List.filter_reverse ..
  unfold strip
  rw [hrev, visible_dropWhile, hrev, List.reverse_reverse, visible_dropWhile]

theorem visible_clean (s : Str) : visible (clean s) = visible s := by
  unfold clean
  rw [visible_strip, visible_collapse]

theorem visible_flatten (l : List Str) : visible l.flatten = (l.map visible).flatten := by
  induction l with
  | nil => rfl
  | cons x l ih => rw [List.flatten_cons, visible_append, ih]; rfl

theorem visible_strips (l : List Str) : visible (((l.map strip).filter (· ≠ [])).flatten) = visible l.flatten := by
  induction l with
  | nil => rfl
  | cons x l ih =>
    rw [List.map_cons, List.flatten_cons, visible_append]
    by_cases hx : strip x = []
    · rw [List.filter_cons_of_neg (by simpa using hx), ih, ← visible_strip x, hx]
      rfl
    · rw [List.filter_cons_of_pos (by simpa using hx), List.flatten_cons, visible_append, visible_strip, ih]

/-- No quotes: every piece that is not blank is kept. -/
theorem fix_plain (ps : List Str) (h : ∀ x ∈ ps, ∀ c ∈ x, isQuote c = false) :
    ∃ l, fixGo [] none ps = .ok l ∧ visible l.flatten = visible ps.flatten := by
  induction ps with
  | nil => exact ⟨[], rfl, rfl⟩
  | cons x ps ih =>
    obtain ⟨l, h1, h2⟩ := ih (fun y hy => h y (List.mem_cons_of_mem _ hy))
    rw [fixGo]
    cases hx : strip x with
    | nil =>
      refine ⟨l, h1, ?_⟩
      rw [List.flatten_cons, visible_append, visible_blank (strip_nil_blank hx), h2]
      rfl
    | cons f r =>
      have hf : isQuote f = false := h x (List.mem_cons_self ..) f (strip_mem (by rw [hx]; exact List.mem_cons_self ..))
      refine ⟨x :: l, ?_, by rw [List.flatten_cons, List.flatten_cons, visible_append, visible_append, h2]⟩
      simp only
      rw [if_pos ⟨trivial, hf⟩, h1]
      rfl

theorem mem_collapse {s : Str} {c : Char} (h : c ∈ collapse s) : c ∈ s ∨ c = ' ' := by
  induction s with
  | nil => cases h
  | cons d s ih =>
    rw [collapse] at h
    have key : c ∈ collapse s → c ∈ d :: s ∨ c = ' ' := fun h => (ih h).imp (List.mem_cons_of_mem _) id
    split at h
    · split at h
      · rename_i r hr
        rw [← hr] at h
        exact key h
      · rcases List.mem_cons.1 h with rfl | h
        · exact Or.inr rfl
        · exact key h
    · rcases List.mem_cons.1 h with rfl | h
      · exact Or.inl (List.mem_cons_self ..)
      · exact key h

theorem pieces_mem {s x : Str} {c : Char} (hx : x ∈ reSplit re keywords s) (hc : c ∈ x) : c ∈ s := by
  rw [← C64_split re s]
  exact List.mem_flatten.2 ⟨x, hx, hc⟩

theorem quote_iff (c : Char) : isQuote c = true ↔ c = '"' ∨ c = '\'' ∨ c = '`' := by
  unfold isQuote
  simp [or_assoc]

theorem not_quote {s : Str} (h : ∀ c ∈ s, c ≠ '"' ∧ c ≠ '\'' ∧ c ≠ '`') : ∀ c ∈ s, isQuote c = false := by
  intro c hc
  rw [Bool.eq_false_iff]
  intro e
  obtain ⟨h1, h2, h3⟩ := h c hc
  rcases (quote_iff c).1 e with e | e | e
  · exact h1 e
  · exact h2 e
  · exact h3 e

theorem caseCorrect_cases (lex : Lex) (t : Str) : caseCorrect lex t = t ∨ caseCorrect lex t = lex.upper t := by
  unfold caseCorrect
  split
  · exact Or.inl rfl
  · exact Or.inr rfl

/-- **C64**: a statement without quotes is always split, and apart from the case of letters no character but white space
is lost or moved: the tokens are parts of the statement, in order, as they are or in capitals. -/
theorem C64_no_quotes (re : Re) (lex : Lex) (text : Str) (h : ∀ c ∈ text, c ≠ '"' ∧ c ≠ '\'' ∧ c ≠ '`') :
    ∃ raw tokens : List Str, tokenize re lex text = .ok tokens ∧ List.Forall₂ (fun t u => u = t ∨ u = lex.upper t) raw tokens ∧
      visible raw.flatten = visible text ∧ ∀ t ∈ raw, t ≠ [] ∧ strip t = t := by
  have h := not_quote h
  suffices hs : ∃ raw : List Str, tokenize re lex text = .ok (raw.map (caseCorrect lex)) ∧ visible raw.flatten = visible text ∧
      ∀ t ∈ raw, t ≠ [] ∧ strip t = t by
    obtain ⟨raw, h1, h2, h3⟩ := hs
    refine ⟨raw, _, h1, ?_, h2, h3⟩
    rw [List.forall₂_map_right_iff, List.forall₂_same]
    exact fun t _ => caseCorrect_cases lex t
  obtain ⟨l, h1, h2⟩ := fix_plain (reSplit re keywords (clean text)) (fun x hx c hc => by
    have hc := pieces_mem hx hc
    rcases mem_collapse (strip_mem hc) with hc | rfl
    · exact h c hc
    · decide)
  refine ⟨(l.map strip).filter (· ≠ []), ?_, ?_, ?_⟩
  · unfold tokenize fixSpecial
    rw [h1]
    rfl
  · rw [visible_strips, h2, C64_split, visible_clean]
  · intro t ht
    obtain ⟨ht, hn⟩ := List.mem_filter.1 ht
    obtain ⟨x, _, rfl⟩ := List.mem_map.1 ht
    exact ⟨by simpa using hn, strip_strip x⟩

/-! ## Statements never fail to split -/

theorem fix_ok (builder : Str) (looking : Option Char) (ps : List Str) : ∃ l, fixGo builder looking ps = .ok l := by
  induction ps generalizing builder looking with
  | nil => exact ⟨[], rfl⟩
  | cons x ps ih =>
    rw [fixGo]
    cases hx : strip x with
    | nil => exact ih _ _
    | cons f r =>
      simp only
      have add : ∀ b k y, ∃ l, (do .ok (y :: (← fixGo b k ps)) : Except Err (List Str)) = .ok l := by
        intro b k y
        obtain ⟨l, hl⟩ := ih b k
        rw [hl]
        exact ⟨_, rfl⟩
      split
      · exact add _ _ _
      · rename_i h1
        split
        · exact add _ _ _
        · rename_i h2
          split
          · exact add _ _ _
          · split
            · exact ih _ _
            · rename_i h4
              split
              · exact ih _ _
              · rename_i h5
                exfalso
                have hl : looking = none := by simpa using h5
                have hq : isQuote f = true := by
                  by_contra hq
                  exact h1 ⟨hl, by simpa using hq⟩
                apply h4
                refine ⟨hq, ?_⟩
                by_contra hn
                simp only [not_or, ne_eq, not_not] at hn
                apply h2
                refine ⟨hq, hn.1, ?_⟩
                have := hn.2
                simp only [List.length_cons] at this ⊢
                omega

/-- **C64**: no statement is refused; the error for a missing closing quote is never raised. -/
theorem C64_never_raises (re : Re) (lex : Lex) (text : Str) : ∃ tokens, tokenize re lex text = .ok tokens := by
  obtain ⟨l, hl⟩ := fix_ok [] none (reSplit re keywords (clean text))
  unfold tokenize fixSpecial
  rw [hl]
  exact ⟨_, rfl⟩

/-! ## Statements that are rows of lexemes -/

theorem filter_flatten (l : List Str) : visible ((l.filter (fun x => strip x ≠ [])).flatten) = visible l.flatten := by
  induction l with
  | nil => rfl
  | cons x l ih =>
    rw [List.flatten_cons, visible_append]
    by_cases hx : strip x = []
    · rw [List.filter_cons_of_neg (by simpa using hx), ih, visible_blank (strip_nil_blank hx)]
      rfl
    · rw [List.filter_cons_of_pos (by simpa using hx), List.flatten_cons, visible_append, ih]

theorem kept_visible (re : Re) (l : Lexeme) : visible (l.kept re) = visible l.text := by
  cases l with
  | key k => rfl
  | word w => rfl
  | quoted q body =>
    show visible ((List.filter _ _).flatten) = _
    rw [filter_flatten, C64_split]
    rfl

theorem row_visible {a : Lexeme} {ls : List Lexeme} {t : Str} (h : Row re a ls t) :
    visible t = visible (ls.map (fun l => l.collapsed.kept re)).flatten := by
  induction h with
  | nil => rfl
  | @cons a b ls sep t hsep hf hb ht ih =>
    rw [visible_append, visible_append, visible_blank hsep, ih, List.map_cons, List.flatten_cons, visible_append, kept_visible,
      collapsed_text b hb, visible_collapse]
    rfl

/-- **C64**: a statement written as a row of keywords, names, numbers and quoted texts becomes as many tokens, and apart
from the case of letters no character but white space is lost or moved. -/
theorem C64_rows (hre : SaneRe re) (lex : Lex) (ls : List Lexeme) (text : Str) (h : Laid re ls text) :
    ∃ raw : List Str, tokenize re lex text = .ok (raw.map (caseCorrect lex)) ∧ raw.length = ls.length ∧
      (∀ i (hi : i < ls.length), visible (raw[i]?.getD []) = visible ls[i].text) ∧ visible raw.flatten = visible text := by
  refine ⟨ls.map (fun l => l.collapsed.kept re), ?_, List.length_map _, ?_, ?_⟩
  · rw [laid_tokens hre lex h, List.map_map]
    rfl
  · have hg : ∀ b ∈ ls, b.collapsed.Good re := by
      cases h with
      | @mk a ls lead trail t hl ht ha hr =>
        have : ∀ {a : Lexeme} {ls t}, Row re a ls t → ∀ b ∈ ls, b.collapsed.Good re := by
          intro a ls t h
          induction h with
          | nil => intro b hb; cases hb
          | cons _ _ hb _ ih =>
            intro x hx
            rcases List.mem_cons.1 hx with rfl | hx
            · exact hb
            · exact ih x hx
        intro b hb
        rcases List.mem_cons.1 hb with rfl | hb
        · exact ha
        · exact this hr b hb
    intro i hi
    rw [List.getElem?_map, List.getElem?_eq_getElem hi]
    show visible (ls[i].collapsed.kept re) = _
    rw [kept_visible, collapsed_text _ (hg _ (List.getElem_mem hi)), visible_collapse]
  · cases h with
    | @mk a ls lead trail t hl ht ha hr =>
      rw [visible_append, visible_append, visible_append, visible_blank hl, visible_blank ht, row_visible hr, List.map_cons,
        List.flatten_cons, visible_append, kept_visible, collapsed_text a ha, visible_collapse]
      simp

/-! ## The tokens -/

theorem core_upper (token u : Str) (f w : Bool) (h1 : wrapped '`' token = false) (h2 : wrapped '"' token = false)
    (h3 : wrapped '\'' token = false)
    (hu : u ∈ functions ++ aggregators ++ Tokens.operators.map (·.1) ++
      ["TRUE", "FALSE", "NULL", "NONE", "AND", "OR", "NOT", "AS"].map String.toList ∨ token ∈ punctuation) :
    Mabel.Expression.core token u f w ≠ .literal ∧ Mabel.Expression.core token u f w ≠ .variable := by
  have lk : ∀ l : List (Str × Tokens.Op), (l.lookup u).isSome = true ∨ u ∉ l.map (·.1) := by
    intro l
    induction l with
    | nil => exact Or.inr (by simp)
    | cons a l ih =>
      rw [List.lookup_cons]
      split
      · exact Or.inl rfl
      · rename_i hne
        rcases ih with h | h
        · exact Or.inl h
        · right
          rw [List.map_cons, List.mem_cons, not_or]
          exact ⟨fun he => by rw [he] at hne; simp at hne, h⟩
  unfold Mabel.Expression.core
  rw [h1, h2, h3]
  by_cases h0 : token = []
  · rw [if_pos h0]
    decide
  rw [if_neg h0]
  rw [if_neg (by decide)]
  by_cases hs : token = "*".toList
  · rw [if_pos hs]
    decide
  rw [if_neg hs]
  by_cases hf : u ∈ functions
  · rw [if_pos hf]
    decide
  rw [if_neg hf]
  by_cases ho : (Tokens.operators.lookup u).isSome = true
  · rw [if_pos ho]
    decide
  rw [if_neg ho]
  by_cases ha : u ∈ aggregators
  · rw [if_pos ha]
    decide
  rw [if_neg ha]
  rw [if_neg (by decide)]
  by_cases hi : (pyInt token).isOk = true
  · rw [if_pos hi]
    decide
  rw [if_neg hi]
  by_cases hfl : f = true
  · rw [if_pos hfl]
    decide
  rw [if_neg hfl]
  by_cases hl : token = "(".toList ∨ token = "[".toList
  · rw [if_pos hl]
    decide
  rw [if_neg hl]
  by_cases hr : token = ")".toList ∨ token = "]".toList
  · rw [if_pos hr]
    decide
  rw [if_neg hr]
  by_cases hc : token = ",".toList
  · rw [if_pos hc]
    decide
  rw [if_neg hc]
  have hp : token ∉ punctuation := by
    rw [symbols_chars.2]
    simp only [List.mem_cons, List.not_mem_nil, or_false, not_or]
    exact ⟨fun h => hl (Or.inl h), fun h => hr (Or.inl h), fun h => hl (Or.inr h), fun h => hr (Or.inr h), hc, hs⟩
  have hu := hu.resolve_right hp
  rw [List.mem_append, List.mem_append, List.mem_append] at hu
  have hu : u ∈ ["TRUE", "FALSE", "NULL", "NONE", "AND", "OR", "NOT", "AS"].map String.toList := by
    rcases hu with ((h | h) | h) | h
    · exact absurd h hf
    · exact absurd h ha
    · rcases lk Tokens.operators with h' | h'
      · exact absurd h' ho
      · exact absurd h h'
    · exact h
  by_cases hw : w = true
  · rw [if_pos hw]
    simp only [List.map_cons, List.map_nil, List.mem_cons, List.not_mem_nil, or_false] at hu
    rcases hu with rfl | rfl | rfl | rfl | rfl | rfl | rfl | rfl <;> decide
  · rw [if_neg hw]
    decide

theorem not_wrapped {q c : Char} {cs : Str} (h : c ≠ q) : wrapped q (c :: cs) = false := by
  unfold wrapped
  rw [List.head?_cons]
  simp [h]

theorem capitals_ascii {k : Str} (h : ∀ c ∈ capitals k, c.toNat < 128) : ∀ c ∈ k, c.toNat < 128 := by
  intro c hc
  have h1 := h c.toUpper (List.mem_map_of_mem hc)
  by_contra hn
  rw [toUpper_big c hn] at h1
  exact hn h1

/-- Keywords become capitals. -/
theorem key_token (hs : Sane lex) (k : Str) (hk : (Lexeme.key k).Good re) :
    caseCorrect lex k = if capitals k ∈ statementKeys then k else capitals k := by
  obtain ⟨c, cs, d, e1, e2, e3, e4, e5, e6, e7⟩ := key_chars k hk
  have hst : strip k = k := strip_self ⟨c, cs, e1, e5⟩ ⟨d, e2, e6⟩
  have hall : ∀ K ∈ wordKeys ++ pairKeys ++ symbolKeys ++ punctuation, ∀ c ∈ K, c.toNat < 128 := by decide +kernel
  have hk' : capitals k ∈ wordKeys ++ pairKeys ++ symbolKeys ++ punctuation := by
    simp only [List.mem_append]
    rcases hk with h | h | h | h
    · exact Or.inl (Or.inl (Or.inl h))
    · exact Or.inl (Or.inl (Or.inr h))
    · exact Or.inl (Or.inr h)
    · exact Or.inr h
  have hascii := capitals_ascii (hall _ hk')
  have hup : lex.upper k = capitals k := upper_ascii hs k hascii
  unfold caseCorrect
  by_cases hS : capitals k ∈ statementKeys
  · rw [if_pos hS, if_pos]
    right
    apply label_name hs
    have hW : capitals k ∈ wordKeys := by
      have : ∀ K ∈ statementKeys, K ∈ wordKeys := by decide +kernel
      exact this _ hS
    have hw := wordChars_of (wordKeys_caps _ hW).1
    refine ⟨⟨c, cs, e1, ?_⟩, ?_, ?_⟩
    · have : ∀ K ∈ statementKeys, ∀ x, K.head? = some x → x.isAlpha = true := by decide +kernel
      have hc := this _ hS c.toUpper (by rw [e1]; rfl)
      rw [of_ascii (P := fun c => c.toUpper.isAlpha = true → c.isAlpha = true) (by decide +kernel) c e3 hc]
      rfl
    · intro x hx
      have := hw x hx
      unfold isWordChar at this
      rw [this]
      rfl
    · have : ∀ K ∈ statementKeys, K ∉ Mabel.Expression.Spec.reserved := by decide +kernel
      exact this _ hS
  · rw [if_neg hS, if_neg, hup]
    have hq : c ≠ '`' ∧ c ≠ '"' ∧ c ≠ '\'' := by
      refine ⟨?_, ?_, ?_⟩ <;> (rintro rfl; cases e7)
    have hne := core_upper k (capitals k) (lex.float k).isSome (lex.wordStart (k.headD ' ')) (by rw [e1]; exact not_wrapped hq.1)
      (by rw [e1]; exact not_wrapped hq.2.1) (by rw [e1]; exact not_wrapped hq.2.2) (by
        by_cases hp : capitals k ∈ punctuation
        · right
          have := symbols_capitals k _ (symbols_ascii _ (List.mem_append_right _ hp)) rfl
          rw [this]
          exact hp
        · left
          have : ∀ K ∈ wordKeys ++ pairKeys ++ symbolKeys ++ punctuation, K ∉ statementKeys → K ∉ punctuation →
              K ∈ functions ++ aggregators ++ Tokens.operators.map (·.1) ++
                ["TRUE", "FALSE", "NULL", "NONE", "AND", "OR", "NOT", "AS"].map String.toList := by decide +kernel
          exact this _ hk' hS hp)
    rw [Mabel.Expression.label_core, hst, hup]
    rintro (h | h)
    · exact hne.1 h
    · exact hne.2 h

theorem word_token (hs : Sane lex) (w : Str) (hn : w ≠ []) (hall : ∀ c ∈ w, wordish c = true) (h : (Lexeme.word w).Simple re) :
    caseCorrect lex w = (Lexeme.word w).token := by
  show caseCorrect lex w =
    if capitals w ∈ ["TRUE", "FALSE", "NULL", "NONE", "AS"].map String.toList then capitals w else w
  unfold caseCorrect
  rcases h with h | ⟨i, rfl⟩ | h
  · rw [if_pos (Or.inr (label_name hs w h)), if_neg]
    intro hc
    apply h.2.2
    have : ∀ K ∈ ["TRUE", "FALSE", "NULL", "NONE", "AS"].map String.toList, K ∈ Mabel.Expression.Spec.reserved := by decide +kernel
    exact this _ hc
  · rw [label_int hs, if_neg (by decide), Mabel.Expression.intStr_upper hs, if_neg]
    intro hc
    have hcap : capitals (intStr i) = intStr i := by
      rw [← Mabel.Expression.intStr_upper hs i]
      conv => lhs; rw [Mabel.Expression.intStr_upper hs i]
      exact (upper_ascii hs _ (fun c hc => wordish_ascii (hall c hc))).symm
    rw [hcap] at hc
    have hne : ∀ K ∈ ["TRUE", "FALSE", "NULL", "NONE", "AS"].map String.toList, pyInt K = .error .valueError := by
      intro K hK
      simp only [List.map_cons, List.map_nil, List.mem_cons, List.not_mem_nil, or_false] at hK
      rcases hK with rfl | rfl | rfl | rfl | rfl <;> rfl
    have := hne _ hc
    rw [Mabel.Expression.pyInt_intStr] at this
    cases this
  · rw [if_pos h, if_neg, upper_ascii hs w (fun c hc => wordish_ascii (hall c hc))]
    · rfl
    · cases w with
      | nil => exact absurd rfl hn
      | cons c cs =>
        have hcw := hall c (List.mem_cons_self ..)
        have hq : c ≠ '`' ∧ c ≠ '"' ∧ c ≠ '\'' := by
          refine ⟨?_, ?_, ?_⟩ <;> (rintro rfl; cases hcw)
        have hne := core_upper (c :: cs) (capitals (c :: cs)) (lex.float (c :: cs)).isSome (lex.wordStart ((c :: cs).headD ' '))
          (not_wrapped hq.1) (not_wrapped hq.2.1) (not_wrapped hq.2.2) (Or.inl (by
            rw [List.mem_append]
            right
            have : ∀ K ∈ ["TRUE", "FALSE", "NULL", "NONE", "AS"].map String.toList,
              K ∈ ["TRUE", "FALSE", "NULL", "NONE", "AND", "OR", "NOT", "AS"].map String.toList := by decide +kernel
            exact this _ h))
        have hst : strip (c :: cs) = c :: cs := by
          apply Mabel.Expression.strip_ends
          · intro d hd
            exact of_ascii (P := fun c => wordish c = true → isSpace c = false) (by decide +kernel) d
              (wordish_ascii (hall d (by cases hd; exact List.mem_cons_self ..))) (hall d (by cases hd; exact List.mem_cons_self ..))
          · intro d hd
            have hm := List.mem_of_getLast? hd
            exact of_ascii (P := fun c => wordish c = true → isSpace c = false) (by decide +kernel) d
              (wordish_ascii (hall d hm)) (hall d hm)
        rw [Mabel.Expression.label_core, hst, upper_ascii hs _ (fun c hc => wordish_ascii (hall c hc))]
        rintro (h | h)
        · exact hne.1 h
        · exact hne.2 h

theorem kept_exact (q : Char) (body : Str) (h : ∀ x ∈ reSplit re keywords (quote q body), strip x = [] → x = []) :
    (Lexeme.quoted q body).kept re = quote q body := by
  show ((reSplit re keywords (quote q body)).filter _).flatten = _
  conv => rhs; rw [← C64_split re (quote q body)]
  generalize reSplit re keywords (quote q body) = l at h
  induction l with
  | nil => rfl
  | cons x l ih =>
    have ih := ih (fun y hy => h y (List.mem_cons_of_mem _ hy))
    by_cases hx : strip x = []
    · rw [List.filter_cons_of_neg (by simpa using hx), ih, List.flatten_cons, h x (List.mem_cons_self ..) hx, List.nil_append]
    · rw [List.filter_cons_of_pos (by simpa using hx), List.flatten_cons, List.flatten_cons, ih]

theorem collapse_none (s : Str) (h : ∀ c ∈ s, isSpace c = false) : collapse s = s := by
  induction s with
  | nil => rfl
  | cons c s ih =>
    rw [collapse_cons _ _ (h c (List.mem_cons_self ..)), ih (fun d hd => h d (List.mem_cons_of_mem _ hd))]

theorem mem_collapse_of {s : Str} {c : Char} (hc : c ∈ s) (hs : isSpace c = false) : c ∈ collapse s := by
  have : c ∈ visible (collapse s) := by
    rw [visible_collapse]
    exact List.mem_filter.2 ⟨hc, by rw [hs]; rfl⟩
  exact (List.mem_filter.1 this).1

theorem space_collapse {s : Str} {c : Char} (hc : c ∈ s) (hs : isSpace c = true) : ' ' ∈ collapse s := by
  obtain ⟨a, b, rfl⟩ := List.append_of_mem hc
  clear hc
  induction a with
  | nil =>
    obtain ⟨r, hr⟩ := collapse_space c b hs
    rw [List.nil_append, hr]
    exact List.mem_cons_self ..
  | cons d a ih =>
    rw [List.cons_append, collapse]
    split
    · split
      · exact List.mem_cons_self ..
      · exact List.mem_cons_self ..
    · exact List.mem_cons_of_mem _ ih

theorem lexeme_token (hs : Sane lex) (l : Lexeme) (hg : l.collapsed.Good re) (h : l.Simple re) :
    caseCorrect lex (l.collapsed.kept re) = l.token := by
  cases l with
  | key k => exact key_token hs _ hg
  | word w =>
    have hw : ∀ c ∈ w, isSpace c = false := by
      intro c hc
      by_contra hn
      have := hg.2.1 ' ' (space_collapse hc (by simpa using hn))
      cases this
    show caseCorrect lex (collapse w) = _
    have hg' : (Lexeme.word (collapse w)).Good re := hg
    rw [collapse_none w hw] at hg' ⊢
    exact word_token hs w hg'.1 hg'.2.1 h
  | quoted q body =>
    show caseCorrect lex ((Lexeme.quoted q (collapse body)).kept re) = quote q body
    rw [h.2.1, kept_exact q body h.2.2]
    unfold caseCorrect
    rw [if_pos]
    have hq : isQuote q = true := hg.1
    unfold isQuote at hq
    simp only [Bool.or_eq_true, beq_iff_eq] at hq
    rcases hq with hq | hq
    · left
      rw [label_quote hs q body hq]
      rcases h.1 with rfl | h
      · rcases hq with h | h <;> cases h
      · rw [h]
        rfl
    · right
      rw [hq]
      exact label_quotedName lex body

/-- A quoted text without quotes inside is put together again, whatever keywords it contains. -/
theorem whole_plain (hre : SaneRe re) (q : Char) (hq : isQuote q = true) (body : Str) (hb : ∀ c ∈ body, isQuote c = false) :
    Whole re q body := by
  obtain ⟨q1, _, q3, _, _⟩ := quote_ascii hq
  refine ⟨fun hc => ?_, ?_⟩
  · have := hb q hc
    rw [hq] at this
    cases this
  · have hquote : quote q body = q :: (body ++ q :: []) := by simp [quote]
    rw [hquote, reSplit_scan, scan_none _ (none_at hre none q _ q1), List.nil_append]
    rcases quote_scan hre q hq body.length (some q) body (Nat.le_refl _) with h | ⟨h, ps, p, e, hh⟩
    · rw [h, scan_nil]
      intro x hx
      cases hx
    · rw [hh, scan_nil]
      intro x hx c r hc hcq
      rcases List.mem_append.1 hx with hx | hx
      · have : c ∈ body := by
          rw [← e]
          exact List.mem_append_left _ (List.mem_append_right _ (List.mem_flatten.2 ⟨x, hx, strip_mem (by rw [hc]; exact List.mem_cons_self ..)⟩))
        rw [hb c this] at hcq
        cases hcq
      · rw [List.mem_singleton.1 hx] at hc ⊢
        have e1 : strip (p ++ [q]) = p.dropWhile isSpace ++ [q] := by
          unfold strip
          rw [show (p ++ [q]).dropWhile isSpace = p.dropWhile isSpace ++ [q] from dropWhile_snoc p q q3 [],
            List.reverse_append, List.reverse_singleton, List.singleton_append, List.dropWhile_cons, if_neg (by rw [q3]; simp),
            List.reverse_cons, List.reverse_reverse]
        rw [e1] at hc ⊢
        cases hp : p.dropWhile isSpace with
        | nil => rfl
        | cons d ds =>
          rw [hp] at hc
          have hcd : d = c := by
            injection hc
          have : c ∈ body := by
            rw [← e, ← hcd]
            exact List.mem_append_right _ ((List.dropWhile_sublist isSpace).subset (by rw [hp]; exact List.mem_cons_self ..))
          rw [hb c this] at hcq
          cases hcq

/-- **C64**: a quoted text without quotes inside, on its own, is one token, whatever keywords and operators it contains; it
is unchanged if it contains no white space and is not a date. -/
theorem C64_quoted (hre : SaneRe re) (hs : Sane lex) (q : Char) (hq : q = '"' ∨ q = '\'' ∨ q = '`') (body : Str)
    (hb : ∀ c ∈ body, c ≠ '"' ∧ c ≠ '\'' ∧ c ≠ '`') :
    (∃ t u, tokenize re lex (quote q body) = .ok [u] ∧ (u = t ∨ u = lex.upper t) ∧ visible t = visible (quote q body)) ∧
    ((∀ c ∈ body, isSpace c = false) → (q = '`' ∨ parseIso body = none) → tokenize re lex (quote q body) = .ok [quote q body]) := by
  have hq := (quote_iff q).2 hq
  have hb := not_quote hb
  have hg : (Lexeme.quoted q body).collapsed.Good re := ⟨hq, whole_plain hre q hq _ (fun c hc => by
    rcases mem_collapse hc with hc | rfl
    · exact hb c hc
    · decide)⟩
  have hl : Laid re [.quoted q body] (quote q body) := by
    have := Laid.mk (re := re) (lead := []) (trail := []) (by simp) (by simp) hg (Row.nil)
    simpa [Lexeme.text] using this
  refine ⟨⟨(Lexeme.quoted q body).collapsed.kept re, _, laid_tokens hre lex hl, caseCorrect_cases _ _, ?_⟩, ?_⟩
  · rw [kept_visible, collapsed_text _ hg, visible_collapse]
    rfl
  · intro hsp hd
    have hsimple : (Lexeme.quoted q body).Simple re := by
      refine ⟨hd, collapse_none _ hsp, ?_⟩
      intro x hx hn
      cases x with
      | nil => rfl
      | cons c x =>
        exfalso
        have h1 := strip_nil_blank hn c (List.mem_cons_self ..)
        have h2 := pieces_mem hx (List.mem_cons_self ..)
        have : c = q ∨ c ∈ body := by
          unfold quote at h2
          simp only [List.mem_cons, List.mem_append, List.not_mem_nil, or_false] at h2
          rcases h2 with h | h | h
          · exact Or.inl h
          · exact Or.inr h
          · exact Or.inl h
        rcases this with rfl | h
        · rw [(quote_ascii hq).2.2.1] at h1
          cases h1
        · rw [hsp c h] at h1
          cases h1
    rw [laid_tokens hre lex hl]
    exact congrArg Except.ok (congrArg (fun x => [x]) (lexeme_token hs _ hg hsimple))

theorem laid_good {ls : List Lexeme} {text : Str} (h : Laid re ls text) : ∀ l ∈ ls, l.collapsed.Good re := by
  cases h with
  | @mk a ls lead trail t hl ht ha hr =>
    have : ∀ {a : Lexeme} {ls t}, Row re a ls t → ∀ b ∈ ls, b.collapsed.Good re := by
      intro a ls t h
      induction h with
      | nil => intro b hb; cases hb
      | cons _ _ hb _ ih =>
        intro x hx
        rcases List.mem_cons.1 hx with rfl | hx
        · exact hb
        · exact ih x hx
    intro b hb
    rcases List.mem_cons.1 hb with rfl | hb
    · exact ha
    · exact this hr b hb

/-- **C64**: the tokens of a statement written as a row of keywords, names, integers, constants and quoted texts: keywords
in capitals, quoted texts character for character.  Missing: quoted texts in which white space is repeated or stands
between two keywords (it is lost), in which a part cut off by keywords begins with a quote, and dates in quotes. -/
theorem C64_tokens_partial (hre : SaneRe re) (hs : Sane lex) (ls : List Lexeme) (text : Str) (h : Laid re ls text)
    (hsimple : ∀ l ∈ ls, l.Simple re) : tokenize re lex text = .ok (ls.map Lexeme.token) := by
  rw [laid_tokens hre lex h]
  congr 1
  exact List.map_congr_left (fun l hl => lexeme_token hs l (laid_good h l hl) (hsimple l hl))

/-- **C64**: from the text of an expression to its tree. -/
theorem C64_expression_partial (hre : SaneRe re) (hs : Sane lex) (ls : List Lexeme) (text : Str) (h : Laid re ls text)
    (hsimple : ∀ l ∈ ls, l.Simple re) (t : Expression.Tree) (hw : Written .or t (ls.map Lexeme.token)) :
    parseText re lex text = .ok t := by
  unfold parseText
  rw [C64_tokens_partial hre hs ls text h hsimple]
  exact Expression.C43_parse_partial hs t _ hw

/-! ## Texts of ASCII characters -/

/-- `re` on ASCII characters. -/
def asciiRe : Re := ⟨fun c => c.isAlphanum || c == '_', fun p c => c.toUpper == p.toUpper⟩

theorem asciiRe_sane : SaneRe asciiRe where
  word _ _ := rfl
  same _ _ _ _ := rfl
  letter p c hp h := by
    have h : c.toUpper = p.toUpper := by simpa [asciiRe] using h
    have hpa : p.toNat < 128 := Mabel.Expression.alphanum_ascii p (by simp [Char.isAlphanum, hp])
    have hpu : p.toUpper.toNat < 128 := by
      exact of_ascii (P := fun p => p.isAlpha = true → p.toUpper.toNat < 128) (by decide +kernel) p hpa hp
    have hc : c.toNat < 128 := by
      by_contra hn
      rw [toUpper_big c hn] at h
      rw [h] at hn
      exact hn hpu
    have h1 : p.toUpper.isAlpha = true :=
      of_ascii (P := fun p => p.isAlpha = true → p.toUpper.isAlpha = true) (by decide +kernel) p hpa hp
    rw [← h] at h1
    exact of_ascii (P := fun c => c.toUpper.isAlpha = true → (c.isAlphanum || c == '_') = true) (by decide +kernel) c hc h1
  symbol p c hp hpn h := by
    have h : c.toUpper = p.toUpper := by simpa [asciiRe] using h
    have h0 : p.toUpper = p := of_ascii (P := fun p => p.isAlpha = false → p.toUpper = p) (by decide +kernel) p hp hpn
    rw [h0] at h
    have hc : c.toNat < 128 := by
      by_contra hn
      rw [toUpper_big c hn] at h
      rw [h] at hn
      exact hn hp
    have := of_ascii (P := fun c => c.toUpper = c ∨ c.toUpper.isAlpha = true) (by decide +kernel) c hc
    rcases this with h1 | h1
    · rw [← h, h1]
    · rw [h, hpn] at h1
      cases h1

theorem ascii_match (hre : SaneRe re) (ps : List PC) (hps : ∀ p ∈ ps, p = .ws ∨ ∃ c, p = .ch c ∧ c.toNat < 128) (s : Str)
    (hs : ∀ c ∈ s, c.toNat < 128) : matchPat re ps s = matchPat asciiRe ps s := by
  induction ps generalizing s with
  | nil => simp [matchPat]
  | cons p ps ih =>
    cases s with
    | nil => simp [matchPat]
    | cons c cs =>
      have hf : p.fits re c = p.fits asciiRe c := by
        rcases hps p (List.mem_cons_self ..) with rfl | ⟨d, rfl, hd⟩
        · rfl
        · exact hre.same d c hd (hs c (List.mem_cons_self ..))
      have e := ih (fun q hq => hps q (List.mem_cons_of_mem _ hq)) cs (fun d hd => hs d (List.mem_cons_of_mem _ hd))
      have h1 : matchPat re (p :: ps) (c :: cs) = if p.fits re c then matchPat re ps cs else none := by rw [matchPat]
      have h2 : matchPat asciiRe (p :: ps) (c :: cs) = if p.fits asciiRe c then matchPat asciiRe ps cs else none := by
        rw [matchPat]
      rw [h1, h2, hf, e]

theorem ascii_boundary (hre : SaneRe re) (a b : Option Char) (ha : ∀ c, a = some c → c.toNat < 128)
    (hb : ∀ c, b = some c → c.toNat < 128) : boundary re a b = boundary asciiRe a b := by
  have key : ∀ o : Option Char, (∀ c, o = some c → c.toNat < 128) → o.elim false re.isWord = o.elim false asciiRe.isWord := by
    intro o ho
    cases o with
    | none => rfl
    | some c => exact hre.word c (ho c rfl)
  unfold boundary
  rw [key a ha, key b hb]

theorem ascii_first (hre : SaneRe re) (prev : Option Char) (hp : ∀ c, prev = some c → c.toNat < 128) (s : Str)
    (hs : ∀ c ∈ s, c.toNat < 128) : firstMatch re keywords prev s = firstMatch asciiRe keywords prev s := by
  unfold firstMatch
  apply findSome_congr
  intro kw hkw
  unfold matchKw
  rw [ascii_match hre kw.pat (fun p hp => (keyword_chars kw hkw p hp).imp id (fun ⟨c, h1, h2, _⟩ => ⟨c, h1, h2⟩)) s hs]
  cases hm : matchPat asciiRe kw.pat s with
  | none => rfl
  | some rest =>
    simp only
    obtain ⟨h1, h2⟩ := matchPat_some _ _ _ _ hm
    have hrest : ∀ c ∈ rest, c.toNat < 128 := fun c hc => hs c (by
      rw [← List.take_append_drop kw.pat.length s, ← h1]
      exact List.mem_append_right _ hc)
    rw [ascii_boundary hre prev s.head? hp (fun c hc => hs c (List.mem_of_head? hc)),
      ascii_boundary hre _ rest.head? (fun c hc => hs c (List.mem_of_mem_take (List.mem_of_getLast? hc)))
        (fun c hc => hrest c (List.mem_of_head? hc))]

/-- Every `re` cuts ASCII texts in the same way. -/
theorem ascii_split (hre : SaneRe re) (s : Str) (hs : ∀ c ∈ s, c.toNat < 128) :
    reSplit re keywords s = reSplit asciiRe keywords s := by
  unfold reSplit
  have : ∀ n (prev : Option Char) cur (s : Str), (∀ c, prev = some c → c.toNat < 128) → (∀ c ∈ s, c.toNat < 128) →
      splitGo re keywords n prev cur s = splitGo asciiRe keywords n prev cur s := by
    intro n
    induction n with
    | zero => intro prev cur s _ _; rw [splitGo, splitGo]
    | succ n ih =>
      intro prev cur s hp hs
      cases s with
      | nil => rw [splitGo, splitGo]
      | cons c cs =>
        rw [splitGo, splitGo, ascii_first hre prev hp _ hs]
        split
        · rw [ih]
          · intro d hd
            exact hs d (List.mem_of_mem_take (List.mem_of_getLast? hd))
          · intro d hd
            exact hs d (List.mem_of_mem_drop hd)
        · rw [ih]
          · intro d hd
            cases hd
            exact hs c (List.mem_cons_self ..)
          · exact fun d hd => hs d (List.mem_cons_of_mem _ hd)
  exact this _ none [] s (fun c hc => by cases hc) hs

/-- The tokens of an ASCII text, before their case is changed. -/
theorem ascii_tokens (hre : SaneRe re) (lex : Lex) (text : Str) (hs : ∀ c ∈ text, c.toNat < 128) (raw : List Str)
    (h : ((fixSpecial (reSplit asciiRe keywords (clean text))).toOption.map (fun l => (l.map strip).filter (· ≠ []))) = some raw) :
    tokenize re lex text = .ok (raw.map (caseCorrect lex)) := by
  unfold tokenize
  rw [ascii_split hre _ (fun c hc => by
    rcases mem_collapse (strip_mem hc) with hc | rfl
    · exact hs c hc
    · decide)]
  cases hf : fixSpecial (reSplit asciiRe keywords (clean text)) with
  | error e => rw [hf] at h; cases h
  | ok l =>
    rw [hf] at h
    injection h with h
    rw [← h]
    rfl

/-! ## What is lost -/

theorem fix_unclosed (q : Char) (hq : isQuote q = true) (x : Str) (ps : List Str)
    (hx : ∃ r, x = q :: r ∧ ∀ c ∈ r, isQuote c = false) (hps : ∀ y ∈ ps, ∀ c ∈ y, isQuote c = false) :
    fixGo [] none (x :: ps) = .ok [] := by
  obtain ⟨r, rfl, hr⟩ := hx
  obtain ⟨_, _, hqs, _, _⟩ := quote_ascii hq
  have hst : ∃ r', strip (q :: r) = q :: r' ∧ ∀ c ∈ r', c ∈ r := by
    unfold strip
    rw [List.dropWhile_cons, if_neg (by rw [hqs]; simp), List.reverse_cons, dropWhile_snoc _ q hqs [], List.reverse_append]
    refine ⟨(r.reverse.dropWhile isSpace).reverse, rfl, ?_⟩
    intro c hc
    rw [List.mem_reverse] at hc
    exact List.mem_reverse.1 ((List.dropWhile_sublist isSpace).subset hc)
  obtain ⟨r', h1, h2⟩ := hst
  rw [fixGo, h1]
  simp only
  have hlast : ∀ c, r'.getLast? = some c → c ≠ q := by
    rintro c hc rfl
    have := hr c (h2 c (List.mem_of_getLast? hc))
    rw [hq] at this
    cases this
  have hne : ¬ ((q :: r').getLast? = some q ∧ (q :: r').length > 1) := by
    rintro ⟨a, b⟩
    cases r' with
    | nil => simp at b
    | cons d ds =>
      rw [List.getLast?_cons_cons] at a
      exact hlast q a rfl
  rw [if_neg (fun h => by rw [hq] at h; cases h.2), if_neg (fun h => hne h.2), if_neg, if_pos]
  · have := fix_middle q ps (q :: r) [] (fun y hy hc => by
      have := hps y hy q hc
      rw [hq] at this
      cases this) (fun y hy c r hc => hps y hy c (strip_mem (by rw [hc]; exact List.mem_cons_self ..)))
    rw [List.append_nil] at this
    rw [this]
    rfl
  · refine ⟨hq, ?_⟩
    by_contra hn
    simp only [not_or, ne_eq, not_not] at hn
    refine hne ⟨hn.1, ?_⟩
    have := hn.2
    simp only [List.length_cons] at this ⊢
    omega
  · rw [List.getLast?_cons]
    simp

theorem scan_first (re : Re) (n : Nat) (prev : Option Char) (cur s : Str) :
    ∃ x rest, splitGo re keywords n prev cur s = (cur ++ x) :: rest := by
  induction n generalizing prev cur s with
  | zero => exact ⟨[], [], by rw [splitGo, List.append_nil]⟩
  | succ n ih =>
    cases s with
    | nil => exact ⟨[], [], by rw [splitGo, List.append_nil]⟩
    | cons c cs =>
      rw [splitGo]
      split
      · exact ⟨[], _, by rw [List.append_nil]⟩
      · obtain ⟨x, rest, h⟩ := ih (some c) (cur ++ [c]) cs
        exact ⟨c :: x, rest, by rw [h]; simp⟩

/-- **C64**, where it fails: when a quote is not closed, all that follows it is silently lost. -/
theorem C64_unclosed_fails (hre : SaneRe re) (lex : Lex) (q : Char) (hq : q = '"' ∨ q = '\'' ∨ q = '`') (text : Str)
    (h : ∀ c ∈ text, c ≠ '"' ∧ c ≠ '\'' ∧ c ≠ '`') : tokenize re lex (q :: text) = .ok [] := by
  have hq := (quote_iff q).2 hq
  have h := not_quote h
  obtain ⟨hq1, _, hqs, _, _⟩ := quote_ascii hq
  have hclean : ∃ r, clean (q :: text) = q :: r ∧ ∀ c ∈ r, isQuote c = false := by
    unfold clean strip
    rw [collapse_cons _ _ hqs, List.dropWhile_cons, if_neg (by rw [hqs]; simp), List.reverse_cons, dropWhile_snoc _ q hqs [],
      List.reverse_append]
    refine ⟨((collapse text).reverse.dropWhile isSpace).reverse, rfl, ?_⟩
    intro c hc
    rw [List.mem_reverse] at hc
    rcases mem_collapse (List.mem_reverse.1 ((List.dropWhile_sublist isSpace).subset hc)) with hc | rfl
    · exact h c hc
    · decide
  obtain ⟨r, h1, h2⟩ := hclean
  unfold tokenize fixSpecial
  rw [h1]
  obtain ⟨x, rest, hx⟩ : ∃ x rest, reSplit re keywords (q :: r) = ([q] ++ x) :: rest := by
    unfold reSplit
    rw [List.length_cons, splitGo, none_at hre none q r hq1]
    exact scan_first re _ _ _ _
  have hflat := C64_split re (q :: r)
  rw [hx, List.flatten_cons] at hflat
  have hflat : x ++ rest.flatten = r := by
    simp only [List.cons_append, List.nil_append, List.cons.injEq, true_and] at hflat
    exact hflat
  rw [hx, fix_unclosed q hq ([q] ++ x) rest ⟨x, rfl, fun c hc => h2 c (by rw [← hflat]; exact List.mem_append_left _ hc)⟩
    (fun y hy c hc => h2 c (by rw [← hflat]; exact List.mem_append_right _ (List.mem_flatten.2 ⟨y, hy, hc⟩)))]
  rfl

theorem literal_same (hs : Sane lex) (t : Str) (q : Char) (x : Str) (ht : t = quote q x) (hq : q = '"' ∨ q = '\'')
    (hd : parseIso x = none) : caseCorrect lex t = t := by
  unfold caseCorrect
  rw [if_pos]
  left
  rw [ht, label_quote hs q x hq, hd]
  rfl

theorem name_same (hs : Sane lex) (t : Str) (ht : Name t) : caseCorrect lex t = t := by
  unfold caseCorrect
  rw [if_pos (Or.inr (label_name hs _ ht))]

/-- **C64**, where it fails: white space in quotes is changed (and so is a line end). -/
theorem C64_spaces_fails (hre : SaneRe re) (hs : Sane lex) :
    tokenize re lex "a = 'b  c'".toList = .ok (["a", "=", "'b c'"].map String.toList) := by
  rw [ascii_tokens hre lex _ (by decide) (["a", "=", "'b c'"].map String.toList) (by decide +kernel)]
  have h1 : caseCorrect lex "a".toList = "a".toList := name_same hs _ Expression.name_a
  have h2 : caseCorrect lex "=".toList = "=".toList := key_token (re := asciiRe) hs "=".toList (Or.inr (Or.inr (Or.inl (by decide))))
  have h3 : caseCorrect lex "'b c'".toList = "'b c'".toList :=
    literal_same hs _ '\'' "b c".toList rfl (Or.inr rfl) (by decide +kernel)
  rw [List.map_map]
  show Except.ok [caseCorrect lex "a".toList, caseCorrect lex "=".toList, caseCorrect lex "'b c'".toList] = _
  rw [h1, h2, h3]
  rfl

/-- **C64**, where it fails: a space between two keywords in quotes is lost. -/
theorem C64_between_fails (hre : SaneRe re) (hs : Sane lex) :
    tokenize re lex "\"this and or that\"".toList = .ok ["\"this andor that\"".toList] := by
  rw [ascii_tokens hre lex _ (by decide) ["\"this andor that\"".toList] (by decide +kernel)]
  have h3 : caseCorrect lex "\"this andor that\"".toList = "\"this andor that\"".toList :=
    literal_same hs _ '"' "this andor that".toList rfl (Or.inl rfl) (by decide +kernel)
  show Except.ok [caseCorrect lex "\"this andor that\"".toList] = _
  rw [h3]

/-- **C64**, where it fails: quoted texts in a quoted text, between keywords, are moved out of it. -/
theorem C64_nested_fails (hre : SaneRe re) (hs : Sane lex) :
    tokenize re lex "\"x in 'y' or z\"".toList = .ok ["'y'".toList, "\"x inor z\"".toList] := by
  rw [ascii_tokens hre lex _ (by decide) ["'y'".toList, "\"x inor z\"".toList] (by decide +kernel)]
  have h1 : caseCorrect lex "'y'".toList = "'y'".toList :=
    literal_same hs _ '\'' "y".toList rfl (Or.inr rfl) (by decide +kernel)
  have h3 : caseCorrect lex "\"x inor z\"".toList = "\"x inor z\"".toList :=
    literal_same hs _ '"' "x inor z".toList rfl (Or.inl rfl) (by decide +kernel)
  show Except.ok [caseCorrect lex "'y'".toList, caseCorrect lex "\"x inor z\"".toList] = _
  rw [h1, h3]

/-- **C64**, where it fails: a name with a part, after a dot, that is a keyword is cut in two. -/
theorem C64_dotted_fails (hre : SaneRe re) (hs : Sane lex) :
    tokenize re lex "a.date = 1".toList = .ok (["a.", "DATE", "=", "1"].map String.toList) := by
  rw [ascii_tokens hre lex _ (by decide) (["a.", "date", "=", "1"].map String.toList) (by decide +kernel)]
  have h1 : caseCorrect lex "a.".toList = "a.".toList :=
    name_same hs _ ⟨⟨'a', ['.'], by decide, by decide⟩, by decide, by decide +kernel⟩
  have h2 : caseCorrect lex "date".toList = "DATE".toList := key_token (re := asciiRe) hs "date".toList (Or.inl (by decide +kernel))
  have h3 : caseCorrect lex "=".toList = "=".toList := key_token (re := asciiRe) hs "=".toList (Or.inr (Or.inr (Or.inl (by decide))))
  have h4 : caseCorrect lex "1".toList = "1".toList := word_token (re := asciiRe) hs _ (by decide) (by decide) (Or.inr (Or.inl ⟨1, by decide +kernel⟩))
  show Except.ok [caseCorrect lex "a.".toList, caseCorrect lex "date".toList, caseCorrect lex "=".toList, caseCorrect lex "1".toList] = _
  rw [h1, h2, h3, h4]
  rfl

/-! ## Examples -/

def follows (a : Lexeme) (sep : Str) (b : Lexeme) : Bool :=
  (a.isKey || b.isKey) &&
  (capitals a.text != "IS".toList || (capitals b.text != "NOT".toList && capitals b.text != "NOT LIKE".toList)) &&
  (capitals a.text != "NOT".toList || capitals b.text != "LIKE".toList) &&
  (sep != [] || match a.text.getLast?, b.text.head? with
    | some x, some y => apart x y
    | _, _ => true)

theorem follows_iff {a b : Lexeme} {sep : Str} (h : follows a sep b = true) : Follows a sep b := by
  unfold follows at h
  simp only [Bool.and_eq_true, Bool.or_eq_true, bne_iff_ne, ne_eq] at h
  obtain ⟨⟨⟨h1, h2⟩, h3⟩, h4⟩ := h
  refine ⟨h1, fun h => ?_, fun h => ?_, fun h x y hx hy => ?_⟩
  · rcases h2 with h2 | h2
    · exact absurd h h2
    · exact h2
  · rcases h3 with h3 | h3
    · exact absurd h h3
    · exact h3
  · rcases h4 with h4 | h4
    · exact absurd h h4
    · rw [hx, hy] at h4
      exact h4

/-- A statement with a keyword in a quoted text, written without unnecessary spaces and over two lines. -/
def sampleText : Str := "not a=1 And\n(b>2 or  a = 'this and that')".toList

def sampleLexemes : List Lexeme := [.key "not".toList, .word "a".toList, .key "=".toList, .word "1".toList, .key "And".toList,
  .key "(".toList, .word "b".toList, .key ">".toList, .word "2".toList, .key "or".toList, .word "a".toList, .key "=".toList,
  .quoted '\'' "this and that".toList, .key ")".toList]

theorem sample_whole : Whole asciiRe '\'' (collapse "this and that".toList) := by
  refine ⟨by decide +kernel, ?_⟩
  have h : ∀ x ∈ (reSplit asciiRe keywords (quote '\'' (collapse "this and that".toList))).tail,
      ((strip x).head?.elim false isQuote) = false := by decide +kernel
  intro x hx c r hc hq
  have := h x hx
  rw [hc] at this
  have : isQuote c = false := this
  rw [hq] at this
  cases this

theorem sample_laid : Laid asciiRe sampleLexemes sampleText := by
  have keyGood : ∀ k ∈ ["not", "=", "And", "(", ">", "or", ")"].map String.toList, (Lexeme.key k).collapsed.Good asciiRe := by
    intro k hk
    have : ∀ k ∈ ["not", "=", "And", "(", ">", "or", ")"].map String.toList, capitals (collapse k) ∈ wordKeys ∨
      capitals (collapse k) ∈ pairKeys ∨ capitals (collapse k) ∈ symbolKeys ∨ capitals (collapse k) ∈ punctuation := by decide +kernel
    exact this k hk
  have wordGood : ∀ w ∈ ["a", "b", "1", "2"].map String.toList, (Lexeme.word w).collapsed.Good asciiRe := by
    intro k hk
    have : ∀ w ∈ ["a", "b", "1", "2"].map String.toList, collapse w ≠ [] ∧ (∀ c ∈ collapse w, wordish c = true) ∧
      noKeyParts false (collapse w) = true := by decide +kernel
    exact this k hk
  have h : ∃ text, text = sampleText ∧ Laid asciiRe sampleLexemes text := by
    refine ⟨_, ?_, .mk (lead := []) (trail := []) (by decide) (by decide) (keyGood _ (by decide))
      (.cons (sep := [' ']) (by decide) (follows_iff (by decide +kernel)) (wordGood _ (by decide))
      (.cons (sep := []) (by decide) (follows_iff (by decide +kernel)) (keyGood _ (by decide))
      (.cons (sep := []) (by decide) (follows_iff (by decide +kernel)) (wordGood _ (by decide))
      (.cons (sep := [' ']) (by decide) (follows_iff (by decide +kernel)) (keyGood _ (by decide))
      (.cons (sep := ['\n']) (by decide) (follows_iff (by decide +kernel)) (keyGood _ (by decide))
      (.cons (sep := []) (by decide) (follows_iff (by decide +kernel)) (wordGood _ (by decide))
      (.cons (sep := []) (by decide) (follows_iff (by decide +kernel)) (keyGood _ (by decide))
      (.cons (sep := []) (by decide) (follows_iff (by decide +kernel)) (wordGood _ (by decide))
      (.cons (sep := [' ']) (by decide) (follows_iff (by decide +kernel)) (keyGood _ (by decide))
      (.cons (sep := [' ', ' ']) (by decide) (follows_iff (by decide +kernel)) (wordGood _ (by decide))
      (.cons (sep := [' ']) (by decide) (follows_iff (by decide +kernel)) (keyGood _ (by decide))
      (.cons (sep := [' ']) (by decide) (follows_iff (by decide +kernel)) ⟨rfl, sample_whole⟩
      (.cons (sep := []) (by decide) (follows_iff (by decide +kernel)) (keyGood _ (by decide)) .nil)))))))))))))⟩
    decide +kernel
  obtain ⟨_, rfl, h⟩ := h
  exact h

theorem sample_simple : ∀ l ∈ sampleLexemes, l.Simple asciiRe := by
  have hq : (Lexeme.quoted '\'' "this and that".toList).Simple asciiRe :=
    ⟨Or.inr (by decide +kernel), by decide +kernel, by decide +kernel⟩
  intro l hl
  simp only [sampleLexemes, List.mem_cons, List.not_mem_nil, or_false] at hl
  rcases hl with rfl | rfl | rfl | rfl | rfl | rfl | rfl | rfl | rfl | rfl | rfl | rfl | rfl | rfl
  all_goals first
    | exact trivial
    | exact Or.inl Expression.name_a
    | exact Or.inl Expression.name_b
    | exact Or.inr (Or.inl ⟨1, by decide +kernel⟩)
    | exact Or.inr (Or.inl ⟨2, by decide +kernel⟩)
    | exact hq

/-- The text becomes its tokens, and the expression. -/
example : tokenize asciiRe Expression.sampleLex sampleText =
    .ok (["NOT", "a", "=", "1", "AND", "(", "b", ">", "2", "OR", "a", "=", "'this and that'", ")"].map String.toList) := by
  rw [C64_tokens_partial asciiRe_sane Expression.sampleLex_sane _ _ sample_laid sample_simple]
  congr 1

example : ∃ raw : List Str, tokenize asciiRe Expression.sampleLex sampleText = .ok (raw.map (caseCorrect Expression.sampleLex)) ∧
    visible raw.flatten = visible sampleText := by
  obtain ⟨raw, h1, _, _, h4⟩ := C64_rows asciiRe_sane Expression.sampleLex _ _ sample_laid
  exact ⟨raw, h1, h4⟩

open Expression Expression.Spec in
example : parseText asciiRe sampleLex sampleText = .ok (.and (.not (.cmp (.var "a".toList) "=".toList (.int 1)))
    (.or (.cmp (.var "b".toList) ">".toList (.int 2)) (.cmp (.var "a".toList) "=".toList (.lit "this and that".toList)))) := by
  refine C64_expression_partial asciiRe_sane sampleLex_sane _ _ sample_laid sample_simple _ ?_
  have e : sampleLexemes.map Lexeme.token = toks ["NOT", "a", "=", "1", "AND", "(", "b", ">", "2", "OR", "a", "=", "'this and that'", ")"] := by
    decide +kernel
  rw [e]
  have c1 : Written .cond (.cmp (.var "a".toList) "=".toList (.int 1)) (toks ["a", "=", "1"]) :=
    .cmp (.plain (.name name_a)) (by decide) (.plain (.int 1))
  have c2 : Written .cond (.cmp (.var "b".toList) ">".toList (.int 2)) (toks ["b", ">", "2"]) :=
    .cmp (.plain (.name name_b)) (by decide) (.plain (.int 2))
  have c3 : Written .cond (.cmp (.var "a".toList) "=".toList (.lit "this and that".toList)) (toks ["a", "=", "'this and that'"]) :=
    .cmp (.plain (.name name_a)) (by decide) (.plain (.text (q := '\'') (Or.inr rfl) (by decide +kernel)))
  exact .oneAnd (.and (.oneCond (.not c1)) (.paren (.or (.oneAnd (.oneCond c2)) (.oneCond c3))))

example : tokenize asciiRe Expression.sampleLex "'a*(b),c<=and'".toList = .ok ["'a*(b),c<=and'".toList] :=
  (C64_quoted asciiRe_sane Expression.sampleLex_sane '\'' (by decide) "a*(b),c<=and".toList (by decide)).2 (by decide) (Or.inr (by decide +kernel))

/-- Without quotes. -/
example : ∀ c ∈ "Select a from b".toList, isQuote c = false := by decide

example : tokenize asciiRe Expression.sampleLex "'x and y = 1".toList = .ok [] :=
  C64_unclosed_fails asciiRe_sane _ '\'' (by decide) "x and y = 1".toList (by decide)

end Mabel.Tokenizer
