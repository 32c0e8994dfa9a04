import Verif.Spec.Sql
import Verif.Lemmas.EvalText

/-! # Splitting SQL statements -/

namespace Mabel.Sql
open Mabel.Py Mabel.Dates Mabel.Tokens Mabel.Sql.Spec
open Mabel.Tokenizer hiding Blank keywords
open Mabel.Tokenizer.Spec (SaneRe capitals isWordChar)
open Mabel.Expression (of_ascii alphanum_ascii upper_ascii)
open Mabel.Expression.Spec (Sane)
open Mabel.Evaluator (matchKw_sym same_symbol space_facts space_nonword sym_nonword)

variable {re : Re}

theorem keywords_solid : Solid keywords := by
  unfold Solid
  decide +kernel

/-! ## The keywords -/

/-- White space, a parenthesis or a comma. -/
def Single (c : Char) : Prop := c = '(' ∨ c = ')' ∨ c = ',' ∨ isSpace c = true

theorem single_nonword (hre : SaneRe re) {c : Char} (h : Single c) : re.isWord c = false := by
  rcases h with h | h | h | h
  · exact sym_nonword hre (Or.inl h)
  · exact sym_nonword hre (Or.inr (Or.inl h))
  · exact sym_nonword hre (Or.inr (Or.inr h))
  · exact space_nonword hre h

theorem parts_chars : ∀ k ∈ sqlParts, k ≠ [] ∧ (∀ c ∈ k, c = ' ' ∨ (c.isAlpha = true ∧ c.toUpper = c)) ∧
    (∀ c, k.head? = some c → c.isAlpha = true ∧ c ≠ 'B') ∧ (∀ c, k.getLast? = some c → c.isAlpha = true) := by
  intro k hk
  have h : ∀ k ∈ sqlParts, k ≠ [] ∧ (∀ c ∈ k, c = ' ' ∨ (c.isAlpha = true ∧ c.toUpper = c)) ∧
    (k.head?.all (fun c => c.isAlpha && c != 'B')) = true ∧ (k.getLast?.all Char.isAlpha) = true := by decide +kernel
  obtain ⟨h1, h2, h3, h4⟩ := h k hk
  refine ⟨h1, h2, ?_, ?_⟩
  · intro c hc
    rw [hc] at h3
    simpa using h3
  · intro c hc
    rw [hc] at h4
    simpa using h4

theorem reads_length : ∀ (k s : Str), reads re k s = true → k.length = s.length
  | [], [], _ => rfl
  | [], _ :: _, h => by cases h
  | _ :: _, [], h => by cases h
  | p :: k, c :: s, h => by
    rw [reads, Bool.and_eq_true] at h
    simp [reads_length k s h.2]

theorem match_part (p c : Char) (k s : Str) : matchPat re (partKw (p :: k)).pat (c :: s) =
    if (if p = ' ' then isSpace c else re.same p c) = true then matchPat re (partKw k).pat s else none := by
  have : (if p = ' ' then PC.ws else PC.ch p).fits re c = (if p = ' ' then isSpace c else re.same p c) := by
    split <;> rfl
  rw [← this]
  rfl

theorem reads_of_match : ∀ (k s r : Str), matchPat re (partKw k).pat s = some r → ∃ p, s = p ++ r ∧ reads re k p = true
  | [], s, r, h => by
    simp only [partKw, List.map_nil, matchPat] at h
    exact ⟨[], by simpa using h, rfl⟩
  | p :: k, [], r, h => by cases h
  | p :: k, c :: s, r, h => by
    rw [match_part] at h
    by_cases hf : (if p = ' ' then isSpace c else re.same p c) = true
    · rw [if_pos hf] at h
      obtain ⟨q, h1, h2⟩ := reads_of_match k s r h
      exact ⟨c :: q, by rw [h1]; rfl, by rw [reads, h2, hf]; rfl⟩
    · rw [if_neg hf] at h
      cases h

theorem match_of_reads : ∀ (k p r : Str), reads re k p = true → matchPat re (partKw k).pat (p ++ r) = some r
  | [], [], r, _ => rfl
  | [], _ :: _, _, h => by cases h
  | _ :: _, [], _, h => by cases h
  | p :: k, c :: s, r, h => by
    rw [reads, Bool.and_eq_true] at h
    rw [List.cons_append, match_part, if_pos h.1]
    exact match_of_reads k s r h.2

/-- The characters of a text that is a keyword. -/
theorem reads_chars (hre : SaneRe re) : ∀ (k s : Str), (∀ c ∈ k, c = ' ' ∨ (c.isAlpha = true ∧ c.toUpper = c)) → reads re k s = true →
    ∀ c ∈ s, isSpace c = true ∨ re.isWord c = true
  | [], [], _, _ => by simp
  | [], _ :: _, _, h => by cases h
  | _ :: _, [], _, h => by cases h
  | p :: k, c :: s, hk, h => by
    rw [reads, Bool.and_eq_true] at h
    intro d hd
    rcases List.mem_cons.1 hd with rfl | hd
    · rcases hk p (List.mem_cons_self ..) with rfl | hp
      · have := h.1
        rw [if_pos rfl] at this
        exact Or.inl this
      · have := h.1
        rw [if_neg (by rintro rfl; exact absurd hp.1 (by decide))] at this
        exact Or.inr (hre.letter p d hp.1 this)
    · exact reads_chars hre k s (fun c hc => hk c (List.mem_cons_of_mem _ hc)) h.2 d hd

theorem reads_append : ∀ (k1 k2 s1 s2 : Str), k1.length = s1.length →
    reads re (k1 ++ k2) (s1 ++ s2) = (reads re k1 s1 && reads re k2 s2)
  | [], k2, [], s2, _ => by simp [reads]
  | [], _, _ :: _, _, h => by cases h
  | _ :: _, _, [], _, h => by cases h
  | p :: k1, k2, c :: s1, s2, h => by
    rw [List.cons_append, List.cons_append, reads, reads, reads_append k1 k2 s1 s2 (by simpa using h), Bool.and_assoc]

theorem reads_first (hre : SaneRe re) {k s : Str} {p : Char} (hk : k.head? = some p) (hp : p.isAlpha = true) (h : reads re k s = true) :
    ∃ c, s.head? = some c ∧ re.isWord c = true ∧ re.same p c = true := by
  cases k with
  | nil => cases hk
  | cons q k =>
    injection hk with hk
    subst hk
    cases s with
    | nil => cases h
    | cons c s =>
      rw [reads, Bool.and_eq_true, if_neg (by rintro rfl; exact absurd hp (by decide))] at h
      exact ⟨c, rfl, hre.letter q c hp h.1, h.1⟩

theorem reads_last (hre : SaneRe re) {k s : Str} {p : Char} (hk : k.getLast? = some p) (hp : p.isAlpha = true) (h : reads re k s = true) :
    ∃ c, s.getLast? = some c ∧ re.isWord c = true := by
  obtain ⟨k', rfl⟩ := List.getLast?_eq_some_iff.1 hk
  have hl := reads_length _ _ h
  have hs : s ≠ [] := by rintro rfl; simp at hl
  obtain ⟨s', c, rfl⟩ : ∃ s' c, s = s' ++ [c] := ⟨s.dropLast, s.getLast hs, (List.dropLast_concat_getLast hs).symm⟩
  rw [reads_append _ _ _ _ (by simpa using hl), Bool.and_eq_true] at h
  obtain ⟨d, h1, h2, _⟩ := reads_first hre (k := [p]) rfl hp h.2
  injection h1 with h1
  exact ⟨d, by simp [h1], h2⟩

/-- A keyword at a place of the text. -/
structure KeyAt (re : Re) (prev : Option Char) (p r : Str) : Prop where
  key : ∃ k ∈ sqlParts, reads re k p = true
  before : boundary re prev p.head? = true
  after : boundary re p.getLast? r.head? = true

theorem kw_cases (hre : SaneRe re) {prev : Option Char} {s : Str} {n : Nat} {kw : Kw} (hm : kw ∈ keywords)
    (hk : matchKw re prev s kw = some n) :
    ∃ p r, s = p ++ r ∧ n = p.length ∧ ((∃ c, p = [c] ∧ Single c) ∨ KeyAt re prev p r) := by
  obtain ⟨h1, h2, h3, h4⟩ := matchKw_some _ _ _ _ _ hk
  refine ⟨s.take n, s.drop n, (List.take_append_drop n s).symm, by rw [List.length_take]; omega, ?_⟩
  unfold keywords at hm
  rcases List.mem_append.1 hm with hm | hm
  · rcases List.mem_append.1 hm with hm | hm
    · left
      have hm : kw = symbolKw ['('] ∨ kw = symbolKw [')'] ∨ kw = symbolKw [','] := by simpa using hm
      cases s with
      | nil => rcases hm with rfl | rfl | rfl <;> cases h3
      | cons c s =>
        have hsym : ∀ q : Char, q = '(' ∨ q = ')' ∨ q = ',' → kw = symbolKw [q] → ∃ d, (c :: s).take n = [d] ∧ Single d := by
          rintro q hq rfl
          rw [matchKw_sym, same_symbol hre hq] at hk
          by_cases hc : c = q
          · have hn : n = 1 := h1
            subst hn hc
            exact ⟨c, rfl, by rcases hq with h | h | h <;> simp [Single, h]⟩
          · simp [hc] at hk
        rcases hm with e | e | e
        · exact hsym '(' (by simp) e
        · exact hsym ')' (by simp) e
        · exact hsym ',' (by simp) e
    · right
      obtain ⟨k, hkm, rfl⟩ := List.mem_map.1 hm
      obtain ⟨p, hp, hr⟩ := reads_of_match k s _ h3
      have hp' : s.take n = p := by
        have : p ++ s.drop n = s.take n ++ s.drop n := by rw [List.take_append_drop, ← hp]
        exact (List.append_cancel_right this).symm
      refine ⟨⟨k, hkm, by rw [hp']; exact hr⟩, ?_, (h4 rfl).2⟩
      have := (h4 rfl).1
      have hh : (s.take n).head? = s.head? := by
        rw [hp']
        have : p ≠ [] := by
          rintro rfl
          exact (parts_chars k hkm).1 (List.length_eq_zero_iff.1 (reads_length _ _ hr))
        rw [hp]
        cases p with
        | nil => exact absurd rfl this
        | cons a p => rfl
      rw [hh]; exact this
  · left
    rw [List.mem_singleton] at hm
    subst hm
    cases s with
    | nil => cases h3
    | cons c s =>
      have hn : n = 1 := h1
      subst hn
      refine ⟨c, rfl, ?_⟩
      by_cases hc : PC.fits re .ws c = true
      · exact Or.inr (Or.inr (Or.inr hc))
      · rw [matchPat, if_neg hc] at h3; cases h3

theorem match_cases (hre : SaneRe re) {prev : Option Char} {s : Str} {n : Nat} (h : firstMatch re keywords prev s = some n) :
    ∃ p r, s = p ++ r ∧ n = p.length ∧ ((∃ c, p = [c] ∧ Single c) ∨ KeyAt re prev p r) := by
  obtain ⟨kw, hm, hk⟩ := firstMatch_some _ _ _ _ _ h
  exact kw_cases hre hm hk

theorem keyAt_first (hre : SaneRe re) {prev : Option Char} {p r : Str} (h : KeyAt re prev p r) :
    ∃ c, p.head? = some c ∧ re.isWord c = true := by
  obtain ⟨k, hk, hr⟩ := h.key
  obtain ⟨hne, _, hf, _⟩ := parts_chars k hk
  obtain ⟨a, k', rfl⟩ := List.exists_cons_of_ne_nil hne
  obtain ⟨d, hd, hw, _⟩ := reads_first hre (k := a :: k') rfl (hf a rfl).1 hr
  exact ⟨d, hd, hw⟩

theorem keyAt_last (hre : SaneRe re) {prev : Option Char} {p r : Str} (h : KeyAt re prev p r) :
    ∃ c, p.getLast? = some c ∧ re.isWord c = true := by
  obtain ⟨k, hk, hr⟩ := h.key
  obtain ⟨hne, _, _, hl⟩ := parts_chars k hk
  obtain ⟨q, hq⟩ := Option.isSome_iff_exists.1 (by rw [List.getLast?_isSome]; exact hne : k.getLast?.isSome = true)
  exact reads_last hre hq (hl q hq) hr

/-- A single character is found. -/
theorem single_found (hre : SaneRe re) (prev : Option Char) (c : Char) (cs : Str) (h : Single c) :
    firstMatch re keywords prev (c :: cs) = some 1 := by
  refine findSome_unique _ _ _ ?_ ?_
  · rcases h with h | h | h | h
    · exact ⟨symbolKw ['('], by decide +kernel, by rw [matchKw_sym, same_symbol hre (by simp)]; simp [h]⟩
    · exact ⟨symbolKw [')'], by decide +kernel, by rw [matchKw_sym, same_symbol hre (by simp)]; simp [h]⟩
    · exact ⟨symbolKw [','], by decide +kernel, by rw [matchKw_sym, same_symbol hre (by simp)]; simp [h]⟩
    · refine ⟨⟨false, [.ws]⟩, by decide +kernel, ?_⟩
      unfold matchKw
      simp [matchPat, PC.fits, h]
  · intro kw hkw n hn
    obtain ⟨p, r, h1, h2, ⟨d, h3, _⟩ | h3⟩ := kw_cases hre hkw hn
    · rw [h2, h3]; rfl
    · obtain ⟨d, hd, hw⟩ := keyAt_first hre h3
      cases p with
      | nil => cases hd
      | cons e p =>
        injection h1 with h1 _
        injection hd with hd
        rw [← hd, ← h1, single_nonword hre h] at hw
        cases hw

theorem scan_single (hre : SaneRe re) (prev : Option Char) (cur : Str) (c : Char) (cs : Str) (h : Single c) :
    scan re keywords prev cur (c :: cs) = cur :: [c] :: scan re keywords (some c) [] cs := by
  rw [scan_some keywords_solid cur (single_found hre prev c cs h)]
  rfl

/-! ## Keywords in a text -/

theorem key_chars {k : Str} (hk : capitals k ∈ sqlParts) :
    ∀ c ∈ k, c.toNat < 128 ∧ (isSpace c = true → c = ' ') ∧ (c = ' ' ∨ c.toUpper.isAlpha = true) := by
  intro c hc
  have h := (parts_chars _ hk).2.1 c.toUpper (List.mem_map_of_mem hc)
  have hlt : c.toNat < 128 := by
    by_cases hn : c.toNat < 128
    · exact hn
    · exfalso
      rw [toUpper_big c hn] at h
      rcases h with h | h
      · rw [h] at hn; exact hn (by decide)
      · exact hn (alphanum_ascii c (by simp [Char.isAlphanum, h.1]))
  refine ⟨hlt, ?_⟩
  have h : c.toUpper = ' ' ∨ c.toUpper.isAlpha = true := h.imp id (·.1)
  exact of_ascii (P := fun c => c.toUpper = ' ' ∨ c.toUpper.isAlpha = true →
    (isSpace c = true → c = ' ') ∧ (c = ' ' ∨ c.toUpper.isAlpha = true)) (by decide +kernel) c hlt h

theorem alpha_word {c : Char} (hc : c.toNat < 128) (h : c.toUpper.isAlpha = true) : isWordChar c = true :=
  of_ascii (P := fun c => c.toUpper.isAlpha = true → isWordChar c = true) (by decide +kernel) c hc h

theorem reads_capitals (hre : SaneRe re) : ∀ (k s : Str), (∀ c ∈ k, c = ' ' ∨ (c.isAlpha = true ∧ c.toUpper = c)) →
    (∀ c ∈ s, c.toNat < 128 ∧ (isSpace c = true → c = ' ')) → (reads re k s = true ↔ capitals s = k)
  | [], [], _, _ => by simp [reads, capitals]
  | [], _ :: _, _, _ => by simp [reads, capitals]
  | _ :: _, [], _, _ => by simp [reads, capitals]
  | p :: k, c :: s, hk, hs => by
    have ih := reads_capitals hre k s (fun d hd => hk d (List.mem_cons_of_mem _ hd)) (fun d hd => hs d (List.mem_cons_of_mem _ hd))
    obtain ⟨hc, hsp⟩ := hs c (List.mem_cons_self ..)
    have e : (if p = ' ' then isSpace c else re.same p c) = true ↔ c.toUpper = p := by
      rcases hk p (List.mem_cons_self ..) with rfl | ⟨hp, hu⟩
      · rw [if_pos rfl]
        constructor
        · intro h; rw [hsp h]; rfl
        · intro h
          exact of_ascii (P := fun c => c.toUpper = ' ' → isSpace c = true) (by decide +kernel) c hc h
      · rw [if_neg (by rintro rfl; exact absurd hp (by decide))]
        exact fits_iff hre (alphanum_ascii p (by simp [Char.isAlphanum, hp])) hu hc
    rw [reads, Bool.and_eq_true, e, ih]
    show _ ↔ c.toUpper :: capitals s = _
    simp

theorem no_prefix : ∀ k ∈ sqlParts, ∀ k' ∈ sqlParts, k <+: k' → k = k' := by decide +kernel

/-- A keyword is found. -/
theorem key_found (hre : SaneRe re) (prev : Option Char) (k t : Str) (hk : capitals k ∈ sqlParts) (hp : Fresh re prev)
    (ht : Edge re t) : firstMatch re keywords prev (k ++ t) = some k.length := by
  obtain ⟨hne, hch, hfirst, hlast⟩ := parts_chars _ hk
  have hkc := key_chars hk
  have hr : reads re (capitals k) k = true :=
    (reads_capitals hre _ _ hch (fun c hc => ⟨(hkc c hc).1, (hkc c hc).2.1⟩)).2 rfl
  have hkn : k ≠ [] := by rintro rfl; exact hne rfl
  obtain ⟨c, cs, rfl⟩ := List.exists_cons_of_ne_nil hkn
  obtain ⟨d, hd, hdw, _⟩ := reads_first hre (k := capitals (c :: cs)) rfl (hfirst _ rfl).1 hr
  injection hd with hd
  subst hd
  obtain ⟨q, hq⟩ := Option.isSome_iff_exists.1
    (by rw [List.getLast?_isSome]; exact hne : (capitals (c :: cs)).getLast?.isSome = true)
  obtain ⟨e, he, hew⟩ := reads_last hre hq (hlast q hq) hr
  refine findSome_unique _ _ _ ⟨partKw (capitals (c :: cs)), ?_, ?_⟩ ?_
  · unfold keywords
    exact List.mem_append_left _ (List.mem_append_right _ (List.mem_map_of_mem hk))
  · rw [Mabel.Evaluator.matchKw_of _ _ _ _ (match_of_reads _ _ t hr), Option.bind_some]
    show (if _ then _ else _) = _
    have hl : (partKw (capitals (c :: cs))).pat.length = (c :: cs).length := by
      simp [partKw, capitals_length]
    rw [hl, List.take_left' rfl, he, if_pos (show (partKw (capitals (c :: cs))).bounded = true from rfl), if_pos]
    rw [Bool.and_eq_true]
    exact ⟨boundary_start hp hdw, boundary_end hew ht⟩
  · intro kw hkw n hn
    obtain ⟨p, r, h1, h2, ⟨d, h3, h4⟩ | h3⟩ := kw_cases hre hkw hn
    · exfalso
      subst h3
      injection h1 with h1 _
      rw [h1, single_nonword hre h4] at hdw
      cases hdw
    · rw [h2]
      obtain ⟨k', hk', hr'⟩ := h3.key
      have hch' := (parts_chars k' hk').2.1
      rcases List.append_eq_append_iff.1 h1 with ⟨x, e1, e2⟩ | ⟨x, e1, e2⟩
      · -- p goes on
        have hlen := reads_length _ _ hr'
        have hk1 : k' = k'.take (c :: cs).length ++ k'.drop (c :: cs).length := (List.take_append_drop _ _).symm
        rw [hk1, e1, reads_append _ _ _ _ (by rw [List.length_take, hlen, e1, List.length_append]; omega), Bool.and_eq_true] at hr'
        have := (reads_capitals hre _ _ (fun c hc => hch' c (List.mem_of_mem_take hc))
          (fun c hc => ⟨(hkc c hc).1, (hkc c hc).2.1⟩)).1 hr'.1
        have := no_prefix _ hk _ hk' (by rw [this]; exact List.take_prefix _ _)
        rw [← hlen, ← this, capitals_length]
      · rw [e1] at hkc
        have := (reads_capitals hre _ _ hch' (fun c hc => ⟨(hkc c (List.mem_append_left _ hc)).1,
          (hkc c (List.mem_append_left _ hc)).2.1⟩)).1 hr'
        have hpre := no_prefix _ hk' _ hk (by rw [← this, e1]; exact ⟨capitals x, by simp [capitals]⟩)
        rw [← reads_length _ _ hr', hpre, capitals_length]

theorem scan_key (hre : SaneRe re) (prev : Option Char) (cur k t : Str) (hk : capitals k ∈ sqlParts) (hp : Fresh re prev)
    (ht : Edge re t) : scan re keywords prev cur (k ++ t) = cur :: k :: scan re keywords k.getLast? [] t := by
  rw [scan_some keywords_solid cur (key_found hre prev k t hk hp ht), List.take_left' rfl, List.drop_left' rfl]

/-! ## Clauses -/

/-- Without the empty pieces. -/
def F (l : List Str) : List Str := l.filter (· ≠ [])

theorem F_cons_nil (l : List Str) : F ([] :: l) = F l := rfl
theorem F_cons (x : Str) (l : List Str) (hx : x ≠ []) : F (x :: l) = x :: F l := by
  unfold F
  rw [List.filter_cons_of_pos (by simpa using hx)]

theorem F_piece (x : Str) (l : List Str) : ∃ p, F (x :: l) = p ++ F l ∧ p.flatten = x ∧ ∀ t ∈ p, t = x := by
  by_cases hx : x = []
  · subst hx
    exact ⟨[], rfl, rfl, by simp⟩
  · exact ⟨[x], F_cons x l hx, by simp, by simp⟩

variable {lex : Lex}

theorem isBody_single (hl : Sane lex) {c : Char} (h : Single c) : isBody lex [c] = true := by
  have hc : c.toNat < 128 ∧ c.isAlpha = false := by
    rcases h with rfl | rfl | rfl | h
    · decide
    · decide
    · decide
    · exact ⟨(space_facts h).1, of_ascii (P := fun c => isSpace c = true → c.isAlpha = false) (by decide +kernel) c (space_facts h).1 h⟩
  unfold isBody
  rw [upper_ascii hl [c] (by simpa using hc.1)]
  have : ∀ k ∈ sqlParts, k.length ≠ 1 := by decide +kernel
  simp only [List.map_cons, List.map_nil, Bool.not_eq_true', List.contains_eq_mem, decide_eq_false_iff_not]
  intro hm
  exact this _ hm rfl

theorem isBody_of_nokey {s a cur b : Str} (hn : NoKey re lex s) (e : s = a ++ cur ++ b)
    (ha : ∀ d, a.getLast? = some d → re.isWord d = false) (hb : Edge re b) : isBody lex cur = true := by
  unfold isBody
  simp only [Bool.not_eq_true', List.contains_eq_mem, decide_eq_false_iff_not]
  intro hm
  rcases hn a cur b e ⟨_, hm, Or.inl rfl⟩ with ⟨c, h1, h2⟩ | ⟨c, h1, h2⟩
  · rw [ha c h1] at h2; cases h2
  · rw [hb c h1] at h2; cases h2

/-- What follows the text of a clause: nothing, or a space after which the text does not go on with `BY`. -/
def Tail (re : Re) (tail : Str) : Prop := tail = [] ∨ ∃ u, tail = ' ' :: u ∧ ∀ c, u.head? = some c → re.same 'B' c = false

/-- The pieces of what follows. -/
def tailParts (re : Re) : Str → List Str
  | [] => []
  | c :: u => [c] :: F (scan re keywords (some c) [] u)

theorem tail_edge (hre : SaneRe re) {tail : Str} (h : Tail re tail) : Edge re tail := by
  rcases h with rfl | ⟨u, rfl, _⟩
  · intro c hc; cases hc
  · exact edge_space hre u

theorem space_in_key (hre : SaneRe re) : ∀ (k b x : Str), (∀ c ∈ k, c = ' ' ∨ (c.isAlpha = true ∧ c.toUpper = c)) →
    reads re k (b ++ ' ' :: x) = true → ∃ k1 k2, k = k1 ++ ' ' :: k2 ∧ reads re k2 x = true
  | [], [], _, _, h => by cases h
  | [], _ :: _, _, _, h => by cases h
  | p :: k, [], x, hk, h => by
    rw [List.nil_append, reads, Bool.and_eq_true] at h
    rcases hk p (List.mem_cons_self ..) with rfl | hp
    · exact ⟨[], k, rfl, h.2⟩
    · exfalso
      have h1 := h.1
      rw [if_neg (by rintro rfl; exact absurd hp.1 (by decide))] at h1
      have := hre.letter p ' ' hp.1 h1
      rw [space_nonword hre (by decide)] at this
      cases this
  | p :: k, c :: b, x, hk, h => by
    rw [List.cons_append, reads, Bool.and_eq_true] at h
    obtain ⟨k1, k2, e1, e2⟩ := space_in_key hre k b x (fun c hc => hk c (List.mem_cons_of_mem _ hc)) h.2
    exact ⟨p :: k1, k2, by rw [e1]; rfl, e2⟩

theorem after_space : ∀ k ∈ sqlParts, ∀ k1 k2, k = k1 ++ ' ' :: k2 → k2 = ['B', 'Y'] := by
  intro k hk k1 k2 e
  have h : ∀ k ∈ sqlParts, ∀ n, n < k.length → k[n]? = some ' ' → k.drop (n + 1) = ['B', 'Y'] := by decide +kernel
  have := h k hk k1.length (by rw [e]; simp) (by rw [e]; simp)
  rw [e] at this
  simpa using this

/-- No keyword begins in the text of a clause. -/
theorem no_key_at (hre : SaneRe re) {s a b tail p r : Str} {prev : Option Char} (hn : NoKey re lex s) (e : s = a ++ b) (hb : b ≠ [])
    (hp : ∀ d, a.getLast? = some d → prev = some d) (ht : Tail re tail) (h : KeyAt re prev p r) (hs : b ++ tail = p ++ r) : False := by
  obtain ⟨c, hc, hcw⟩ := keyAt_first hre h
  obtain ⟨d, hd, hdw⟩ := keyAt_last hre h
  obtain ⟨k, hk, hr⟩ := h.key
  have inside : ∀ x, b = p ++ x → r = x ++ tail → False := by
    intro x e1 e2
    rcases hn a p x (by rw [e, e1, List.append_assoc]) ⟨k, hk, Or.inr hr⟩ with ⟨y, h1, h2⟩ | ⟨y, h1, h2⟩
    · have := h.before
      rw [hp y h1, hc, boundary_words h2 hcw] at this
      cases this
    · have := h.after
      cases x with
      | nil => cases h1
      | cons z x =>
        injection h1 with h1
        subst h1
        rw [hd, e2, List.cons_append, List.head?_cons, boundary_words hdw h2] at this
        cases this
  rcases List.append_eq_append_iff.1 hs with ⟨x, e1, e2⟩ | ⟨x, e1, e2⟩
  · cases x with
    | nil => exact inside [] (by simpa using e1.symm) (by simpa using e2.symm)
    | cons y x =>
      rcases ht with rfl | ⟨u, rfl, hu⟩
      · cases e2
      · injection e2 with e2 e3
        subst e2
        rw [e1] at hr
        obtain ⟨k1, k2, e4, e5⟩ := space_in_key hre k b x (parts_chars k hk).2.1 hr
        rw [after_space k hk k1 k2 e4] at e5
        obtain ⟨z, h1, _, h3⟩ := reads_first hre (k := ['B', 'Y']) rfl (by decide) e5
        cases x with
        | nil => cases h1
        | cons w x =>
          injection h1 with h1
          subst h1
          rw [hu w (by rw [e3]; rfl)] at h3
          cases h3
  · exact inside x e1 e2

/-- The text of a clause is split into pieces that are not keywords. -/
theorem scan_body (hre : SaneRe re) (hl : Sane lex) {s tail : Str} (hn : NoKey re lex s) (ht : Tail re tail) :
    ∀ (b a cur : Str) (prev : Option Char), s = a ++ cur ++ b → (∀ d, a.getLast? = some d → re.isWord d = false) →
      (∀ d, (a ++ cur).getLast? = some d → prev = some d) →
      ∃ bp, F (scan re keywords prev cur (b ++ tail)) = bp ++ tailParts re tail ∧ bp.flatten = cur ++ b ∧ ∀ t ∈ bp, isBody lex t = true := by
  intro b
  induction b with
  | nil =>
    intro a cur prev e ha hp
    have hcur : isBody lex cur = true := isBody_of_nokey hn e ha (by intro c hc; cases hc)
    rcases ht with rfl | ⟨u, rfl, _⟩
    · rw [List.append_nil, scan_nil]
      obtain ⟨p, h1, h2, h3⟩ := F_piece cur []
      exact ⟨p, by rw [h1]; rfl, by rw [h2, List.append_nil], fun t h => by rw [h3 t h]; exact hcur⟩
    · rw [List.nil_append, scan_single hre _ _ _ _ (Or.inr (Or.inr (Or.inr (by decide))))]
      obtain ⟨p, h1, h2, h3⟩ := F_piece cur ([' '] :: scan re keywords (some ' ') [] u)
      exact ⟨p, by rw [h1, F_cons _ _ (by simp)]; rfl, by rw [h2, List.append_nil], fun t h => by rw [h3 t h]; exact hcur⟩
  | cons c b ih =>
    intro a cur prev e ha hp
    cases hf : firstMatch re keywords prev (c :: (b ++ tail)) with
    | none =>
      rw [List.cons_append, scan_none cur hf]
      obtain ⟨bp, h1, h2, h3⟩ := ih a (cur ++ [c]) (some c) (by simp [e]) ha (by intro d hd; simpa using hd)
      exact ⟨bp, h1, by rw [h2]; simp, h3⟩
    | some n =>
      obtain ⟨p, r, h1, h2, ⟨d, h3, h4⟩ | h3⟩ := match_cases hre hf
      · subst h3
        injection h1 with h1 h1'
        subst h1
        rw [List.cons_append, scan_single hre _ _ _ _ h4]
        obtain ⟨bp, i1, i2, i3⟩ := ih (a ++ cur ++ [c]) [] (some c) (by simp [e])
          (by intro d hd; rw [List.getLast?_concat] at hd; injection hd with hd; rw [← hd]; exact single_nonword hre h4)
          (by intro d hd; simpa using hd)
        obtain ⟨q, j1, j2, j3⟩ := F_piece cur ([c] :: scan re keywords (some c) [] (b ++ tail))
        refine ⟨q ++ [c] :: bp, by rw [j1, F_cons _ _ (by simp), i1]; simp, by simp [j2, i2], ?_⟩
        intro t hm
        rcases List.mem_append.1 hm with hm | hm
        · rw [j3 t hm]
          refine isBody_of_nokey hn e ha ?_
          intro d hd
          injection hd with hd
          rw [← hd]
          exact single_nonword hre h4
        · rcases List.mem_cons.1 hm with rfl | hm
          · exact isBody_single hl h4
          · exact i3 t hm
      · exact absurd (no_key_at hre hn e (List.cons_ne_nil _ _) hp ht h3 h1) id

/-- A statement in parentheses is split into pieces, with the parentheses as pieces of their own. -/
theorem scan_inside (hre : SaneRe re) (tail : Str) : ∀ (n : Nat) (s cur : Str) (prev : Option Char), s.length ≤ n →
    '(' ∉ cur → ')' ∉ cur →
    ∃ sp, F (scan re keywords prev cur (s ++ ')' :: tail)) = sp ++ tailParts re (')' :: tail) ∧ sp.flatten = cur ++ s ∧
      ∀ t ∈ sp, t = ['('] ∨ t = [')'] ∨ ('(' ∉ t ∧ ')' ∉ t) := by
  intro n
  induction n with
  | zero =>
    intro s cur prev hn h1 h2
    have : s = [] := List.length_eq_zero_iff.1 (by omega)
    subst this
    rw [List.nil_append, scan_single hre _ _ _ _ (Or.inr (Or.inl rfl))]
    obtain ⟨p, i1, i2, i3⟩ := F_piece cur ([')'] :: scan re keywords (some ')') [] tail)
    exact ⟨p, by rw [i1, F_cons _ _ (by simp)]; rfl, by rw [i2, List.append_nil],
      fun t h => by rw [i3 t h]; exact Or.inr (Or.inr ⟨h1, h2⟩)⟩
  | succ n ih =>
    intro s cur prev hn h1 h2
    cases s with
    | nil => exact ih [] cur prev (Nat.zero_le _) h1 h2
    | cons c s =>
      cases hf : firstMatch re keywords prev (c :: (s ++ ')' :: tail)) with
      | none =>
        have hc : ¬ Single c := by
          intro h
          rw [single_found hre _ _ _ h] at hf
          cases hf
        rw [List.cons_append, scan_none cur hf]
        obtain ⟨sp, i1, i2, i3⟩ := ih s (cur ++ [c]) (some c) (by simpa using hn)
          (by
            rw [List.mem_append, List.mem_singleton]
            rintro (h | h)
            · exact h1 h
            · exact hc (Or.inl h.symm))
          (by
            rw [List.mem_append, List.mem_singleton]
            rintro (h | h)
            · exact h2 h
            · exact hc (Or.inr (Or.inl h.symm)))
        exact ⟨sp, i1, by rw [i2]; simp, i3⟩
      | some m =>
        obtain ⟨p, r, e1, e2, h⟩ := match_cases hre hf
        have hpx : ∃ x, c :: s = p ++ x ∧ r = x ++ ')' :: tail ∧ x.length ≤ n ∧ p ≠ [] ∧ (p = ['('] ∨ p = [')'] ∨ ('(' ∉ p ∧ ')' ∉ p)) := by
          rcases h with ⟨d, h, hd⟩ | h
          · subst h
            injection e1 with e1 e3
            subst e1
            refine ⟨s, rfl, e3.symm, by simpa using hn, by simp, ?_⟩
            by_cases hd1 : c = '('
            · exact Or.inl (by rw [hd1])
            · by_cases hd2 : c = ')'
              · exact Or.inr (Or.inl (by rw [hd2]))
              · exact Or.inr (Or.inr ⟨by simpa using Ne.symm hd1, by simpa using Ne.symm hd2⟩)
          · obtain ⟨k, hk, hr⟩ := h.key
            have hch := reads_chars hre k p (parts_chars k hk).2.1 hr
            have hno : ∀ q, q = '(' ∨ q = ')' → q ∉ p := by
              intro q hq hm
              rcases hch q hm with h | h
              · rcases hq with rfl | rfl <;> exact absurd h (by decide)
              · rw [single_nonword hre (hq.imp id Or.inl)] at h
                cases h
            have hpne : p ≠ [] := by
              rintro rfl
              obtain ⟨d, hd, _⟩ := keyAt_first hre h
              cases hd
            rw [← List.cons_append] at e1
            rcases List.append_eq_append_iff.1 e1 with ⟨x, e3, e4⟩ | ⟨x, e3, e4⟩
            · cases x with
              | nil =>
                refine ⟨[], by simpa using e3.symm, by simpa using e4.symm, Nat.zero_le _, hpne, Or.inr (Or.inr ⟨hno _ (Or.inl rfl), hno _ (Or.inr rfl)⟩)⟩
              | cons y x =>
                injection e4 with e4 _
                exact absurd (by rw [e3, ← e4]; simp) (hno ')' (Or.inr rfl))
            · refine ⟨x, e3, e4, ?_, hpne, Or.inr (Or.inr ⟨hno _ (Or.inl rfl), hno _ (Or.inr rfl)⟩)⟩
              have := congrArg List.length e3
              have := List.length_pos_iff.2 hpne
              simp only [List.length_cons, List.length_append] at *
              omega
        obtain ⟨x, e3, e4, hx, hpne, hpp⟩ := hpx
        obtain ⟨sp, i1, i2, i3⟩ := ih x [] p.getLast? hx (by simp) (by simp)
        rw [List.cons_append, scan_some keywords_solid cur hf, e2, e1, List.take_left' rfl, List.drop_left' rfl, e4]
        obtain ⟨q, j1, j2, j3⟩ := F_piece cur (p :: scan re keywords p.getLast? [] (x ++ ')' :: tail))
        refine ⟨q ++ p :: sp, by rw [j1, F_cons _ _ hpne, i1]; simp, by simp [j2, i2, e3], ?_⟩
        intro t hm
        rcases List.mem_append.1 hm with hm | hm
        · rw [j3 t hm]; exact Or.inr (Or.inr ⟨h1, h2⟩)
        · rcases List.mem_cons.1 hm with rfl | hm
          · exact hpp
          · exact i3 t hm

end Mabel.Sql
