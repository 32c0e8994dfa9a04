import Verif.Spec.Evaluator
import Verif.Lemmas.Tokenizer

/-! # Splitting select lists -/

namespace Mabel.Evaluator
open Mabel.Py Mabel.Dates Mabel.Tokens Mabel.Filters Mabel.Evaluator.Spec
open Mabel.Tokenizer hiding Blank keywords
open Mabel.Tokenizer.Spec (SaneRe capitals isWordChar)
open Mabel.Expression (of_ascii alphanum_ascii)

variable {re : Re}

theorem keywords_solid : Solid keywords := by
  unfold Solid
  decide +kernel

theorem matchKw_of (prev : Option Char) (s : Str) (kw : Kw) (m : Option Str) (h : matchPat re kw.pat s = m) :
    matchKw re prev s kw = m.bind (fun rest => if kw.bounded then
      if boundary re prev s.head? && boundary re (s.take kw.pat.length).getLast? rest.head? then some kw.pat.length else none
      else some kw.pat.length) := by
  unfold matchKw
  cases m <;> simp only [h] <;> rfl

theorem matchKw_sym (prev : Option Char) (p c : Char) (cs : Str) :
    matchKw re prev (c :: cs) (symbolKw [p]) = if re.same p c then some 1 else none := by
  rw [matchKw_of prev (c :: cs) (symbolKw [p]) (if re.same p c then some cs else none) rfl]
  cases re.same p c <;> rfl

theorem matchKw_as (prev : Option Char) (s : Str) :
    matchKw re prev s (wordKw ['A', 'S']) = match s with
      | x :: y :: r => if re.same 'A' x && re.same 'S' y && boundary re prev (some x) && boundary re (some y) r.head? then some 2 else none
      | _ => none := by
  match s with
  | [] => rfl
  | [x] =>
    rw [matchKw_of prev [x] (wordKw ['A', 'S']) (if re.same 'A' x then none else none) rfl]
    cases re.same 'A' x <;> rfl
  | x :: y :: r =>
    rw [matchKw_of prev (x :: y :: r) (wordKw ['A', 'S']) (if re.same 'A' x then (if re.same 'S' y then some r else none) else none) rfl]
    show _ = if (re.same 'A' x && re.same 'S' y && boundary re prev (some x) && boundary re (some y) r.head?) = true then some 2 else none
    cases re.same 'A' x <;> cases re.same 'S' y <;> first | rfl | (simp only [Bool.true_and]; rfl)

theorem firstMatch_cases (prev : Option Char) (c : Char) (cs : Str) : firstMatch re keywords prev (c :: cs) =
    if re.same '(' c then some 1 else if re.same ')' c then some 1 else if re.same ',' c then some 1
    else matchKw re prev (c :: cs) (wordKw ['A', 'S']) := by
  have hk : keywords = [symbolKw ['('], symbolKw [')'], symbolKw [','], wordKw ['A', 'S']] := by decide +kernel
  unfold firstMatch
  rw [hk]
  simp only [List.findSome?_cons, matchKw_sym, List.findSome?_nil]
  cases re.same '(' c <;> cases re.same ')' c <;> cases re.same ',' c <;> simp
  cases matchKw re prev (c :: cs) (wordKw ['A', 'S']) <;> rfl

theorem same_symbol (hre : SaneRe re) {p c : Char} (hp : p = '(' ∨ p = ')' ∨ p = ',') : re.same p c = decide (c = p) := by
  have hpn : p.toNat < 128 ∧ p.isAlpha = false := by rcases hp with rfl | rfl | rfl <;> decide
  by_cases h : c = p
  · subst h
    rw [hre.same c c hpn.1 hpn.1]
    simp
  · cases hs : re.same p c with
    | false => simp [h]
    | true => exact absurd (hre.symbol p c hpn.1 hpn.2 hs) h

/-- A character at which nothing is found. -/
theorem quiet_at (hre : SaneRe re) (prev : Option Char) (c : Char) (cs : Str) (hc : c ≠ '(' ∧ c ≠ ')' ∧ c ≠ ',')
    (h : ∀ y r, cs = y :: r → re.same 'A' c = true → re.same 'S' y = true →
      boundary re prev (some c) = false ∨ boundary re (some y) r.head? = false) :
    firstMatch re keywords prev (c :: cs) = none := by
  rw [firstMatch_cases, same_symbol hre (Or.inl rfl), same_symbol hre (Or.inr (Or.inl rfl)), same_symbol hre (Or.inr (Or.inr rfl)),
    matchKw_as]
  simp only [hc.1, hc.2.1, hc.2.2, decide_false, Bool.false_eq_true, if_false]
  match cs with
  | [] => rfl
  | y :: r =>
    simp only
    rw [if_neg]
    intro hh
    simp only [Bool.and_eq_true] at hh
    rcases h y r rfl hh.1.1.1 hh.1.1.2 with h | h
    · rw [h] at hh; exact absurd hh.1.2 (by decide)
    · rw [h] at hh; exact absurd hh.2 (by decide)

theorem word_a (hre : SaneRe re) {c : Char} (h : re.same 'A' c = true) : re.isWord c = true := hre.letter _ _ (by decide) h
theorem word_s (hre : SaneRe re) {c : Char} (h : re.same 'S' c = true) : re.isWord c = true := hre.letter _ _ (by decide) h

theorem scan_word (hre : SaneRe re) (s rest : Str) (hs : ∀ c ∈ s, c ≠ '(' ∧ c ≠ ')' ∧ c ≠ ',') (hn : NoAs re s)
    (hr : Edge re rest) : ∀ (b a : Str) (prev : Option Char) (cur : Str), s = a ++ b →
      (∀ d, a.getLast? = some d → prev = some d) →
      ∃ prev', scan re keywords prev cur (b ++ rest) = scan re keywords prev' (cur ++ b) rest := by
  intro b
  induction b with
  | nil => intro a prev cur _ _; exact ⟨prev, by simp⟩
  | cons c b ih =>
    intro a prev cur e hp
    obtain ⟨prev', h⟩ := ih (a ++ [c]) (some c) (cur ++ [c]) (by simp [e]) (by intro d hd; simpa using hd)
    refine ⟨prev', ?_⟩
    rw [List.cons_append, scan_none, h]
    · simp
    · apply quiet_at hre
      · exact hs c (by simp [e])
      · intro y r hy hA hS
        cases b with
        | nil =>
          have hrest : rest = y :: r := hy
          have := hr y (by rw [hrest]; rfl)
          rw [word_s hre hS] at this
          cases this
        | cons z b =>
          injection hy with hz hr'
          subst hz
          rcases hn a c z b e hA hS with ⟨d, hd, hw⟩ | ⟨d, hd, hw⟩
          · left
            rw [hp d hd]
            exact boundary_words hw (word_a hre hA)
          · right
            cases b with
            | nil => cases hd
            | cons w b =>
              injection hd with hd
              subst hd
              rw [← hr']
              exact boundary_words (word_s hre hS) hw

theorem space_facts {c : Char} (h : isSpace c = true) : c.toNat < 128 ∧ isWordChar c = false ∧ c ≠ '(' ∧ c ≠ ')' ∧ c ≠ ',' := by
  have h1 : c.toNat < 128 := by
    have hm : c ∈ [' ', '\t', '\n', '\r', '\x0b', '\x0c', '\x1c', '\x1d', '\x1e', '\x1f'] := by
      unfold isSpace at h
      exact List.contains_iff_mem.1 h
    exact (show ∀ d ∈ [' ', '\t', '\n', '\r', '\x0b', '\x0c', '\x1c', '\x1d', '\x1e', '\x1f'], d.toNat < 128 by decide) c hm
  exact ⟨h1, of_ascii (P := fun c => isSpace c = true → isWordChar c = false ∧ c ≠ '(' ∧ c ≠ ')' ∧ c ≠ ',') (by decide +kernel) c h1 h⟩

theorem space_nonword (hre : SaneRe re) {c : Char} (h : isSpace c = true) : re.isWord c = false :=
  nonword_edge hre (space_facts h).1 (space_facts h).2.1

theorem scan_blank (hre : SaneRe re) (rest : Str) : ∀ (b : Str) (prev : Option Char) (cur : Str), Spec.Blank b →
    ∃ prev', scan re keywords prev cur (b ++ rest) = scan re keywords prev' (cur ++ b) rest ∧
      ((b = [] ∧ prev' = prev) ∨ (b ≠ [] ∧ Fresh re prev')) := by
  intro b
  induction b with
  | nil => intro prev cur _; exact ⟨prev, by simp, Or.inl ⟨rfl, rfl⟩⟩
  | cons c b ih =>
    intro prev cur hb
    have hc := hb c (List.mem_cons_self ..)
    obtain ⟨prev', h1, h2⟩ := ih (some c) (cur ++ [c]) (fun d hd => hb d (List.mem_cons_of_mem _ hd))
    refine ⟨prev', ?_, Or.inr ⟨List.cons_ne_nil _ _, ?_⟩⟩
    · rw [List.cons_append, scan_none, h1]
      · simp
      · apply quiet_at hre _ _ _ (space_facts hc).2.2
        intro y r _ hA _
        have := word_a hre hA
        rw [space_nonword hre hc] at this
        cases this
    · rcases h2 with ⟨_, rfl⟩ | h2
      · intro a ha
        injection ha with ha
        subst ha
        exact space_nonword hre hc
      · exact h2.2

theorem scan_sym (hre : SaneRe re) (prev : Option Char) (cur : Str) (c : Char) (rest : Str) (hc : c = '(' ∨ c = ')' ∨ c = ',') :
    scan re keywords prev cur (c :: rest) = cur :: [c] :: scan re keywords (some c) [] rest := by
  have h : firstMatch re keywords prev (c :: rest) = some 1 := by
    rw [firstMatch_cases, same_symbol hre (Or.inl rfl), same_symbol hre (Or.inr (Or.inl rfl)), same_symbol hre (Or.inr (Or.inr rfl))]
    rcases hc with rfl | rfl | rfl <;> rfl
  rw [scan_some keywords_solid cur h]
  rfl

theorem as_chars {s : Str} (h : capitals s = "AS".toList) : ∃ x y, s = [x, y] ∧ x.toUpper = 'A' ∧ y.toUpper = 'S' ∧
    x.toNat < 128 ∧ y.toNat < 128 := by
  match s with
  | [] => cases h
  | [x] => simp [capitals] at h
  | x :: y :: z :: s => simp [capitals] at h
  | [x, y] =>
    have h1 : [x.toUpper, y.toUpper] = ['A', 'S'] := h
    injection h1 with h1 h2
    injection h2 with h2 _
    have key : ∀ c : Char, c.toUpper.toNat < 128 → c.toNat < 128 := by
      intro c hc
      by_cases hn : c.toNat < 128
      · exact hn
      · rw [toUpper_big c hn] at hc
        exact hc
    exact ⟨x, y, rfl, h1, h2, key x (by rw [h1]; decide), key y (by rw [h2]; decide)⟩

theorem scan_as (hre : SaneRe re) (prev : Option Char) (cur s rest : Str) (hs : capitals s = "AS".toList) (hp : Fresh re prev)
    (hr : Edge re rest) : scan re keywords prev cur (s ++ rest) = cur :: s :: scan re keywords s.getLast? [] rest := by
  obtain ⟨x, y, rfl, hx, hy, hx1, hy1⟩ := as_chars hs
  have hA : re.same 'A' x = true := by rw [hre.same _ _ (by decide) hx1, hx]; decide
  have hS : re.same 'S' y = true := by rw [hre.same _ _ (by decide) hy1, hy]; decide
  have hxs : x ≠ '(' ∧ x ≠ ')' ∧ x ≠ ',' := by
    refine ⟨?_, ?_, ?_⟩ <;> (rintro rfl; exact absurd hx (by decide))
  have h : firstMatch re keywords prev (x :: y :: rest) = some 2 := by
    rw [firstMatch_cases, same_symbol hre (Or.inl rfl), same_symbol hre (Or.inr (Or.inl rfl)), same_symbol hre (Or.inr (Or.inr rfl)),
      matchKw_as]
    simp only [hxs.1, hxs.2.1, hxs.2.2, decide_false, Bool.false_eq_true, if_false, hA, hS, boundary_start hp (word_a hre hA),
      boundary_end (word_s hre hS) hr, Bool.and_self, if_true]
  show scan re keywords prev cur (x :: y :: rest) = _
  rw [scan_some keywords_solid cur h]
  rfl

/-! ## Rows of pieces -/

def Piece.isWord : Piece → Bool
  | .word _ => true
  | _ => false

/-- No two words are next to each other. -/
def apart : List Piece → Bool
  | [] => true
  | p :: ps => !(Piece.isWord p && ps.head?.any Piece.isWord) && apart ps

theorem apart_append (a b : List Piece) (ha : apart a = true) (hb : apart b = true) (h : b.head?.any Piece.isWord = false) :
    apart (a ++ b) = true := by
  induction a with
  | nil => exact hb
  | cons p a ih =>
    rw [apart, Bool.and_eq_true] at ha
    rw [List.cons_append, apart, Bool.and_eq_true]
    refine ⟨?_, ih ha.2⟩
    cases a with
    | nil => rw [List.nil_append, h]; simp
    | cons q a => exact ha.1

/-- The token of a piece. -/
def pieceToken : Piece → List Str
  | .sym c => if c = ',' then [] else [[c]]
  | .as s => [s]
  | .word s => [s]

def piecesTokens (ps : List Piece) : List Str := ps.flatMap pieceToken

def kept (l : List Str) : List Str := (l.map strip).filter (fun t => t ≠ [] ∧ t ≠ ",".toList)

theorem kept_cons (x : Str) (l : List Str) : kept (x :: l) = kept [x] ++ kept l := by
  unfold kept
  rw [List.map_cons, List.map_cons, List.filter_cons, List.map_nil, List.filter_cons]
  split <;> rfl

theorem strip_append_blank (x b : Str) (hb : Spec.Blank b) : strip (x ++ b) = strip x := by
  unfold strip
  congr 1
  by_cases hx : Spec.Blank x
  · have h1 : (x ++ b).dropWhile isSpace = [] := by
      have : (x ++ b).dropWhile isSpace = b.dropWhile isSpace := dropWhile_blank x b hx
      rw [this]
      have := dropWhile_blank b [] hb
      simpa using this
    have h2 : x.dropWhile isSpace = [] := by
      have := dropWhile_blank x [] hx
      simpa using this
    rw [h1, h2]
  · have h1 : (x ++ b).dropWhile isSpace = x.dropWhile isSpace ++ b := by
      induction x with
      | nil => exact absurd (fun c hc => by cases hc) hx
      | cons c x ih =>
        by_cases hc : isSpace c = true
        · rw [List.cons_append, List.dropWhile_cons_of_pos hc, List.dropWhile_cons_of_pos hc]
          apply ih
          intro h
          apply hx
          intro d hd
          rcases List.mem_cons.1 hd with rfl | hd
          · exact hc
          · exact h d hd
        · rw [List.cons_append, List.dropWhile_cons_of_neg hc, List.dropWhile_cons_of_neg hc]
          rfl
    rw [h1, List.reverse_append]
    exact dropWhile_blank b.reverse _ (fun c hc => hb c (List.mem_reverse.1 hc))

theorem kept_blank (b : Str) (hb : Spec.Blank b) : kept [b] = [] := by
  unfold kept
  rw [List.map_cons, strip_blank b hb]
  rfl

theorem kept_append_blank (x b : Str) (hb : Spec.Blank b) : kept [x ++ b] = kept [x] := by
  unfold kept
  rw [List.map_cons, List.map_cons, strip_append_blank x b hb]

theorem blank_edge (hre : SaneRe re) {b t : Str} (hb : Spec.Blank b) (h : b ≠ [] ∨ Edge re t) : Edge re (b ++ t) := by
  intro c hc
  cases b with
  | nil =>
    rcases h with h | h
    · exact absurd rfl h
    · exact h c hc
  | cons d b =>
    injection hc with hc
    subst hc
    exact space_nonword hre (hb d (List.mem_cons_self ..))

theorem sym_nonword (hre : SaneRe re) {c : Char} (hc : c = '(' ∨ c = ')' ∨ c = ',') : re.isWord c = false := by
  rcases hc with rfl | rfl | rfl <;> exact nonword_edge hre (by decide) (by decide)

theorem laid_edge (hre : SaneRe re) {ps : List Piece} {t : Str} (h : Laid re ps t) (hw : ps.head?.any Piece.isWord = false) : Edge re t := by
  cases h with
  | nil => intro c hc; cases hc
  | sym hc ha hb ht =>
    rw [List.append_assoc, List.append_assoc]
    refine blank_edge hre ha (Or.inr ?_)
    intro d hd
    injection hd with hd
    subst hd
    exact sym_nonword hre hc
  | as hs ha hb ha' hb' ht =>
    rw [List.append_assoc, List.append_assoc]
    exact blank_edge hre ha (Or.inl ha')
  | word => exact absurd hw (by simp [Piece.isWord])

theorem scan_laid (hre : SaneRe re) {ps : List Piece} {t : Str} (h : Laid re ps t) (hap : apart ps = true) :
    ∀ (prev : Option Char) (cur : Str), (ps.head?.any Piece.isWord = true → Spec.Blank cur) →
      kept (scan re keywords prev cur t) = kept [cur] ++ piecesTokens ps := by
  induction h with
  | nil => intro prev cur _; rw [scan_nil]; simp [piecesTokens]
  | @sym c ps a b t hc ha hb ht ih =>
    intro prev cur _
    rw [apart, Bool.and_eq_true] at hap
    obtain ⟨p1, h1, _⟩ := scan_blank hre (c :: (b ++ t)) a prev cur ha
    obtain ⟨p2, h2, _⟩ := scan_blank hre t b (some c) [] hb
    have e : a ++ [c] ++ b ++ t = a ++ c :: (b ++ t) := by simp
    rw [e, h1, scan_sym hre _ _ _ _ hc, h2, kept_cons, kept_append_blank cur a ha, kept_cons [c], List.nil_append,
      ih hap.2 p2 b (fun _ => hb), kept_blank b hb, List.nil_append]
    have : kept [[c]] = pieceToken (.sym c) := by
      rcases hc with rfl | rfl | rfl <;> decide
    rw [this]
    rfl
  | @as s ps a b t hs ha hb ha' hb' ht ih =>
    intro prev cur _
    rw [apart, Bool.and_eq_true] at hap
    obtain ⟨p1, h1, h1'⟩ := scan_blank hre (s ++ (b ++ t)) a prev cur ha
    obtain ⟨p2, h2, _⟩ := scan_blank hre t b s.getLast? [] hb
    have hf : Fresh re p1 := by
      rcases h1' with h | h
      · exact absurd h.1 ha'
      · exact h.2
    have e : a ++ s ++ b ++ t = a ++ (s ++ (b ++ t)) := by simp
    rw [e, h1, scan_as hre _ _ _ _ hs hf (blank_edge hre hb (Or.inl hb')), h2, kept_cons, kept_append_blank cur a ha, kept_cons s,
      List.nil_append, ih hap.2 p2 b (fun _ => hb), kept_blank b hb, List.nil_append]
    have : kept [s] = [s] := by
      obtain ⟨x, y, rfl, hx, hy, hx1, hy1⟩ := as_chars hs
      have hxs : isSpace x = false := by
        cases h : isSpace x with
        | false => rfl
        | true => exact absurd hx (of_ascii (P := fun c => isSpace c = true → c.toUpper ≠ 'A') (by decide +kernel) x hx1 h)
      have hys : isSpace y = false := by
        cases h : isSpace y with
        | false => rfl
        | true => exact absurd hy (of_ascii (P := fun c => isSpace c = true → c.toUpper ≠ 'S') (by decide +kernel) y hy1 h)
      have hst : strip [x, y] = [x, y] := by
        apply Mabel.Expression.strip_ends
        · intro c hc
          injection hc with hc
          exact hc ▸ hxs
        · intro c hc
          injection hc with hc
          exact hc ▸ hys
      unfold kept
      rw [List.map_cons, hst, List.map_nil, List.filter_cons_of_pos (by simp)]
      rfl
    rw [this]
    rfl
  | @word s ps a b t hs ha hb ht ih =>
    intro prev cur hcur
    have hcur := hcur rfl
    rw [apart, Bool.and_eq_true] at hap
    have hnw : ps.head?.any Piece.isWord = false := by
      have := hap.1
      simpa [Piece.isWord] using this
    obtain ⟨p1, h1, _⟩ := scan_blank hre (s ++ (b ++ t)) a prev cur ha
    obtain ⟨p2, h2⟩ := scan_word hre s (b ++ t) hs.2.2.1 hs.2.2.2 (blank_edge hre hb (Or.inr (laid_edge hre ht hnw))) s [] p1 (cur ++ a)
      rfl (by intro d hd; cases hd)
    obtain ⟨p3, h3, _⟩ := scan_blank hre t b p2 (cur ++ a ++ s) hb
    have e : a ++ s ++ b ++ t = a ++ (s ++ (b ++ t)) := by simp
    rw [e, h1, h2, h3, ih hap.2 p3 _ (by rw [hnw]; intro h; cases h), kept_blank cur hcur]
    have hst : strip (cur ++ a ++ s ++ b) = s := by
      apply strip_pad _ _ _ _ hb hs.1 hs.2.1
      intro c hc
      rcases List.mem_append.1 hc with hc | hc
      · exact hcur c hc
      · exact ha c hc
    have hne : s ≠ [] := by
      obtain ⟨⟨c, cs, rfl, _⟩, _⟩ := hs
      exact List.cons_ne_nil _ _
    have hcomma : s ≠ ",".toList := by
      rintro rfl
      exact (hs.2.2.1 ',' (by decide)).2.2 rfl
    have : kept [cur ++ a ++ s ++ b] = [s] := by
      unfold kept
      rw [List.map_cons, hst, List.map_nil, List.filter_cons_of_pos (by simp [hne]; exact hcomma)]
      rfl
    rw [this]
    rfl

/-- A row of pieces is split into its pieces. -/
theorem tokens_laid (hre : SaneRe re) {ps : List Piece} {t : Str} (h : Laid re ps t) (hap : apart ps = true) :
    tokens re t = piecesTokens ps := by
  have := scan_laid hre h hap none [] (fun _ c hc => by cases hc)
  exact this

end Mabel.Evaluator
