import Verif.Lemmas.Tokenizer

/-!
# Rows of lexemes

The splitter cuts a row of lexemes with single spaces between into pieces from which the lexemes are put together; every
row becomes such a row when it is cleaned.
-/

namespace Mabel.Tokenizer
open Mabel.Py Mabel.Dates Mabel.Tokens Mabel.Tokenizer.Spec
open Mabel.Expression (of_ascii)
open Mabel.Expression.Spec (quote)

variable {re : Re}

/-- What the scan makes of a row after a lexeme. -/
def Ready (re : Re) (a : Lexeme) (ls : List Lexeme) (t : Str) : Prop :=
  (a.isKey = true → Cooks (scan re keywords a.text.getLast? [] t) (ls.map (Lexeme.kept re))) ∧
  (a.isKey = false → ∀ cur, ∃ sp rest, Blank sp ∧ scan re keywords a.text.getLast? cur t = (cur ++ sp) :: rest ∧
    Cooks rest (ls.map (Lexeme.kept re)))

theorem blank_sep {sep : Str} (h : sep = [] ∨ sep = [' ']) : Blank sep := by
  unfold Blank
  rcases h with rfl | rfl <;> decide

/-- One space is passed. -/
theorem scan_sep (hre : SaneRe re) (prev : Option Char) (cur sep s : Str) (h : sep = [] ∨ sep = [' ']) :
    ∃ prev', scan re keywords prev cur (sep ++ s) = scan re keywords prev' (cur ++ sep) s ∧
      (prev' = some ' ' ∨ (sep = [] ∧ prev' = prev)) := by
  rcases h with rfl | rfl
  · exact ⟨prev, by simp, Or.inr ⟨rfl, rfl⟩⟩
  · exact ⟨some ' ', scan_none cur (none_at hre prev ' ' s (by decide)), Or.inl rfl⟩

theorem space_fresh (hre : SaneRe re) : Fresh re (some ' ') := by
  intro a ha
  cases ha
  exact nonword_edge hre (by decide) (by decide)

/-- A keyword is a piece. -/
theorem scan_key (hre : SaneRe re) (prev : Option Char) (cur k : Str) (ls : List Lexeme) (t sep : Str) (hsep : sep = [] ∨ sep = [' '])
    (hk : (Lexeme.key k).Good re) (ht : Tight re (.key k) ls t)
    (hp : sep = [] → ∀ c, k.head? = some c → isWordChar c = true → Fresh re prev) :
    scan re keywords prev cur (sep ++ k ++ t) = (cur ++ sep) :: k :: scan re keywords k.getLast? [] t := by
  rw [List.append_assoc]
  obtain ⟨prev', h1, h2⟩ := scan_sep hre prev cur sep (k ++ t) hsep
  rw [h1, scan_some keywords_solid _ (key_found hre prev' k ls t hk ht ?_)]
  · rw [List.take_left, List.drop_left]
  · intro c hc hw
    rcases h2 with rfl | ⟨rfl, rfl⟩
    · exact space_fresh hre
    · exact hp rfl c hc hw

theorem strip_self {s : Str} (h1 : ∃ c cs, s = c :: cs ∧ isSpace c = false)
    (h2 : ∃ c, s.getLast? = some c ∧ isSpace c = false) : strip s = s := by
  have := strip_pad [] s [] (fun c hc => by cases hc) (fun c hc => by cases hc) h1 h2
  simpa using this

theorem not_by (hre : SaneRe re) {a : Lexeme} {ls : List Lexeme} {t : Str} (ha : a.isKey = false) (h : Tight re a ls t) :
    ∀ c t', t = c :: t' → isSpace c = true → ¬ Begins re "BY".toList t' := by
  intro c t' e hsp hb
  cases h with
  | nil => cases e
  | @cons _ b ls sep t2 hsep hf hg ht2 =>
    have hk : b.isKey = true := by
      rcases hf.1 with h | h
      · rw [ha] at h; cases h
      · exact h
    rcases hsep with rfl | rfl
    · obtain ⟨x, xs, _, h1, _, _, _, h5, _⟩ := lexeme_ends b hg
      rw [h1] at e
      injection e with e1 _
      rw [e1, hsp] at h5
      cases h5
    · have : t' = b.text ++ t2 := by
        simp only [List.cons_append, List.nil_append, List.cons.injEq] at e
        exact e.2.symm
      rw [this] at hb
      rcases lexeme_begins hre b ls t2 "BY".toList hg ht2 (by decide) (by decide) hb with ⟨k', rfl, h | ⟨h1, _⟩ | h⟩ | ⟨w, rfl, _⟩
      · have hg : capitals k' ∈ wordKeys ∨ capitals k' ∈ pairKeys ∨ capitals k' ∈ symbolKeys ∨ capitals k' ∈ punctuation := hg
        rw [h] at hg
        exact absurd hg (by decide +kernel)
      · exact absurd h1 (by decide)
      · exact absurd h (by decide)
      · cases hk

/-- A lexeme where a piece begins. -/
theorem step (hre : SaneRe re) (prev : Option Char) (sep : Str) (b : Lexeme) (ls : List Lexeme) (t : Str) (hsep : sep = [] ∨ sep = [' '])
    (hb : b.Good re) (ht : Tight re b ls t)
    (hp : sep = [] → ∀ c, b.text.head? = some c → isWordChar c = true → Fresh re prev) (hr : Ready re b ls t) :
    Cooks (scan re keywords prev [] (sep ++ b.text ++ t)) ((b :: ls).map (Lexeme.kept re)) := by
  obtain ⟨c, cs, d, e1, e2, e3, e4, e5, e6⟩ := lexeme_ends b hb
  cases b with
  | key k =>
    rw [show (Lexeme.key k).text = k from rfl] at *
    rw [scan_key hre prev [] k ls t sep hsep hb ht hp]
    obtain ⟨c, cs, d, h1, h2, h3, h4, h5, h6, h7⟩ := key_chars k hb
    refine Cooks.blank (strip_blank _ (blank_sep hsep)) ?_
    rw [List.map_cons]
    exact Cooks.cons (strip_self ⟨c, cs, h1, h5⟩ ⟨d, h2, h6⟩) h1 (Or.inl h7) (hr.1 rfl)
  | word w =>
    rw [show (Lexeme.word w).text = w from rfl] at *
    obtain ⟨prev', h1, _⟩ := scan_sep hre prev [] sep (w ++ t) hsep
    obtain ⟨hn, hw, hk⟩ := hb
    rw [List.append_assoc, h1, word_scan hre w t false prev' _ hw hk (fun h => by cases h)
      (tight_edge hre ht d e2 (hw d (List.mem_of_getLast? e2))) (not_by hre rfl ht)]
    obtain ⟨sp, rest, hsp, h2, h3⟩ := hr.2 rfl ([] ++ sep ++ w)
    rw [show (Lexeme.word w).text = w from rfl] at h2
    have : w.getLast?.or prev' = w.getLast? := by rw [e2]; rfl
    rw [this, h2, List.nil_append, List.map_cons]
    refine Cooks.cons (strip_pad sep w sp (blank_sep hsep) hsp ⟨c, cs, e1, e5⟩ ⟨d, e2, e6⟩) e1 (Or.inl ?_) h3
    have hcw := hw c (by rw [e1]; exact List.mem_cons_self ..)
    exact of_ascii (P := fun c => wordish c = true → isQuote c = false) (by decide +kernel) c e3 hcw
  | quoted q body =>
    obtain ⟨hq, hbody, hwhole⟩ := hb
    obtain ⟨q1, q2, q3, _, _⟩ := quote_ascii hq
    have hlast : (Lexeme.quoted q body).text.getLast? = some q := List.getLast?_concat (l := q :: body) ..
    have hr := hr.2 rfl
    rw [hlast] at hr
    have htext : sep ++ (Lexeme.quoted q body).text ++ t = sep ++ (q :: (body ++ q :: t)) := by
      simp [Lexeme.text, quote]
    have hquote : quote q body = q :: (body ++ q :: []) := by simp [quote]
    obtain ⟨prev', h1, _⟩ := scan_sep hre prev [] sep (q :: (body ++ q :: t)) hsep
    rw [htext, h1, scan_none _ (none_at hre prev' q _ q1), List.nil_append, List.map_cons]
    rw [hquote, reSplit_scan, scan_none _ (none_at hre none q _ q1), List.nil_append] at hwhole
    have hkept : Lexeme.kept re (.quoted q body) =
        ((scan re keywords (some q) [q] (body ++ [q])).filter (fun x => strip x ≠ [])).flatten := by
      show ((reSplit re keywords (quote q body)).filter _).flatten = _
      rw [hquote, reSplit_scan, scan_none _ (none_at hre none q _ q1), List.nil_append]
    rw [hkept]
    have hne : ∀ x : Str, q ∈ x → strip x ≠ [] := by
      intro x hx h
      have := strip_nil_blank h q hx
      rw [q3] at this
      cases this
    rcases quote_scan hre q hq body.length (some q) body (Nat.le_refl _) with h | ⟨h, ps, p, e, hh⟩
    · rw [h, h, scan_nil]
      obtain ⟨sp, rest, hsp, h2, h3⟩ := hr (sep ++ [q] ++ body ++ [q])
      rw [h2, List.filter_cons_of_pos (by simpa using hne _ (by simp)), List.filter_nil, List.flatten_cons, List.flatten_nil, List.append_nil]
      have hstrip : strip (sep ++ [q] ++ body ++ [q] ++ sp) = [q] ++ body ++ [q] := by
        have := strip_pad sep ([q] ++ body ++ [q]) sp (blank_sep hsep) hsp ⟨q, body ++ [q], by simp, q3⟩
          ⟨q, List.getLast?_concat .., q3⟩
        rw [← this]
        congr 1
        simp
      refine Cooks.cons (c := q) (cs := body ++ [q]) hstrip (by simp) (Or.inr ⟨List.getLast?_concat .., by simp⟩) h3
    · rw [hh, hh, scan_nil]
      rw [hh, scan_nil] at hwhole
      obtain ⟨sp, rest, hsp, h2, h3⟩ := hr (p ++ [q])
      rw [h2]
      have hmem : ∀ x ∈ ps, q ∉ x := by
        intro x hx hqx
        apply hbody
        rw [← e]
        exact List.mem_append_left _ (List.mem_append_right _ (List.mem_flatten.2 ⟨x, hx, hqx⟩))
      have hk2 : (((([q] ++ h) :: (ps ++ [p ++ [q]])).filter (fun x => strip x ≠ [])).flatten) =
          q :: h ++ (ps.filter (fun x => strip x ≠ [])).flatten ++ p ++ [q] := by
        rw [List.filter_cons_of_pos (by simpa using hne _ (by simp)), List.filter_append,
          List.filter_cons_of_pos (by simpa using hne _ (by simp)), List.filter_nil]
        simp
      rw [hk2]
      refine Cooks.joined hq (blank_sep hsep) hsp ?_ hmem ?_ ?_ h3
      · intro hqh
        apply hbody
        rw [← e]
        exact List.mem_append_left _ (List.mem_append_left _ hqh)
      · intro x hx c r hc
        by_contra hcq
        have := hwhole x (List.mem_append_left _ hx) c r hc (by simpa using hcq)
        have hqs : q ∈ strip x := by rw [this]; exact List.mem_cons_self ..
        exact hmem x hx (strip_mem hqs)
      · intro c r hc hcq
        exact hwhole _ (List.mem_append_right _ (List.mem_singleton.2 rfl)) c r hc hcq

theorem row_ready (hre : SaneRe re) {a : Lexeme} {ls : List Lexeme} {t : Str} (ha : a.Good re) (h : Tight re a ls t) : Ready re a ls t := by
  induction h with
  | @nil a =>
    refine ⟨fun _ => ?_, fun _ cur => ?_⟩
    · rw [scan_nil]
      exact Cooks.blank rfl Cooks.nil
    · exact ⟨[], [], blank_sep (Or.inl rfl), by rw [scan_nil, List.append_nil], Cooks.nil⟩
  | @cons a b ls sep t hsep hf hb ht ih =>
    have ih := ih hb
    have hfresh : sep = [] → ∀ c, b.text.head? = some c → isWordChar c = true → Fresh re a.text.getLast? := by
      intro hs c hc hw x hx
      have := hf.2.2.2 hs x c hx hc
      unfold apart at this
      rw [wordish_of hw, Bool.and_true, Bool.and_eq_true, Bool.not_eq_true'] at this
      obtain ⟨_, _, d, _, h2, _, h4, _⟩ := lexeme_ends a ha
      rw [hx] at h2
      cases h2
      refine nonword_edge hre h4 ?_
      have := this.1
      unfold wordish at this
      rw [Bool.or_eq_false_iff, Bool.or_eq_false_iff] at this
      exact this.1.1
    refine ⟨fun _ => step hre _ sep b ls t hsep hb ht hfresh ih, fun ha cur => ?_⟩
    cases b with
    | key k =>
      refine ⟨sep, k :: scan re keywords k.getLast? [] t, blank_sep hsep, scan_key hre _ cur k ls t sep hsep hb ht hfresh, ?_⟩
      obtain ⟨c, cs, d, h1, h2, h3, h4, h5, h6, h7⟩ := key_chars k hb
      rw [List.map_cons]
      exact Cooks.cons (strip_self ⟨c, cs, h1, h5⟩ ⟨d, h2, h6⟩) h1 (Or.inl h7) (ih.1 rfl)
    | word w =>
      rcases hf.1 with h | h
      · rw [ha] at h; cases h
      · cases h
    | quoted q body =>
      rcases hf.1 with h | h
      · rw [ha] at h; cases h
      · cases h

/-! ## White space between lexemes -/

theorem collapse_cons (c : Char) (cs : Str) (h : isSpace c = false) : collapse (c :: cs) = c :: collapse cs := by
  rw [collapse, if_neg (by rw [h]; simp)]

theorem collapse_space (c : Char) (cs : Str) (h : isSpace c = true) : ∃ r, collapse (c :: cs) = ' ' :: r := by
  rw [collapse, if_pos h]
  split
  · exact ⟨_, rfl⟩
  · exact ⟨_, rfl⟩

theorem collapse_head {s : Str} {c : Char} (h : s.head? = some c) :
    (collapse s).head? = some (if isSpace c then ' ' else c) := by
  cases s with
  | nil => cases h
  | cons d s =>
    cases h
    by_cases hc : isSpace c = true
    · obtain ⟨r, hr⟩ := collapse_space c s hc
      rw [hr, if_pos hc]
      rfl
    · rw [collapse_cons _ _ (by simpa using hc), if_neg hc]
      rfl

theorem collapse_append (x y : Str) (h : ∀ c, y.head? = some c → isSpace c = false) : collapse (x ++ y) = collapse x ++ collapse y := by
  induction x with
  | nil => rfl
  | cons c x ih =>
    by_cases hc : isSpace c = true
    · rw [List.cons_append, collapse, if_pos hc, ih]
      conv => rhs; rw [collapse, if_pos hc]
      cases hx : collapse x with
      | nil =>
        simp only [List.nil_append]
        split
        · rename_i r hr
          cases y with
          | nil => cases hr
          | cons d y =>
            have := h d rfl
            rw [collapse_cons _ _ this] at hr
            injection hr with h1 _
            rw [h1] at this
            cases this
        · rfl
      | cons d ds =>
        by_cases hd : d = ' '
        · subst hd
          rfl
        · rw [List.cons_append]
          split
          · rename_i r hr
            injection hr with h1 _
            exact absurd h1 hd
          · split
            · rename_i r hr
              injection hr with h1 _
              exact absurd h1 hd
            · rfl
    · rw [List.cons_append, collapse_cons _ _ (by simpa using hc), collapse_cons _ _ (by simpa using hc), ih]
      rfl

theorem collapse_append_last (x y : Str) (h : ∀ c, x.getLast? = some c → isSpace c = false) : collapse (x ++ y) = collapse x ++ collapse y := by
  induction x with
  | nil => rfl
  | cons c x ih =>
    by_cases hx : x = []
    · subst hx
      have hc := h c rfl
      rw [List.cons_append, collapse_cons _ _ hc, collapse_cons _ _ hc]
      rfl
    · have ih := ih (fun d hd => h d (by rw [List.getLast?_cons, hd]; rfl))
      by_cases hc : isSpace c = true
      · rw [List.cons_append, collapse, if_pos hc, ih]
        conv => rhs; rw [collapse, if_pos hc]
        have hne : collapse x ≠ [] := by
          cases x with
          | nil => exact absurd rfl hx
          | cons d x =>
            have := collapse_head (s := d :: x) (c := d) rfl
            intro hn
            rw [hn] at this
            cases this
        cases hx : collapse x with
        | nil => exact absurd hx hne
        | cons d ds =>
          by_cases hd : d = ' '
          · subst hd
            rfl
          · rw [List.cons_append]
            split
            · rename_i r hr
              injection hr with h1 _
              exact absurd h1 hd
            · split
              · rename_i r hr
                injection hr with h1 _
                exact absurd h1 hd
              · rfl
      · rw [List.cons_append, collapse_cons _ _ (by simpa using hc), collapse_cons _ _ (by simpa using hc), ih]
        rfl

theorem collapse_last {s : Str} {c : Char} (h : s.getLast? = some c) :
    (collapse s).getLast? = some (if isSpace c then ' ' else c) := by
  obtain ⟨ys, rfl⟩ := List.getLast?_eq_some_iff.1 h
  by_cases hc : isSpace c = true
  · rw [if_pos hc]
    clear h
    induction ys with
    | nil =>
      rw [List.nil_append, collapse, if_pos hc]
      rfl
    | cons d ys ih =>
      rw [List.cons_append, collapse]
      have hne : collapse (ys ++ [c]) ≠ [] := by
        intro hn
        rw [hn] at ih
        cases ih
      split
      · split
        · rename_i r hr
          rw [← hr]
          exact ih
        · rw [List.getLast?_cons, ih]
          rfl
      · rw [List.getLast?_cons, ih]
        rfl
  · have hc : isSpace c = false := by simpa using hc
    rw [collapse_append _ _ (fun d hd => by cases hd; exact hc), collapse_cons _ _ hc, List.getLast?_append, hc]
    rfl

theorem collapse_blank {s : Str} (h : Blank s) : (s = [] ∧ collapse s = []) ∨ (s ≠ [] ∧ collapse s = [' ']) := by
  induction s with
  | nil => exact Or.inl ⟨rfl, rfl⟩
  | cons c s ih =>
    right
    refine ⟨List.cons_ne_nil _ _, ?_⟩
    rw [collapse, if_pos (h c (List.mem_cons_self ..))]
    rcases ih (fun d hd => h d (List.mem_cons_of_mem _ hd)) with ⟨_, e⟩ | ⟨_, e⟩ <;> rw [e] <;> rfl

theorem collapsed_text (b : Lexeme) (hb : b.collapsed.Good re) : b.collapsed.text = collapse b.text := by
  cases b with
  | key k => rfl
  | word w => rfl
  | quoted q body =>
    have hq : isSpace q = false := (quote_ascii hb.1).2.2.1
    show quote q (collapse body) = collapse (quote q body)
    unfold quote
    rw [collapse_cons _ _ hq, collapse_append _ _ (fun c hc => by cases hc; exact hq),
      collapse_cons _ _ hq]
    rfl

theorem raw_head (b : Lexeme) (hb : b.collapsed.Good re) : ∀ c, b.text.head? = some c → isSpace c = false := by
  intro c hc
  obtain ⟨x, xs, _, h1, _, _, _, h2, _⟩ := lexeme_ends _ hb
  rw [collapsed_text b hb] at h1
  have := collapse_head hc
  rw [h1] at this
  by_contra hn
  have hn : isSpace c = true := by simpa using hn
  rw [if_pos hn] at this
  cases this
  cases h2

theorem raw_last (b : Lexeme) (hb : b.collapsed.Good re) : ∀ c, b.text.getLast? = some c → isSpace c = false := by
  intro c hc
  obtain ⟨_, _, x, _, h1, _, _, _, h2⟩ := lexeme_ends _ hb
  rw [collapsed_text b hb] at h1
  have := collapse_last hc
  rw [h1] at this
  by_contra hn
  have hn : isSpace c = true := by simpa using hn
  rw [if_pos hn] at this
  cases this
  cases h2

theorem raw_ne (b : Lexeme) (hb : b.collapsed.Good re) : b.text ≠ [] := by
  intro h
  obtain ⟨x, xs, _, h1, _⟩ := lexeme_ends _ hb
  rw [collapsed_text b hb, h] at h1
  cases h1

/-- White space between lexemes becomes one space. -/
theorem row_tight {a : Lexeme} {ls : List Lexeme} {t : Str} (h : Row re a ls t) :
    Tight re a.collapsed (ls.map Lexeme.collapsed) (collapse t) ∧ (∀ c, t.getLast? = some c → isSpace c = false) := by
  induction h with
  | nil => exact ⟨Tight.nil, fun c hc => by cases hc⟩
  | @cons a b ls sep t hsep hf hb ht ih =>
    have hhead : ∀ c, (b.text ++ t).head? = some c → isSpace c = false := by
      intro c hc
      rw [List.head?_append] at hc
      cases hh : b.text.head? with
      | none => exact absurd (List.head?_eq_none_iff.1 hh) (raw_ne b hb)
      | some d =>
        rw [hh] at hc
        cases hc
        exact raw_head b hb _ hh
    refine ⟨?_, ?_⟩
    · rw [List.append_assoc, collapse_append _ _ hhead, collapse_append_last _ _ (raw_last b hb), ← collapsed_text b hb,
        ← List.append_assoc, List.map_cons]
      refine Tight.cons ?_ ⟨hf.1, hf.2.1, hf.2.2.1, fun he => hf.2.2.2 ?_⟩ hb ih.1
      · rcases collapse_blank hsep with h | h
        · exact Or.inl h.2
        · exact Or.inr h.2
      · rcases collapse_blank hsep with h | h
        · exact h.1
        · rw [h.2] at he
          cases he
    · intro c hc
      rw [List.getLast?_append] at hc
      cases hl : t.getLast? with
      | some d =>
        rw [hl] at hc
        cases hc
        exact ih.2 _ hl
      | none =>
        rw [hl, Option.none_or, List.getLast?_append] at hc
        cases hl : b.text.getLast? with
        | none => exact absurd (List.getLast?_eq_none_iff.1 hl) (raw_ne b hb)
        | some d =>
          rw [hl] at hc
          cases hc
          exact raw_last b hb _ hl

theorem clean_row {a : Lexeme} {ls : List Lexeme} {t lead trail : Str} (hl : Blank lead) (ht : Blank trail) (ha : a.collapsed.Good re)
    (h : Row re a ls t) : clean (lead ++ a.text ++ t ++ trail) = a.collapsed.text ++ collapse t := by
  obtain ⟨htt, htl⟩ := row_tight h
  have hhead : ∀ c, (a.text ++ (t ++ trail)).head? = some c → isSpace c = false := by
    intro c hc
    rw [List.head?_append] at hc
    cases hh : a.text.head? with
    | none => exact absurd (List.head?_eq_none_iff.1 hh) (raw_ne a ha)
    | some d =>
      rw [hh] at hc
      cases hc
      exact raw_head a ha _ hh
  unfold clean
  have e : lead ++ a.text ++ t ++ trail = lead ++ (a.text ++ (t ++ trail)) := by simp
  rw [e, collapse_append _ _ hhead, collapse_append_last _ _ (raw_last a ha), collapse_append_last _ _ htl, ← collapsed_text a ha]
  have hb : ∀ s, Blank s → Blank (collapse s) := by
    intro s hs
    rcases collapse_blank hs with h | h <;> rw [h.2]
    · exact blank_sep (Or.inl rfl)
    · exact blank_sep (Or.inr rfl)
  obtain ⟨c, cs, d, h1, h2, _, _, h5, h6⟩ := lexeme_ends _ ha
  have := strip_pad (collapse lead) (a.collapsed.text ++ collapse t) (collapse trail) (hb _ hl) (hb _ ht)
    ⟨c, cs ++ collapse t, by rw [h1]; rfl, h5⟩ ?_
  · rw [← this]
    congr 1
    simp
  · rw [List.getLast?_append]
    cases hl : t.getLast? with
    | some x =>
      have hx := htl x hl
      have := collapse_last hl
      rw [hx] at this
      refine ⟨x, ?_, hx⟩
      rw [this]
      rfl
    | none =>
      rw [List.getLast?_eq_none_iff.1 hl]
      exact ⟨d, by rw [collapse, List.getLast?_nil, Option.none_or, h2], h6⟩

theorem laid_cooks (hre : SaneRe re) {ls : List Lexeme} {text : Str} (h : Laid re ls text) :
    Cooks (reSplit re keywords (clean text)) (ls.map (fun l => l.collapsed.kept re)) := by
  cases h with
  | @mk a ls lead trail t hl ht ha hr =>
    obtain ⟨htt, _⟩ := row_tight hr
    rw [clean_row hl ht ha hr, reSplit_scan]
    have := step hre none [] a.collapsed (ls.map Lexeme.collapsed) (collapse t) (Or.inl rfl) ha htt
      (fun _ c _ _ x hx => by cases hx) (row_ready hre ha htt)
    rw [List.nil_append] at this
    rw [List.map_cons, List.map_map] at this
    exact this

theorem laid_tokens (hre : SaneRe re) (lex : Lex) {ls : List Lexeme} {text : Str} (h : Laid re ls text) :
    tokenize re lex text = .ok (ls.map (fun l => caseCorrect lex (l.collapsed.kept re))) := by
  obtain ⟨l, h1, h2⟩ := laid_cooks hre h
  unfold tokenize fixSpecial
  rw [h1]
  show Except.ok _ = _
  rw [h2, List.map_map]
  rfl

end Mabel.Tokenizer
