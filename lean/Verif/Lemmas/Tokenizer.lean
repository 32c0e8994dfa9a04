import Verif.Lemmas.Splitter

/-! # Facts about lexemes -/

namespace Mabel.Tokenizer
open Mabel.Py Mabel.Dates Mabel.Tokens Mabel.Tokenizer.Spec Mabel.Expression
open Mabel.Expression.Spec (quote)

variable {re : Re}

/-! ## Quoted texts -/

theorem quote_ascii {q : Char} (hq : isQuote q = true) :
    q ∈ [' ', '.', '-', '"', '\'', '`'] ∧ q.toNat < 128 ∧ isSpace q = false ∧ isWordChar q = false ∧ q.toUpper = q := by
  unfold isQuote at hq
  simp only [Bool.or_eq_true, beq_iff_eq] at hq
  rcases hq with (rfl | rfl) | rfl <;> decide

theorem keyword_chars : ∀ kw ∈ keywords, ∀ p ∈ kw.pat, p = .ws ∨ ∃ c, p = .ch c ∧ c.toNat < 128 ∧ c.toUpper = c ∧ isQuote c = false := by
  intro kw hkw p hp
  have h : ∀ kw ∈ keywords, ∀ p ∈ kw.pat, (match p with
      | .ws => true
      | .ch c => decide (c.toNat < 128) && decide (c.toUpper = c) && !isQuote c) = true := by decide +kernel
  have h := h kw hkw p hp
  cases p with
  | ws => exact Or.inl rfl
  | ch c =>
    simp only [Bool.and_eq_true, decide_eq_true_eq, Bool.not_eq_true'] at h
    exact Or.inr ⟨c, rfl, h.1.1, h.1.2, h.2⟩

theorem keyword_quote (hre : SaneRe re) {q : Char} (hq : isQuote q = true) : ∀ kw ∈ keywords, ∀ p ∈ kw.pat, p.fits re q = false := by
  intro kw hkw p hp
  obtain ⟨_, h1, h2, _, h3⟩ := quote_ascii hq
  rcases keyword_chars kw hkw p hp with rfl | ⟨c, rfl, ha, hu, hn⟩
  · exact h2
  · rw [Bool.eq_false_iff]
    intro hf
    have := (fits_iff hre ha hu h1).1 hf
    rw [h3] at this
    rw [← this, hq] at hn
    cases hn

theorem matchPat_quote (ps : List PC) (q : Char) (x t : Str) (h : ∀ p ∈ ps, p.fits re q = false) :
    matchPat re ps (x ++ q :: t) = (matchPat re ps x).map (· ++ q :: t) := by
  induction ps generalizing x with
  | nil => rfl
  | cons p ps ih =>
    cases x with
    | nil =>
      have hm : matchPat re (p :: ps) (q :: t) = if p.fits re q then matchPat re ps t else none := by rw [matchPat]
      rw [List.nil_append, hm, h p (List.mem_cons_self ..)]
      rfl
    | cons c cs =>
      rw [List.cons_append, matchPat, matchPat, ih cs (fun p hp => h p (List.mem_cons_of_mem _ hp))]
      split <;> rfl

theorem head_append_quote (x : Str) (q : Char) (t : Str) : (x ++ q :: t).head? = (x ++ [q]).head? := by
  cases x <;> rfl

theorem matchKw_quote (prev : Option Char) (x t : Str) (q : Char) (kw : Kw) (h : ∀ p ∈ kw.pat, p.fits re q = false) :
    matchKw re prev (x ++ q :: t) kw = matchKw re prev (x ++ [q]) kw ∧
    ∀ n, matchKw re prev (x ++ [q]) kw = some n → n ≤ x.length := by
  unfold matchKw
  rw [matchPat_quote _ _ _ _ h, matchPat_quote _ _ _ _ h]
  cases hm : matchPat re kw.pat x with
  | none => exact ⟨rfl, fun n hn => by cases hn⟩
  | some r =>
    obtain ⟨h1, h2⟩ := matchPat_some _ _ _ _ hm
    simp only [Option.map_some]
    rw [head_append_quote x q t, head_append_quote r q t, List.take_append_of_le_length h2, List.take_append_of_le_length h2]
    refine ⟨rfl, ?_⟩
    intro n hn
    split at hn
    · split at hn
      · cases hn; exact h2
      · cases hn
    · cases hn; exact h2

theorem firstMatch_quote (hre : SaneRe re) (prev : Option Char) (x t : Str) (q : Char) (hq : isQuote q = true) :
    firstMatch re keywords prev (x ++ q :: t) = firstMatch re keywords prev (x ++ [q]) ∧
    ∀ n, firstMatch re keywords prev (x ++ [q]) = some n → n ≤ x.length := by
  constructor
  · exact findSome_congr _ _ _ (fun kw hkw => (matchKw_quote prev x t q kw (keyword_quote hre hq kw hkw)).1)
  · intro n hn
    obtain ⟨kw, hkw, h⟩ := firstMatch_some _ _ _ _ _ hn
    exact (matchKw_quote prev x [] q kw (keyword_quote hre hq kw hkw)).2 n h

/-- The pieces of what stands before a quote. -/
theorem quote_scan (hre : SaneRe re) (q : Char) (hq : isQuote q = true) (n : Nat) (prev : Option Char) (x : Str)
    (hn : x.length ≤ n) :
    (∀ cur t, scan re keywords prev cur (x ++ q :: t) = scan re keywords (some q) (cur ++ x ++ [q]) t) ∨
    (∃ h ps p, h ++ ps.flatten ++ p = x ∧
      ∀ cur t, scan re keywords prev cur (x ++ q :: t) = (cur ++ h) :: (ps ++ scan re keywords (some q) (p ++ [q]) t)) := by
  induction n generalizing prev x with
  | zero =>
    have : x = [] := List.length_eq_zero_iff.1 (by omega)
    subst this
    left
    intro cur t
    rw [List.nil_append, scan_none cur (none_at hre prev q t (quote_ascii hq).1), List.append_nil]
  | succ n ih =>
    cases x with
    | nil =>
      left
      intro cur t
      rw [List.nil_append, scan_none cur (none_at hre prev q t (quote_ascii hq).1), List.append_nil]
    | cons c cs =>
      cases hf : firstMatch re keywords prev ((c :: cs) ++ [q]) with
      | none =>
        have hs : ∀ cur t, scan re keywords prev cur (c :: cs ++ q :: t) = scan re keywords (some c) (cur ++ [c]) (cs ++ q :: t) := by
          intro cur t
          exact scan_none cur (by
            show firstMatch re keywords prev ((c :: cs) ++ q :: t) = none
            rw [(firstMatch_quote hre prev (c :: cs) t q hq).1, hf])
        rcases ih (some c) cs (by simpa using hn) with h | ⟨h, ps, p, e, hh⟩
        · left
          intro cur t
          rw [hs, h]
          simp
        · right
          refine ⟨c :: h, ps, p, by rw [← e]; rfl, ?_⟩
          intro cur t
          rw [hs, hh]
          simp
      | some k =>
        have hk := (firstMatch_quote hre prev (c :: cs) [] q hq).2 k hf
        obtain ⟨hk0, _⟩ := solid_pos keywords_solid hf
        have hs : ∀ cur t, scan re keywords prev cur (c :: cs ++ q :: t) =
            cur :: (c :: cs).take k :: scan re keywords ((c :: cs).take k).getLast? [] ((c :: cs).drop k ++ q :: t) := by
          intro cur t
          rw [scan_some keywords_solid cur (by rw [(firstMatch_quote hre prev (c :: cs) t q hq).1, hf] :
            firstMatch re keywords prev ((c :: cs) ++ q :: t) = some k)]
          rw [List.take_append_of_le_length hk, List.drop_append_of_le_length hk]
        right
        rcases ih ((c :: cs).take k).getLast? ((c :: cs).drop k) (by rw [List.length_drop]; simp only [List.length_cons] at hn ⊢; omega)
          with h | ⟨h, ps, p, e, hh⟩
        · refine ⟨[], [(c :: cs).take k], (c :: cs).drop k, ?_, ?_⟩
          · simp [List.take_append_drop]
          · intro cur t
            rw [hs, h]
            simp
        · refine ⟨[], (c :: cs).take k :: h :: ps, p, ?_, ?_⟩
          · have : (c :: cs).take k ++ (h ++ ps.flatten ++ p) = c :: cs := by rw [e, List.take_append_drop]
            rw [List.flatten_cons, List.flatten_cons]
            simp only [List.nil_append, List.append_assoc] at this ⊢
            exact this
          · intro cur t
            rw [hs, hh]
            simp

/-! ## Words -/

theorem wordish_cases {c : Char} (h : wordish c = true) (hn : isWordChar c = false) : c ∈ [' ', '.', '-', '"', '\'', '`'] := by
  unfold wordish at h
  rw [hn] at h
  simp only [Bool.false_or, Bool.or_eq_true, beq_iff_eq] at h
  rcases h with rfl | rfl <;> decide

theorem takeWhile_word (v : Str) : ∀ c ∈ v.takeWhile isWordChar, isWordChar c = true := by
  intro c hc
  exact List.all_eq_true.1 (List.all_takeWhile) c hc

theorem dropWhile_head {p : Char → Bool} (v : Str) (c : Char) (h : (v.dropWhile p).head? = some c) : p c = false := by
  induction v with
  | nil => cases h
  | cons x v ih =>
    rw [List.dropWhile_cons] at h
    split at h
    · exact ih h
    · rename_i hx
      cases h
      simpa using hx

theorem nonword_edge (hre : SaneRe re) {c : Char} (hc : c.toNat < 128) (h : isWordChar c = false) : re.isWord c = false := by
  rw [hre.word c hc]
  exact h

theorem edge_rest (hre : SaneRe re) (v t : Str) (hv : ∀ c ∈ v, wordish c = true) (ht : Edge re t) :
    Edge re (v.dropWhile isWordChar ++ t) := by
  intro c hc
  cases hd : v.dropWhile isWordChar with
  | nil => rw [hd, List.nil_append] at hc; exact ht c hc
  | cons d ds =>
    rw [hd] at hc
    cases hc
    have hm : c ∈ v := (List.dropWhile_sublist (l := v) isWordChar).subset (by rw [hd]; exact List.mem_cons_self ..)
    exact nonword_edge hre (wordish_ascii (hv c hm)) (dropWhile_head v c (by rw [hd]; rfl))

theorem word_scan (hre : SaneRe re) (v t : Str) (inside : Bool) (prev : Option Char) (cur : Str)
    (hv : ∀ c ∈ v, wordish c = true) (hk : noKeyParts inside v = true)
    (hin : inside = true → ∃ a, prev = some a ∧ re.isWord a = true) (ht : Edge re t)
    (hby : ∀ c t', t = c :: t' → isSpace c = true → ¬ Begins re "BY".toList t') :
    scan re keywords prev cur (v ++ t) = scan re keywords (v.getLast?.or prev) (cur ++ v) t := by
  induction v generalizing inside prev cur with
  | nil => simp
  | cons c cs ih =>
    have hvs : ∀ d ∈ cs, wordish d = true := fun d hd => hv d (List.mem_cons_of_mem _ hd)
    have hstep : firstMatch re keywords prev (c :: (cs ++ t)) = none → (∀ inside', noKeyParts inside' cs = true →
        (inside' = true → ∃ a, some c = some a ∧ re.isWord a = true) →
        scan re keywords prev cur (c :: cs ++ t) = scan re keywords ((c :: cs).getLast?.or prev) (cur ++ c :: cs) t) := by
      intro hf inside' hk' hin'
      rw [List.cons_append, scan_none cur hf, ih inside' (some c) _ hvs hk' hin']
      rw [List.getLast?_cons]
      cases hl : cs.getLast? with
      | none => simp
      | some y => simp
    by_cases hw : isWordChar c = true
    · rw [noKeyParts, if_pos hw, Bool.and_eq_true] at hk
      refine hstep ?_ true hk.2 (fun _ => ⟨c, rfl, isWord_of hre hw⟩)
      have hsplit : c :: (cs ++ t) = (c :: cs).takeWhile isWordChar ++ ((c :: cs).dropWhile isWordChar ++ t) := by
        rw [← List.append_assoc, List.takeWhile_append_dropWhile]
        rfl
      rw [hsplit]
      refine none_in_word hre prev _ _ (takeWhile_word _) ?_ (edge_rest hre _ _ hv ht) ?_ ?_
      · rw [List.takeWhile_cons, if_pos hw]
        exact List.cons_ne_nil _ _
      · cases inside with
        | true => exact Or.inl (hin rfl)
        | false =>
          right
          have := hk.1
          simpa using this
      · intro _ d r' hr hsp hb
        cases hd : (c :: cs).dropWhile isWordChar with
        | nil => rw [hd, List.nil_append] at hr; exact hby d r' hr hsp hb
        | cons e es =>
          rw [hd] at hr
          injection hr with hr1 hr2
          have hm : e ∈ c :: cs := (List.dropWhile_sublist (l := c :: cs) isWordChar).subset (by rw [hd]; exact List.mem_cons_self ..)
          have h1 := hv e hm
          rw [hr1] at h1
          exact absurd hsp (by
            rw [of_ascii (P := fun c => wordish c = true → isSpace c = false) (by decide +kernel) d (wordish_ascii h1) h1]
            simp)
    · rw [noKeyParts, if_neg hw] at hk
      exact hstep (none_at hre prev c _ (wordish_cases (hv c (List.mem_cons_self ..)) (by simpa using hw))) false hk
        (fun h => by cases h)

/-! ## White space -/

def Blank (s : Str) : Prop := ∀ c ∈ s, isSpace c = true

theorem dropWhile_blank (a s : Str) (ha : Blank a) : (a ++ s).dropWhile isSpace = s.dropWhile isSpace := by
  induction a with
  | nil => rfl
  | cons c a ih =>
    rw [List.cons_append, List.dropWhile_cons, if_pos (ha c (List.mem_cons_self ..))]
    exact ih (fun x hx => ha x (List.mem_cons_of_mem _ hx))

theorem dropWhile_snoc (l : Str) (q : Char) (hq : isSpace q = false) (s : Str) :
    (l ++ q :: s).dropWhile isSpace = l.dropWhile isSpace ++ q :: s := by
  induction l with
  | nil => rw [List.nil_append, List.dropWhile_cons, if_neg (by rw [hq]; simp)]; rfl
  | cons x l ih =>
    rw [List.cons_append, List.dropWhile_cons, List.dropWhile_cons]
    split
    · exact ih
    · rfl

theorem dropWhile_nil_all (l : Str) (h : l.dropWhile isSpace = []) : Blank l := by
  induction l with
  | nil => intro c hc; cases hc
  | cons x l ih =>
    rw [List.dropWhile_cons] at h
    split at h
    · rename_i hx
      intro c hc
      rcases List.mem_cons.1 hc with rfl | hc
      · exact hx
      · exact ih h c hc
    · cases h

theorem strip_blank (a : Str) (ha : Blank a) : strip a = [] := by
  unfold strip
  have := dropWhile_blank a [] ha
  rw [List.append_nil] at this
  rw [this]
  rfl

/-- White space at the ends is removed, no more. -/
theorem strip_pad (a s b : Str) (ha : Blank a) (hb : Blank b) (h1 : ∃ c cs, s = c :: cs ∧ isSpace c = false)
    (h2 : ∃ c, s.getLast? = some c ∧ isSpace c = false) : strip (a ++ s ++ b) = s := by
  obtain ⟨c, cs, rfl, hc⟩ := h1
  obtain ⟨d, hd, hds⟩ := h2
  unfold strip
  rw [List.append_assoc, dropWhile_blank _ _ ha, List.cons_append, List.dropWhile_cons, if_neg (by rw [hc]; simp)]
  rw [← List.cons_append, List.reverse_append, dropWhile_blank _ _ (fun x hx => hb x (List.mem_reverse.1 hx))]
  have : ((c :: cs).reverse).head? = some d := by rw [List.head?_reverse, hd]
  cases hr : (c :: cs).reverse with
  | nil => rw [hr] at this; cases this
  | cons e es =>
    rw [hr] at this
    cases this
    rw [List.dropWhile_cons, if_neg (by rw [hds]; simp), ← hr, List.reverse_reverse]

theorem strip_mem {s : Str} {c : Char} (h : c ∈ strip s) : c ∈ s := by
  unfold strip at h
  rw [List.mem_reverse] at h
  have := (List.dropWhile_sublist isSpace).subset h
  rw [List.mem_reverse] at this
  exact (List.dropWhile_sublist isSpace).subset this

theorem strip_nil_blank {s : Str} (h : strip s = []) : Blank s := by
  intro c hc
  by_contra hn
  have hn : isSpace c = false := by simpa using hn
  obtain ⟨a, b, rfl⟩ := List.append_of_mem hc
  have hcm : c ∈ (a ++ c :: b).dropWhile isSpace := by
    rw [dropWhile_snoc a c hn]
    simp
  unfold strip at h
  have h := List.reverse_eq_nil_iff.1 h
  have := dropWhile_nil_all _ h c (List.mem_reverse.2 hcm)
  rw [hn] at this
  cases this

/-! ## Putting quoted texts together -/

/-- The tokens of pieces. -/
def Cooks (ps toks : List Str) : Prop := ∃ l, fixGo [] none ps = .ok l ∧ (l.map strip).filter (· ≠ []) = toks

theorem Cooks.nil : Cooks [] [] := ⟨[], rfl, rfl⟩

theorem Cooks.blank {p : Str} {ps toks : List Str} (hp : strip p = []) (h : Cooks ps toks) : Cooks (p :: ps) toks := by
  obtain ⟨l, h1, h2⟩ := h
  refine ⟨l, ?_, h2⟩
  rw [fixGo, hp]
  exact h1

theorem Cooks.cons {p w : Str} {ps toks : List Str} {c : Char} {cs : Str} (hw : strip p = w) (hc : w = c :: cs)
    (hq : isQuote c = false ∨ (w.getLast? = some c ∧ w.length > 1)) (h : Cooks ps toks) : Cooks (p :: ps) (w :: toks) := by
  obtain ⟨l, h1, h2⟩ := h
  subst hc
  refine ⟨p :: l, ?_, ?_⟩
  · rw [fixGo, hw]
    simp only
    by_cases hqc : isQuote c = false
    · rw [if_pos (by simpa using hqc), h1]
      rfl
    · rw [if_neg (fun h => hqc h.2)]
      rcases hq with hq | hq
      · exact absurd hq hqc
      · rw [if_pos ⟨by simpa using hqc, hq.1, hq.2⟩, h1]
        rfl
  · rw [List.map_cons, hw, List.filter_cons_of_pos (by simp), h2]

/-- The pieces of a quoted text, between the first and the last. -/
theorem fix_middle (q : Char) (ps : List Str) (builder : Str) (rest : List Str) (hq : ∀ x ∈ ps, q ∉ x)
    (hs : ∀ x ∈ ps, ∀ c r, strip x = c :: r → isQuote c = false) :
    fixGo builder (some q) (ps ++ rest) = fixGo (builder ++ (ps.filter (fun x => strip x ≠ [])).flatten) (some q) rest := by
  induction ps generalizing builder with
  | nil => simp
  | cons x ps ih =>
    have ih := fun b => ih b (fun y hy => hq y (List.mem_cons_of_mem _ hy)) (fun y hy => hs y (List.mem_cons_of_mem _ hy))
    rw [List.cons_append, fixGo]
    cases hx : strip x with
    | nil =>
      rw [List.filter_cons_of_neg (by rw [hx]; simp)]
      exact ih builder
    | cons f r =>
      have hf := hs x (List.mem_cons_self ..) f r hx
      have hl : ¬ (f :: r).getLast? = some q := by
        intro hc
        have := List.mem_of_getLast? hc
        rw [← hx] at this
        exact hq x (List.mem_cons_self ..) (strip_mem this)
      simp only
      rw [if_neg (fun h => by cases h.1), if_neg (fun h => by rw [hf] at h; cases h.1), if_neg hl,
        if_neg (fun h => by rw [hf] at h; cases h.1), if_pos (by simp), ih, List.filter_cons_of_pos (by rw [hx]; simp)]
      simp

theorem Cooks.joined {q : Char} {h p sp sp' : Str} {ps rest toks : List Str} (hq : isQuote q = true) (hsp : Blank sp) (hsp' : Blank sp')
    (hh : q ∉ h) (hps : ∀ x ∈ ps, q ∉ x) (hs : ∀ x ∈ ps, ∀ c r, strip x = c :: r → isQuote c = false)
    (hl : ∀ c r, strip (p ++ [q]) = c :: r → isQuote c = true → strip (p ++ [q]) = [q])
    (hr : Cooks rest toks) :
    Cooks ((sp ++ [q] ++ h) :: (ps ++ (p ++ [q] ++ sp') :: rest))
      ((q :: h ++ (ps.filter (fun x => strip x ≠ [])).flatten ++ p ++ [q]) :: toks) := by
  obtain ⟨l, h1, h2⟩ := hr
  obtain ⟨_, _, hqs, _, _⟩ := quote_ascii hq
  -- the first piece
  have hfirst : ∃ r, strip (sp ++ [q] ++ h) = q :: r ∧ ∀ c ∈ r, c ∈ h := by
    unfold strip
    rw [List.append_assoc, dropWhile_blank _ _ hsp, List.cons_append, List.nil_append, List.dropWhile_cons,
      if_neg (by rw [hqs]; simp)]
    rw [List.reverse_cons]
    rw [dropWhile_snoc _ q hqs [], List.reverse_append]
    refine ⟨(h.reverse.dropWhile isSpace).reverse, rfl, ?_⟩
    intro c hc
    rw [List.mem_reverse] at hc
    exact List.mem_reverse.1 ((List.dropWhile_sublist isSpace).subset hc)
  obtain ⟨r, hr1, hr2⟩ := hfirst
  -- the last piece
  have hstrip : strip (p ++ [q] ++ sp') = strip (p ++ [q]) := by
    unfold strip
    have e : (p ++ [q]).dropWhile isSpace = p.dropWhile isSpace ++ [q] := dropWhile_snoc p q hqs []
    have e2 : (p ++ [q] ++ sp').dropWhile isSpace = p.dropWhile isSpace ++ [q] ++ sp' := by
      rw [List.append_assoc, List.singleton_append, dropWhile_snoc p q hqs sp', List.append_assoc, List.singleton_append]
    rw [e, e2, List.reverse_append, dropWhile_blank _ _ (fun x hx => hsp' x (List.mem_reverse.1 hx))]
  have hlast : ∃ f r', strip (p ++ [q]) = f :: r' ∧ (f :: r').getLast? = some q := by
    have e : strip (p ++ [q]) = p.dropWhile isSpace ++ [q] := by
      unfold strip
      rw [show (p ++ [q]).dropWhile isSpace = p.dropWhile isSpace ++ [q] from dropWhile_snoc p q hqs [],
        List.reverse_append, List.reverse_singleton, List.singleton_append, List.dropWhile_cons, if_neg (by rw [hqs]; simp),
        List.reverse_cons, List.reverse_reverse]
    cases hp : strip (p ++ [q]) with
    | nil => rw [e] at hp; simp at hp
    | cons f r' =>
      refine ⟨f, r', rfl, ?_⟩
      rw [← hp, e]
      simp
  obtain ⟨f, r', hl1, hl2⟩ := hlast
  refine ⟨((sp ++ [q] ++ h) ++ (ps.filter (fun x => strip x ≠ [])).flatten ++ (p ++ [q] ++ sp')) :: l, ?_, ?_⟩
  · rw [fixGo, hr1]
    simp only
    rw [if_neg (fun hc => by rw [hq] at hc; cases hc.2), if_neg, if_neg, if_pos, fix_middle q ps _ _ hps hs, fixGo, hstrip, hl1]
    · simp only
      rw [if_neg (fun hc => by cases hc.1), if_neg, if_pos hl2, h1]
      · rfl
      · rintro ⟨a, b, c⟩
        have := hl f r' hl1 a
        rw [hl1] at this
        rw [this] at c
        simp at c
    · refine ⟨hq, ?_⟩
      by_cases hrn : r = []
      · right; rw [hrn]; rfl
      · left
        intro hc
        rw [List.getLast?_cons] at hc
        obtain ⟨y, hy⟩ := Option.isSome_iff_exists.1 (by rw [List.getLast?_isSome]; exact hrn : r.getLast?.isSome = true)
        rw [hy] at hc
        have hyq : y = q := Option.some.inj hc
        rw [hyq] at hy
        exact hh (hr2 q (List.mem_of_getLast? hy))
    · rw [List.getLast?_cons]
      simp
    · rintro ⟨a, b, c⟩
      have hrn : r ≠ [] := by
        intro hrn
        rw [hrn] at c
        simp at c
      rw [List.getLast?_cons] at b
      obtain ⟨y, hy⟩ := Option.isSome_iff_exists.1 (by rw [List.getLast?_isSome]; exact hrn : r.getLast?.isSome = true)
      rw [hy] at b
      have hyq : y = q := Option.some.inj b
      rw [hyq] at hy
      exact hh (hr2 q (List.mem_of_getLast? hy))
  · have e : strip ((sp ++ [q] ++ h) ++ (ps.filter (fun x => strip x ≠ [])).flatten ++ (p ++ [q] ++ sp')) =
        q :: h ++ (ps.filter (fun x => strip x ≠ [])).flatten ++ p ++ [q] := by
      generalize (ps.filter (fun x => strip x ≠ [])).flatten = m
      have := strip_pad sp (q :: h ++ m ++ p ++ [q]) sp' hsp hsp' ⟨q, h ++ m ++ p ++ [q], by simp, hqs⟩ ⟨q, List.getLast?_concat .., hqs⟩
      rw [← this]
      congr 1
      simp
    rw [List.map_cons, e, List.filter_cons_of_pos (by simp), h2]

/-! ## Lexemes -/

theorem begins_part (hre : SaneRe re) (B part r : Str) (hB : Caps B) (hBn : B ≠ []) (hpart : ∀ c ∈ part, isWordChar c = true)
    (hr : Edge re r) (h : Begins re B (part ++ r)) : capitals part = B := by
  obtain ⟨rest, h1, h2⟩ := h
  have hm : matchKw re none (part ++ r) (wordKw B) = some B.length := by
    have hl : (B.map PC.ch).length = B.length := List.length_map _
    unfold matchKw wordKw
    simp only
    rw [h1]
    simp only [if_true]
    rw [hl, if_pos]
    rw [Bool.and_eq_true]
    refine ⟨?_, h2⟩
    obtain ⟨p1, p2, e1, e2, e3⟩ := caps_match hre B part r rest hB hpart hr h1
    cases part with
    | nil =>
      have : p1 = [] := by
        cases p1 with
        | nil => rfl
        | cons x xs => cases e1
      rw [this] at e2
      exact absurd e2.symm hBn
    | cons c cs =>
      exact boundary_start (fun a ha => by cases ha) (isWord_of hre (hpart c (List.mem_cons_self ..)))
  exact (word_only hre none B part r _ hB hBn hpart hr hm).1

theorem begins_head (hre : SaneRe re) (B : Str) (c : Char) (cs : Str) (hB : Caps B) (hBn : B ≠ []) (hc : c.toNat < 128)
    (hw : isWordChar c = false) : ¬ Begins re B (c :: cs) := by
  rintro ⟨rest, h1, _⟩
  cases B with
  | nil => exact hBn rfl
  | cons b B =>
    have hb := hB b (List.mem_cons_self ..)
    rw [List.map_cons, matchPat] at h1
    split at h1
    · rename_i hf
      have := (fits_iff hre (wordChar_ascii hb.1) hb.2 hc).1 hf
      rw [← this, wordChar_upper, hw] at hb
      cases hb.1
    · cases h1

theorem pair_cut (k : Str) (hk : capitals k ∈ pairKeys) : ∃ a b, k = a ++ ' ' :: b ∧
    ((capitals a = "IS".toList ∧ capitals b = "NOT".toList) ∨ (capitals a = "NOT".toList ∧ capitals b = "LIKE".toList)) := by
  have cut : ∀ A B : Str, capitals k = A ++ ' ' :: B → ∃ a b, k = a ++ ' ' :: b ∧ capitals a = A ∧ capitals b = B := by
    intro A B h
    unfold capitals at h ⊢
    obtain ⟨a, b', h1, h2, h3⟩ := List.map_eq_append_iff.1 h
    obtain ⟨c, b, h4, h5, h6⟩ := List.map_eq_cons_iff.1 h3
    refine ⟨a, b, ?_, h2, h6⟩
    have : c = ' ' := symbol_capitals c ' ' (by decide) h5
    rw [h1, h4, this]
  unfold pairKeys at hk
  rw [List.map_cons, List.map_cons, List.map_nil, List.mem_cons, List.mem_singleton] at hk
  rcases hk with hk | hk
  · obtain ⟨a, b, h1, h2, h3⟩ := cut "IS".toList "NOT".toList hk
    exact ⟨a, b, h1, Or.inl ⟨h2, h3⟩⟩
  · obtain ⟨a, b, h1, h2, h3⟩ := cut "NOT".toList "LIKE".toList hk
    exact ⟨a, b, h1, Or.inr ⟨h2, h3⟩⟩

/-- The characters of keywords. -/
theorem key_chars (k : Str) (hk : capitals k ∈ wordKeys ∨ capitals k ∈ pairKeys ∨ capitals k ∈ symbolKeys ∨ capitals k ∈ punctuation) :
    ∃ c cs d, k = c :: cs ∧ k.getLast? = some d ∧ c.toNat < 128 ∧ d.toNat < 128 ∧ isSpace c = false ∧ isSpace d = false ∧
      isQuote c = false := by
  have wordOk : ∀ c, isWordChar c = true → c.toNat < 128 ∧ isSpace c = false ∧ isQuote c = false := by
    intro c hc
    exact ⟨wordChar_ascii hc, word_not_space hc,
      of_ascii (P := fun c => isWordChar c = true → isQuote c = false) (by decide +kernel) c (wordChar_ascii hc) hc⟩
  have hword : ∀ k : Str, k ≠ [] → Caps (capitals k) → ∃ c cs d, k = c :: cs ∧ k.getLast? = some d ∧ isWordChar c = true ∧
      isWordChar d = true := by
    intro k hn hc
    have hw := wordChars_of hc
    cases k with
    | nil => exact absurd rfl hn
    | cons c cs =>
      obtain ⟨y, hy⟩ := Option.isSome_iff_exists.1 (by rw [List.getLast?_isSome]; exact hn : (c :: cs).getLast?.isSome = true)
      exact ⟨c, cs, y, rfl, hy, hw c (List.mem_cons_self ..), hw y (List.mem_of_getLast? hy)⟩
  rcases hk with hk | hk | hk
  · obtain ⟨hc, hn⟩ := wordKeys_caps _ hk
    obtain ⟨c, cs, d, h1, h2, h3, h4⟩ := hword k (by rintro rfl; exact hn rfl) hc
    have hc1 := wordOk c h3
    have hd1 := wordOk d h4
    exact ⟨c, cs, d, h1, h2, hc1.1, hd1.1, hc1.2.1, hd1.2.1, hc1.2.2⟩
  · obtain ⟨a, b, rfl, hab⟩ := pair_cut k hk
    have ha : a ≠ [] := by rintro rfl; rcases hab with h | h <;> cases h.1
    have hb : b ≠ [] := by rintro rfl; rcases hab with h | h <;> cases h.2
    have hca : Caps (capitals a) := by rcases hab with h | h <;> rw [h.1] <;> decide
    have hcb : Caps (capitals b) := by rcases hab with h | h <;> rw [h.2] <;> decide
    obtain ⟨c, cs, _, h1, _, h3, _⟩ := hword a ha hca
    obtain ⟨_, _, d, _, h2, _, h4⟩ := hword b hb hcb
    have hc1 := wordOk c h3
    have hd1 := wordOk d h4
    refine ⟨c, cs ++ ' ' :: b, d, by rw [h1]; rfl, ?_, hc1.1, hd1.1, hc1.2.1, hd1.2.1, hc1.2.2⟩
    rw [List.getLast?_append, List.getLast?_cons, h2]
    rfl
  · have hk : capitals k ∈ symbolKeys ++ punctuation := List.mem_append.2 hk
    have e := symbols_capitals k _ (symbols_ascii _ hk) rfl
    rw [← e] at hk
    clear e
    have h : ∀ k ∈ symbolKeys ++ punctuation, ∃ c cs d, k = c :: cs ∧ k.getLast? = some d ∧ c.toNat < 128 ∧ d.toNat < 128 ∧
        isSpace c = false ∧ isSpace d = false ∧ isQuote c = false := by
      rw [symbols_chars.1, symbols_chars.2]
      intro k hk
      simp only [List.cons_append, List.nil_append, List.mem_cons, List.not_mem_nil, or_false] at hk
      rcases hk with rfl | rfl | rfl | rfl | rfl | rfl | rfl | rfl | rfl | rfl | rfl | rfl | rfl | rfl <;>
        exact ⟨_, _, _, rfl, rfl, by decide⟩
    exact h k hk

/-- The first and last characters of a lexeme. -/
theorem lexeme_ends (b : Lexeme) (hb : b.Good re) : ∃ c cs d, b.text = c :: cs ∧ b.text.getLast? = some d ∧ c.toNat < 128 ∧
    d.toNat < 128 ∧ isSpace c = false ∧ isSpace d = false := by
  cases b with
  | key k =>
    obtain ⟨c, cs, d, h1, h2, h3, h4, h5, h6, _⟩ := key_chars k hb
    exact ⟨c, cs, d, h1, h2, h3, h4, h5, h6⟩
  | word w =>
    obtain ⟨hn, hw, _⟩ := hb
    cases w with
    | nil => exact absurd rfl hn
    | cons c cs =>
      obtain ⟨y, hy⟩ := Option.isSome_iff_exists.1 (by rw [List.getLast?_isSome]; exact hn : (c :: cs).getLast?.isSome = true)
      have h1 := hw c (List.mem_cons_self ..)
      have h2 := hw y (List.mem_of_getLast? hy)
      have hs : ∀ c, wordish c = true → isSpace c = false := fun c hc =>
        of_ascii (P := fun c => wordish c = true → isSpace c = false) (by decide +kernel) c (wordish_ascii hc) hc
      exact ⟨c, cs, y, rfl, hy, wordish_ascii h1, wordish_ascii h2, hs c h1, hs y h2⟩
  | quoted q body =>
    obtain ⟨_, h1, h2, _⟩ := quote_ascii hb.1
    exact ⟨q, body ++ [q], q, rfl, List.getLast?_concat (l := q :: body) .., h1, h1, h2, h2⟩

/-- Lexemes with at most one space between. -/
inductive Tight (re : Re) : Lexeme → List Lexeme → Str → Prop
  | nil {a} : Tight re a [] []
  | cons {a b ls sep t} : sep = [] ∨ sep = [' '] → Follows a sep b → b.Good re → Tight re b ls t →
    Tight re a (b :: ls) (sep ++ b.text ++ t)

/-- What follows a lexeme begins with a space or with something that does not run together with it. -/
theorem tight_head {a : Lexeme} {ls : List Lexeme} {t : Str} (h : Tight re a ls t) (x : Char) (hx : a.text.getLast? = some x)
    (d : Char) (hd : t.head? = some d) : d.toNat < 128 ∧ (d = ' ' ∨ apart x d = true) := by
  cases h with
  | nil => cases hd
  | @cons _ b ls sep t hsep hf hb ht =>
    obtain ⟨c, cs, _, h1, _, h3, _⟩ := lexeme_ends b hb
    rcases hsep with rfl | rfl
    · rw [h1] at hd
      cases hd
      exact ⟨h3, Or.inr (hf.2.2.2 rfl x d hx (by rw [h1]; rfl))⟩
    · cases hd
      exact ⟨by decide, Or.inl rfl⟩

theorem tight_edge (hre : SaneRe re) {a : Lexeme} {ls : List Lexeme} {t : Str} (h : Tight re a ls t) (x : Char)
    (hx : a.text.getLast? = some x) (hw : wordish x = true) : Edge re t := by
  intro d hd
  obtain ⟨h1, h2⟩ := tight_head h x hx d hd
  refine nonword_edge hre h1 ?_
  rcases h2 with rfl | h2
  · decide
  · unfold apart at h2
    rw [hw, Bool.true_and, Bool.and_eq_true, Bool.not_eq_true'] at h2
    have := h2.1
    unfold wordish at this
    rw [Bool.or_eq_false_iff, Bool.or_eq_false_iff] at this
    exact this.1.1

theorem tight_op {a : Lexeme} {ls : List Lexeme} {t : Str} (h : Tight re a ls t) (x : Char)
    (hx : a.text.getLast? = some x) (hw : isOp x = true) : ∀ d, t.head? = some d → isOp d = false := by
  intro d hd
  obtain ⟨_, h2⟩ := tight_head h x hx d hd
  rcases h2 with rfl | h2
  · decide
  · unfold apart at h2
    rw [hw, Bool.true_and, Bool.and_eq_true, Bool.not_eq_true', Bool.not_eq_true'] at h2
    exact h2.2

theorem wordish_of {c : Char} (h : isWordChar c = true) : wordish c = true := by
  unfold wordish
  rw [h]
  rfl

/-- A keyword with which the text of lexemes begins is their first lexeme. -/
theorem lexeme_begins (hre : SaneRe re) (b : Lexeme) (ls : List Lexeme) (t B : Str) (hb : b.Good re) (ht : Tight re b ls t)
    (hB : Caps B) (hBn : B ≠ []) (h : Begins re B (b.text ++ t)) :
    (∃ k, b = .key k ∧ (capitals k = B ∨ (B = "NOT".toList ∧ capitals k = "NOT LIKE".toList) ∨ B = "IS".toList)) ∨
    (∃ w, b = .word w ∧ B ∉ wordKeys) := by
  cases b with
  | key k =>
    left
    refine ⟨k, rfl, ?_⟩
    rcases hb with hk | hk | hk
    · obtain ⟨hc, hn⟩ := wordKeys_caps _ hk
      have hw := wordChars_of hc
      have hkn : k ≠ [] := by rintro rfl; exact hn rfl
      obtain ⟨y, hy⟩ := Option.isSome_iff_exists.1 (by rw [List.getLast?_isSome]; exact hkn : k.getLast?.isSome = true)
      left
      exact begins_part hre B k t hB hBn hw (tight_edge hre ht y hy (wordish_of (hw y (List.mem_of_getLast? hy)))) h
    · obtain ⟨a, b', rfl, hab⟩ := pair_cut k hk
      have hca : Caps (capitals a) := by rcases hab with h | h <;> rw [h.1] <;> decide
      have := begins_part hre B a (' ' :: b' ++ t) hB hBn (wordChars_of hca) (edge_space hre _) (by
        have e : (Lexeme.key (a ++ ' ' :: b')).text ++ t = a ++ (' ' :: b' ++ t) := by simp [Lexeme.text]
        rw [← e]
        exact h)
      rcases hab with hh | hh
      · right; right
        rw [← this, hh.1]
      · right; left
        refine ⟨by rw [← this, hh.1], ?_⟩
        have : capitals (a ++ ' ' :: b') = capitals a ++ ' ' :: capitals b' := by simp [capitals]
        rw [this, hh.1, hh.2]
        decide
    · exfalso
      have hk : capitals k ∈ symbolKeys ++ punctuation := List.mem_append.2 hk
      have e := symbols_capitals k _ (symbols_ascii _ hk) rfl
      rw [← e] at hk
      have hh : ∀ k ∈ symbolKeys ++ punctuation, ∃ c cs, k = c :: cs ∧ c.toNat < 128 ∧ isWordChar c = false := by
        rw [symbols_chars.1, symbols_chars.2]
        intro k hk
        simp only [List.cons_append, List.nil_append, List.mem_cons, List.not_mem_nil, or_false] at hk
        rcases hk with rfl | rfl | rfl | rfl | rfl | rfl | rfl | rfl | rfl | rfl | rfl | rfl | rfl | rfl <;>
          exact ⟨_, _, rfl, by decide⟩
      obtain ⟨c, cs, h1, h2, h3⟩ := hh k hk
      have h : Begins re B (k ++ t) := h
      rw [h1] at h
      exact begins_head hre B c _ hB hBn h2 h3 h
  | word w =>
    right
    refine ⟨w, rfl, ?_⟩
    obtain ⟨hn, hw, hk⟩ := hb
    obtain ⟨y, hy⟩ := Option.isSome_iff_exists.1 (by rw [List.getLast?_isSome]; exact hn : w.getLast?.isSome = true)
    have het := tight_edge hre ht y hy (hw y (List.mem_of_getLast? hy))
    cases w with
    | nil => exact absurd rfl hn
    | cons c cs =>
      by_cases hc : isWordChar c = true
      · rw [noKeyParts, if_pos hc, Bool.and_eq_true] at hk
        have e : (Lexeme.word (c :: cs)).text ++ t =
            (c :: cs).takeWhile isWordChar ++ ((c :: cs).dropWhile isWordChar ++ t) := by
          rw [← List.append_assoc, List.takeWhile_append_dropWhile]
          rfl
        rw [e] at h
        have := begins_part hre B _ _ hB hBn (takeWhile_word _) (edge_rest hre _ _ hw het) h
        rw [← this]
        have hk := hk.1
        simpa using hk
      · exfalso
        exact begins_head hre B c _ hB hBn (wordish_ascii (hw c (List.mem_cons_self ..))) (by simpa using hc) h
  | quoted q body =>
    exfalso
    obtain ⟨_, h1, _, h2, _⟩ := quote_ascii hb.1
    exact begins_head hre B q _ hB hBn h1 h2 h

/-- A keyword of a row is found. -/
theorem key_found (hre : SaneRe re) (prev : Option Char) (k : Str) (ls : List Lexeme) (t : Str) (hk : (Lexeme.key k).Good re)
    (ht : Tight re (.key k) ls t)
    (hp : ∀ c, k.head? = some c → isWordChar c = true → Fresh re prev) :
    firstMatch re keywords prev (k ++ t) = some k.length := by
  obtain ⟨c, cs, d, e, hd, _⟩ := key_chars k hk
  have hnext : ∀ B, Caps B → B ≠ [] → B ∈ wordKeys → B ≠ "IS".toList →
      (∀ b, Follows (.key k) [' '] b → capitals b.text ≠ B ∧ (B = "NOT".toList → capitals b.text ≠ "NOT LIKE".toList)) →
      ∀ t', t = ' ' :: t' → ¬ Begins re B t' := by
    intro B hB hBn hBm hIs hF t' et hbeg
    cases ht with
    | nil => cases et
    | @cons _ b ls sep t2 hsep hf hb ht2 =>
      rcases hsep with rfl | rfl
      · obtain ⟨x, xs, _, h1, _, _, _, h5, _⟩ := lexeme_ends b hb
        rw [h1] at et
        cases et
        exact absurd h5 (by decide)
      · have : t' = b.text ++ t2 := by
          simp only [List.cons_append, List.nil_append, List.cons.injEq, true_and] at et
          exact et.symm
        rw [this] at hbeg
        obtain ⟨hF1, hF2⟩ := hF b hf
        rcases lexeme_begins hre b ls t2 B hb ht2 hB hBn hbeg with ⟨k', rfl, h | ⟨h1, h2⟩ | h⟩ | ⟨w, rfl, h⟩
        · exact hF1 h
        · exact hF2 h1 h2
        · exact hIs h
        · exact h hBm
  rcases hk with hk | hk | hk | hk
  · obtain ⟨hc, hn⟩ := wordKeys_caps _ hk
    have hw := wordChars_of hc
    refine key_word hre prev k t hk (hp c (by rw [e]; rfl) (hw c (by rw [e]; exact List.mem_cons_self ..)))
      (tight_edge hre ht d hd (wordish_of (hw d (List.mem_of_getLast? hd)))) ?_ ?_
    · intro hIs
      exact hnext "NOT".toList (by decide) (by decide) (by decide +kernel) (by decide)
        (fun b hf => ⟨(hf.2.1 hIs).1, fun _ => (hf.2.1 hIs).2⟩)
    · intro hNot
      exact hnext "LIKE".toList (by decide) (by decide) (by decide +kernel) (by decide)
        (fun b hf => ⟨hf.2.2.1 hNot, fun h => absurd h (by decide)⟩)
  · obtain ⟨a, b, hkab, hab⟩ := pair_cut k hk
    have hca : Caps (capitals a) := by rcases hab with h | h <;> rw [h.1] <;> decide
    have hcb : Caps (capitals b) := by rcases hab with h | h <;> rw [h.2] <;> decide
    have hbn : b ≠ [] := by rintro rfl; rcases hab with h | h <;> cases h.2
    have han : a ≠ [] := by rintro rfl; rcases hab with h | h <;> cases h.1
    have hdb : d ∈ b := by
      obtain ⟨y, hy⟩ := Option.isSome_iff_exists.1 (by rw [List.getLast?_isSome]; exact hbn : b.getLast?.isSome = true)
      rw [hkab, List.getLast?_append, List.getLast?_cons, hy] at hd
      cases hd
      exact List.mem_of_getLast? hy
    have hca' : isWordChar c = true := by
      cases a with
      | nil => exact absurd rfl han
      | cons x xs =>
        rw [hkab] at e
        injection e with e1 _
        rw [← e1]
        exact wordChars_of hca x (List.mem_cons_self ..)
    exact key_pair hre prev k t hk (hp c (by rw [e]; rfl) hca')
      (tight_edge hre ht d hd (wordish_of (wordChars_of hcb d hdb)))
  · refine key_symbol hre prev k t hk (tight_op ht d hd ?_)
    have e' := symbols_capitals k _ (symbols_ascii _ (List.mem_append_left _ hk)) rfl
    rw [← e'] at hk
    have hh : ∀ k ∈ symbolKeys, ∀ d, k.getLast? = some d → isOp d = true := by
      rw [symbols_chars.1]
      decide
    exact hh k hk d hd
  · exact key_punctuation hre prev k t hk

theorem strip_strip (s : Str) : strip (strip s) = strip s := by
  apply Mabel.Expression.strip_ends
  · intro c hc
    unfold strip at hc
    rw [List.head?_reverse] at hc
    have hm := List.mem_of_getLast? hc
    cases hd : (s.dropWhile isSpace).reverse.dropWhile isSpace with
    | nil => rw [hd] at hc; cases hc
    | cons x xs =>
      -- the last character of the reversed text is the first that is not blank
      have h1 : ∃ a, (s.dropWhile isSpace).reverse = a ++ (x :: xs) := by
        rw [← hd]
        exact ⟨_, (List.takeWhile_append_dropWhile (p := isSpace)).symm⟩
      obtain ⟨a, ha⟩ := h1
      have h2 : (s.dropWhile isSpace).head? = some c := by
        rw [← List.getLast?_reverse, ha, List.getLast?_append, ← hd, hc]
        rfl
      exact dropWhile_head s c h2
  · intro c hc
    unfold strip at hc
    rw [List.getLast?_reverse] at hc
    exact dropWhile_head _ c hc

end Mabel.Tokenizer
