import Verif.Spec.Tokenizer
import Verif.Lemmas.Tokens
import Mathlib.Tactic.ByContra

/-! # Facts about splitting texts -/

namespace Mabel.Tokenizer
open Mabel.Py Mabel.Dates Mabel.Tokens Mabel.Tokenizer.Spec
open Mabel.Expression.Spec (quote)
open Mabel.Expression

/-! ## The scan -/

theorem matchPat_some (re : Re) (ps : List PC) (s r : Str) (h : matchPat re ps s = some r) :
    r = s.drop ps.length ∧ ps.length ≤ s.length := by
  induction ps generalizing s with
  | nil => rw [matchPat] at h; exact ⟨(Option.some.inj h).symm, Nat.zero_le _⟩
  | cons p ps ih =>
    cases s with
    | nil => rw [matchPat] at h; cases h
    | cons c cs =>
      rw [matchPat] at h
      split at h
      · obtain ⟨a, b⟩ := ih cs h
        exact ⟨a, Nat.succ_le_succ b⟩
      · cases h

theorem matchPat_append (re : Re) (a b : List PC) (s : Str) :
    matchPat re (a ++ b) s = (matchPat re a s).bind (matchPat re b) := by
  induction a generalizing s with
  | nil => rfl
  | cons p ps ih =>
    cases s with
    | nil => rfl
    | cons c cs =>
      rw [List.cons_append, matchPat, matchPat]
      split
      · exact ih cs
      · rfl

theorem matchKw_some (re : Re) (prev : Option Char) (s : Str) (kw : Kw) (n : Nat) (h : matchKw re prev s kw = some n) :
    n = kw.pat.length ∧ n ≤ s.length ∧ matchPat re kw.pat s = some (s.drop n) ∧
    (kw.bounded = true → boundary re prev s.head? = true ∧ boundary re (s.take n).getLast? (s.drop n).head? = true) := by
  unfold matchKw at h
  cases hm : matchPat re kw.pat s with
  | none => rw [hm] at h; cases h
  | some r =>
    obtain ⟨hr, hl⟩ := matchPat_some re _ _ _ hm
    rw [hm] at h
    simp only at h
    split at h
    · split at h
      · rename_i hb hbb
        have hn := (Option.some.inj h).symm
        subst hn
        subst hr
        rw [Bool.and_eq_true] at hbb
        exact ⟨rfl, hl, rfl, fun _ => hbb⟩
      · cases h
    · rename_i hb
      have hn := (Option.some.inj h).symm
      subst hn
      subst hr
      exact ⟨rfl, hl, rfl, fun hc => absurd hc hb⟩

theorem firstMatch_some (re : Re) (kws : List Kw) (prev : Option Char) (s : Str) (n : Nat)
    (h : firstMatch re kws prev s = some n) : ∃ kw ∈ kws, matchKw re prev s kw = some n :=
  List.exists_of_findSome?_eq_some h

/-- No pattern is empty. -/
def Solid (kws : List Kw) : Prop := ∀ kw ∈ kws, kw.pat ≠ []

theorem solid_pos {re : Re} {kws : List Kw} (hk : Solid kws) {prev : Option Char} {s : Str} {n : Nat}
    (h : firstMatch re kws prev s = some n) : 0 < n ∧ n ≤ s.length := by
  obtain ⟨kw, hm, h⟩ := firstMatch_some _ _ _ _ _ h
  obtain ⟨h1, h2, _⟩ := matchKw_some _ _ _ _ _ h
  have := List.length_pos_iff.2 (hk kw hm)
  omega

theorem splitGo_enough {re : Re} {kws : List Kw} (hk : Solid kws) (n m : Nat) (prev : Option Char) (cur s : Str)
    (hn : s.length < n) (hm : s.length < m) : splitGo re kws n prev cur s = splitGo re kws m prev cur s := by
  induction n generalizing m prev cur s with
  | zero => omega
  | succ n ih =>
    cases m with
    | zero => omega
    | succ m =>
      cases s with
      | nil => rfl
      | cons c cs =>
        rw [splitGo, splitGo]
        cases hf : firstMatch re kws prev (c :: cs) with
        | none =>
          simp only
          simp only [List.length_cons] at hn hm
          exact ih m _ _ _ (by omega) (by omega)
        | some k =>
          simp only
          obtain ⟨h1, h2⟩ := solid_pos hk hf
          rw [ih m _ _ _ (by rw [List.length_drop]; omega) (by rw [List.length_drop]; omega)]

/-- The scan from a place of the text. -/
def scan (re : Re) (kws : List Kw) (prev : Option Char) (cur s : Str) : List Str := splitGo re kws (s.length + 1) prev cur s

theorem reSplit_scan (re : Re) (kws : List Kw) (s : Str) : reSplit re kws s = scan re kws none [] s := rfl

theorem scan_nil (re : Re) (kws : List Kw) (prev : Option Char) (cur : Str) : scan re kws prev cur [] = [cur] := rfl

theorem scan_none {re : Re} {kws : List Kw} {prev : Option Char} (cur : Str) {c : Char} {cs : Str}
    (h : firstMatch re kws prev (c :: cs) = none) : scan re kws prev cur (c :: cs) = scan re kws (some c) (cur ++ [c]) cs := by
  unfold scan
  rw [splitGo, h]
  rfl

theorem scan_some {re : Re} {kws : List Kw} (hk : Solid kws) {prev : Option Char} (cur : Str) {s : Str} {k : Nat}
    (h : firstMatch re kws prev s = some k) :
    scan re kws prev cur s = cur :: s.take k :: scan re kws (s.take k).getLast? [] (s.drop k) := by
  obtain ⟨h1, h2⟩ := solid_pos hk h
  cases s with
  | nil => rw [List.length_nil] at h2; omega
  | cons c cs =>
    show splitGo re kws (cs.length + 1 + 1) prev cur (c :: cs) = _
    rw [splitGo, h]
    simp only
    congr 2
    refine splitGo_enough hk _ _ _ _ _ ?_ ?_ <;> simp <;> omega

/-- Splitting loses nothing. -/
theorem scan_flatten {re : Re} {kws : List Kw} (hk : Solid kws) (n : Nat) (prev : Option Char) (cur s : Str)
    (hn : s.length ≤ n) : (scan re kws prev cur s).flatten = cur ++ s := by
  induction n generalizing prev cur s with
  | zero =>
    have : s = [] := List.length_eq_zero_iff.1 (by omega)
    subst this
    simp [scan_nil]
  | succ n ih =>
    cases s with
    | nil => simp [scan_nil]
    | cons c cs =>
      cases hf : firstMatch re kws prev (c :: cs) with
      | none =>
        rw [scan_none cur hf, ih _ _ _ (by simpa using hn)]
        simp
      | some k =>
        obtain ⟨h1, h2⟩ := solid_pos hk hf
        rw [scan_some hk cur hf, List.flatten_cons, List.flatten_cons, ih _ _ _ (by rw [List.length_drop]; omega)]
        rw [List.nil_append, List.take_append_drop]

/-! ## The keywords -/

theorem keywords_solid : Solid keywords := by
  unfold Solid
  decide +kernel

/-- The patterns that are not words. -/
theorem keyword_kinds : ∀ kw ∈ keywords,
    (kw.bounded = true ∧ ∃ k ∈ wordKeys, kw = wordKw k) ∨
    (kw = wordKw "IS NOT".toList) ∨ (kw = wordKw "NOT LIKE".toList) ∨
    (kw = ⟨true, "GROUP".toList.map .ch ++ [.ws] ++ "BY".toList.map .ch⟩) ∨
    (kw = ⟨true, "ORDER".toList.map .ch ++ [.ws] ++ "BY".toList.map .ch⟩) ∨
    (kw.bounded = false ∧ ∃ k ∈ symbolKeys ++ punctuation, kw = symbolKw k) := by
  decide +kernel

theorem keyword_heads : ∀ kw ∈ keywords, ∃ p ps, kw.pat = .ch p :: ps ∧ p.toNat < 128 ∧ p.toUpper = p ∧
    p ∉ [' ', '.', '-', '"', '\'', '`'] ∧ isWordChar p = kw.bounded := by
  intro kw hkw
  have h : ∀ kw ∈ keywords, (match kw.pat with
      | .ch p :: _ => decide (p.toNat < 128) && decide (p.toUpper = p) && !([' ', '.', '-', '"', '\'', '`'].contains p) &&
        (isWordChar p == kw.bounded)
      | _ => false) = true := by decide +kernel
  have h := h kw hkw
  split at h
  · rename_i p ps hp
    simp only [Bool.and_eq_true, decide_eq_true_eq, beq_iff_eq, Bool.not_eq_true', List.contains_eq_mem,
      decide_eq_false_iff_not] at h
    exact ⟨p, ps, hp, h.1.1.1, h.1.1.2, h.1.2, h.2⟩
  · cases h

theorem toUpper_ascii (c : Char) (h : c.toNat < 128) : c.toUpper.toNat < 128 := by
  refine of_ascii (P := fun c => c.toUpper.toNat < 128) ?_ c h
  decide +kernel

variable {re : Re}

theorem fits_iff (hre : SaneRe re) {p c : Char} (hp : p.toNat < 128) (hu : p.toUpper = p) (hc : c.toNat < 128) :
    re.same p c = true ↔ c.toUpper = p := by
  rw [hre.same p c hp hc, hu, beq_iff_eq]

/-- A character with which no keyword begins. -/
theorem none_at (hre : SaneRe re) (prev : Option Char) (c : Char) (cs : Str)
    (hc : c ∈ [' ', '.', '-', '"', '\'', '`']) : firstMatch re keywords prev (c :: cs) = none := by
  have hcc : c.toNat < 128 ∧ c.toUpper = c := by
    revert c
    decide
  unfold firstMatch
  rw [List.findSome?_eq_none_iff]
  intro kw hkw
  obtain ⟨p, ps, hp, ha, hu, hn, _⟩ := keyword_heads kw hkw
  unfold matchKw
  rw [hp, matchPat]
  have : (PC.ch p).fits re c = false := by
    rw [Bool.eq_false_iff]
    intro hf
    have := (fits_iff hre ha hu hcc.1).1 hf
    rw [hcc.2] at this
    exact hn (this ▸ hc)
  rw [this]
  rfl

/-! ## Words -/

/-- Capital letters and digits. -/
def Caps (K : Str) : Prop := ∀ c ∈ K, isWordChar c = true ∧ c.toUpper = c

instance (K : Str) : Decidable (Caps K) := by unfold Caps; infer_instance

theorem wordKeys_caps : ∀ k ∈ wordKeys, Caps k ∧ k ≠ [] := by decide +kernel

theorem wordChar_ascii {c : Char} (h : isWordChar c = true) : c.toNat < 128 := by
  unfold isWordChar at h
  rw [Bool.or_eq_true, beq_iff_eq] at h
  rcases h with h | h
  · exact alphanum_ascii c h
  · subst h; decide

theorem wordish_ascii {c : Char} (h : wordish c = true) : c.toNat < 128 := by
  unfold wordish at h
  rw [Bool.or_eq_true, Bool.or_eq_true, beq_iff_eq, beq_iff_eq] at h
  rcases h with (h | h) | h
  · exact wordChar_ascii h
  · subst h; decide
  · subst h; decide

theorem isWord_of (hre : SaneRe re) {c : Char} (h : isWordChar c = true) : re.isWord c = true := by
  rw [hre.word c (wordChar_ascii h)]
  exact h

/-- The text does not go on with a word character. -/
def Edge (re : Re) (t : Str) : Prop := ∀ c, t.head? = some c → re.isWord c = false

theorem caps_fit (hre : SaneRe re) {k c : Char} (hk : isWordChar k = true) (h : re.same k c = true) :
    re.isWord c = true := by
  by_cases ha : k.isAlpha = true
  · exact hre.letter k c ha h
  · rw [hre.symbol k c (wordChar_ascii hk) (by simpa using ha) h]
    exact isWord_of hre hk

theorem caps_match (hre : SaneRe re) (K part r rest : Str) (hK : Caps K) (hpart : ∀ c ∈ part, isWordChar c = true)
    (hr : Edge re r) (h : matchPat re (K.map .ch) (part ++ r) = some rest) :
    ∃ p1 p2, part = p1 ++ p2 ∧ capitals p1 = K ∧ rest = p2 ++ r := by
  induction K generalizing part with
  | nil =>
    rw [List.map_nil, matchPat] at h
    exact ⟨[], part, rfl, rfl, (Option.some.inj h).symm⟩
  | cons k K ih =>
    have hk := hK k (List.mem_cons_self ..)
    cases part with
    | nil =>
      cases r with
      | nil => cases h
      | cons c cs =>
        rw [List.nil_append, List.map_cons, matchPat] at h
        split at h
        · rename_i hf
          have := caps_fit hre hk.1 hf
          rw [hr c rfl] at this
          cases this
        · cases h
    | cons x part =>
      rw [List.cons_append, List.map_cons, matchPat] at h
      split at h
      · rename_i hf
        obtain ⟨p1, p2, e1, e2, e3⟩ := ih part (fun c hc => hK c (List.mem_cons_of_mem _ hc))
          (fun c hc => hpart c (List.mem_cons_of_mem _ hc)) h
        have hx := (fits_iff hre (wordChar_ascii hk.1) hk.2 (wordChar_ascii (hpart x (List.mem_cons_self ..)))).1 hf
        refine ⟨x :: p1, p2, by rw [e1]; rfl, ?_, e3⟩
        show x.toUpper :: capitals p1 = _
        rw [hx, e2]
      · cases h

theorem caps_self (hre : SaneRe re) (K part r : Str) (hK : Caps K) (hpart : ∀ c ∈ part, c.toNat < 128)
    (h : capitals part = K) : matchPat re (K.map .ch) (part ++ r) = some r := by
  induction K generalizing part with
  | nil =>
    cases part with
    | nil => rfl
    | cons x xs => cases h
  | cons k K ih =>
    cases part with
    | nil => cases h
    | cons x xs =>
      have hk := hK k (List.mem_cons_self ..)
      injection h with h1 h2
      rw [List.cons_append, List.map_cons, matchPat]
      have : (PC.ch k).fits re x = true :=
        (fits_iff hre (wordChar_ascii hk.1) hk.2 (hpart x (List.mem_cons_self ..))).2 h1
      rw [if_pos this]
      exact ih xs (fun c hc => hK c (List.mem_cons_of_mem _ hc)) (fun c hc => hpart c (List.mem_cons_of_mem _ hc)) h2

theorem boundary_words {a b : Char} (ha : re.isWord a = true) (hb : re.isWord b = true) :
    boundary re (some a) (some b) = false := by
  unfold boundary
  simp [ha, hb]

/-- The end of a word. -/
theorem boundary_end {a : Char} {t : Str} (ha : re.isWord a = true) (ht : Edge re t) : boundary re (some a) t.head? = true := by
  unfold boundary
  cases h : t.head? with
  | none => simp [ha]
  | some b => simp [ha, ht b h]

theorem word_only (hre : SaneRe re) (prev : Option Char) (K part r : Str) (n : Nat) (hK : Caps K) (hne : K ≠ [])
    (hpart : ∀ c ∈ part, isWordChar c = true) (hr : Edge re r)
    (h : matchKw re prev (part ++ r) (wordKw K) = some n) : capitals part = K ∧ n = part.length := by
  obtain ⟨h1, h2, h3, h4⟩ := matchKw_some _ _ _ _ _ h
  obtain ⟨p1, p2, e1, e2, e3⟩ := caps_match hre K part r _ hK hpart hr h3
  have hn : n = p1.length := by
    rw [h1]
    show (K.map PC.ch).length = _
    rw [← e2, List.length_map, capitals, List.length_map]
  have hb := (h4 rfl).2
  cases p2 with
  | nil => rw [List.append_nil] at e1; subst e1; exact ⟨e2, hn⟩
  | cons y ys =>
    exfalso
    rw [e3] at hb
    have ht : (part ++ r).take n = p1 := by
      rw [e1, hn, List.append_assoc, List.take_left']
      rfl
    rw [ht] at hb
    have hp1 : p1 ≠ [] := by
      intro hc
      subst hc
      exact hne e2.symm
    obtain ⟨a, ha⟩ := Option.isSome_iff_exists.1 (by rw [List.getLast?_isSome]; exact hp1 : p1.getLast?.isSome = true)
    rw [ha] at hb
    have ham : isWordChar a = true := hpart a (by rw [e1]; exact List.mem_append_left _ (List.mem_of_getLast? ha))
    have hym : isWordChar y = true := hpart y (by rw [e1]; simp)
    rw [show (y :: ys ++ r).head? = some y from rfl, boundary_words (isWord_of hre ham) (isWord_of hre hym)] at hb
    cases hb

/-- The text begins with a word. -/
def Begins (re : Re) (B s : Str) : Prop :=
  ∃ rest, matchPat re (B.map .ch) s = some rest ∧ boundary re (s.take B.length).getLast? rest.head? = true

theorem pair_only (hre : SaneRe re) (prev : Option Char) (A B part r : Str) (sp : PC) (n : Nat) (hA : Caps A) (hB : B ≠ [])
    (hpart : ∀ c ∈ part, isWordChar c = true) (hr : Edge re r) (hsp : ∀ c, isWordChar c = true → sp.fits re c = false)
    (h : matchKw re prev (part ++ r) ⟨true, A.map .ch ++ sp :: B.map .ch⟩ = some n) :
    capitals part = A ∧ n = A.length + 1 + B.length ∧ ∃ c r', r = c :: r' ∧ sp.fits re c = true ∧ Begins re B r' := by
  obtain ⟨h1, h2, h3, h4⟩ := matchKw_some _ _ _ _ _ h
  simp only at h3
  rw [matchPat_append] at h3
  cases hm : matchPat re (A.map .ch) (part ++ r) with
  | none => rw [hm] at h3; cases h3
  | some rest =>
    rw [hm, Option.bind_some] at h3
    obtain ⟨p1, p2, e1, e2, e3⟩ := caps_match hre A part r _ hA hpart hr hm
    cases p2 with
    | cons y ys =>
      rw [e3, List.cons_append, matchPat, hsp y (hpart y (by rw [e1]; simp))] at h3
      cases h3
    | nil =>
      rw [List.append_nil] at e1
      rw [List.nil_append] at e3
      subst e1 e3
      cases rest with
      | nil => cases h3
      | cons c r' =>
        rw [matchPat] at h3
        split at h3
        · rename_i hf
          have hlen : n = A.length + 1 + B.length := by
            rw [h1]
            simp
            omega
          refine ⟨e2, hlen, c, r', rfl, hf, _, h3, ?_⟩
          have hb := (h4 rfl).2
          have hp : part.length = A.length := by rw [← e2, capitals, List.length_map]
          have ht : (part ++ c :: r').take n = part ++ c :: r'.take B.length := by
            rw [List.take_append, List.take_of_length_le (by omega), hlen, hp,
              show A.length + 1 + B.length - A.length = B.length + 1 by omega, List.take_succ_cons]
          rw [ht] at hb
          obtain ⟨_, hl⟩ := matchPat_some _ _ _ _ h3
          rw [List.length_map] at hl
          have hne : r'.take B.length ≠ [] := by
            intro hc
            have := congrArg List.length hc
            rw [List.length_take, List.length_nil] at this
            have := List.length_pos_iff.2 hB
            omega
          have hg : (part ++ c :: r'.take B.length).getLast? = (r'.take B.length).getLast? := by
            obtain ⟨x, hx⟩ := Option.isSome_iff_exists.1
              (by rw [List.getLast?_isSome]; exact hne : (r'.take B.length).getLast?.isSome = true)
            rw [List.getLast?_append, List.getLast?_cons, hx]
            rfl
          rw [hg] at hb
          exact hb
        · cases h3

theorem toUpper_big (c : Char) (h : ¬ c.toNat < 128) : c.toUpper = c := by
  unfold Char.toUpper
  have hb : ¬ ('a'.val ≤ c.val ∧ c.val ≤ 'z'.val) := by
    intro hc
    have h2 := hc.2
    rw [UInt32.le_iff_toNat_le] at h2
    have : c.toNat = c.val.toNat := rfl
    have h3 : 'z'.val.toNat = 122 := rfl
    omega
  rw [dif_neg hb]

theorem wordChar_upper (c : Char) : isWordChar c.toUpper = isWordChar c := by
  by_cases h : c.toNat < 128
  · exact of_ascii (P := fun c => isWordChar c.toUpper = isWordChar c) (by decide +kernel) c h
  · rw [toUpper_big c h]

theorem wordChars_of {p : Str} (h : Caps (capitals p)) : ∀ c ∈ p, isWordChar c = true := by
  intro c hc
  rw [← wordChar_upper]
  exact (h c.toUpper (List.mem_map_of_mem hc)).1

theorem word_not_space {c : Char} (h : isWordChar c = true) : isSpace c = false :=
  of_ascii (P := fun c => isWordChar c = true → isSpace c = false) (by decide +kernel) c (wordChar_ascii h) h

theorem pair_form : wordKw "IS NOT".toList = ⟨true, "IS".toList.map .ch ++ .ch ' ' :: "NOT".toList.map .ch⟩ ∧
    wordKw "NOT LIKE".toList = ⟨true, "NOT".toList.map .ch ++ .ch ' ' :: "LIKE".toList.map .ch⟩ := by decide

theorem space_fits (hre : SaneRe re) (c : Char) (h : (PC.ch ' ').fits re c = true) : c = ' ' :=
  hre.symbol ' ' c (by decide) (by decide) h

/-- A keyword that is found where a word begins. -/
theorem at_word (hre : SaneRe re) (prev : Option Char) (part r : Str) (n : Nat) (hpart : ∀ c ∈ part, isWordChar c = true)
    (hne : part ≠ []) (hr : Edge re r) (kw : Kw) (hkw : kw ∈ keywords) (h : matchKw re prev (part ++ r) kw = some n) :
    (capitals part ∈ wordKeys ∧ kw = wordKw (capitals part) ∧ n = part.length) ∨
    (kw = wordKw "IS NOT".toList ∧ capitals part = "IS".toList ∧ n = 6 ∧ ∃ r', r = ' ' :: r' ∧ Begins re "NOT".toList r') ∨
    (kw = wordKw "NOT LIKE".toList ∧ capitals part = "NOT".toList ∧ n = 8 ∧ ∃ r', r = ' ' :: r' ∧ Begins re "LIKE".toList r') ∨
    (capitals part ∈ ["GROUP".toList, "ORDER".toList] ∧ ∃ c r', r = c :: r' ∧ isSpace c = true ∧ Begins re "BY".toList r') := by
  have hs1 : ∀ c, isWordChar c = true → (PC.ch ' ').fits re c = false := by
    intro c hc
    rw [Bool.eq_false_iff]
    intro hf
    have := space_fits hre c hf
    subst this
    exact absurd hc (by decide)
  have hs2 : ∀ c, isWordChar c = true → PC.ws.fits re c = false := fun c hc => word_not_space hc
  rcases keyword_kinds kw hkw with ⟨_, k, hk, rfl⟩ | rfl | rfl | rfl | rfl | ⟨hb, _⟩
  · obtain ⟨hc, hkn⟩ := wordKeys_caps k hk
    obtain ⟨h1, h2⟩ := word_only hre prev k part r n hc hkn hpart hr h
    left
    rw [h1]
    exact ⟨hk, rfl, h2⟩
  · rw [pair_form.1] at h
    obtain ⟨h1, h2, c, r', h3, h4, h5⟩ := pair_only hre prev _ _ part r _ n (by decide) (by decide) hpart hr hs1 h
    have := space_fits hre c h4
    subst this
    exact Or.inr (Or.inl ⟨rfl, h1, h2, r', h3, h5⟩)
  · rw [pair_form.2] at h
    obtain ⟨h1, h2, c, r', h3, h4, h5⟩ := pair_only hre prev _ _ part r _ n (by decide) (by decide) hpart hr hs1 h
    have := space_fits hre c h4
    subst this
    exact Or.inr (Or.inr (Or.inl ⟨rfl, h1, h2, r', h3, h5⟩))
  · rw [List.append_assoc, List.singleton_append] at h
    obtain ⟨h1, h2, c, r', h3, h4, h5⟩ := pair_only hre prev _ _ part r _ n (by decide) (by decide) hpart hr hs2 h
    exact Or.inr (Or.inr (Or.inr ⟨by rw [h1]; decide, c, r', h3, h4, h5⟩))
  · rw [List.append_assoc, List.singleton_append] at h
    obtain ⟨h1, h2, c, r', h3, h4, h5⟩ := pair_only hre prev _ _ part r _ n (by decide) (by decide) hpart hr hs2 h
    exact Or.inr (Or.inr (Or.inr ⟨by rw [h1]; decide, c, r', h3, h4, h5⟩))
  · exfalso
    obtain ⟨p, ps, hp, ha, hu, _, hw⟩ := keyword_heads kw hkw
    obtain ⟨_, _, h3, _⟩ := matchKw_some _ _ _ _ _ h
    cases part with
    | nil => exact hne rfl
    | cons c cs =>
      have hc := hpart c (List.mem_cons_self ..)
      rw [hp, List.cons_append, matchPat] at h3
      split at h3
      · rename_i hf
        have := (fits_iff hre ha hu (wordChar_ascii hc)).1 hf
        rw [hb, ← this, wordChar_upper, hc] at hw
        cases hw
      · cases h3

theorem findSome_unique {α β : Type} (f : α → Option β) (l : List α) (b : β) (h1 : ∃ a ∈ l, f a = some b)
    (h2 : ∀ a ∈ l, ∀ c, f a = some c → c = b) : l.findSome? f = some b := by
  cases h : l.findSome? f with
  | none =>
    obtain ⟨a, ha, hb⟩ := h1
    rw [List.findSome?_eq_none_iff] at h
    rw [h a ha] at hb
    cases hb
  | some c =>
    obtain ⟨a, ha, hc⟩ := List.exists_of_findSome?_eq_some h
    rw [h2 a ha c hc]

theorem findSome_first {α β : Type} (f : α → Option β) (pre post : List α) (a : α) (b : β) (h1 : f a = some b)
    (h2 : ∀ x ∈ pre, f x = none) : (pre ++ a :: post).findSome? f = some b := by
  rw [List.findSome?_append, List.findSome?_eq_none_iff.2 h2, List.findSome?_cons, h1]
  rfl

/-- Nothing is found inside a word, nor at its beginning unless it is a keyword. -/
theorem none_in_word (hre : SaneRe re) (prev : Option Char) (part r : Str) (hpart : ∀ c ∈ part, isWordChar c = true)
    (hne : part ≠ []) (hr : Edge re r)
    (h : (∃ a, prev = some a ∧ re.isWord a = true) ∨ capitals part ∉ wordKeys)
    (hby : capitals part ∈ ["GROUP".toList, "ORDER".toList] → ∀ c r', r = c :: r' → isSpace c = true → ¬ Begins re "BY".toList r') :
    firstMatch re keywords prev (part ++ r) = none := by
  unfold firstMatch
  rw [List.findSome?_eq_none_iff]
  intro kw hkw
  cases hm : matchKw re prev (part ++ r) kw with
  | none => rfl
  | some n =>
    exfalso
    have key : capitals part ∈ wordKeys ∧ kw.bounded = true := by
      rcases at_word hre prev part r n hpart hne hr kw hkw hm with ⟨h1, h2, _⟩ | ⟨h1, h2, _⟩ | ⟨h1, h2, _⟩ | ⟨h1, c, r', h2, h3, h4⟩
      · rw [h2]; exact ⟨h1, rfl⟩
      · rw [h1, h2]; exact ⟨by decide +kernel, rfl⟩
      · rw [h1, h2]; exact ⟨by decide +kernel, rfl⟩
      · exact absurd h4 (hby h1 c r' h2 h3)
    rcases h with ⟨a, rfl, ha⟩ | h
    · obtain ⟨_, _, _, h4⟩ := matchKw_some _ _ _ _ _ hm
      have := (h4 key.2).1
      cases part with
      | nil => exact hne rfl
      | cons c cs =>
        rw [show (c :: cs ++ r).head? = some c from rfl,
          boundary_words ha (isWord_of hre (hpart c (List.mem_cons_self ..)))] at this
        cases this
    · exact h key.1

/-- The character before is not a word character. -/
def Fresh (re : Re) (prev : Option Char) : Prop := ∀ a, prev = some a → re.isWord a = false

theorem boundary_start {prev : Option Char} {c : Char} (hp : Fresh re prev) (hc : re.isWord c = true) :
    boundary re prev (some c) = true := by
  unfold boundary
  cases prev with
  | none => simp [hc]
  | some a => simp [hc, hp a rfl]

theorem wordKw_mem : ∀ k ∈ wordKeys, wordKw k ∈ keywords := by decide +kernel

theorem capitals_length (s : Str) : (capitals s).length = s.length := List.length_map _

/-- A word as a pattern matches itself. -/
theorem wordKw_self (hre : SaneRe re) (prev : Option Char) (k t : Str) (hk : Caps (capitals k)) (hne : k ≠ [])
    (hp : Fresh re prev) (ht : Edge re t) : matchKw re prev (k ++ t) (wordKw (capitals k)) = some k.length := by
  have hw := wordChars_of hk
  unfold matchKw
  have : matchPat re (wordKw (capitals k)).pat (k ++ t) = some t :=
    caps_self hre (capitals k) k t hk (fun c hc => wordChar_ascii (hw c hc)) rfl
  rw [this]
  have hlen : (wordKw (capitals k)).pat.length = k.length := by
    show ((capitals k).map PC.ch).length = _
    rw [List.length_map, capitals_length]
  simp only
  rw [hlen, List.take_left', show (wordKw (capitals k)).bounded = true from rfl, if_pos rfl, if_pos]
  · rw [Bool.and_eq_true]
    constructor
    · cases k with
      | nil => exact absurd rfl hne
      | cons c cs => exact boundary_start hp (isWord_of hre (hw c (List.mem_cons_self ..)))
    · obtain ⟨x, hx⟩ := Option.isSome_iff_exists.1 (by rw [List.getLast?_isSome]; exact hne : k.getLast?.isSome = true)
      rw [hx]
      exact boundary_end (isWord_of hre (hw x (List.mem_of_getLast? hx))) ht
  · rfl

/-- A keyword of one word is found. -/
theorem key_word (hre : SaneRe re) (prev : Option Char) (k t : Str) (hk : capitals k ∈ wordKeys) (hp : Fresh re prev)
    (ht : Edge re t) (h1 : capitals k = "IS".toList → ∀ t', t = ' ' :: t' → ¬ Begins re "NOT".toList t')
    (h2 : capitals k = "NOT".toList → ∀ t', t = ' ' :: t' → ¬ Begins re "LIKE".toList t') :
    firstMatch re keywords prev (k ++ t) = some k.length := by
  obtain ⟨hc, hne⟩ := wordKeys_caps _ hk
  have hkn : k ≠ [] := by rintro rfl; exact hne rfl
  refine findSome_unique _ _ _ ⟨_, wordKw_mem _ hk, wordKw_self hre prev k t hc hkn hp ht⟩ ?_
  intro kw hkw n hm
  rcases at_word hre prev k t n (wordChars_of hc) hkn ht kw hkw hm with ⟨_, _, h⟩ | ⟨_, e, _, t', et, hb⟩ |
    ⟨_, e, _, t', et, hb⟩ | ⟨e, _⟩
  · exact h
  · exact absurd hb (h1 e t' et)
  · exact absurd hb (h2 e t' et)
  · rw [List.mem_cons, List.mem_singleton] at e
    rcases e with e | e
    · rw [e] at hk; exact absurd hk (by decide +kernel)
    · rw [e] at hk; exact absurd hk (by decide +kernel)

/-! ## Keywords of two words -/

theorem pairs_split : (∃ pre post, keywords = pre ++ wordKw "IS NOT".toList :: post ∧
      wordKw "IS".toList ∉ pre ∧ wordKw "IS NOT".toList ∉ pre) ∧
    (∃ pre post, keywords = pre ++ wordKw "NOT LIKE".toList :: post ∧
      wordKw "NOT".toList ∉ pre ∧ wordKw "NOT LIKE".toList ∉ pre) := by
  refine ⟨⟨keywords.takeWhile (· != wordKw "IS NOT".toList),
      (keywords.dropWhile (· != wordKw "IS NOT".toList)).tail, ?_⟩,
    ⟨keywords.takeWhile (· != wordKw "NOT LIKE".toList),
      (keywords.dropWhile (· != wordKw "NOT LIKE".toList)).tail, ?_⟩⟩ <;> decide +kernel

theorem edge_space (hre : SaneRe re) (t : Str) : Edge re (' ' :: t) := by
  intro c hc
  cases hc
  rw [hre.word _ (by decide)]
  decide

theorem pair_self (hre : SaneRe re) (prev : Option Char) (A B a b t : Str) (hA : Caps A) (hB : Caps B) (hBn : B ≠ [])
    (ha : capitals a = A) (hb : capitals b = B) (hne : a ≠ []) (hp : Fresh re prev) (ht : Edge re t) :
    matchKw re prev (a ++ ' ' :: (b ++ t)) ⟨true, A.map .ch ++ .ch ' ' :: B.map .ch⟩ = some (a.length + 1 + b.length) := by
  subst ha hb
  have hwa := wordChars_of hA
  have hwb := wordChars_of hB
  unfold matchKw
  have : matchPat re ((capitals a).map PC.ch ++ PC.ch ' ' :: (capitals b).map PC.ch) (a ++ ' ' :: (b ++ t)) = some t := by
    rw [matchPat_append, caps_self hre _ a _ hA (fun c hc => wordChar_ascii (hwa c hc)) rfl, Option.bind_some, matchPat]
    have : (PC.ch ' ').fits re ' ' = true := by
      show re.same ' ' ' ' = true
      rw [hre.same _ _ (by decide) (by decide)]
      rfl
    rw [if_pos this]
    exact caps_self hre _ b _ hB (fun c hc => wordChar_ascii (hwb c hc)) rfl
  simp only
  rw [this]
  have hlen : ((capitals a).map PC.ch ++ PC.ch ' ' :: (capitals b).map PC.ch).length = a.length + 1 + b.length := by
    simp [capitals_length]
    omega
  have hbn : b ≠ [] := by rintro rfl; exact hBn rfl
  simp only [if_true]
  rw [hlen, if_pos]
  rw [Bool.and_eq_true]
  constructor
  · cases a with
    | nil => exact absurd rfl hne
    | cons c cs => exact boundary_start hp (isWord_of hre (hwa c (List.mem_cons_self ..)))
  · have htk : (a ++ ' ' :: (b ++ t)).take (a.length + 1 + b.length) = a ++ ' ' :: b := by
      rw [List.take_append, List.take_of_length_le (by omega),
        show a.length + 1 + b.length - a.length = b.length + 1 by omega, List.take_succ_cons, List.take_left']
      rfl
    obtain ⟨x, hx⟩ := Option.isSome_iff_exists.1 (by rw [List.getLast?_isSome]; exact hbn : b.getLast?.isSome = true)
    rw [htk, List.getLast?_append, List.getLast?_cons, hx]
    exact boundary_end (isWord_of hre (hwb x (List.mem_of_getLast? hx))) ht

/-- A keyword of two words is found. -/
theorem key_pair (hre : SaneRe re) (prev : Option Char) (k t : Str) (hk : capitals k ∈ pairKeys) (hp : Fresh re prev)
    (ht : Edge re t) : firstMatch re keywords prev (k ++ t) = some k.length := by
  have cut : ∀ A B : Str, capitals k = A ++ ' ' :: B → ∃ a b, k = a ++ ' ' :: b ∧ capitals a = A ∧ capitals b = B := by
    intro A B h
    unfold capitals at h ⊢
    obtain ⟨a, b', h1, h2, h3⟩ := List.map_eq_append_iff.1 h
    obtain ⟨c, b, h4, h5, h6⟩ := List.map_eq_cons_iff.1 h3
    refine ⟨a, b, ?_, h2, h6⟩
    have : c = ' ' := by
      by_cases hc : c.toNat < 128
      · exact of_ascii (P := fun c => c.toUpper = ' ' → c = ' ') (by decide +kernel) c hc h5
      · rw [toUpper_big c hc] at h5
        exact h5
    rw [h1, h4, this]
  have hk : capitals k = "IS NOT".toList ∨ capitals k = "NOT LIKE".toList := by
    unfold pairKeys at hk
    rw [List.map_cons, List.map_cons, List.map_nil, List.mem_cons, List.mem_singleton] at hk
    exact hk
  rcases hk with hk | hk
  · obtain ⟨a, b, rfl, ha, hb⟩ := cut "IS".toList "NOT".toList hk
    have han : a ≠ [] := by rintro rfl; cases ha
    obtain ⟨pre, post, hsp, n1, n2⟩ := pairs_split.1
    have hs := pair_self hre prev "IS".toList "NOT".toList a b t (by decide) (by decide) (by decide) ha hb han hp ht
    rw [← pair_form.1] at hs
    unfold firstMatch
    rw [hsp, List.append_assoc, List.cons_append]
    rw [show (a ++ ' ' :: b).length = a.length + 1 + b.length by simp; omega]
    refine findSome_first _ _ _ _ _ hs ?_
    intro kw hkw
    cases hm : matchKw re prev (a ++ ' ' :: (b ++ t)) kw with
    | none => rfl
    | some n =>
      exfalso
      have hcaps : Caps (capitals a) := by rw [ha]; decide
      rcases at_word hre prev a _ n (wordChars_of hcaps) han (edge_space hre _) kw
        (by rw [hsp]; exact List.mem_append_left _ hkw) hm with ⟨_, e, _⟩ | ⟨e, _⟩ | ⟨_, e, _⟩ | ⟨e, _⟩
      · rw [ha] at e; exact n1 (e ▸ hkw)
      · exact n2 (e ▸ hkw)
      · rw [ha] at e; exact absurd e (by decide)
      · rw [ha] at e; exact absurd e (by decide)
  · obtain ⟨a, b, rfl, ha, hb⟩ := cut "NOT".toList "LIKE".toList hk
    have han : a ≠ [] := by rintro rfl; cases ha
    obtain ⟨pre, post, hsp, n1, n2⟩ := pairs_split.2
    have hs := pair_self hre prev "NOT".toList "LIKE".toList a b t (by decide) (by decide) (by decide) ha hb han hp ht
    rw [← pair_form.2] at hs
    unfold firstMatch
    rw [hsp, List.append_assoc, List.cons_append]
    rw [show (a ++ ' ' :: b).length = a.length + 1 + b.length by simp; omega]
    refine findSome_first _ _ _ _ _ hs ?_
    intro kw hkw
    cases hm : matchKw re prev (a ++ ' ' :: (b ++ t)) kw with
    | none => rfl
    | some n =>
      exfalso
      have hcaps : Caps (capitals a) := by rw [ha]; decide
      rcases at_word hre prev a _ n (wordChars_of hcaps) han (edge_space hre _) kw
        (by rw [hsp]; exact List.mem_append_left _ hkw) hm with ⟨_, e, _⟩ | ⟨_, e, _⟩ | ⟨e, _⟩ | ⟨e, _⟩
      · rw [ha] at e; exact n1 (e ▸ hkw)
      · rw [ha] at e; exact absurd e (by decide)
      · exact n2 (e ▸ hkw)
      · rw [ha] at e; exact absurd e (by decide)

/-! ## Symbols -/

theorem findSome_filter {α β : Type} (f : α → Option β) (p : α → Bool) (l : List α) (h : ∀ a ∈ l, p a = false → f a = none) :
    l.findSome? f = (l.filter p).findSome? f := by
  induction l with
  | nil => rfl
  | cons a l ih =>
    have ih := ih (fun x hx => h x (List.mem_cons_of_mem _ hx))
    by_cases hp : p a = true
    · rw [List.filter_cons_of_pos hp, List.findSome?_cons, List.findSome?_cons, ih]
    · rw [List.filter_cons_of_neg hp, List.findSome?_cons, h a (List.mem_cons_self ..) (by simpa using hp), ih]

theorem findSome_congr {α β : Type} (f g : α → Option β) (l : List α) (h : ∀ a ∈ l, f a = g a) :
    l.findSome? f = l.findSome? g := by
  induction l with
  | nil => rfl
  | cons a l ih =>
    rw [List.findSome?_cons, List.findSome?_cons, h a (List.mem_cons_self ..),
      ih (fun x hx => h x (List.mem_cons_of_mem _ hx))]

theorem symbols_chars : symbolKeys = [['<', '>'], ['>', '='], ['<', '='], ['>'], ['<'], ['=', '='], ['!', '='], ['=']] ∧
    punctuation = [['('], [')'], ['['], [']'], [','], ['*']] := by decide

theorem symbols_list : keywords.filter (fun kw => !kw.bounded) = (symbolKeys ++ punctuation).map symbolKw := by
  decide +kernel

theorem symbol_match (hre : SaneRe re) (K s : Str) (hK : ∀ c ∈ K, c.toNat < 128 ∧ c.isAlpha = false) :
    (matchPat re (K.map .ch) s).isSome = K.isPrefixOf s := by
  induction K generalizing s with
  | nil => simp [matchPat]
  | cons k K ih =>
    have hk := hK k (List.mem_cons_self ..)
    cases s with
    | nil => rfl
    | cons c cs =>
      rw [List.map_cons, matchPat]
      show _ = (k == c && K.isPrefixOf cs)
      by_cases hc : c = k
      · subst hc
        have : (PC.ch c).fits re c = true := by
          show re.same c c = true
          rw [hre.same _ _ hk.1 hk.1, beq_self_eq_true]
        rw [if_pos this, ih cs (fun x hx => hK x (List.mem_cons_of_mem _ hx)), beq_self_eq_true, Bool.true_and]
      · have : ¬ (PC.ch k).fits re c = true := fun hf => hc (hre.symbol k c hk.1 hk.2 hf)
        rw [if_neg this, beq_eq_false_iff_ne.2 (fun h => hc h.symm)]
        rfl

theorem matchKw_symbol (hre : SaneRe re) (prev : Option Char) (K s : Str) (hK : ∀ c ∈ K, c.toNat < 128 ∧ c.isAlpha = false) :
    matchKw re prev s (symbolKw K) = if K.isPrefixOf s then some K.length else none := by
  have h := symbol_match hre K s hK
  unfold matchKw symbolKw
  simp only
  cases hm : matchPat re (K.map .ch) s with
  | none =>
    rw [hm] at h
    rw [← h]
    rfl
  | some r =>
    rw [hm] at h
    rw [← h]
    simp

theorem symbols_ascii : ∀ K ∈ symbolKeys ++ punctuation, ∀ c ∈ K, c.toNat < 128 ∧ c.isAlpha = false := by decide +kernel

/-- Where a symbol stands, only symbols are found. -/
theorem firstMatch_symbol (hre : SaneRe re) (prev : Option Char) (c : Char) (cs : Str) (hc : c.toNat < 128)
    (hw : isWordChar c = false) : firstMatch re keywords prev (c :: cs) =
      (symbolKeys ++ punctuation).findSome? (fun K => if K.isPrefixOf (c :: cs) then some K.length else none) := by
  unfold firstMatch
  rw [findSome_filter _ (fun kw => !kw.bounded)]
  · rw [symbols_list, List.findSome?_map]
    refine findSome_congr _ _ _ (fun K hK => ?_)
    exact matchKw_symbol hre prev K _ (symbols_ascii K hK)
  · intro kw hkw hb
    rw [Bool.not_eq_false'] at hb
    obtain ⟨p, ps, hp, ha, hu, _, hw'⟩ := keyword_heads kw hkw
    unfold matchKw
    rw [hp, matchPat]
    have : ¬ (PC.ch p).fits re c = true := by
      intro hf
      have := (fits_iff hre ha hu hc).1 hf
      rw [← this, wordChar_upper, hw, hb] at hw'
      cases hw'
    rw [if_neg this]

theorem symbol_capitals (c d : Char) (hd : d.toNat < 128 ∧ d.isAlpha = false) (h : c.toUpper = d) : c = d := by
  by_cases hc : c.toNat < 128
  · revert d
    refine of_ascii (P := fun c => ∀ d, d.toNat < 128 ∧ d.isAlpha = false → c.toUpper = d → c = d) ?_ c hc
    intro n hn d hd h
    rw [← h] at hd ⊢
    clear h
    revert n
    decide +kernel
  · rw [toUpper_big c hc] at h
    exact h

theorem symbols_capitals (k K : Str) (hK : ∀ c ∈ K, c.toNat < 128 ∧ c.isAlpha = false) (h : capitals k = K) : k = K := by
  induction k generalizing K with
  | nil => exact h
  | cons c k ih =>
    cases K with
    | nil => cases h
    | cons d K =>
      injection h with h1 h2
      rw [symbol_capitals c d (hK d (List.mem_cons_self ..)) h1, ih K (fun x hx => hK x (List.mem_cons_of_mem _ hx)) h2]

/-- A symbol is found, if no operator follows an operator. -/
theorem key_symbol (hre : SaneRe re) (prev : Option Char) (k t : Str) (hk : capitals k ∈ symbolKeys)
    (ht : ∀ c, t.head? = some c → isOp c = false) : firstMatch re keywords prev (k ++ t) = some k.length := by
  have e := symbols_capitals k _ (symbols_ascii _ (List.mem_append_left _ hk)) rfl
  rw [← e] at hk
  have hn : ∀ d t', t = d :: t' → '>' ≠ d ∧ '=' ≠ d := by
    rintro d t' rfl
    have := ht d rfl
    constructor <;> rintro rfl <;> exact absurd this (by decide)
  rw [symbols_chars.1] at hk
  simp only [List.mem_cons, List.not_mem_nil, or_false] at hk
  clear e ht
  rcases hk with h | h | h | h | h | h | h | h <;>
  · rw [h]
    show firstMatch re keywords prev (_ :: _) = _
    rw [firstMatch_symbol hre prev _ _ (by decide) (by decide), symbols_chars.1, symbols_chars.2]
    cases t with
    | nil => decide
    | cons d t' =>
      obtain ⟨h1, h2⟩ := hn d t' rfl
      simp [List.isPrefixOf, h1, h2]

/-- A bracket, a comma or a star is found. -/
theorem key_punctuation (hre : SaneRe re) (prev : Option Char) (k t : Str) (hk : capitals k ∈ punctuation) :
    firstMatch re keywords prev (k ++ t) = some k.length := by
  have e := symbols_capitals k _ (symbols_ascii _ (List.mem_append_right _ hk)) rfl
  rw [← e] at hk
  rw [symbols_chars.2] at hk
  simp only [List.mem_cons, List.not_mem_nil, or_false] at hk
  clear e
  rcases hk with h | h | h | h | h | h <;>
  · rw [h]
    show firstMatch re keywords prev (_ :: _) = _
    rw [firstMatch_symbol hre prev _ _ (by decide) (by decide), symbols_chars.1, symbols_chars.2]
    simp [List.isPrefixOf]

end Mabel.Tokenizer
