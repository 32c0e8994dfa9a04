import Verif.Props.TextWrap

/-!
# C113 Where a word with hyphens is broken
-/

namespace Mabel.TextWrap
open Mabel.Py Mabel.ErrorStack Mabel.TextWrap.Spec

variable {k : Classes}

namespace Spec

/-- A word that is not broken after a hyphen: none of its hyphens is between two letters (characters that regular expressions
count as of a word, and not as digits), no two are side by side, and it does not end with one.  So are dates
and numbers, and options like `-b`. -/
structure Tied (k : Classes) (w : Str) : Prop where
  ne : w ≠ []
  seen : ∀ c ∈ w, visible c = true
  between : ∀ x y, [x, '-', y] <:+: w → ¬ ((k.word x = true ∧ k.digit x = false) ∧ k.word y = true ∧ k.digit y = false)
  dash : ¬ ['-', '-'] <:+: w
  last : w.getLast? ≠ some '-'

end Spec

theorem letter_iff {c : Char} : letter k c = true ↔ k.word c = true ∧ k.digit c = false := by
  unfold letter
  simp

theorem hyphenHere_letters {c y : Char} {before r : Str} (h : hyphenHere k (c :: before) ('-' :: y :: r) = true) :
    letter k c = true ∧ letter k y = true := by
  unfold hyphenHere at h
  rw [Bool.and_eq_true] at h
  obtain ⟨h1, h2⟩ := h
  constructor
  · split at h1
    · rename_i e
      obtain ⟨rfl, -⟩ := List.cons.inj e
      exact (Bool.and_eq_true _ _ ▸ h1).1
    · rename_i e
      obtain ⟨rfl, -⟩ := List.cons.inj e
      exact (Bool.and_eq_true _ _ ▸ h1).1
    · cases h1
  · split at h2
    · rename_i e
      obtain ⟨rfl, -⟩ := List.cons.inj (List.cons.inj e).2
      exact (Bool.and_eq_true _ _ ▸ h2).1
    · rename_i e
      obtain ⟨rfl, -⟩ := List.cons.inj (List.cons.inj e).2
      exact (Bool.and_eq_true _ _ ▸ h2).1
    · cases h2

theorem emDash_single {y : Char} {r : Str} (h : y ≠ '-') : emDash k ('-' :: y :: r) = false := by
  unfold emDash
  simp [h]

/-- A tied word is scanned as a whole. -/
theorem scanWord_tied {w b : Str} (hw : Tied k w) (hb : ∀ c, b.head? = some c → isWs c = true) (before : Str) :
    scanWord k before (w ++ b) = (w, b) := by
  induction w generalizing before with
  | nil => exact absurd rfl hw.ne
  | cons c w ih =>
    rw [List.cons_append, scanWord]
    cases w with
    | nil =>
      rw [List.nil_append]
      cases b with
      | nil => simp [hyphenHere]
      | cons d b =>
        have hd := hb d rfl
        have hdash : d ≠ '-' := by rintro rfl; revert hd; decide
        rw [if_neg (by rw [hyphenHere_false hdash]; simp), if_pos (by simpa using hd)]
    | cons d w =>
      have hd := not_isWs (hw.seen d (by simp))
      have hsub : ∀ x, x <:+: d :: w → x <:+: c :: d :: w := fun x hx => hx.trans (List.suffix_cons c _).isInfix
      have ht : Tied k (d :: w) := ⟨by simp, fun x hx => hw.seen x (List.mem_cons_of_mem _ hx),
        fun x y h => hw.between x y (hsub _ h), fun h => hw.dash (hsub _ h), fun h => hw.last (by simpa using h)⟩
      have h1 : hyphenHere k (c :: before) (d :: w ++ b) = false := by
        by_cases hdd : d = '-'
        · subst hdd
          cases w with
          | nil => exact absurd rfl hw.last
          | cons y w =>
            by_contra hh
            obtain ⟨l1, l2⟩ := hyphenHere_letters (Bool.not_eq_false _ ▸ hh)
            exact hw.between c y ⟨[], w, by simp⟩ ⟨letter_iff.1 l1, letter_iff.1 l2⟩
        · exact hyphenHere_false hdd
      have h2 : emDash k (d :: w ++ b) = false := by
        by_cases hdd : d = '-'
        · subst hdd
          cases w with
          | nil => exact absurd rfl hw.last
          | cons y w =>
            apply emDash_single
            rintro rfl
            exact hw.dash ⟨[c], w, by simp⟩
        · exact emDash_false hdd
      rw [if_neg (by rw [h1]; simp), if_neg (by simp [hd]), if_neg (by rw [h2]; simp), ih ht]

theorem chunkAt_tied {w b : Str} (hw : Tied k w) (hb : ∀ c, b.head? = some c → isWs c = true) (before : Str) :
    chunkAt k before (w ++ b) = (w, b) := by
  have h := scanWord_tied hw hb before
  obtain ⟨c, w', rfl⟩ := List.exists_cons_of_ne_nil hw.ne
  have hc := not_isWs (hw.seen c (by simp))
  have h2 : emDash k (c :: w' ++ b) = false := by
    by_cases hdd : c = '-'
    · subst hdd
      cases w' with
      | nil => exact absurd rfl hw.last
      | cons y w =>
        apply emDash_single
        rintro rfl
        exact hw.dash ⟨[], w, by simp⟩
    · exact emDash_false hdd
  unfold chunkAt
  rw [if_neg (by simp [hc]), if_neg (by rw [h2]; simp), h]

theorem splitGo_chunk {w b : Str} (hne : w ≠ []) (hw : ∀ c ∈ w, isWs c = false)
    (hat : ∀ before, chunkAt k before (w ++ b) = (w, b)) : ∀ (n : Nat) (before a : Str),
    (∀ c, a.getLast? = some c → isWs c = true) → (a ++ w ++ b).length ≤ n → w ∈ splitGo k n before (a ++ w ++ b) := by
  intro n
  induction n with
  | zero =>
    intro before a _ h
    have := List.length_eq_zero_iff.1 (Nat.le_zero.1 h)
    simp at this
    exact absurd this.2.1 hne
  | succ n ih =>
    intro before a ha h
    unfold splitGo
    have h0 : a ++ w ++ b ≠ [] := by simp [hne]
    rw [if_neg h0]
    by_cases hae : a = []
    · subst hae
      rw [List.nil_append, hat before]
      exact List.mem_cons_self
    · refine List.mem_cons_of_mem _ ?_
      have h1 := chunkAt_append (k := k) before (a ++ w ++ b)
      have h2 := List.length_pos_iff.2 (chunkAt_ne (k := k) (before := before) h0)
      have hu := chunkAt_uniform (k := k) before (a ++ w ++ b)
      generalize (chunkAt k before (a ++ w ++ b)).1 = p at *
      generalize (chunkAt k before (a ++ w ++ b)).2 = q at *
      have hpa : p.length ≤ a.length := by
        by_contra hlt
        have hpre : a <+: p := List.prefix_of_prefix_length_le (l₃ := a ++ w ++ b) (by rw [List.append_assoc]; exact List.prefix_append _ _)
          (by rw [← h1]; exact List.prefix_append _ _) (by omega)
        obtain ⟨t, rfl⟩ := hpre
        cases t with
        | nil => simp at hlt
        | cons x t =>
          rw [List.append_assoc, List.append_assoc] at h1
          have h3 := List.append_cancel_left h1
          obtain ⟨c, w', rfl⟩ := List.exists_cons_of_ne_nil hne
          have hx : x = c := (List.cons.inj h3).1
          have hl := ha (a.getLast hae) (List.getLast?_eq_some_getLast hae)
          rcases hu with hu | hu
          · have := hu x (by simp)
            rw [hx, hw c (by simp)] at this
            cases this
          · have := hu (a.getLast hae) (List.mem_append_left _ (List.getLast_mem hae))
            rw [hl] at this
            cases this
      have hpre : p <+: a := List.prefix_of_prefix_length_le (l₃ := a ++ w ++ b) (by rw [← h1]; exact List.prefix_append _ _)
        (by rw [List.append_assoc]; exact List.prefix_append _ _) hpa
      obtain ⟨a', rfl⟩ := hpre
      rw [List.append_assoc, List.append_assoc] at h1
      have hq := List.append_cancel_left h1
      rw [← List.append_assoc] at hq
      rw [hq]
      refine ih _ a' ?_ ?_
      · intro c hc
        apply ha
        rw [List.getLast?_append, hc]
        rfl
      · simp only [List.length_append] at h ⊢
        omega

/-- **C113 (dates, numbers and options).**  A word with hyphens none of which is between two letters, no longer than a line, is
on one line. -/
theorem C113_tied {width : Int} (hw : 0 < width) {text out w : Str} (hwd : Tied k w) (hl : (w.length : Int) ≤ width)
    (hs : StandsIn w text) (h : wrapText k text width = .ok out) : ∃ l ∈ split '\n' out, w <:+: l := by
  obtain ⟨a, b, rfl, ha, hb⟩ := hs
  have hv := hwd.seen
  obtain ⟨a1, b1, hm, ha1, hb1⟩ := splitlinesGo_word hwd.ne hv hb a.length [] a (Nat.le_refl _) (by simpa using ha) (by simp)
  obtain ⟨a2, b2, he, ha2, hb2⟩ := munge_around hv ha1 hb1
  have hin : w ∈ splitChunks k (munge (a1 ++ w ++ b1)) := by
    rw [he]
    exact splitGo_chunk hwd.ne (fun c hc => not_isWs (hv c hc)) (chunkAt_tied hwd hb2) _ [] a2 ha2 (Nat.le_refl _)
  have hbl : blank w = false := by
    by_contra hb
    obtain ⟨c, hc⟩ := List.exists_mem_of_ne_nil w hwd.ne
    have := hv c hc
    rw [(blank_iff _).1 (by simpa using hb) c hc] at this
    cases this
  obtain ⟨l, hl1, hl2⟩ := wrapGo_whole (width := width.toNat) (by omega) hbl (by omega) _ false _ (splitChunks_ne _) (Nat.le_refl _) hin
  rw [(wrapText_lines hw _).1] at h
  obtain rfl := Except.ok.inj h
  rw [(wrapText_lines hw _).2 (by simp [hwd.ne])]
  refine ⟨l, List.mem_flatMap.2 ⟨_, hm, ?_⟩, hl2⟩
  unfold para
  rw [if_neg (List.ne_nil_of_mem hl1)]
  exact hl1

/-! ## Words of letters with a hyphen between -/

namespace Spec

/-- Two letters or more, and nothing else. -/
structure Letters (k : Classes) (u : Str) : Prop where
  two : 2 ≤ u.length
  all : ∀ c ∈ u, k.word c = true ∧ k.digit c = false ∧ visible c = true ∧ c ≠ '-'

end Spec

theorem hyphenHere_true {a b x y : Char} {before r : Str} (ha : letter k a = true) (hb : letter k b = true) (hb' : b ≠ '-')
    (hx : letter k x = true) (hy : letter k y = true) (hy' : y ≠ '-') :
    hyphenHere k (a :: b :: before) ('-' :: x :: y :: r) = true := by
  unfold hyphenHere
  rw [Bool.and_eq_true]
  constructor
  · split
    · rename_i e
      exact absurd (List.cons.inj (List.cons.inj e).2).1 hb'
    · rename_i e
      rw [← (List.cons.inj e).1, ← (List.cons.inj (List.cons.inj e).2).1, ha, hb]; rfl
    · rename_i h
      exact absurd rfl (h a b before)
  · split
    · rename_i e
      exact absurd (List.cons.inj (List.cons.inj (List.cons.inj e).2).2).1 hy'
    · rename_i e
      rw [← (List.cons.inj (List.cons.inj e).2).1, ← (List.cons.inj (List.cons.inj (List.cons.inj e).2).2).1, hx, hy]; rfl
    · rename_i h
      exact absurd rfl (h x y r)

theorem scanWord_hyphen {v : Str} (hv : Letters k v) (b : Char) (u : Str) (hu : u ≠ [])
    (hb : letter k b = true ∧ b ≠ '-') (hall : ∀ c ∈ u, letter k c = true ∧ visible c = true ∧ c ≠ '-') (before : Str) :
    scanWord k (b :: before) (u ++ '-' :: v) = (u ++ ['-'], v) := by
  induction u generalizing b before with
  | nil => exact absurd rfl hu
  | cons c u ih =>
    have hc := hall c (by simp)
    rw [List.cons_append, scanWord]
    cases u with
    | nil =>
      obtain ⟨x, y, r, rfl⟩ : ∃ x y r, v = x :: y :: r := by
        match v, hv.two with
        | x :: y :: r, _ => exact ⟨x, y, r, rfl⟩
      have hx := hv.all x (by simp)
      have hy := hv.all y (by simp)
      rw [if_pos (by
        rw [List.nil_append]
        exact hyphenHere_true hc.1 hb.1 hb.2 (letter_iff.2 ⟨hx.1, hx.2.1⟩) (letter_iff.2 ⟨hy.1, hy.2.1⟩) hy.2.2.2)]
      rfl
    | cons d u =>
      have hd := hall d (by simp)
      rw [List.cons_append] at *
      rw [if_neg (by rw [hyphenHere_false hd.2.2]; simp), if_neg (by simp [not_isWs hd.2.1]), if_neg (by rw [emDash_false hd.2.2]; simp)]
      rw [ih c (by simp) ⟨hc.1, hc.2.2⟩ (fun x hx => hall x (List.mem_cons_of_mem _ hx))]
      rfl

theorem split_hyphen {u v : Str} (hu : Letters k u) (hv : Letters k v) :
    splitChunks k (u ++ '-' :: v) = [u ++ ['-'], v] := by
  obtain ⟨a, b, r, rfl⟩ : ∃ a b r, u = a :: b :: r := by
    match u, hu.two with
    | a :: b :: r, _ => exact ⟨a, b, r, rfl⟩
  have ha := hu.all a (by simp)
  have hb := hu.all b (by simp)
  have h1 : chunkAt k [] (a :: b :: r ++ '-' :: v) = (a :: b :: r ++ ['-'], v) := by
    unfold chunkAt
    rw [if_neg (by simp [not_isWs ha.2.2.1]), if_neg (by simp), List.cons_append, scanWord]
    rw [List.cons_append, if_neg (by rw [hyphenHere_false hb.2.2.2]; simp), if_neg (by simp [not_isWs hb.2.2.1]),
      if_neg (by rw [emDash_false hb.2.2.2]; simp), ← List.cons_append,
      scanWord_hyphen hv a (b :: r) (by simp) ⟨letter_iff.2 ⟨ha.1, ha.2.1⟩, ha.2.2.2⟩
        (fun c hc => by
          have := hu.all c (List.mem_cons_of_mem _ hc)
          exact ⟨letter_iff.2 ⟨this.1, this.2.1⟩, this.2.2⟩)]
    rfl
  have hne : v ≠ [] := by
    rintro rfl
    exact absurd hv.two (by simp)
  have h2 : ∀ before, chunkAt k before v = (v, []) := by
    intro before
    have := scanWord_word (k := k) (b := []) hne (fun c hc => ⟨not_isWs (hv.all c hc).2.2.1, (hv.all c hc).2.2.2⟩) (by simp) before
    obtain ⟨x, v', rfl⟩ := List.exists_cons_of_ne_nil hne
    have hx := hv.all x (by simp)
    unfold chunkAt
    rw [if_neg (by simp [not_isWs hx.2.2.1]), if_neg (by rw [emDash_false hx.2.2.2]; simp)]
    simpa using this
  unfold splitChunks
  obtain ⟨n, hn⟩ : ∃ n, (a :: b :: r ++ '-' :: v).length = n + 3 := ⟨r.length + v.length, by simp; omega⟩
  rw [hn, splitGo, if_neg (by simp), h1]
  simp only
  rw [splitGo, if_neg hne, h2]
  simp only
  rw [splitGo, if_pos rfl]

/-- **C113 (hyphenated words).**  Two words of letters with a hyphen between them are broken after the hyphen if both do not fit
on a line and each does. -/
theorem C113_hyphen {width : Int} {u v : Str} (hu : Letters k u) (hv : Letters k v) (h1 : (u.length : Int) + 1 ≤ width)
    (h2 : (v.length : Int) ≤ width) (h3 : width < u.length + 1 + v.length) :
    wrapText k (u ++ '-' :: v) width = .ok (u ++ '-' :: '\n' :: v) := by
  have hseen : ∀ c ∈ u ++ '-' :: v, visible c = true := by
    intro c hc
    rcases List.mem_append.1 hc with hc | hc
    · exact (hu.all c hc).2.2.1
    · rcases List.mem_cons.1 hc with rfl | hc
      · decide
      · exact (hv.all c hc).2.2.1
  have hne : v ≠ [] := by
    rintro rfl
    exact absurd hv.two (by simp)
  have hsl : splitlines (u ++ '-' :: v) = [u ++ '-' :: v] := by
    have := splitlines_join (ls := [u ++ '-' :: v])
      (by
        intro l hl c hc
        rw [List.mem_singleton.1 hl] at hc
        by_contra hb
        have := hseen c hc
        rw [isBreak_invisible (by simpa using hb)] at this
        cases this) (by simp)
    simpa [join] using this
  have hd1 : blank (u ++ ['-']) = false := by
    by_contra hb
    have := (blank_iff _).1 (by simpa using hb) '-' (by simp)
    revert this
    decide
  have hd2 : blank v = false := by
    by_contra hb
    obtain ⟨c, hc⟩ := List.exists_mem_of_ne_nil v hne
    have := (hv.all c hc).2.2.1
    rw [(blank_iff _).1 (by simpa using hb) c hc] at this
    cases this
  have hp : para k width (u ++ '-' :: v) = [u ++ ['-'], v] := by
    unfold para
    rw [munge_plain (fun c hc => Or.inl (hseen c hc)), split_hyphen hu hv]
    obtain ⟨W, hW⟩ : ∃ W, width.toNat = W := ⟨_, rfl⟩
    rw [hW]
    have l1 : (u ++ ['-']).length ≤ W := by simp; omega
    have l2 : v.length ≤ W := by omega
    have l3 : W < (u ++ ['-']).length + v.length := by simp; omega
    have o1 : oneLine W [u ++ ['-'], v] = ([u ++ ['-']], [v]) := by
      unfold oneLine
      rw [show fit W 0 [u ++ ['-'], v] = ([u ++ ['-']], [v]) by
        rw [fit, if_pos (by omega), fit, if_neg (by omega)]]
      unfold breakLong
      simp only
      rw [if_neg (by omega)]
      simp [dropBlank, hd1]
    have o2 : oneLine W [v] = ([v], []) := by
      unfold oneLine
      rw [show fit W 0 [v] = ([v], []) by rw [fit, if_pos (by omega), fit]]
      simp [breakLong, dropBlank, hd2]
    obtain ⟨n, hn⟩ : ∃ n, ([u ++ ['-'], v] : List Str).flatten.length = n + 3 := by
      refine ⟨u.length + v.length - 2, ?_⟩
      have := hu.two
      simp
      omega
    have hg : wrapGo W (n + 3) false [u ++ ['-'], v] = [u ++ ['-'], v] := by
      rw [wrapGo, if_neg (by simp)]
      have e1 : dropFront false [u ++ ['-'], v] = [u ++ ['-'], v] := rfl
      rw [e1, o1, if_neg (by simp)]
      simp only
      rw [wrapGo, if_neg (by simp)]
      have e2 : dropFront true [v] = [v] := by simp [dropFront, hd2]
      rw [e2, o2, if_neg (by simp)]
      simp only
      rw [wrapGo, if_pos rfl]
      simp
    rw [hn, hg, if_neg (by simp)]
  rw [(wrapText_lines (by omega) _).1, hsl]
  simp [hp, join]

/-! ## Dashes -/

namespace Spec

/-- Characters that can be seen, and no hyphen; the last is part of a word, or one of the marks that may stand in front of a
dash. -/
structure BeforeDash (k : Classes) (u : Str) : Prop where
  last : ∃ c ∈ u.getLast?, k.word c = true ∨ c ∈ "!\"'&.,?".toList
  all : ∀ c ∈ u, visible c = true ∧ c ≠ '-'

/-- Characters that can be seen, and no hyphen; the first is part of a word. -/
structure AfterDash (k : Classes) (v : Str) : Prop where
  first : ∃ c ∈ v.head?, k.word c = true
  all : ∀ c ∈ v, visible c = true ∧ c ≠ '-'

end Spec

theorem hyphenHere_dash (hk : k.word '-' = false) (before r : Str) : hyphenHere k before ('-' :: '-' :: r) = false := by
  have hl : letter k '-' = false := by unfold letter; rw [hk]; rfl
  unfold hyphenHere
  rw [Bool.and_eq_false_iff]
  right
  split
  · rename_i e
    rw [← (List.cons.inj (List.cons.inj e).2).1, hl]; rfl
  · rename_i e
    rw [← (List.cons.inj (List.cons.inj e).2).1, hl]; rfl
  · rfl

theorem wordPunct_iff {c : Char} : wordPunct k c = true ↔ k.word c = true ∨ c ∈ "!\"'&.,?".toList := by
  unfold wordPunct
  simp [or_assoc]

theorem takeWhile_dash (m : Nat) {v : Str} (hv : ∀ c ∈ v, visible c = true ∧ c ≠ '-') :
    (List.replicate m '-' ++ v).takeWhile (· = '-') = List.replicate m '-' ∧
      (List.replicate m '-' ++ v).dropWhile (· = '-') = v := by
  induction m with
  | zero =>
    cases v with
    | nil => simp
    | cons c v => simp [(hv c (by simp)).2]
  | succ m ih => simp [List.replicate_succ, ih.1, ih.2]

theorem emDash_true {m : Nat} (hm : 2 ≤ m) {v : Str} (hv : AfterDash k v) : emDash k (List.replicate m '-' ++ v) = true := by
  unfold emDash
  obtain ⟨h1, h2⟩ := takeWhile_dash m hv.all
  obtain ⟨c, hc, hw⟩ := hv.first
  rw [h1, h2]
  simp only [List.length_replicate, Bool.and_eq_true, decide_eq_true_eq]
  refine ⟨hm, ?_⟩
  rw [Option.mem_def.1 hc]
  exact hw

theorem scanWord_dash (hk : k.word '-' = false) {m : Nat} (hm : 2 ≤ m) {v : Str} (hv : AfterDash k v) {u : Str}
    (hu : BeforeDash k u) (before : Str) :
    scanWord k before (u ++ (List.replicate m '-' ++ v)) = (u, List.replicate m '-' ++ v) := by
  obtain ⟨n, rfl⟩ : ∃ n, m = n + 2 := ⟨m - 2, by omega⟩
  induction u generalizing before with
  | nil => obtain ⟨c, hc, -⟩ := hu.last; cases hc
  | cons c u ih =>
    rw [List.cons_append, scanWord]
    cases u with
    | nil =>
      obtain ⟨c', hc', hw⟩ := hu.last
      have : c' = c := by simpa using hc'.symm
      subst this
      have hd := emDash_true hm hv
      rw [List.nil_append, if_neg (by
        rw [List.replicate_succ, List.replicate_succ, List.cons_append, List.cons_append, hyphenHere_dash hk]; simp),
        if_neg (by rw [List.replicate_succ]; simp [isWs]), if_pos (by rw [wordPunct_iff.2 hw, hd]; rfl)]
    | cons d u =>
      have hd := hu.all d (by simp)
      rw [List.cons_append] at *
      rw [if_neg (by rw [hyphenHere_false hd.2]; simp), if_neg (by simp [not_isWs hd.1]), if_neg (by rw [emDash_false hd.2]; simp)]
      rw [ih ⟨by obtain ⟨x, hx, h⟩ := hu.last; exact ⟨x, by simpa using hx, h⟩, fun x hx => hu.all x (List.mem_cons_of_mem _ hx)⟩]

theorem split_dash (hk : k.word '-' = false) {m : Nat} (hm : 2 ≤ m) {u v : Str} (hu : BeforeDash k u) (hv : AfterDash k v) :
    splitChunks k (u ++ (List.replicate m '-' ++ v)) = [u, List.replicate m '-', v] := by
  have hune : u ≠ [] := by
    rintro rfl
    obtain ⟨c, hc, -⟩ := hu.last; cases hc
  have hvne : v ≠ [] := by
    rintro rfl
    obtain ⟨c, hc, -⟩ := hv.first; cases hc
  have h1 : chunkAt k [] (u ++ (List.replicate m '-' ++ v)) = (u, List.replicate m '-' ++ v) := by
    unfold chunkAt
    obtain ⟨a, u', rfl⟩ := List.exists_cons_of_ne_nil hune
    rw [if_neg (by simp [not_isWs (hu.all a (by simp)).1]), if_neg (by simp), scanWord_dash hk hm hv hu]
  have h2 : chunkAt k (u.reverse ++ []) (List.replicate m '-' ++ v) = (List.replicate m '-', v) := by
    unfold chunkAt
    obtain ⟨c, hc, hw⟩ := hu.last
    obtain ⟨n, rfl⟩ : ∃ n, m = n + 2 := ⟨m - 2, by omega⟩
    rw [if_neg (by rw [List.replicate_succ]; simp [isWs]), if_pos (by
      rw [emDash_true hm hv, List.append_nil, List.head?_reverse, Option.mem_def.1 hc]
      simpa using wordPunct_iff.2 hw)]
    obtain ⟨h1, h2⟩ := takeWhile_dash (n + 2) hv.all
    rw [h1, h2]
  have h3 : ∀ before, chunkAt k before v = (v, []) := by
    intro before
    have := scanWord_word (k := k) (b := []) hvne (fun c hc => ⟨not_isWs (hv.all c hc).1, (hv.all c hc).2⟩) (by simp) before
    obtain ⟨x, v', rfl⟩ := List.exists_cons_of_ne_nil hvne
    have hx := hv.all x (by simp)
    unfold chunkAt
    rw [if_neg (by simp [not_isWs hx.1]), if_neg (by rw [emDash_false hx.2]; simp)]
    simpa using this
  unfold splitChunks
  obtain ⟨n, hn⟩ : ∃ n, (u ++ (List.replicate m '-' ++ v)).length = n + 4 := by
    have a := List.length_pos_of_ne_nil hune
    have b := List.length_pos_of_ne_nil hvne
    exact ⟨u.length + m + v.length - 4, by simp; omega⟩
  rw [hn, splitGo, if_neg (by simp [hune]), h1]
  simp only
  rw [splitGo, if_neg (by simp [hvne]), h2]
  simp only
  rw [splitGo, if_neg hvne, h3]
  simp only
  rw [splitGo, if_pos rfl]

/-- **C113 (dashes).**  Two words with a dash of two hyphens or more between them, the first of which may end with a mark, are
broken after the dash if both do not fit on a line, the first does with the dash, and the second does. -/
theorem C113_dash (hk : k.word '-' = false) {width : Int} {m : Nat} (hm : 2 ≤ m) {u v : Str} (hu : BeforeDash k u) (hv : AfterDash k v)
    (h1 : (u.length : Int) + m ≤ width) (h2 : (v.length : Int) ≤ width) (h3 : width < u.length + m + v.length) :
    wrapText k (u ++ (List.replicate m '-' ++ v)) width = .ok (u ++ (List.replicate m '-' ++ '\n' :: v)) := by
  have hseen : ∀ c ∈ u ++ (List.replicate m '-' ++ v), visible c = true := by
    intro c hc
    rcases List.mem_append.1 hc with hc | hc
    · exact (hu.all c hc).1
    · rcases List.mem_append.1 hc with hc | hc
      · rw [List.eq_of_mem_replicate hc]; decide
      · exact (hv.all c hc).1
  have hvne : v ≠ [] := by
    rintro rfl
    obtain ⟨c, hc, -⟩ := hv.first; cases hc
  have hune : u ≠ [] := by
    rintro rfl
    obtain ⟨c, hc, -⟩ := hu.last; cases hc
  have hsl : splitlines (u ++ (List.replicate m '-' ++ v)) = [u ++ (List.replicate m '-' ++ v)] := by
    have := splitlines_join (ls := [u ++ (List.replicate m '-' ++ v)])
      (by
        intro l hl c hc
        rw [List.mem_singleton.1 hl] at hc
        by_contra hb
        have := hseen c hc
        rw [isBreak_invisible (by simpa using hb)] at this
        cases this) (by simp [hune])
    simpa [join] using this
  have hd1 : blank (List.replicate m '-') = false := by
    by_contra hb
    have := (blank_iff _).1 (by simpa using hb) '-' (by simp; omega)
    revert this
    decide
  have hd2 : blank v = false := by
    by_contra hb
    obtain ⟨c, hc⟩ := List.exists_mem_of_ne_nil v hvne
    have := (hv.all c hc).1
    rw [(blank_iff _).1 (by simpa using hb) c hc] at this
    cases this
  have hp : para k width (u ++ (List.replicate m '-' ++ v)) = [u ++ List.replicate m '-', v] := by
    unfold para
    rw [munge_plain (fun c hc => Or.inl (hseen c hc)), split_dash hk hm hu hv]
    obtain ⟨W, hW⟩ : ∃ W, width.toNat = W := ⟨_, rfl⟩
    rw [hW]
    have l1 : u.length + m ≤ W := by omega
    have l2 : v.length ≤ W := by omega
    have l3 : W < u.length + m + v.length := by omega
    have lr : (List.replicate m '-').length = m := List.length_replicate
    have o1 : oneLine W [u, List.replicate m '-', v] = ([u, List.replicate m '-'], [v]) := by
      unfold oneLine
      rw [show fit W 0 [u, List.replicate m '-', v] = ([u, List.replicate m '-'], [v]) by
        rw [fit, if_pos (by omega), fit, if_pos (by omega), fit, if_neg (by omega)]]
      unfold breakLong
      simp only
      rw [if_neg (by omega)]
      simp [dropBlank, hd1]
    have o2 : oneLine W [v] = ([v], []) := by
      unfold oneLine
      rw [show fit W 0 [v] = ([v], []) by rw [fit, if_pos (by omega), fit]]
      simp [breakLong, dropBlank, hd2]
    obtain ⟨n, hn⟩ : ∃ n, ([u, List.replicate m '-', v] : List Str).flatten.length = n + 3 := by
      refine ⟨u.length + m + v.length - 3, ?_⟩
      have a := List.length_pos_of_ne_nil hune
      simp
      omega
    have hg : wrapGo W (n + 3) false [u, List.replicate m '-', v] = [u ++ List.replicate m '-', v] := by
      rw [wrapGo, if_neg (by simp)]
      have e1 : dropFront false [u, List.replicate m '-', v] = [u, List.replicate m '-', v] := rfl
      rw [e1, o1, if_neg (by simp)]
      simp only
      rw [wrapGo, if_neg (by simp)]
      have e2 : dropFront true [v] = [v] := by simp [dropFront, hd2]
      rw [e2, o2, if_neg (by simp)]
      simp only
      rw [wrapGo, if_pos rfl]
      simp
    rw [hn, hg, if_neg (by simp)]
  rw [(wrapText_lines (by omega) _).1, hsl]
  simp [hp, join]

/-- Non-vacuity. -/
example : ascii.word '-' = false ∧ BeforeDash ascii "AT&".toList ∧ AfterDash ascii "7th".toList ∧
    wrapText ascii "AT&---7th".toList 8 = .ok "AT&---\n7th".toList := by
  have a : BeforeDash ascii "AT&".toList := ⟨⟨'&', rfl, Or.inr (by decide)⟩, by decide⟩
  have b : AfterDash ascii "7th".toList := ⟨⟨'7', rfl, by decide⟩, by decide⟩
  exact ⟨by decide, a, b, C113_dash (m := 3) (by decide) (by decide) a b (by decide) (by decide) (by decide)⟩

/-! ## Concrete cases -/

/-- A word of no letters is tied. -/
theorem no_letters {w : Str} (h : ∀ c ∈ w, ¬ (k.word c = true ∧ k.digit c = false)) (x y : Char) (hi : [x, '-', y] <:+: w) :
    ¬ ((k.word x = true ∧ k.digit x = false) ∧ k.word y = true ∧ k.digit y = false) :=
  fun hc => h x (hi.subset (by simp)) hc.1

example : Tied ascii "2024-01-05".toList ∧ Tied ascii "-b".toList ∧ StandsIn "2024-01-05".toList "on 2024-01-05 at noon".toList ∧
    wrapText ascii "on 2024-01-05 at noon".toList 10 = .ok "on\n2024-01-05\nat noon".toList := by
  refine ⟨⟨by decide +kernel, by decide +kernel, no_letters (by decide +kernel), by decide +kernel, by decide +kernel⟩, ⟨by decide +kernel, by decide +kernel, ?_, by decide +kernel, by decide +kernel⟩,
    ⟨"on ".toList, " at noon".toList, by decide +kernel, by decide +kernel, by decide +kernel⟩, by decide +kernel⟩
  intro x y h
  exact absurd (show 3 ≤ 2 from h.length_le) (by decide)

example : Letters ascii "fox".toList ∧ Letters ascii "trot".toList ∧
    wrapText ascii "fox-trot".toList 7 = .ok "fox-\ntrot".toList :=
  ⟨⟨by decide +kernel, by decide +kernel⟩, ⟨by decide +kernel, by decide +kernel⟩, by decide +kernel⟩

end Mabel.TextWrap
