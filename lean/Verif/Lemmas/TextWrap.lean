import Verif.Model.TextWrap
import Verif.Spec.TextWrap
import Verif.Lemmas.Paths

/-! Lemmas about wrapping texts. -/

namespace Mabel.TextWrap
open Mabel.Py Mabel.ErrorStack

variable {k : Classes}

theorem isSpace_visible (c : Char) : isSpace c = !visible c := by
  unfold isSpace visible
  rw [Bool.not_not]

theorem isWs_invisible {c : Char} (h : isWs c = true) : visible c = false := by
  simp only [isWs, Bool.or_eq_true, decide_eq_true_eq] at h
  rcases h with ((((rfl | rfl) | rfl) | rfl) | rfl) | rfl <;> decide

theorem not_isWs {c : Char} (h : visible c = true) : isWs c = false := by
  by_contra hc
  rw [isWs_invisible (by simpa using hc)] at h
  cases h

theorem blank_iff (s : Str) : blank s = true ↔ ∀ c ∈ s, visible c = false := by
  simp [blank, isSpace_visible]

theorem blank_filter {s : Str} (h : blank s = true) : s.filter visible = [] := by
  rw [List.filter_eq_nil_iff]
  intro c hc
  simp [(blank_iff s).1 h c hc]

/-! ## White space -/

theorem expandTabs_visible (col : Nat) (s : Str) : (expandTabs col s).filter visible = s.filter visible := by
  induction s generalizing col with
  | nil => rfl
  | cons c cs ih =>
    unfold expandTabs
    split
    · rename_i h
      subst h
      rw [List.filter_append, ih, List.filter_cons_of_neg (by decide), List.filter_replicate_of_neg (by decide)]
      rfl
    · split
      · rw [List.filter_cons, List.filter_cons, ih]
      · rw [List.filter_cons, List.filter_cons, ih]

theorem munge_visible (s : Str) : (munge s).filter visible = s.filter visible := by
  rw [munge, ← expandTabs_visible 0 s]
  induction expandTabs 0 s with
  | nil => rfl
  | cons c cs ih =>
    rw [List.map_cons, List.filter_cons, List.filter_cons, ih]
    by_cases h : isWs c = true
    · rw [if_pos h, isWs_invisible h]
      rfl
    · rw [if_neg h]

theorem munge_ws {s : Str} {c : Char} (h : c ∈ munge s) (hw : isWs c = true) : c = ' ' := by
  obtain ⟨d, -, rfl⟩ := List.mem_map.1 h
  split
  · rfl
  · rename_i hd
    rw [if_neg hd] at hw
    exact absurd hw hd

/-! ## Chunks -/

theorem hyphen_rest {before rest : Str} (h : hyphenHere k before rest = true) : ∃ r, rest = '-' :: r := by
  unfold hyphenHere at h
  rw [Bool.and_eq_true] at h
  obtain ⟨-, h⟩ := h
  split at h
  · exact ⟨_, rfl⟩
  · exact ⟨_, rfl⟩
  · cases h

theorem emDash_rest {rest : Str} (h : emDash k rest = true) : ∃ r, rest = '-' :: r := by
  unfold emDash at h
  rw [Bool.and_eq_true] at h
  cases rest with
  | nil => simp at h
  | cons c cs =>
    by_cases hc : c = '-'
    · exact ⟨cs, by rw [hc]⟩
    · simp [hc] at h

theorem scanWord_append (before rest : Str) : (scanWord k before rest).1 ++ (scanWord k before rest).2 = rest := by
  induction rest generalizing before with
  | nil => rfl
  | cons c cs ih =>
    unfold scanWord
    split
    · rename_i h
      obtain ⟨r, rfl⟩ := hyphen_rest h
      rfl
    · split
      · rfl
      · split
        · rfl
        · simp [ih]

theorem scanWord_ne {before rest : Str} (h : rest ≠ []) : (scanWord k before rest).1 ≠ [] := by
  cases rest with
  | nil => exact absurd rfl h
  | cons c cs =>
    unfold scanWord
    split
    · simp
    · split
      · simp
      · split <;> simp

theorem chunkAt_append (before rest : Str) : (chunkAt k before rest).1 ++ (chunkAt k before rest).2 = rest := by
  unfold chunkAt
  split
  · exact List.takeWhile_append_dropWhile
  · split
    · exact List.takeWhile_append_dropWhile
    · exact scanWord_append before rest

theorem chunkAt_ne {before rest : Str} (h : rest ≠ []) : (chunkAt k before rest).1 ≠ [] := by
  cases rest with
  | nil => exact absurd rfl h
  | cons c cs =>
    unfold chunkAt
    split
    · rename_i hc
      have hc : isWs c = true := by simpa using hc
      simp [hc]
    · split
      · rename_i hc
        rw [Bool.and_eq_true] at hc
        obtain ⟨r, hr⟩ := emDash_rest hc.2
        obtain ⟨rfl, rfl⟩ := List.cons.inj hr
        simp
      · exact scanWord_ne (by simp)

theorem mem_takeWhile_of {p : Char → Bool} {s : Str} {c : Char} (h : c ∈ s.takeWhile p) : p c = true := by
  induction s with
  | nil => cases h
  | cons d s ih =>
    by_cases hd : p d = true
    · rw [List.takeWhile_cons_of_pos hd] at h
      rcases List.mem_cons.1 h with rfl | h
      · exact hd
      · exact ih h
    · rw [List.takeWhile_cons_of_neg hd] at h
      cases h

/-- All of one kind: white space, or none of it. -/
def Uniform (s : Str) : Prop := (∀ c ∈ s, isWs c = true) ∨ (∀ c ∈ s, isWs c = false)

theorem scanWord_dark {before rest : Str} (h : ∀ c, rest.head? = some c → isWs c = false) :
    ∀ c ∈ (scanWord k before rest).1, isWs c = false := by
  induction rest generalizing before with
  | nil => intro c hc; cases hc
  | cons c cs ih =>
    have hc := h c rfl
    unfold scanWord
    split
    · intro d hd
      simp only [List.mem_cons, List.not_mem_nil, or_false] at hd
      rcases hd with rfl | rfl
      · exact hc
      · decide
    · split
      · intro d hd
        simp only [List.mem_cons, List.not_mem_nil, or_false] at hd
        rw [hd]; exact hc
      · rename_i hcs
        split
        · intro d hd
          simp only [List.mem_cons, List.not_mem_nil, or_false] at hd
          rw [hd]; exact hc
        · intro d hd
          rcases List.mem_cons.1 hd with rfl | hd
          · exact hc
          · refine ih ?_ d hd
            intro e he
            rw [he] at hcs
            simpa using hcs

theorem chunkAt_uniform (before rest : Str) : Uniform (chunkAt k before rest).1 := by
  unfold chunkAt
  split
  · exact Or.inl (fun c hc => mem_takeWhile_of hc)
  · rename_i h
    split
    · refine Or.inr (fun c hc => ?_)
      have : c = '-' := by simpa using mem_takeWhile_of hc
      rw [this]; decide
    · refine Or.inr (scanWord_dark ?_)
      intro c hc
      rw [hc] at h
      simpa using h

/-- After a chunk of white space there is none at once. -/
theorem chunkAt_after {before rest : Str} (hne : rest ≠ []) (h : ∀ c ∈ (chunkAt k before rest).1, isWs c = true) :
    ∀ c, (chunkAt k before rest).2.head? = some c → isWs c = false := by
  have hfirst : rest.head?.any isWs = true := by
    have h1 := chunkAt_append (k := k) before rest
    cases hc : (chunkAt k before rest).1 with
    | nil => exact absurd hc (chunkAt_ne hne)
    | cons c cs =>
      rw [hc] at h1
      rw [← h1]
      simpa using h c (by rw [hc]; simp)
  unfold chunkAt
  rw [if_pos hfirst]
  intro c hc
  have := List.head?_dropWhile_not isWs rest
  simp only [hc] at this
  simpa using this

theorem splitGo_flatten : ∀ (n : Nat) (before rest : Str), rest.length ≤ n → (splitGo k n before rest).flatten = rest := by
  intro n
  induction n with
  | zero =>
    intro before rest h
    rw [List.length_eq_zero_iff.1 (Nat.le_zero.1 h)]
    rfl
  | succ n ih =>
    intro before rest h
    unfold splitGo
    split
    · rename_i h0; rw [h0]; rfl
    · rename_i h0
      have h1 := chunkAt_append (k := k) before rest
      have h2 := List.length_pos_iff.2 (chunkAt_ne (k := k) (before := before) h0)
      have h3 := congrArg List.length h1
      rw [List.length_append] at h3
      rw [List.flatten_cons, ih _ _ (by omega), h1]

theorem splitGo_ne : ∀ (n : Nat) (before rest : Str), ∀ c ∈ splitGo k n before rest, c ≠ [] := by
  intro n
  induction n with
  | zero => intro _ _ c hc; cases hc
  | succ n ih =>
    intro before rest c hc
    unfold splitGo at hc
    split at hc
    · cases hc
    · rename_i h0
      rcases List.mem_cons.1 hc with rfl | hc
      · exact chunkAt_ne h0
      · exact ih _ _ c hc

theorem splitGo_uniform : ∀ (n : Nat) (before rest : Str), ∀ c ∈ splitGo k n before rest, Uniform c := by
  intro n
  induction n with
  | zero => intro _ _ c hc; cases hc
  | succ n ih =>
    intro before rest c hc
    unfold splitGo at hc
    split at hc
    · cases hc
    · rcases List.mem_cons.1 hc with rfl | hc
      · exact chunkAt_uniform before rest
      · exact ih _ _ c hc

theorem splitChunks_flatten (text : Str) : (splitChunks k text).flatten = text := splitGo_flatten _ _ _ (Nat.le_refl _)

theorem splitChunks_ne (text : Str) : ∀ c ∈ splitChunks k text, c ≠ [] := splitGo_ne _ _ _

/-! ## Lines -/

theorem fit_append (width len : Nat) (chunks : List Str) : (fit width len chunks).1 ++ (fit width len chunks).2 = chunks := by
  induction chunks generalizing len with
  | nil => rfl
  | cons c cs ih =>
    unfold fit
    split
    · simp [ih]
    · rfl

theorem fit_length {width len : Nat} (chunks : List Str) (h : len ≤ width) :
    len + (fit width len chunks).1.flatten.length ≤ width := by
  induction chunks generalizing len with
  | nil => simpa [fit] using h
  | cons c cs ih =>
    unfold fit
    split
    · rename_i hc
      have := ih hc
      simp only [List.flatten_cons, List.length_append]
      omega
    · simpa using h

theorem fit_first {width : Nat} {c : Str} {cs : List Str} (h : c.length ≤ width) :
    ∃ r, (fit width 0 (c :: cs)).1 = c :: r := by
  unfold fit
  rw [if_pos (by omega)]
  exact ⟨_, rfl⟩

theorem lastHyphen_lt {s : Str} {i : Nat} (h : lastHyphen s = some i) : i < s.length := by
  induction s generalizing i with
  | nil => cases h
  | cons c cs ih =>
    unfold lastHyphen at h
    split at h
    · rename_i j hj
      have := ih hj
      simp only [Option.some.injEq] at h
      simp only [List.length_cons]
      omega
    · split at h
      · simp only [Option.some.injEq] at h
        simp only [List.length_cons]
        omega
      · cases h

theorem breakAt_le (space : Nat) (chunk : Str) : breakAt space chunk ≤ space := by
  unfold breakAt
  split
  · rename_i h hh
    split
    · have := lastHyphen_lt hh
      rw [List.length_take] at this
      omega
    · exact Nat.le_refl _
  · exact Nat.le_refl _

theorem breakAt_pos {space : Nat} (chunk : Str) (h : 0 < space) : 0 < breakAt space chunk := by
  unfold breakAt
  split
  · split
    · omega
    · exact h
  · exact h

theorem breakLong_flatten (width : Nat) (cur left : List Str) :
    (breakLong width cur left).1.flatten ++ (breakLong width cur left).2.flatten = cur.flatten ++ left.flatten := by
  unfold breakLong
  split
  · rfl
  · split
    · simp only [List.flatten_append, List.flatten_cons, List.flatten_nil, List.append_nil, List.append_assoc]
      rw [← List.append_assoc (List.take _ _), List.take_append_drop]
    · rfl

theorem breakLong_fit (width : Nat) (chunks : List Str) :
    (breakLong width (fit width 0 chunks).1 (fit width 0 chunks).2).1.flatten ++
      (breakLong width (fit width 0 chunks).1 (fit width 0 chunks).2).2.flatten = chunks.flatten := by
  rw [breakLong_flatten, ← List.flatten_append, fit_append]

theorem breakLong_length {width : Nat} {cur left : List Str} (h : cur.flatten.length ≤ width) :
    (breakLong width cur left).1.flatten.length ≤ width := by
  unfold breakLong
  split
  · exact h
  · split
    · rename_i c cs hc
      have := breakAt_le (width - cur.flatten.length) c
      simp only [List.flatten_append, List.length_append, List.flatten_cons, List.flatten_nil, List.append_nil, List.length_take]
      omega
    · exact h

theorem breakLong_ne {width : Nat} {cur left : List Str} (h : ∀ c ∈ left, c ≠ []) : ∀ c ∈ (breakLong width cur left).2, c ≠ [] := by
  unfold breakLong
  split
  · exact h
  · split
    · rename_i c cs hc
      intro d hd
      rcases List.mem_cons.1 hd with rfl | hd
      · intro h0
        have h1 := breakAt_le (width - cur.flatten.length) c
        have h2 := congrArg List.length h0
        rw [List.length_drop, List.length_nil] at h2
        omega
      · exact h d (by simp [hd])
    · exact h

theorem dropBlank_visible (cur : List Str) : (dropBlank cur).flatten.filter visible = cur.flatten.filter visible := by
  unfold dropBlank
  split
  · rename_i h
    rcases List.eq_nil_or_concat cur with rfl | ⟨init, x, rfl⟩
    · rfl
    · have hx : blank x = true := by simpa using h
      simp [blank_filter hx]
  · rfl

theorem dropBlank_prefix (cur : List Str) : dropBlank cur <+: cur := by
  unfold dropBlank
  split
  · exact List.dropLast_prefix cur
  · exact List.prefix_refl cur

theorem flatten_prefix {a b : List Str} (h : a <+: b) : a.flatten <+: b.flatten := by
  obtain ⟨t, rfl⟩ := h
  rw [List.flatten_append]
  exact List.prefix_append _ _

theorem oneLine_visible (width : Nat) (chunks : List Str) :
    (oneLine width chunks).1.flatten.filter visible ++ (oneLine width chunks).2.flatten.filter visible =
      chunks.flatten.filter visible := by
  unfold oneLine
  simp only
  rw [dropBlank_visible, ← List.filter_append, breakLong_flatten, ← List.flatten_append, fit_append]

theorem oneLine_length (width : Nat) (chunks : List Str) : (oneLine width chunks).1.flatten.length ≤ width :=
  Nat.le_trans (flatten_prefix (dropBlank_prefix _)).length_le
    (breakLong_length (by simpa using fit_length chunks (Nat.zero_le width)))

theorem oneLine_ne {width : Nat} {chunks : List Str} (h : ∀ c ∈ chunks, c ≠ []) : ∀ c ∈ (oneLine width chunks).2, c ≠ [] :=
  breakLong_ne (fun c hc => h c (by rw [← fit_append width 0 chunks]; simp [hc]))

theorem oneLine_less {width : Nat} {chunks : List Str} (h : ∀ c ∈ chunks, c ≠ []) (hne : chunks ≠ []) (hw : 0 < width) :
    (oneLine width chunks).2.flatten.length < chunks.flatten.length := by
  have h1 := breakLong_fit width chunks
  have h2 := congrArg List.length h1
  rw [List.length_append] at h2
  show (breakLong width (fit width 0 chunks).1 (fit width 0 chunks).2).2.flatten.length < _
  suffices 0 < (breakLong width (fit width 0 chunks).1 (fit width 0 chunks).2).1.flatten.length by omega
  cases chunks with
  | nil => exact absurd rfl hne
  | cons c cs =>
    have hc : 0 < c.length := List.length_pos_iff.2 (h c (by simp))
    by_cases hl : c.length ≤ width
    · obtain ⟨r, hr⟩ := fit_first (cs := cs) hl
      rw [hr]
      unfold breakLong
      split
      · simp; omega
      · split
        · simp; omega
        · simp; omega
    · have hf : fit width 0 (c :: cs) = ([], c :: cs) := by
        unfold fit
        rw [if_neg (by omega)]
      rw [hf]
      unfold breakLong
      simp only
      rw [if_pos (by omega)]
      have := breakAt_pos c hw
      simp only [List.nil_append, List.flatten_cons, List.flatten_nil, List.append_nil, List.length_take, List.length_nil, Nat.sub_zero]
      omega

theorem dropFront_suffix (lines : Bool) (chunks : List Str) : dropFront lines chunks <:+ chunks := by
  unfold dropFront
  split
  · exact List.tail_suffix chunks
  · exact List.suffix_refl chunks

theorem dropFront_visible (lines : Bool) (chunks : List Str) :
    (dropFront lines chunks).flatten.filter visible = chunks.flatten.filter visible := by
  unfold dropFront
  split
  · rename_i h
    cases chunks with
    | nil => rfl
    | cons c cs =>
      have hc : blank c = true := by
        rw [Bool.and_eq_true] at h
        simpa using h.2
      rw [List.tail_cons, List.flatten_cons, List.filter_append, blank_filter hc, List.nil_append]
  · rfl

theorem round_less {width : Nat} {lines : Bool} {chunks : List Str} (h : ∀ c ∈ chunks, c ≠ []) (hne : chunks ≠ []) (hw : 0 < width) :
    (oneLine width (dropFront lines chunks)).2.flatten.length < chunks.flatten.length := by
  by_cases h0 : dropFront lines chunks = []
  · rw [h0]
    cases chunks with
    | nil => exact absurd rfl hne
    | cons c cs =>
      have hc : 0 < c.length := List.length_pos_iff.2 (h c (by simp))
      simp [oneLine, fit, breakLong]
      omega
  · have h1 := oneLine_less (fun c hc => h c ((dropFront_suffix lines chunks).subset hc)) h0 hw
    have h2 : (dropFront lines chunks).flatten.length ≤ chunks.flatten.length := by
      obtain ⟨t, ht⟩ := dropFront_suffix lines chunks
      conv_rhs => rw [← ht]
      simp
    omega

theorem round_ne {width : Nat} {lines : Bool} {chunks : List Str} (h : ∀ c ∈ chunks, c ≠ []) :
    ∀ c ∈ (oneLine width (dropFront lines chunks)).2, c ≠ [] :=
  oneLine_ne (fun c hc => h c ((dropFront_suffix lines chunks).subset hc))

/-- What holds of the lines of every round holds of all. -/
theorem wrapGo_visible {width : Nat} (hw : 0 < width) : ∀ (n : Nat) (lines : Bool) (chunks : List Str),
    (∀ c ∈ chunks, c ≠ []) → chunks.flatten.length ≤ n →
    (wrapGo width n lines chunks).flatten.filter visible = chunks.flatten.filter visible := by
  intro n
  induction n with
  | zero =>
    intro lines chunks _ h
    rw [List.length_eq_zero_iff.1 (Nat.le_zero.1 h)]
    rfl
  | succ n ih =>
    intro lines chunks hc h
    unfold wrapGo
    split
    · rename_i h0; rw [h0]
    · rename_i h0
      have h1 := round_less (lines := lines) hc h0 hw
      have h2 := round_ne (width := width) (lines := lines) hc
      have h3 := oneLine_visible width (dropFront lines chunks)
      rw [dropFront_visible] at h3
      split
      · rename_i h4
        rw [ih _ _ h2 (by omega), ← h3, h4]
        rfl
      · rw [List.flatten_cons, List.filter_append, ih _ _ h2 (by omega), h3]

theorem wrapGo_length {width : Nat} : ∀ (n : Nat) (lines : Bool) (chunks : List Str),
    ∀ l ∈ wrapGo width n lines chunks, l.length ≤ width := by
  intro n
  induction n with
  | zero => intro _ _ l hl; cases hl
  | succ n ih =>
    intro lines chunks l hl
    unfold wrapGo at hl
    split at hl
    · cases hl
    · split at hl
      · exact ih _ _ l hl
      · rcases List.mem_cons.1 hl with rfl | hl
        · exact oneLine_length _ _
        · exact ih _ _ l hl

theorem oneLine_mem {width : Nat} {chunks : List Str} {c : Char}
    (h : c ∈ (oneLine width chunks).1.flatten ∨ c ∈ (oneLine width chunks).2.flatten) : c ∈ chunks.flatten := by
  have h1 := breakLong_fit width chunks
  rw [← h1]
  rcases h with h | h
  · exact List.mem_append_left _ ((flatten_prefix (dropBlank_prefix _)).subset h)
  · exact List.mem_append_right _ h

theorem dropFront_mem {lines : Bool} {chunks : List Str} {c : Char} (h : c ∈ (dropFront lines chunks).flatten) : c ∈ chunks.flatten := by
  obtain ⟨t, ht⟩ := dropFront_suffix lines chunks
  rw [← ht, List.flatten_append]
  exact List.mem_append_right _ h

theorem wrapGo_mem {width : Nat} : ∀ (n : Nat) (lines : Bool) (chunks : List Str),
    ∀ l ∈ wrapGo width n lines chunks, ∀ c ∈ l, c ∈ chunks.flatten := by
  intro n
  induction n with
  | zero => intro _ _ l hl; cases hl
  | succ n ih =>
    intro lines chunks l hl c hc
    unfold wrapGo at hl
    split at hl
    · cases hl
    · split at hl
      · exact dropFront_mem (oneLine_mem (Or.inr (ih _ _ l hl c hc)))
      · rcases List.mem_cons.1 hl with rfl | hl
        · exact dropFront_mem (oneLine_mem (Or.inl hc))
        · exact dropFront_mem (oneLine_mem (Or.inr (ih _ _ l hl c hc)))

/-! ## Words stay whole -/

/-- A chunk that is short and not white space is on one line. -/
theorem wrapGo_whole {width : Nat} (hw : 0 < width) {w : Str} (hb : blank w = false) (hl : w.length ≤ width) :
    ∀ (n : Nat) (lines : Bool) (chunks : List Str), (∀ c ∈ chunks, c ≠ []) → chunks.flatten.length ≤ n → w ∈ chunks →
    ∃ l ∈ wrapGo width n lines chunks, w <:+: l := by
  intro n
  induction n with
  | zero =>
    intro lines chunks hc h hm
    have h0 : chunks.flatten = [] := List.length_eq_zero_iff.1 (Nat.le_zero.1 h)
    exact absurd (List.flatten_eq_nil_iff.1 h0 w hm) (hc w hm)
  | succ n ih =>
    intro lines chunks hc h hm
    unfold wrapGo
    have h0 : chunks ≠ [] := List.ne_nil_of_mem hm
    rw [if_neg h0]
    have h1 := round_less (lines := lines) hc h0 hw
    have h2 := round_ne (width := width) (lines := lines) hc
    have hm' : w ∈ dropFront lines chunks := by
      unfold dropFront
      split
      · rename_i hd
        cases chunks with
        | nil => cases hm
        | cons c cs =>
          rcases List.mem_cons.1 hm with rfl | hm
          · rw [Bool.and_eq_true] at hd
            have := hd.2
            simp [hb] at this
          · exact hm
      · exact hm
    have hcase : (∃ u v, (oneLine width (dropFront lines chunks)).1 = u ++ w :: v) ∨
        w ∈ (oneLine width (dropFront lines chunks)).2 := by
      rw [← fit_append width 0 (dropFront lines chunks)] at hm'
      rcases List.mem_append.1 hm' with hm' | hm'
      · left
        have hin : w ∈ (breakLong width (fit width 0 (dropFront lines chunks)).1 (fit width 0 (dropFront lines chunks)).2).1 := by
          unfold breakLong
          split
          · exact hm'
          · split
            · exact List.mem_append_left _ hm'
            · exact hm'
        have hin' : w ∈ (oneLine width (dropFront lines chunks)).1 := by
          unfold oneLine dropBlank
          simp only
          generalize (breakLong width (fit width 0 (dropFront lines chunks)).1 (fit width 0 (dropFront lines chunks)).2).1 = cur at hin
          split
          · rename_i hd
            rcases List.eq_nil_or_concat cur with rfl | ⟨init, x, rfl⟩
            · cases hin
            · have hx : blank x = true := by simpa using hd
              rw [List.concat_eq_append] at hin ⊢
              rw [List.dropLast_concat]
              rcases List.mem_append.1 hin with hin | hin
              · exact hin
              · rw [List.mem_singleton.1 hin, hx] at hb
                cases hb
          · exact hin
        exact List.append_of_mem hin'
      · right
        show w ∈ (breakLong width _ _).2
        unfold breakLong
        split
        · exact hm'
        · split
          · rename_i c cs he hc'
            rw [he] at hm'
            rcases List.mem_cons.1 hm' with rfl | hm'
            · omega
            · simp [hm']
          · rename_i he _
            exact hm'
    rcases hcase with ⟨u, v, huv⟩ | hm2
    · rw [if_neg (by rw [huv]; simp)]
      refine ⟨_, List.mem_cons_self, u.flatten, v.flatten, ?_⟩
      rw [huv]
      simp
    · obtain hi := fun b => ih b _ h2 (by omega) hm2
      split
      · exact hi _
      · obtain ⟨l, hl1, hl2⟩ := hi true
        exact ⟨l, List.mem_cons_of_mem _ hl1, hl2⟩

theorem emDash_false {c : Char} {r : Str} (h : c ≠ '-') : emDash k (c :: r) = false := by
  by_contra hc
  obtain ⟨r', hr⟩ := emDash_rest (k := k) (rest := c :: r) (by simpa using hc)
  exact h (List.cons.inj hr).1

theorem hyphenHere_false {before : Str} {c : Char} {r : Str} (h : c ≠ '-') : hyphenHere k before (c :: r) = false := by
  by_contra hc
  obtain ⟨r', hr⟩ := hyphen_rest (k := k) (before := before) (rest := c :: r) (by simpa using hc)
  exact h (List.cons.inj hr).1

theorem scanWord_word {w b : Str} (hne : w ≠ []) (hw : ∀ c ∈ w, isWs c = false ∧ c ≠ '-')
    (hb : ∀ c, b.head? = some c → isWs c = true) (before : Str) : scanWord k before (w ++ b) = (w, b) := by
  induction w generalizing before with
  | nil => exact absurd rfl hne
  | cons c w ih =>
    rw [List.cons_append, scanWord]
    cases w with
    | nil =>
      rw [List.nil_append]
      cases b with
      | nil => simp [hyphenHere]
      | cons d b =>
        have hd := hb d rfl
        have hdash : d ≠ '-' := by rintro rfl; revert hd; decide
        rw [if_neg (by rw [hyphenHere_false hdash]; simp), if_pos (by simpa using hd)]
    | cons d w =>
      have hd := hw d (by simp)
      rw [List.cons_append] at *
      rw [if_neg (by rw [hyphenHere_false hd.2]; simp), if_neg (by simp [hd.1]), if_neg (by rw [emDash_false hd.2]; simp)]
      rw [ih (by simp) (fun x hx => hw x (List.mem_cons_of_mem _ hx))]

theorem splitGo_word {w b : Str} (hne : w ≠ []) (hw : ∀ c ∈ w, isWs c = false ∧ c ≠ '-')
    (hb : ∀ c, b.head? = some c → isWs c = true) : ∀ (n : Nat) (before a : Str),
    (∀ c, a.getLast? = some c → isWs c = true) → (a ++ w ++ b).length ≤ n → w ∈ splitGo k n before (a ++ w ++ b) := by
  intro n
  induction n with
  | zero =>
    intro before a _ h
    have := List.length_eq_zero_iff.1 (Nat.le_zero.1 h)
    simp at this
    exact absurd this.2.1 hne
  | succ n ih =>
    intro before a ha h
    unfold splitGo
    have h0 : a ++ w ++ b ≠ [] := by simp [hne]
    rw [if_neg h0]
    by_cases hae : a = []
    · subst hae
      obtain ⟨c, w', rfl⟩ := List.exists_cons_of_ne_nil hne
      have hc := hw c (by simp)
      have hat : chunkAt k before ([] ++ c :: w' ++ b) = (c :: w', b) := by
        unfold chunkAt
        rw [List.nil_append, List.cons_append, if_neg (by simp [hc.1]), if_neg (by rw [emDash_false hc.2]; simp), ← List.cons_append]
        exact scanWord_word hne hw hb before
      rw [hat]
      exact List.mem_cons_self
    · refine List.mem_cons_of_mem _ ?_
      have h1 := chunkAt_append (k := k) before (a ++ w ++ b)
      have h2 := List.length_pos_iff.2 (chunkAt_ne (k := k) (before := before) h0)
      have hu := chunkAt_uniform (k := k) before (a ++ w ++ b)
      generalize (chunkAt k before (a ++ w ++ b)).1 = p at *
      generalize (chunkAt k before (a ++ w ++ b)).2 = q at *
      have hpa : p.length ≤ a.length := by
        by_contra hlt
        have hpre : a <+: p := List.prefix_of_prefix_length_le (l₃ := a ++ w ++ b) (by rw [List.append_assoc]; exact List.prefix_append _ _)
          (by rw [← h1]; exact List.prefix_append _ _) (by omega)
        obtain ⟨t, rfl⟩ := hpre
        cases t with
        | nil => simp at hlt
        | cons x t =>
          rw [List.append_assoc, List.append_assoc] at h1
          have h3 := List.append_cancel_left h1
          obtain ⟨c, w', rfl⟩ := List.exists_cons_of_ne_nil hne
          have hx : x = c := (List.cons.inj h3).1
          have hl := ha (a.getLast hae) (List.getLast?_eq_some_getLast hae)
          rcases hu with hu | hu
          · have := hu x (by simp)
            rw [hx, (hw c (by simp)).1] at this
            cases this
          · have := hu (a.getLast hae) (List.mem_append_left _ (List.getLast_mem hae))
            rw [hl] at this
            cases this
      have hpre : p <+: a := List.prefix_of_prefix_length_le (l₃ := a ++ w ++ b) (by rw [← h1]; exact List.prefix_append _ _)
        (by rw [List.append_assoc]; exact List.prefix_append _ _) hpa
      obtain ⟨a', rfl⟩ := hpre
      rw [List.append_assoc, List.append_assoc] at h1
      have hq := List.append_cancel_left h1
      rw [← List.append_assoc] at hq
      rw [hq]
      refine ih _ a' ?_ ?_
      · intro c hc
        apply ha
        rw [List.getLast?_append, hc]
        rfl
      · simp only [List.length_append] at h ⊢
        omega

theorem expandTabs_append (col : Nat) (x y : Str) : ∃ col', expandTabs col (x ++ y) = expandTabs col x ++ expandTabs col' y := by
  induction x generalizing col with
  | nil => exact ⟨col, rfl⟩
  | cons c x ih =>
    rw [List.cons_append, expandTabs, expandTabs]
    split
    · obtain ⟨col', h⟩ := ih (col + (8 - col % 8))
      exact ⟨col', by rw [h, List.append_assoc]⟩
    · split
      · obtain ⟨col', h⟩ := ih 0
        exact ⟨col', by rw [h]; rfl⟩
      · obtain ⟨col', h⟩ := ih (col + 1)
        exact ⟨col', by rw [h]; rfl⟩

theorem expandTabs_plain (col : Nat) {w : Str} (h : ∀ c ∈ w, visible c = true ∨ c = ' ') : expandTabs col w = w := by
  induction w generalizing col with
  | nil => rfl
  | cons c w ih =>
    have hc := h c (by simp)
    rw [expandTabs, if_neg, if_neg, ih _ (fun d hd => h d (by simp [hd]))]
    · rintro (rfl | rfl) <;> revert hc <;> decide
    · rintro rfl; revert hc; decide

theorem munge_plain {w : Str} (h : ∀ c ∈ w, visible c = true ∨ c = ' ') : munge w = w := by
  rw [munge, expandTabs_plain 0 h]
  conv_rhs => rw [← List.map_id w]
  refine List.map_congr_left (fun c hc => ?_)
  rcases h c hc with hv | rfl
  · rw [not_isWs hv]; rfl
  · rfl

theorem expandTabs_last (col : Nat) {a : Str} (h : ∀ c, a.getLast? = some c → isWs c = true) :
    ∀ c, (expandTabs col a).getLast? = some c → isWs c = true := by
  rcases List.eq_nil_or_concat a with rfl | ⟨i, x, rfl⟩
  · intro c hc; cases hc
  · rw [List.concat_eq_append] at *
    have hx := h x (by simp)
    obtain ⟨col', he⟩ := expandTabs_append col i [x]
    intro c hc
    rw [he, List.getLast?_append] at hc
    by_cases ht : x = '\t'
    · subst ht
      have h8 : expandTabs col' ['\t'] = List.replicate (7 - col' % 8) ' ' ++ [' '] := by
        rw [expandTabs, if_pos rfl, expandTabs, List.append_nil, ← List.replicate_succ']
        congr 1
        omega
      rw [h8] at hc
      have : ' ' = c := by simpa using hc
      rw [← this]; decide
    · have h1 : expandTabs col' [x] = [x] := by
        rw [expandTabs, if_neg ht]
        split <;> rfl
      rw [h1] at hc
      have : x = c := by simpa using hc
      rw [← this]; exact hx

theorem expandTabs_head (col : Nat) {b : Str} (h : ∀ c, b.head? = some c → isWs c = true) :
    ∀ c, (expandTabs col b).head? = some c → isWs c = true := by
  cases b with
  | nil => intro c hc; cases hc
  | cons x b =>
    have hx := h x rfl
    intro c hc
    rw [expandTabs] at hc
    split at hc
    · have : List.replicate (8 - col % 8) ' ' = ' ' :: List.replicate (7 - col % 8) ' ' := by
        rw [← List.replicate_succ]
        congr 1
        omega
      rw [this] at hc
      have : ' ' = c := by simpa using hc
      rw [← this]; decide
    · split at hc
      · have : x = c := by simpa using hc
        rw [← this]; exact hx
      · have : x = c := by simpa using hc
        rw [← this]; exact hx

theorem munge_around {a w b : Str} (hw : ∀ c ∈ w, visible c = true)
    (ha : ∀ c, a.getLast? = some c → isWs c = true) (hb : ∀ c, b.head? = some c → isWs c = true) :
    ∃ a' b', munge (a ++ w ++ b) = a' ++ w ++ b' ∧ (∀ c, a'.getLast? = some c → isWs c = true) ∧
      (∀ c, b'.head? = some c → isWs c = true) := by
  obtain ⟨col1, h1⟩ := expandTabs_append 0 (a ++ w) b
  obtain ⟨col2, h2⟩ := expandTabs_append 0 a w
  refine ⟨(expandTabs 0 a).map fun c => if isWs c then ' ' else c, (expandTabs col1 b).map fun c => if isWs c then ' ' else c, ?_, ?_, ?_⟩
  · have hm : w.map (fun c => if isWs c then ' ' else c) = w := by
      conv_rhs => rw [← List.map_id w]
      refine List.map_congr_left (fun c hc => ?_)
      rw [not_isWs (hw c hc)]; rfl
    rw [munge, h1, h2, expandTabs_plain col2 (fun c hc => Or.inl (hw c hc)), List.map_append, List.map_append, hm]
  · intro c hc
    rw [List.getLast?_map] at hc
    obtain ⟨d, hd, rfl⟩ := Option.map_eq_some_iff.1 hc
    rw [if_pos (expandTabs_last 0 ha d hd)]
    decide
  · intro c hc
    rw [List.head?_map] at hc
    obtain ⟨d, hd, rfl⟩ := Option.map_eq_some_iff.1 hc
    rw [if_pos (expandTabs_head col1 hb d hd)]
    decide

/-! ## Lines of a text -/

theorem isBreak_invisible {c : Char} (h : isBreak c = true) : visible c = false := by
  simp only [isBreak, Bool.or_eq_true, decide_eq_true_eq] at h
  rcases h with ((((((((rfl | rfl) | rfl) | rfl) | rfl) | rfl) | rfl) | rfl) | rfl) | rfl <;> decide

theorem gap_ws {c : Char} (h : Spec.gap c = true) (hb : isBreak c = false) : isWs c = true := by
  simp only [Spec.gap, List.contains_eq_mem, List.mem_cons, List.not_mem_nil, or_false, decide_eq_true_eq] at h
  rcases h with rfl | rfl | rfl | rfl | rfl | rfl | rfl | rfl | rfl | rfl | rfl | rfl <;> revert hb <;> decide

/-- What has been read of a line goes on to the next break. -/
theorem splitlinesGo_first {cur : Str} (hne : cur ≠ []) (b : Str) : ∃ b', cur ++ b' ∈ splitlinesGo cur b ∧ b' <+: b ∧
    (∀ c ∈ b', isBreak c = false) := by
  induction b generalizing cur with
  | nil => exact ⟨[], by rw [splitlinesGo, if_neg hne]; simp, List.prefix_refl _, by simp⟩
  | cons c b ih =>
    by_cases hc : isBreak c = true
    · refine ⟨[], ?_, List.nil_prefix, by simp⟩
      rw [splitlinesGo, if_pos hc]
      split <;> simp
    · obtain ⟨b', h1, h2, h3⟩ := ih (cur := cur ++ [c]) (by simp)
      refine ⟨c :: b', ?_, List.cons_prefix_cons.2 ⟨rfl, h2⟩, ?_⟩
      · rw [splitlinesGo, if_neg hc]
        simpa using h1
      · intro d hd
        rcases List.mem_cons.1 hd with rfl | hd
        · simpa using hc
        · exact h3 d hd

theorem splitlinesGo_run {w : Str} (hw : ∀ c ∈ w, isBreak c = false) (cur b : Str) :
    splitlinesGo cur (w ++ b) = splitlinesGo (cur ++ w) b := by
  induction w generalizing cur with
  | nil => simp
  | cons c w ih =>
    rw [List.cons_append, splitlinesGo, if_neg (by rw [hw c (by simp)]; simp), ih (fun d hd => hw d (by simp [hd]))]
    simp

/-- A word that stands in a text stands in one of its lines. -/
theorem splitlinesGo_word {w b : Str} (hne : w ≠ []) (hw : ∀ c ∈ w, visible c = true)
    (hb : ∀ c, b.head? = some c → Spec.gap c = true) : ∀ (n : Nat) (cur a : Str), a.length ≤ n →
    (∀ c, (cur ++ a).getLast? = some c → Spec.gap c = true) → (∀ c ∈ cur, isBreak c = false) →
    ∃ a' b', a' ++ w ++ b' ∈ splitlinesGo cur (a ++ w ++ b) ∧ (∀ c, a'.getLast? = some c → isWs c = true) ∧
      (∀ c, b'.head? = some c → isWs c = true) := by
  have hwb : ∀ c ∈ w, isBreak c = false := by
    intro c hc
    by_contra h
    have := hw c hc
    rw [isBreak_invisible (by simpa using h)] at this
    cases this
  have hstart : ∀ cur : Str, (∀ c, (cur ++ []).getLast? = some c → Spec.gap c = true) → (∀ c ∈ cur, isBreak c = false) →
      ∃ a' b', a' ++ w ++ b' ∈ splitlinesGo cur ([] ++ w ++ b) ∧ (∀ c, a'.getLast? = some c → isWs c = true) ∧
        (∀ c, b'.head? = some c → isWs c = true) := by
    intro cur hc hcb
    rw [List.nil_append, splitlinesGo_run hwb]
    obtain ⟨b', h1, h2, h3⟩ := splitlinesGo_first (cur := cur ++ w) (by simp [hne]) b
    refine ⟨cur, b', h1, ?_, ?_⟩
    · intro c hl
      exact gap_ws (hc c (by simpa using hl)) (hcb c (List.mem_of_getLast? hl))
    · intro c hl
      refine gap_ws (hb c ?_) (h3 c (List.mem_of_head? hl))
      obtain ⟨t, rfl⟩ := h2
      rw [List.head?_append, hl]
      rfl
  intro n
  induction n with
  | zero =>
    intro cur a h hc hcb
    rw [List.length_eq_zero_iff.1 (Nat.le_zero.1 h)] at *
    exact hstart cur hc hcb
  | succ n ih =>
    intro cur a h hc hcb
    cases a with
    | nil => exact hstart cur hc hcb
    | cons c a =>
      have htail : ∀ a1 : Str, a1 <:+ a → ∀ d, ([] ++ a1).getLast? = some d → Spec.gap d = true := by
        rintro a1 ⟨t, rfl⟩ d hd
        apply hc
        rw [List.nil_append] at hd
        rw [show cur ++ c :: (t ++ a1) = (cur ++ c :: t) ++ a1 by simp, List.getLast?_append, hd]
        rfl
      by_cases hbk : isBreak c = true
      · rw [List.cons_append, List.cons_append, splitlinesGo, if_pos hbk]
        split
        · rename_i h2
          cases a with
          | nil =>
            obtain ⟨x, w', rfl⟩ := List.exists_cons_of_ne_nil hne
            have hx : x = '\n' := by simpa using h2.2
            have := hw x (by simp)
            rw [hx] at this
            exact absurd this (by decide)
          | cons d a =>
            rw [List.cons_append, List.cons_append, List.tail_cons]
            obtain ⟨a', b', h3, h4, h5⟩ := ih [] a (by simp at h; omega) (htail a (List.suffix_cons _ _)) (by simp)
            exact ⟨a', b', List.mem_cons_of_mem _ h3, h4, h5⟩
        · obtain ⟨a', b', h3, h4, h5⟩ := ih [] a (by simp at h; omega) (htail a (List.suffix_refl _)) (by simp)
          exact ⟨a', b', List.mem_cons_of_mem _ h3, h4, h5⟩
      · rw [List.cons_append, List.cons_append, splitlinesGo, if_neg hbk]
        refine ih (cur ++ [c]) a (by simp at h; omega) ?_ ?_
        · intro d hd
          apply hc
          simpa using hd
        · intro d hd
          rcases List.mem_append.1 hd with hd | hd
          · exact hcb d hd
          · rw [List.mem_singleton.1 hd]
            simpa using hbk

theorem splitlines_eq_nil {s : Str} : splitlines s = [] ↔ s = [] := by
  constructor
  · intro h
    cases s with
    | nil => rfl
    | cons c s =>
      unfold splitlines at h
      rw [splitlinesGo] at h
      split at h
      · split at h <;> cases h
      · obtain ⟨b', h1, -⟩ := splitlinesGo_first (cur := [] ++ [c]) (by simp) s
        rw [h] at h1
        cases h1
  · rintro rfl
    rw [splitlines, splitlinesGo, if_pos rfl]

theorem splitlines_join {ls : List Str} (hb : ∀ l ∈ ls, ∀ c ∈ l, isBreak c = false) (hl : ls.getLast? ≠ some []) :
    splitlines (join ['\n'] ls) = ls := by
  unfold splitlines
  induction ls with
  | nil => rw [join, splitlinesGo, if_pos rfl]
  | cons l ls ih =>
    cases ls with
    | nil =>
      have hne : l ≠ [] := by rintro rfl; exact hl rfl
      rw [join]
      conv_lhs => rw [← List.append_nil l]
      rw [splitlinesGo_run (hb l (by simp)), splitlinesGo, if_neg (by simpa using hne)]
      rfl
    | cons m ls =>
      rw [join, List.append_assoc, splitlinesGo_run (hb l (by simp)), List.singleton_append, splitlinesGo, if_pos (by decide),
        if_neg (by simp), ih (fun x hx => hb x (by simp [hx]))]
      · rfl
      · intro h
        apply hl
        rw [List.getLast?_cons_cons]
        exact h
      · simp

/-! ## Lines that need no wrapping -/

theorem fit_all {width len : Nat} {chunks : List Str} (h : len + chunks.flatten.length ≤ width) : fit width len chunks = (chunks, []) := by
  induction chunks generalizing len with
  | nil => rfl
  | cons c cs ih =>
    rw [List.flatten_cons, List.length_append] at h
    rw [fit, if_pos (by omega), ih (by omega)]

theorem wrapGo_short {width n : Nat} {chunks : List Str} (hn : 0 < n) (hc : ∀ c ∈ chunks, c ≠ []) (h : chunks.flatten.length ≤ width)
    (hl : ∀ c, chunks.flatten.getLast? = some c → visible c = true) :
    wrapGo width n false chunks = if chunks = [] then [] else [chunks.flatten] := by
  obtain ⟨m, rfl⟩ := Nat.exists_eq_add_of_lt hn
  rw [Nat.zero_add, wrapGo]
  split
  · rfl
  · rename_i h0
    have hdf : dropFront false chunks = chunks := rfl
    have hdb : dropBlank chunks = chunks := by
      unfold dropBlank
      rw [if_neg]
      intro hb
      rcases List.eq_nil_or_concat chunks with rfl | ⟨init, x, rfl⟩
      · cases hb
      · have hx : blank x = true := by simpa using hb
        have hxn : x ≠ [] := hc x (by simp)
        have := hl (x.getLast hxn) (by
          rw [List.concat_eq_append, List.flatten_append, List.flatten_singleton, List.getLast?_append,
            List.getLast?_eq_some_getLast hxn]
          rfl)
        rw [(blank_iff x).1 hx _ (List.getLast_mem hxn)] at this
        cases this
    have hone : oneLine width chunks = (chunks, []) := by
      unfold oneLine
      rw [fit_all (by omega)]
      simp only [breakLong, hdb]
    rw [hdf, hone, if_neg h0]
    cases m <;> simp [wrapGo]

/-! ## Words longer than a line -/

theorem lastHyphen_none {s : Str} (h : '-' ∉ s) : lastHyphen s = none := by
  induction s with
  | nil => rfl
  | cons c s ih =>
    rw [lastHyphen, ih (fun hm => h (by simp [hm]))]
    rw [if_neg]
    rintro rfl
    exact h (by simp)

theorem wrapGo_long {width : Nat} (hw : 0 < width) : ∀ (n : Nat) (lines : Bool) (w : Str), Spec.Word w → w.length ≤ n →
    (wrapGo width n lines [w]).flatten = w ∧ ∀ l ∈ (wrapGo width n lines [w]).dropLast, l.length = width := by
  intro n
  induction n with
  | zero =>
    intro lines w hwd h
    exact absurd (List.length_eq_zero_iff.1 (Nat.le_zero.1 h)) hwd.1
  | succ n ih =>
    intro lines w hwd h
    have hbl : ∀ x : Str, x ≠ [] → (∀ c ∈ x, visible c = true) → blank x = false := by
      intro x hx hv
      by_contra hb
      obtain ⟨c, x', rfl⟩ := List.exists_cons_of_ne_nil hx
      have := hv c (by simp)
      rw [(blank_iff _).1 (by simpa using hb) c (by simp)] at this
      cases this
    have hdf : dropFront lines [w] = [w] := by
      unfold dropFront
      rw [if_neg]
      simp [hbl w hwd.1 (fun c hc => (hwd.2 c hc).1)]
    rw [wrapGo, if_neg (by simp), hdf]
    by_cases hl : w.length ≤ width
    · have hone : oneLine width [w] = ([w], []) := by
        unfold oneLine
        rw [fit_all (by simpa using hl)]
        simp [breakLong, dropBlank, hbl w hwd.1 (fun c hc => (hwd.2 c hc).1)]
      rw [hone, if_neg (by simp)]
      cases n <;> simp [wrapGo]
    · have hfit : fit width 0 [w] = ([], [w]) := by
        rw [fit, if_neg (by omega)]
      have hbr : breakAt width w = width := by
        unfold breakAt
        rw [lastHyphen_none]
        intro hm
        exact (hwd.2 _ (List.mem_of_mem_take hm)).2 rfl
      have hne : w.take width ≠ [] := by
        intro h0
        have := congrArg List.length h0
        rw [List.length_take, List.length_nil] at this
        omega
      have hone : oneLine width [w] = ([w.take width], [w.drop width]) := by
        unfold oneLine
        rw [hfit]
        simp only [breakLong, List.flatten_nil, List.length_nil, Nat.sub_zero, hbr]
        rw [if_pos (by omega)]
        simp [dropBlank, hbl (w.take width) hne (fun c hc => (hwd.2 c (List.mem_of_mem_take hc)).1)]
      rw [hone, if_neg (by simp)]
      have hwd' : Spec.Word (w.drop width) := by
        refine ⟨?_, fun c hc => hwd.2 c (List.mem_of_mem_drop hc)⟩
        intro h0
        have := congrArg List.length h0
        rw [List.length_drop, List.length_nil] at this
        omega
      obtain ⟨h1, h2⟩ := ih true (w.drop width) hwd' (by rw [List.length_drop]; omega)
      refine ⟨by rw [List.flatten_cons, h1]; simp, ?_⟩
      simp only
      cases hg : wrapGo width n true [w.drop width] with
      | nil => rw [hg] at h1; exact absurd h1.symm hwd'.1
      | cons x xs =>
        rw [hg] at h2
        intro l hl'
        rw [List.dropLast_cons_cons] at hl'
        rcases List.mem_cons.1 hl' with rfl | hl'
        · simp; omega
        · exact h2 l hl'

/-! ## How lines begin -/

/-- Chunks as they come from a text without white space but blanks. -/
def Alternate : List Str → Prop
  | [] => True
  | [_] => True
  | a :: b :: r => ((∀ c ∈ a, isWs c = true) → ∀ c ∈ b, isWs c = false) ∧ Alternate (b :: r)

theorem alternate_tail {a : Str} {r : List Str} (h : Alternate (a :: r)) : Alternate r := by
  cases r with
  | nil => trivial
  | cons b r => exact h.2

theorem alternate_suffix {r l : List Str} (h : Alternate l) (hs : r <:+ l) : Alternate r := by
  obtain ⟨t, rfl⟩ := hs
  induction t with
  | nil => exact h
  | cons a t ih => exact ih (alternate_tail h)

theorem splitGo_alternate : ∀ (n : Nat) (before rest : Str), Alternate (splitGo k n before rest) := by
  intro n
  induction n with
  | zero => intro _ _; trivial
  | succ n ih =>
    intro before rest
    unfold splitGo
    split
    · trivial
    · rename_i h0
      have hafter := chunkAt_after (k := k) (before := before) h0
      have ih := ih ((chunkAt k before rest).1.reverse ++ before) (chunkAt k before rest).2
      generalize (chunkAt k before rest).2 = q at *
      generalize (chunkAt k before rest).1 = p at *
      cases n with
      | zero => trivial
      | succ n =>
        unfold splitGo at ih ⊢
        split
        · trivial
        · rename_i hq
          rw [if_neg hq] at ih
          refine ⟨fun hp => ?_, ih⟩
          have h1 := chunkAt_append (k := k) (p.reverse ++ before) q
          have h2 := chunkAt_ne (k := k) (before := p.reverse ++ before) hq
          rcases chunkAt_uniform (k := k) (p.reverse ++ before) q with hu | hu
          · obtain ⟨c, cs, hc⟩ := List.exists_cons_of_ne_nil h2
            rw [hc] at h1 hu
            have h3 := hafter hp c (by rw [← h1]; rfl)
            rw [hu c (by simp)] at h3
            cases h3
          · exact hu

/-- What is known of the chunks that are left. -/
structure Good (chunks : List Str) : Prop where
  ne : ∀ c ∈ chunks, c ≠ []
  uniform : ∀ c ∈ chunks, Uniform c
  alternate : Alternate chunks
  chars : ∀ c ∈ chunks.flatten, visible c = true ∨ c = ' '

theorem Good.suffix {r l : List Str} (h : Good l) (hs : r <:+ l) : Good r :=
  ⟨fun c hc => h.ne c (hs.subset hc), fun c hc => h.uniform c (hs.subset hc), alternate_suffix h.alternate hs, by
    obtain ⟨t, rfl⟩ := hs
    intro c hc
    exact h.chars c (by rw [List.flatten_append]; exact List.mem_append_right _ hc)⟩

theorem Good.cut {c : Str} {cs : List Str} {e : Nat} (h : Good (c :: cs)) (he : c.drop e ≠ []) : Good (c.drop e :: cs) := by
  have hsub : ∀ x ∈ c.drop e, x ∈ c := fun x hx => List.mem_of_mem_drop hx
  refine ⟨?_, ?_, ?_, ?_⟩
  · intro d hd
    rcases List.mem_cons.1 hd with rfl | hd
    · exact he
    · exact h.ne d (by simp [hd])
  · intro d hd
    rcases List.mem_cons.1 hd with rfl | hd
    · rcases h.uniform c (by simp) with hu | hu
      · exact Or.inl (fun x hx => hu x (hsub x hx))
      · exact Or.inr (fun x hx => hu x (hsub x hx))
    · exact h.uniform d (by simp [hd])
  · cases cs with
    | nil => trivial
    | cons b r =>
      refine ⟨fun hws => h.alternate.1 ?_, h.alternate.2⟩
      rcases h.uniform c (by simp) with hu | hu
      · exact hu
      · obtain ⟨x, xs, hx⟩ := List.exists_cons_of_ne_nil he
        have h1 := hws x (by rw [hx]; simp)
        rw [hu x (hsub x (by rw [hx]; simp))] at h1
        cases h1
  · intro x hx
    rw [List.flatten_cons] at hx
    apply h.chars
    rw [List.flatten_cons]
    rcases List.mem_append.1 hx with hx | hx
    · exact List.mem_append_left _ (hsub x hx)
    · exact List.mem_append_right _ hx

theorem Good.left {width : Nat} {chunks : List Str} (h : Good chunks) : Good (oneLine width chunks).2 := by
  have h1 : Good (fit width 0 chunks).2 := h.suffix ⟨_, fit_append width 0 chunks⟩
  have h2 := breakLong_ne (width := width) (cur := (fit width 0 chunks).1) h1.ne
  show Good (breakLong width (fit width 0 chunks).1 (fit width 0 chunks).2).2
  unfold breakLong at h2 ⊢
  split
  · rename_i he; exact h1
  · rename_i c cs he
    rw [he] at h1 h2
    split
    · rename_i hl
      simp only [if_pos hl] at h2
      exact h1.cut (h2 _ (by simp))
    · show Good (fit width 0 chunks).2
      rw [he]
      exact h1

theorem dropFront_dark {chunks : List Str} (h : Good chunks) : ∀ c, (dropFront true chunks).flatten.head? = some c → visible c = true := by
  have hdark : ∀ (d : Str), d ≠ [] → d ∈ chunks → (∀ c ∈ d, isWs c = false) → ∀ r : List Str, ∀ c, (d :: r).flatten.head? = some c → visible c = true := by
    intro d hd hm hns r c hc
    obtain ⟨x, d', rfl⟩ := List.exists_cons_of_ne_nil hd
    have : x = c := by simpa using hc
    subst this
    rcases h.chars x (List.mem_flatten.2 ⟨_, hm, by simp⟩) with hv | rfl
    · exact hv
    · exact absurd (hns ' ' (by simp)) (by decide)
  cases chunks with
  | nil => intro c hc; cases hc
  | cons a r =>
    unfold dropFront
    split
    · rename_i hb
      have hb : blank a = true := by simpa using hb
      cases r with
      | nil => intro c hc; cases hc
      | cons b r =>
        refine hdark b (h.ne b (by simp)) (by simp) (h.alternate.1 ?_) r
        intro c hc
        rcases h.chars c (List.mem_flatten.2 ⟨a, by simp, hc⟩) with hv | rfl
        · rw [(blank_iff a).1 hb c hc] at hv
          cases hv
        · rfl
    · rename_i hb
      refine hdark a (h.ne a (by simp)) (by simp) ?_ r
      rcases h.uniform a (by simp) with hu | hu
      · exfalso
        apply hb
        simp only [Bool.true_and, List.head?_cons, Option.any_some, blank_iff]
        exact fun c hc => isWs_invisible (hu c hc)
      · exact hu

theorem oneLine_head {width : Nat} {chunks : List Str} (hw : 0 < width) (h : ∀ c ∈ chunks, c ≠ []) (hne : (oneLine width chunks).1 ≠ []) :
    ∃ c, (oneLine width chunks).1.flatten.head? = some c ∧ chunks.flatten.head? = some c := by
  have hpre : (oneLine width chunks).1.flatten <+: chunks.flatten :=
    (flatten_prefix (dropBlank_prefix _)).trans (by
      rw [← breakLong_fit width chunks]
      exact List.prefix_append _ _)
  suffices hf : (oneLine width chunks).1.flatten ≠ [] by
    obtain ⟨c, r, hc⟩ := List.exists_cons_of_ne_nil hf
    refine ⟨c, by rw [hc]; rfl, ?_⟩
    obtain ⟨t, ht⟩ := hpre
    rw [← ht, hc]
    rfl
  have hfirst : ∃ x r, (breakLong width (fit width 0 chunks).1 (fit width 0 chunks).2).1 = x :: r ∧ x ≠ [] := by
    cases chunks with
    | nil => exact absurd rfl hne
    | cons c cs =>
      have hc := h c (by simp)
      by_cases hl : c.length ≤ width
      · obtain ⟨r, hr⟩ := fit_first (cs := cs) hl
        rw [hr]
        unfold breakLong
        split
        · exact ⟨c, r, rfl, hc⟩
        · split
          · exact ⟨c, _, rfl, hc⟩
          · exact ⟨c, r, rfl, hc⟩
      · have hf : fit width 0 (c :: cs) = ([], c :: cs) := by
          unfold fit
          rw [if_neg (by omega)]
        rw [hf]
        unfold breakLong
        simp only
        rw [if_pos (by omega)]
        refine ⟨_, [], rfl, ?_⟩
        intro h0
        have h1 := congrArg List.length h0
        have h2 := breakAt_pos c (space := width - ([] : List Str).flatten.length) (by simpa using hw)
        rw [List.length_take, List.length_nil] at h1
        omega
  obtain ⟨x, r, hx, hxn⟩ := hfirst
  have hp : (oneLine width chunks).1 <+: x :: r := by
    rw [← hx]
    exact dropBlank_prefix _
  obtain ⟨y, ys, hy⟩ := List.exists_cons_of_ne_nil hne
  rw [hy] at hp ⊢
  rw [(List.cons_prefix_cons.1 hp).1]
  simp [hxn]

theorem wrapGo_head {width : Nat} (hw : 0 < width) : ∀ (n : Nat) (lines : Bool) (chunks : List Str), Good chunks →
    ∀ l ∈ (wrapGo width n lines chunks).drop (if lines then 0 else 1), ∃ c, l.head? = some c ∧ visible c = true := by
  intro n
  induction n with
  | zero => intro lines chunks _ l hl; simp [wrapGo] at hl
  | succ n ih =>
    intro lines chunks h l hl
    rw [wrapGo] at hl
    by_cases h0 : chunks = []
    · rw [if_pos h0, List.drop_nil] at hl
      cases hl
    · rw [if_neg h0] at hl
      have hg : Good (oneLine width (dropFront lines chunks)).2 := (h.suffix (dropFront_suffix lines chunks)).left
      by_cases hne : (oneLine width (dropFront lines chunks)).1 = []
      · rw [if_pos hne] at hl
        exact ih lines _ hg l hl
      · rw [if_neg hne] at hl
        cases lines with
        | false =>
          simp only [Bool.false_eq_true, if_false, List.drop_succ_cons, List.drop_zero] at hl
          exact ih true _ hg l hl
        | true =>
          simp only [if_true, List.drop_zero] at hl
          rcases List.mem_cons.1 hl with rfl | hl
          · obtain ⟨c, h1, h2⟩ := oneLine_head hw (h.suffix (dropFront_suffix true chunks)).ne hne
            exact ⟨c, h1, dropFront_dark h c h2⟩
          · exact ih true _ hg l hl

end Mabel.TextWrap
