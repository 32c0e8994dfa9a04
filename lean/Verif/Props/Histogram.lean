import Verif.Model.Histogram
import Mathlib.Tactic.Linarith
import Mathlib.Tactic.FieldSimp
import Mathlib.Tactic.ByContra

/-! # Histograms (C58) -/

namespace Mabel.Histogram
open Mabel.Py

theorem least_le (v : Rat) (vs : List Rat) : least v vs ≤ v ∧ (∀ x ∈ vs, least v vs ≤ x) ∧ least v vs ∈ v :: vs := by
  induction vs generalizing v with
  | nil => simp [least]
  | cons x vs ih =>
    obtain ⟨h1, h2, h3⟩ := ih (min v x)
    have e : least v (x :: vs) = least (min v x) vs := rfl
    rw [e]
    refine ⟨le_trans h1 (min_le_left _ _), ?_, ?_⟩
    · intro y hy
      rcases List.mem_cons.1 hy with rfl | hy
      · exact le_trans h1 (min_le_right _ _)
      · exact h2 y hy
    · rcases List.mem_cons.1 h3 with h | h
      · rw [h]
        rcases min_choice v x with h | h <;> rw [h] <;> simp
      · simp [h]

theorem le_greatest (v : Rat) (vs : List Rat) :
    v ≤ greatest v vs ∧ (∀ x ∈ vs, x ≤ greatest v vs) ∧ greatest v vs ∈ v :: vs := by
  induction vs generalizing v with
  | nil => simp [greatest]
  | cons x vs ih =>
    obtain ⟨h1, h2, h3⟩ := ih (max v x)
    have e : greatest v (x :: vs) = greatest (max v x) vs := rfl
    rw [e]
    refine ⟨le_trans (le_max_left _ _) h1, ?_, ?_⟩
    · intro y hy
      rcases List.mem_cons.1 hy with rfl | hy
      · exact le_trans (le_max_right _ _) h1
      · exact h2 y hy
    · rcases List.mem_cons.1 h3 with h | h
      · rw [h]
        rcases max_choice v x with h | h <;> rw [h] <;> simp
      · simp [h]

/-- Counting: if each value has a bin, the bins hold the numbers of values that have them. -/
theorem fold_bump (bin : Rat → Nat) (pos : Rat → Int) (n : Nat) (values : List Rat)
    (hb : ∀ v ∈ values, pos v = bin v ∧ bin v < n) : ∀ bins : List Nat, bins.length = n →
    ∃ out, values.foldlM (fun bins v => bump bins (pos v)) bins = .ok out ∧ out.length = n ∧
      ∀ i, i < n → out[i]?.getD 0 = bins[i]?.getD 0 + values.countP (fun v => bin v = i) := by
  induction values with
  | nil => intro bins hn; exact ⟨bins, rfl, hn, by simp⟩
  | cons v values ih =>
    intro bins hn
    obtain ⟨h1, h2⟩ := hb v (by simp)
    have hbump : bump bins (pos v) = .ok (bins.modify (bin v) (· + 1)) := by
      unfold bump
      rw [h1]
      simp only []
      rw [if_neg (show ¬ ((bin v : Int) < 0) by omega), if_neg (by simp; omega)]
      simp
    obtain ⟨out, e1, e2, e3⟩ := ih (fun x hx => hb x (by simp [hx])) (bins.modify (bin v) (· + 1)) (by simp [hn])
    refine ⟨out, ?_, e2, ?_⟩
    · rw [List.foldlM_cons, hbump]
      exact e1
    · intro i hi
      rw [e3 i hi, List.countP_cons, List.getElem?_modify]
      have : i < bins.length := by omega
      rw [List.getElem?_eq_getElem this]
      by_cases h : bin v = i
      · simp [h]; omega
      · simp [h]

/-- The width of the bins of a histogram of values from `mn` to `mx`. -/
def width (mn mx : Rat) (n : Nat) : Rat := (1 + mx - mn) / (n - 1 : Rat)

theorem width_pos (mn mx : Rat) (n : Nat) (hn : 2 ≤ n) (h : mn ≤ mx) : 0 < width mn mx n := by
  have : (2 : Rat) ≤ n := by exact_mod_cast hn
  exact div_pos (by linarith) (by linarith)

/-- **C58**: each bin holds the number of values in its interval; the intervals start at the least value, have the
same width, come in ascending order, and each value is in one of them. -/
theorem C58_bins (values : List Rat) (hv : values ≠ []) (n : Nat) (hn : 2 ≤ n) :
    ∃ bins mn mx, build values n = .ok bins ∧ bins.length = n ∧ mn ∈ values ∧ mx ∈ values ∧
      (∀ v ∈ values, mn ≤ v ∧ v ≤ mx) ∧
      (∀ i, i < n → bins[i]? = some (values.countP (fun v =>
        decide (mn + i * width mn mx n ≤ v ∧ v < mn + (i + 1) * width mn mx n)))) ∧
      (∀ v ∈ values, ∃ i : Nat, i < n - 1 ∧ mn + i * width mn mx n ≤ v ∧ v < mn + (i + 1) * width mn mx n) ∧
      bins.sum = values.length := by
  cases values with
  | nil => exact absurd rfl hv
  | cons v vs =>
    obtain ⟨l1, l2, l3⟩ := least_le v vs
    obtain ⟨g1, g2, g3⟩ := le_greatest v vs
    have hmm : ∀ x ∈ v :: vs, least v vs ≤ x ∧ x ≤ greatest v vs := by
      intro x hx
      rcases List.mem_cons.1 hx with rfl | hx
      · exact ⟨l1, g1⟩
      · exact ⟨l2 x hx, g2 x hx⟩
    set mn := least v vs with hmn
    set mx := greatest v vs with hmx
    have hle : mn ≤ mx := le_trans l1 g1
    have hw : 0 < width mn mx n := width_pos mn mx n hn hle
    have hn2 : (2 : Rat) ≤ n := by exact_mod_cast hn
    have hint : ((1 + mx) - mn) / (((n : Int) - 1 : Int) : Rat) = width mn mx n := by
      unfold width
      push_cast
      ring
    -- the bin of a value
    let bin : Rat → Nat := fun x => ⌊(x - mn) / width mn mx n⌋.toNat
    have hpos : ∀ x ∈ v :: vs, 0 ≤ (x - mn) / width mn mx n ∧ (x - mn) / width mn mx n < n - 1 := by
      intro x hx
      obtain ⟨h1, h2⟩ := hmm x hx
      constructor
      · exact div_nonneg (by linarith) hw.le
      · rw [div_lt_iff₀ hw]
        unfold width
        rw [mul_div_cancel₀ _ (by linarith)]
        linarith
    have hfl : ∀ x ∈ v :: vs, trunc ((x - mn) / width mn mx n) = (bin x : Int) ∧ bin x < n - 1 := by
      intro x hx
      obtain ⟨h1, h2⟩ := hpos x hx
      have hf : 0 ≤ ⌊(x - mn) / width mn mx n⌋ := Int.floor_nonneg.2 h1
      constructor
      · unfold trunc
        rw [if_pos h1]
        exact (Int.toNat_of_nonneg hf).symm
      · have : ⌊(x - mn) / width mn mx n⌋ < (n : Int) - 1 := by
          rw [Int.floor_lt]
          push_cast
          exact h2
        show ⌊(x - mn) / width mn mx n⌋.toNat < n - 1
        omega
    have hbin : ∀ x ∈ v :: vs, ∀ i : Nat, (bin x = i ↔
        (mn + i * width mn mx n ≤ x ∧ x < mn + (i + 1) * width mn mx n)) := by
      intro x hx i
      obtain ⟨h1, -⟩ := hpos x hx
      have hf : 0 ≤ ⌊(x - mn) / width mn mx n⌋ := Int.floor_nonneg.2 h1
      have : bin x = i ↔ ⌊(x - mn) / width mn mx n⌋ = (i : Int) := by
        show ⌊(x - mn) / width mn mx n⌋.toNat = i ↔ _
        omega
      rw [this, Int.floor_eq_iff, le_div_iff₀ hw, div_lt_iff₀ hw]
      push_cast
      constructor
      · rintro ⟨a, b⟩; constructor <;> linarith
      · rintro ⟨a, b⟩; constructor <;> linarith
    obtain ⟨out, e1, e2, e3⟩ := fold_bump bin (fun x => trunc ((x - mn) / width mn mx n)) n (v :: vs)
      (fun x hx => ⟨(hfl x hx).1, by have := (hfl x hx).2; omega⟩) (List.replicate n 0) (by simp)
    have hcount : ∀ i, i < n → out[i]? = some ((v :: vs).countP (fun x => bin x = i)) := by
      intro i hi
      have := e3 i hi
      rw [List.getElem?_eq_getElem (by omega), List.getElem?_eq_getElem (by simpa using hi)] at this
      rw [List.getElem?_eq_getElem (by omega)]
      simpa using this
    refine ⟨out, mn, mx, ?_, e2, l3, g3, hmm, ?_, ?_, ?_⟩
    · unfold build
      simp only []
      rw [if_neg (by omega), ← hmn, ← hmx, hint]
      exact e1
    · intro i hi
      rw [hcount i hi]
      congr 1
      apply List.countP_congr
      intro x hx
      simp only [decide_eq_true_eq]
      exact hbin x hx i
    · intro x hx
      exact ⟨bin x, (hfl x hx).2, ((hbin x hx (bin x)).1 rfl)⟩
    · have hout : out = (List.range n).map (fun i => (v :: vs).countP (fun x => bin x = i)) := by
        apply List.ext_getElem?
        intro i
        by_cases hi : i < n
        · rw [hcount i hi, List.getElem?_map, List.getElem?_range hi]
          rfl
        · rw [List.getElem?_eq_none (by omega), List.getElem?_eq_none (by simp; omega)]
      have key : ∀ l : List Rat, (∀ x ∈ l, bin x < n) →
          ((List.range n).map (fun i => l.countP (fun x => bin x = i))).sum = l.length := by
        intro l
        induction l with
        | nil => intro _; simp
        | cons x l ih =>
          intro h
          have hx := h x (by simp)
          have e : (List.range n).map (fun i => (x :: l).countP (fun x => bin x = i))
              = (List.range n).map (fun i => l.countP (fun x => bin x = i) + if bin x = i then 1 else 0) := by
            apply List.map_congr_left
            intro i _
            rw [List.countP_cons]
            simp
          rw [e]
          have hsum : ∀ (m : List Nat) (f g : Nat → Nat), (m.map (fun i => f i + g i)).sum = (m.map f).sum + (m.map g).sum := by
            intro m f g
            induction m with
            | nil => rfl
            | cons a m ih => simp only [List.map_cons, List.sum_cons, ih]; omega
          rw [hsum, ih (fun y hy => h y (by simp [hy]))]
          have hone : ((List.range n).map (fun i => if bin x = i then 1 else 0)).sum = 1 := by
            have : ∀ k, ((List.range k).map (fun i => if bin x = i then 1 else 0)).sum = if bin x < k then 1 else 0 := by
              intro k
              induction k with
              | zero => simp
              | succ k ihk =>
                rw [List.range_succ, List.map_append, List.sum_append, ihk]
                simp only [List.map_cons, List.map_nil, List.sum_cons, List.sum_nil]
                split <;> split <;> split <;> omega
            rw [this, if_pos hx]
          rw [hone, List.length_cons]
      rw [hout]
      exact key (v :: vs) (fun x hx => by have := (hfl x hx).2; omega)

/-- **C58** (fails): the last bin is always empty. -/
theorem C58_last_bin_fails (values : List Rat) (hv : values ≠ []) (n : Nat) (hn : 2 ≤ n) :
    ∃ bins, build values n = .ok bins ∧ bins[n - 1]? = some 0 := by
  obtain ⟨bins, mn, mx, h1, -, hmn, hmx, hall, hc, hbins, -⟩ := C58_bins values hv n hn
  refine ⟨bins, h1, ?_⟩
  rw [hc (n - 1) (by omega)]
  congr 1
  rw [List.countP_eq_zero]
  intro v hv' h
  obtain ⟨ha, -⟩ := of_decide_eq_true h
  obtain ⟨i, hi, -, hb⟩ := hbins v hv'
  have hw := width_pos mn mx n hn (le_trans (hall v hv').1 (hall v hv').2)
  have hi' : ((i : Rat) + 1) ≤ ((n - 1 : Nat) : Rat) := by exact_mod_cast hi
  have := mul_le_mul_of_nonneg_right hi' hw.le
  linarith

/-- **C58** (fails): a histogram of one bin cannot be made. -/
theorem C58_one_bin_fails (v : Rat) (vs : List Rat) : build (v :: vs) 1 = .error .zeroDivision := rfl

/-- No values, no histogram. -/
theorem C58_no_values (n : Nat) : build [] n = .error .valueError := rfl

theorem le_foldl (bs : List Nat) (b : Nat) : b ≤ bs.foldl max b ∧ ∀ x ∈ bs, x ≤ bs.foldl max b := by
  induction bs generalizing b with
  | nil => simp
  | cons x bs ih =>
    obtain ⟨h1, h2⟩ := ih (max b x)
    rw [List.foldl_cons]
    refine ⟨by omega, ?_⟩
    intro y hy
    rcases List.mem_cons.1 hy with rfl | hy
    · omega
    · exact h2 y hy

/-- How a bin of `v` values is drawn when the largest has `mx`: the number of eighths. -/
def eighths (mx v : Nat) : Nat := v * 8 / mx

theorem bar_index (mx v : Nat) (hm : 0 < mx) (hv : v ≤ mx) :
    index barChars (trunc ((v : Rat) / ((mx : Rat) / 8))) = .ok (barChars.getD (eighths mx v) ' ') ∧ eighths mx v ≤ 8 := by
  have hm' : (0 : Rat) < mx := by exact_mod_cast hm
  have he : (v : Rat) / ((mx : Rat) / 8) = ((v * 8 : Nat) : Rat) / (mx : Nat) := by
    push_cast
    field_simp
  have hle : eighths mx v ≤ 8 := by
    unfold eighths
    rw [Nat.div_le_iff_le_mul_add_pred hm]
    nlinarith
  refine ⟨?_, hle⟩
  have : trunc ((v : Rat) / ((mx : Rat) / 8)) = (eighths mx v : Int) := by
    unfold trunc
    rw [if_pos (by positivity), he]
    unfold eighths
    rw [Int.floor_eq_iff]
    have h1 := Nat.div_mul_le_self (v * 8) mx
    have h2 := Nat.lt_div_mul_add (a := v * 8) hm
    have h1' : ((v * 8 / mx : Nat) : Rat) * mx ≤ ((v * 8 : Nat) : Rat) := by exact_mod_cast h1
    have h2' : ((v * 8 : Nat) : Rat) < ((v * 8 / mx : Nat) : Rat) * mx + mx := by exact_mod_cast h2
    constructor
    · rw [le_div_iff₀ hm']
      have : (((v * 8 / mx : Nat) : Int) : Rat) = ((v * 8 / mx : Nat) : Rat) := by norm_cast
      rw [this]
      exact h1'
    · rw [div_lt_iff₀ hm']
      have : (((v * 8 / mx : Nat) : Int) : Rat) = ((v * 8 / mx : Nat) : Rat) := by norm_cast
      rw [this]
      linarith
  rw [this]
  unfold index
  have hl : eighths mx v < barChars.length := by
    have : barChars.length = 9 := by decide
    omega
  rw [if_neg (show ¬ ((eighths mx v : Int) < 0) by omega)]
  simp only []
  rw [if_neg (show ¬ ((eighths mx v : Int) < 0) by omega)]
  simp only [Int.toNat_natCast]
  rw [List.getElem?_eq_getElem hl, List.getD_eq_getElem?_getD, List.getElem?_eq_getElem hl]
  rfl

/-- **C58**: a histogram is drawn with one character per bin, in order, between angle brackets: the number of eighths
of the largest bin. -/
theorem C58_drawn (bins : List Nat) (mx : Nat) (hm : mx ∈ bins) (hmax : ∀ b ∈ bins, b ≤ mx) (h0 : 0 < mx) :
    draw bins = .ok ('>' :: bins.map (fun v => " ▁▂▃▄▅▆▇█".toList.getD (eighths mx v) ' ') ++ ['<']) := by
  cases bins with
  | nil => cases hm
  | cons b bs =>
    obtain ⟨h1, h2⟩ := le_foldl bs b
    have hmem : bs.foldl max b ∈ b :: bs := by
      clear hm hmax h1 h2
      induction bs generalizing b with
      | nil => simp
      | cons x bs ih =>
        rw [List.foldl_cons]
        rcases List.mem_cons.1 (ih (max b x)) with h | h
        · rw [h]
          rcases Nat.le_total b x with h' | h'
          · rw [Nat.max_eq_right h']; simp
          · rw [Nat.max_eq_left h']; simp
        · simp [h]
    have hmx : bs.foldl max b = mx := by
      apply Nat.le_antisymm (hmax _ hmem)
      rcases List.mem_cons.1 hm with rfl | h
      · exact h1
      · exact h2 _ h
    unfold draw
    simp only [hmx]
    rw [if_neg (by omega)]
    have key : ∀ l : List Nat, (∀ x ∈ l, x ≤ mx) → l.mapM (fun (value : Nat) =>
        if value = 0 then index barChars 0 else index barChars (trunc ((value : Rat) / ((mx : Rat) / 8))))
        = .ok (l.map (fun v => barChars.getD (eighths mx v) ' ')) := by
      intro l hl
      induction l with
      | nil => rfl
      | cons x l ih =>
        have hx : (if x = 0 then index barChars 0 else index barChars (trunc ((x : Rat) / ((mx : Rat) / 8))))
            = .ok (barChars.getD (eighths mx x) ' ') := by
          by_cases hx0 : x = 0
          · rw [if_pos hx0, hx0]
            have : eighths mx 0 = 0 := by unfold eighths; simp
            rw [this]
            rfl
          · rw [if_neg hx0]
            exact (bar_index mx x h0 (hl x (by simp))).1
        rw [List.mapM_cons, hx, ih (fun y hy => hl y (by simp [hy]))]
        rfl
    rw [key _ hmax]
    rfl

/-- **C58** (fails): a bin that has values can be drawn as if it were empty. -/
theorem C58_drawn_empty_fails (v mx : Nat) (h0 : 0 < v) (h : v * 8 < mx) :
    draw [v, mx] = .ok ['>', ' ', '█', '<'] := by
  rw [C58_drawn [v, mx] mx (by simp) (by simp; omega) (by omega)]
  have h1 : eighths mx v = 0 := Nat.div_eq_of_lt h
  have h2 : eighths mx mx = 8 := by
    unfold eighths
    exact Nat.mul_div_cancel_left 8 (by omega)
  simp only [List.map_cons, List.map_nil, h1, h2]
  rfl

/-! ### Examples -/

example : build [1, 2, 3, 10] 4 = .ok [3, 0, 1, 0] := by decide +kernel

example : draw [3, 0, 1, 0] = .ok ">█ ▂ <".toList := by decide +kernel

end Mabel.Histogram
