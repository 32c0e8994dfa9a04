import Verif.Model.Paging
import Mathlib.Tactic.ByContra

/-! # Paging (C61) -/

namespace Mabel.Paging
open Mabel.Py
variable {α : Type}

/-- Pages all of which but the last are full, the last one not. -/
def Pages (size : Nat) (pages : List (List (Option α))) : Prop :=
  ∃ full last, pages = full ++ [last] ∧ (∀ p ∈ full, p.length = size) ∧ last.length < size

theorem go_pages (size : Nat) (hs : 0 < size) (rs : List α) : ∀ (i : Nat) (pre : List α), 0 < i →
    pre.length = (i - 1) % size + 1 →
    ∃ pages, pageGo size i (pre.map some ++ List.replicate (size - pre.length) none) rs = .ok pages ∧
      Pages size pages ∧ pages.flatten = ((pre ++ rs).dropLast).map some := by
  induction rs with
  | nil =>
    intro i pre hi hp
    have hlt : (i - 1) % size < size := Nat.mod_lt _ hs
    refine ⟨_, if_neg (by omega), ⟨[], _, rfl, by simp, ?_⟩, ?_⟩
    · rw [List.length_take]
      omega
    · rw [List.append_nil, List.flatten_singleton, List.take_append_of_le_length (by simp; omega), ← List.map_take,
        show (i - 1) % size = pre.length - 1 by omega, ← List.dropLast_eq_take]
  | cons r rs ih =>
    intro i pre hi hp
    have hlt : (i - 1) % size < size := Nat.mod_lt _ hs
    rw [pageGo]
    by_cases h : i % size = 0
    · rw [if_pos ⟨hi, h⟩]
      have hfull : pre.length = size := by
        rw [hp]
        have h1 : i = (i - 1) + 1 := by omega
        have h2 := Nat.div_add_mod (i - 1) size
        by_contra hne
        have : (i - 1) % size + 1 < size := by omega
        have h3 : ((i - 1) + 1) % size = (i - 1) % size + 1 := by
          rw [Nat.add_mod, Nat.mod_eq_of_lt (show 1 < size by omega), Nat.mod_eq_of_lt this]
        rw [show i - 1 + 1 = i by omega] at h3
        omega
      have hset : (List.replicate size (none : Option α)).set 0 (some r)
          = [r].map some ++ List.replicate (size - [r].length) none := by
        obtain ⟨k, rfl⟩ : ∃ k, size = k + 1 := ⟨size - 1, by omega⟩
        simp [List.replicate_succ]
      rw [hset]
      obtain ⟨pages, h1, ⟨full, last, rfl, h3, h4⟩, h5⟩ := ih (i + 1) [r] (by omega) (by simp [h])
      rw [h1]
      refine ⟨(pre.map some ++ List.replicate (size - pre.length) none) :: (full ++ [last]), rfl,
        ⟨(pre.map some ++ List.replicate (size - pre.length) none) :: full, last, rfl, ?_, h4⟩, ?_⟩
      · intro p hp'
        rcases List.mem_cons.1 hp' with rfl | hp'
        · simp; omega
        · exact h3 p hp'
      · rw [List.flatten_cons, h5, hfull, Nat.sub_self, List.replicate_zero, List.append_nil, ← List.map_append,
          show (pre ++ r :: rs).dropLast = pre ++ (r :: rs).dropLast from List.dropLast_append_of_ne_nil (by simp)]
        rfl
    · rw [if_neg (by omega)]
      have hmod : i % size = (i - 1) % size + 1 := by
        have h1 : i = (i - 1) + 1 := by omega
        by_contra hne
        have hcases : (i - 1) % size + 1 < size ∨ (i - 1) % size + 1 = size := by omega
        rcases hcases with hc | hc
        · apply hne
          conv => lhs; rw [h1]
          rw [Nat.add_mod, Nat.mod_eq_of_lt (show 1 < size by omega), Nat.mod_eq_of_lt hc]
        · apply h
          rw [h1, Nat.add_mod]
          by_cases h1s : size = 1
          · subst h1s; exact Nat.mod_one _
          · rw [Nat.mod_eq_of_lt (show 1 < size by omega), hc, Nat.mod_self]
      have hlt' : i % size < size := Nat.mod_lt _ hs
      have hset : (pre.map some ++ List.replicate (size - pre.length) (none : Option α)).set (i % size) (some r)
          = (pre ++ [r]).map some ++ List.replicate (size - (pre ++ [r]).length) none := by
        obtain ⟨k, hk⟩ : ∃ k, size - pre.length = k + 1 := ⟨size - pre.length - 1, by omega⟩
        rw [List.set_append_right _ _ (by simp; omega), hk, List.replicate_succ]
        have : i % size - (pre.map some).length = 0 := by simp; omega
        rw [this, List.set_cons_zero]
        have hk' : size - (pre ++ [r]).length = k := by simp; omega
        rw [hk']
        simp
      rw [hset]
      obtain ⟨pages, h1, h2, h3⟩ := ih (i + 1) (pre ++ [r]) (by omega) (by simp; omega)
      exact ⟨pages, h1, h2, by rw [h3]; simp⟩

/-- **C61** (partial): all records but the last come out once, in order, in pages all of which but the last are
full.  Missing: the last record. -/
theorem C61_pages_partial (size : Nat) (hs : 0 < size) (rs : List α) (hr : rs ≠ []) :
    ∃ pages, pageDictset size rs = .ok pages ∧ Pages size pages ∧ pages.flatten = rs.dropLast.map some := by
  cases rs with
  | nil => exact absurd rfl hr
  | cons r rs =>
    unfold pageDictset
    rw [if_neg (by omega), pageGo, if_neg (by omega)]
    have hset : (List.replicate size (none : Option α)).set (0 % size) (some r)
        = [r].map some ++ List.replicate (size - [r].length) none := by
      obtain ⟨k, rfl⟩ : ∃ k, size = k + 1 := ⟨size - 1, by omega⟩
      simp [List.replicate_succ]
    rw [hset]
    exact go_pages size hs rs 1 [r] (by omega) (by simp)

/-- **C61** (fails): the last record is on no page, for every size of pages and all records. -/
theorem C61_last_record_fails (size : Nat) (hs : 0 < size) (rs : List α) (last : α) (hl : last ∉ rs) :
    ∃ pages, pageDictset size (rs ++ [last]) = .ok pages ∧ ∀ p ∈ pages, some last ∉ p := by
  obtain ⟨pages, h1, -, h3⟩ := C61_pages_partial size hs (rs ++ [last]) (by simp)
  refine ⟨pages, h1, fun p hp h => hl ?_⟩
  have : some last ∈ pages.flatten := List.mem_flatten.2 ⟨p, hp, h⟩
  rw [h3] at this
  simpa using this

/-- **C61** (fails): no records at all are an error. -/
theorem C61_empty_fails (size : Nat) (hs : 0 < size) : pageDictset size ([] : List α) = .error .unboundLocal := by
  unfold pageDictset
  rw [if_neg (by omega)]
  rfl

example : pageDictset 2 [1, 2, 3, 4, 5] = .ok [[some 1, some 2], [some 3, some 4], []] ∧
    pageDictset 2 [1, 2, 3, 4] = .ok [[some 1, some 2], [some 3]] := ⟨rfl, rfl⟩

end Mabel.Paging
