import Verif.Lemmas.Disk

/-!
# Storing blobs in many folders
-/

namespace Mabel.Disk
open Mabel.Py Mabel.Paths Mabel.Naming

/-- A blob to be stored: its folder, its name in it and its bytes. -/
structure Put where
  folder : List Str
  name : Str
  bytes : Bytes

abbrev Put.path (p : Put) : Posix := ⟨[], p.folder ++ [p.name]⟩

/-- The steps of storing it. -/
abbrev Put.ops (p : Put) : List Op := blobOps p.folder p.name p.bytes

/-- Making folders, when no file is in the way. -/
theorem mkdirs_many {d : Disk} {cs : List Str} (h : ∀ n, (⟨[], cs.take n⟩ : Posix) ∉ d.names) (k : Nat)
    (hk : k ≤ cs.length) :
    ∃ d', exec d ((makedirs ⟨[], cs⟩).take k) = .ok d' ∧ d'.names = d.names ∧ d'.content = d.content ∧
      (∀ q ∈ d'.dirs, q ∈ d.dirs ∨ ∃ n, q = ⟨[], cs.take n⟩) ∧ ∀ n ≤ k, d'.isDir ⟨[], cs.take n⟩ = true := by
  induction k with
  | zero =>
    refine ⟨d, rfl, rfl, rfl, fun q hq => Or.inl hq, ?_⟩
    intro n hn
    obtain rfl : n = 0 := by omega
    simp [Disk.isDir]
  | succ k ih =>
    obtain ⟨d', he, hn, hc, hr, hd⟩ := ih (by omega)
    rw [makedirs_take (by omega)] at he
    rw [makedirs_take hk, List.range_succ, List.map_append, exec_append, he]
    simp only [List.map_cons, List.map_nil, exec]
    have h1 : (d'.names.contains (⟨[], cs.take (k + 1)⟩ : Posix)) = false := by
      rw [hn]
      simpa using h (k + 1)
    have hp : d'.isDir (parent ⟨[], cs.take (k + 1)⟩) = true := by
      have : parent ⟨[], cs.take (k + 1)⟩ = ⟨[], cs.take k⟩ := by
        unfold parent
        simp only
        congr 1
        rw [List.dropLast_eq_take, List.take_take, List.length_take]
        congr 1
        omega
      rw [this]
      exact hd k (Nat.le_refl _)
    simp only [apply, h1, hp, if_true, if_false, Bool.false_eq_true]
    by_cases hx : d'.isDir ⟨[], cs.take (k + 1)⟩ = true
    · simp only [hx, if_true]
      refine ⟨d', rfl, hn, hc, hr, ?_⟩
      intro n hnk
      rcases Nat.lt_or_ge n (k + 1) with hlt | hge
      · exact hd n (by omega)
      · obtain rfl : n = k + 1 := by omega
        exact hx
    · simp only [hx, if_false, Bool.false_eq_true]
      refine ⟨_, rfl, hn, hc, ?_, ?_⟩
      · intro q hm
        rcases List.mem_cons.1 hm with e | hm
        · exact Or.inr ⟨k + 1, e⟩
        · exact hr q hm
      · intro n hnk
        rcases Nat.lt_or_ge n (k + 1) with hlt | hge
        · have := hd n (by omega)
          simp only [Disk.isDir, Bool.or_eq_true, decide_eq_true_eq] at this ⊢
          rcases this with h | h
          · exact Or.inl h
          · exact Or.inr (by simp only [List.contains_iff_mem] at h ⊢; exact List.mem_cons_of_mem _ h)
        · obtain rfl : n = k + 1 := by omega
          simp [Disk.isDir]

/-- Storing one blob, up to any step. -/
theorem put_run {d : Disk} {p : Put} (hf : ∀ n, (⟨[], p.folder.take n⟩ : Posix) ∉ d.names) (hd : p.path ∉ d.dirs)
    (k : Nat) :
    ∃ d', exec d (p.ops.take k) = .ok d' ∧ (∀ q ∈ d'.dirs, q ∈ d.dirs ∨ ∃ n, q = ⟨[], p.folder.take n⟩) ∧
      ((k ≤ p.folder.length ∧ d'.names = d.names ∧ d'.content = d.content) ∨
        (p.folder.length < k ∧ d'.names = addName d.names p.path ∧
          (∀ q, q ≠ p.path → d'.content q = d.content q) ∧
          d'.content p.path = p.bytes.take (k - p.folder.length - 1))) := by
  obtain ⟨cs, n, bytes⟩ := p
  simp only [Put.path, Put.ops] at *
  have hlen : (makedirs ⟨[], cs⟩).length = cs.length := by simp [makedirs]
  by_cases hk : k ≤ cs.length
  · obtain ⟨d', he, h1, h2, h3, _⟩ := mkdirs_many hf k hk
    refine ⟨d', ?_, h3, Or.inl ⟨hk, h1, h2⟩⟩
    unfold blobOps
    rw [List.take_append, hlen, Nat.sub_eq_zero_of_le hk, List.take_zero, List.append_nil]
    exact he
  · obtain ⟨d1, he, h1, h2, h3, h4⟩ := mkdirs_many hf cs.length (Nat.le_refl _)
    have hfull : (makedirs ⟨[], cs⟩).take cs.length = makedirs ⟨[], cs⟩ := by
      rw [← hlen]; exact List.take_length
    rw [hfull] at he
    obtain ⟨m, hm⟩ : ∃ m, k - cs.length = m + 1 := ⟨k - cs.length - 1, by omega⟩
    have hnd : d1.isDir ⟨[], cs ++ [n]⟩ = false := by
      simp only [Disk.isDir, Bool.or_eq_false_iff, decide_eq_false_iff_not]
      refine ⟨by simp, ?_⟩
      have : (⟨[], cs ++ [n]⟩ : Posix) ∉ d1.dirs := by
        intro hm
        rcases h3 _ hm with h | ⟨j, h⟩
        · exact hd h
        · have e2 := congrArg (fun p : Posix => p.comps.length) h
          simp only [List.length_append, List.length_take, List.length_cons, List.length_nil] at e2
          omega
      simpa using this
    have hpd : d1.isDir (parent ⟨[], cs ++ [n]⟩) = true := by
      have := h4 cs.length (Nat.le_refl _)
      simp only [List.take_length] at this
      simpa [parent] using this
    obtain ⟨d2, he2, g1, g2, g3, g4⟩ := puts_run
      { d1 with
        names := addName d1.names ⟨[], cs ++ [n]⟩
        content := fun q => if q = ⟨[], cs ++ [n]⟩ then [] else d1.content q } ⟨[], cs ++ [n]⟩ (bytes.take m)
    refine ⟨d2, ?_, ?_, Or.inr ⟨by omega, ?_, ?_, ?_⟩⟩
    · unfold blobOps
      rw [List.take_append, hlen, hm, List.take_succ_cons, ← List.map_take, exec_append]
      have : (makedirs ⟨[], cs⟩).take k = makedirs ⟨[], cs⟩ := List.take_of_length_le (by omega)
      rw [this, he]
      simp only [exec, apply, hnd, hpd, Bool.not_true, Bool.or_false, Bool.false_eq_true, if_false]
      exact he2
    · intro q hq
      rw [g2] at hq
      exact h3 q hq
    · rw [g1, h1]
    · intro q hq
      rw [g3 q hq]
      simp [hq, h2]
    · rw [g4]
      have : k - cs.length - 1 = m := by omega
      simp [this]

/-- Storing several blobs, up to any step: the first `j` are there, all but perhaps the last of these
complete. -/
theorem puts_many {d : Disk} (items : List Put)
    (hf : ∀ p ∈ items, ∀ n, (⟨[], p.folder.take n⟩ : Posix) ∉ d.names) (hd : ∀ p ∈ items, p.path ∉ d.dirs)
    (hx : ∀ p ∈ items, ∀ p' ∈ items, ∀ n, p.path ≠ ⟨[], p'.folder.take n⟩)
    (hnd : (items.map Put.path).Nodup) (hnew : ∀ p ∈ items, p.path ∉ d.names) (k : Nat) :
    ∃ j d', j ≤ items.length ∧ exec d ((items.flatMap Put.ops).take k) = .ok d' ∧
      (∀ q, q ∈ d'.names ↔ q ∈ d.names ∨ ∃ p ∈ items.take j, q = p.path) ∧
      (∀ p ∈ items.take (j - 1), d'.content p.path = p.bytes) ∧
      (∀ p ∈ items.take j, d'.content p.path <+: p.bytes) ∧
      (∀ m ≤ items.length, ((items.take m).flatMap Put.ops).length ≤ k → m ≤ j ∧
        ∀ p ∈ items.take m, d'.content p.path = p.bytes) ∧
      (∀ q, (∀ p ∈ items, q ≠ p.path) → d'.content q = d.content q) ∧
      (∀ m, k ≤ ((items.take m).flatMap Put.ops).length → j ≤ m) := by
  induction items generalizing d k with
  | nil => exact ⟨0, d, by simp, by simp [exec], by simp, by simp, by simp, by simp, by simp, by simp⟩
  | cons a items ih =>
    simp only [List.map_cons, List.nodup_cons] at hnd
    have hne : ∀ p ∈ items, p.path ≠ a.path := by
      intro p hp e
      exact hnd.1 (List.mem_map.2 ⟨p, hp, e⟩)
    have hl := blobOps_length a.folder a.name a.bytes
    obtain ⟨d1, he, hdirs, hcase⟩ := put_run (hf a (by simp)) (hd a (by simp)) k
    by_cases hk : k ≤ a.ops.length
    · have hex : exec d (((a :: items).flatMap Put.ops).take k) = .ok d1 := by
        rw [List.flatMap_cons, List.take_append, Nat.sub_eq_zero_of_le hk, List.take_zero, List.append_nil]
        exact he
      rcases hcase with ⟨h0, h1, h2⟩ | ⟨h0, h1, h2, h3⟩
      · refine ⟨0, d1, by simp, hex, by simp [h1], by simp, by simp, ?_, fun q _ => by rw [h2], fun m _ => Nat.zero_le m⟩
        intro m hm hle
        cases m with
        | zero => simp
        | succ m =>
          exfalso
          rw [List.take_succ_cons, List.flatMap_cons, List.length_append] at hle
          simp only [Put.ops] at hle
          omega
      · refine ⟨1, d1, by simp, hex, ?_, by simp, ?_, ?_, fun q hq => h2 q (hq a (by simp)), ?_⟩
        · intro q
          rw [h1, mem_addName]
          simp
        · intro p hp
          simp only [List.take_succ_cons, List.take_zero, List.mem_singleton] at hp
          subst hp
          rw [h3]
          exact List.take_prefix _ _
        · intro m hm hle
          cases m with
          | zero => simp
          | succ m =>
            rw [List.take_succ_cons, List.flatMap_cons, List.length_append] at hle
            have hz : ((items.take m).flatMap Put.ops).length = 0 := by omega
            have hnil : items.take m = [] := by
              cases he : items.take m with
              | nil => rfl
              | cons b bs =>
                rw [he, List.flatMap_cons, List.length_append, Put.ops, blobOps_length] at hz
                omega
            have hm0 : m = 0 := by
              have := congrArg List.length hnil
              simp only [List.length_take, List.length_cons, List.length_nil] at this hm
              omega
            subst hm0
            refine ⟨Nat.le_refl _, ?_⟩
            intro p hp
            simp only [List.take_succ_cons, List.take_zero, List.mem_singleton] at hp
            rw [hp, h3]
            apply List.take_of_length_le
            simp only [Put.ops] at hle
            omega
        · intro m hm
          cases m with
          | zero =>
            simp only [List.take_zero, List.flatMap_nil, List.length_nil] at hm
            omega
          | succ m => omega
    · -- the first is complete
      have hfull : a.ops.take k = a.ops := List.take_of_length_le (by omega)
      rw [hfull] at he
      simp only [Put.ops] at hk
      rcases hcase with ⟨h0, _⟩ | ⟨_, h1, h2, h3⟩
      · omega
      have h3 : d1.content a.path = a.bytes := by
        rw [h3]; apply List.take_of_length_le; omega
      have hnew1 : ∀ p ∈ items, p.path ∉ d1.names := by
        intro p hp
        rw [h1, mem_addName, not_or]
        exact ⟨hnew p (List.mem_cons_of_mem _ hp), hne p hp⟩
      have hf1 : ∀ p ∈ items, ∀ n, (⟨[], p.folder.take n⟩ : Posix) ∉ d1.names := by
        intro p hp n
        rw [h1, mem_addName, not_or]
        exact ⟨hf p (List.mem_cons_of_mem _ hp) n, fun e => hx a (by simp) p (List.mem_cons_of_mem _ hp) n e.symm⟩
      have hd1 : ∀ p ∈ items, p.path ∉ d1.dirs := by
        intro p hp hm
        rcases hdirs _ hm with h | ⟨n, h⟩
        · exact hd p (List.mem_cons_of_mem _ hp) h
        · exact hx p (List.mem_cons_of_mem _ hp) a (by simp) n h
      obtain ⟨j, d2, hj, he2, g1, g3, g4, g5, g2, g6⟩ :=
        ih hf1 hd1 (fun p hp p' hp' => hx p (List.mem_cons_of_mem _ hp) p' (List.mem_cons_of_mem _ hp')) hnd.2 hnew1
          (k - a.ops.length)
      have hca : d2.content a.path = a.bytes := by
        rw [g2 _ (fun p hp e => hne p hp e.symm)]; exact h3
      refine ⟨j + 1, d2, by simp only [List.length_cons]; omega, ?_, ?_, ?_, ?_, ?_, ?_, ?_⟩
      · rw [List.flatMap_cons, List.take_append, hfull, exec_append, he]
        exact he2
      · intro q
        rw [g1, h1, mem_addName, List.take_succ_cons]
        simp only [List.mem_cons, exists_eq_or_imp, or_assoc]
      · intro p hp
        cases j with
        | zero => simp at hp
        | succ j =>
          simp only [Nat.add_sub_cancel, List.take_succ_cons, List.mem_cons] at hp
          rcases hp with rfl | hp
          · exact hca
          · exact g3 p hp
      · intro p hp
        rw [List.take_succ_cons, List.mem_cons] at hp
        rcases hp with rfl | hp
        · rw [hca]
          exact List.prefix_rfl
        · exact g4 p hp
      · intro m hm hle
        cases m with
        | zero => simp
        | succ m =>
          rw [List.take_succ_cons, List.flatMap_cons, List.length_append] at hle
          obtain ⟨e1, e2⟩ := g5 m (by simp only [List.length_cons] at hm; omega) (by omega)
          refine ⟨by omega, ?_⟩
          intro p hp
          rw [List.take_succ_cons, List.mem_cons] at hp
          rcases hp with rfl | hp
          · exact hca
          · exact e2 p hp
      · intro q hq
        rw [g2 q (fun p hp => hq p (List.mem_cons_of_mem _ hp))]
        exact h2 q (hq a (by simp))
      · intro m hm
        cases m with
        | zero =>
          simp only [List.take_zero, List.flatMap_nil, List.length_nil] at hm
          omega
        | succ m =>
          rw [List.take_succ_cons, List.flatMap_cons, List.length_append] at hm
          have := g6 m (by omega)
          omega

end Mabel.Disk
