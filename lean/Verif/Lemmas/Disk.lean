import Verif.Model.Disk
import Verif.Lemmas.Naming

/-!
# Lemmas about storing on a disk, step by step
-/

namespace Mabel.Disk
open Mabel.Py Mabel.Paths Mabel.Naming

theorem exec_append (d : Disk) (a b : List Op) :
    exec d (a ++ b) = match exec d a with
      | .error e => .error e
      | .ok d' => exec d' b := by
  induction a generalizing d with
  | nil => rfl
  | cons o os ih =>
    rw [List.cons_append, exec, exec]
    cases apply d o with
    | error e => rfl
    | ok d' => exact ih d'

/-- Where the files come from. -/
theorem exec_names {d d' : Disk} {ops : List Op} (h : exec d ops = .ok d') {q : Posix} (hq : q ∈ d'.names) :
    q ∈ d.names ∨ .create q ∈ ops := by
  induction ops generalizing d with
  | nil => cases h; exact Or.inl hq
  | cons o os ih =>
    rw [exec] at h
    cases ho : apply d o with
    | error e => rw [ho] at h; cases h
    | ok d1 =>
      rw [ho] at h
      rcases ih h with h1 | h1
      · cases o with
        | mkdir p =>
          left
          simp only [apply] at ho
          split at ho
          · cases ho
          · split at ho
            · cases ho; exact h1
            · split at ho
              · cases ho; exact h1
              · cases ho
        | create p =>
          simp only [apply] at ho
          split at ho
          · cases ho
          · cases ho
            simp only at h1
            split at h1
            · exact Or.inl h1
            · rcases List.mem_append.1 h1 with h1 | h1
              · exact Or.inl h1
              · right; rw [List.mem_singleton.1 h1]; simp
        | put p b =>
          simp only [apply] at ho
          cases ho
          exact Or.inl h1
      · exact Or.inr (List.mem_cons_of_mem _ h1)

/-- No file is removed. -/
theorem exec_keeps {d d' : Disk} {ops : List Op} (h : exec d ops = .ok d') {q : Posix} (hq : q ∈ d.names) :
    q ∈ d'.names := by
  induction ops generalizing d with
  | nil => cases h; exact hq
  | cons o os ih =>
    rw [exec] at h
    cases ho : apply d o with
    | error e => rw [ho] at h; cases h
    | ok d1 =>
      rw [ho] at h
      refine ih h ?_
      cases o with
      | mkdir p =>
        simp only [apply] at ho
        split at ho
        · cases ho
        · split at ho
          · cases ho; exact hq
          · split at ho
            · cases ho; exact hq
            · cases ho
      | create p =>
        simp only [apply] at ho
        split at ho
        · cases ho
        · cases ho
          simp only
          split
          · exact hq
          · exact List.mem_append_left _ hq
      | put p b =>
        simp only [apply] at ho
        cases ho
        exact hq

/-- Where the folders come from. -/
theorem exec_dirs {d d' : Disk} {ops : List Op} (h : exec d ops = .ok d') {q : Posix} (hq : q ∈ d'.dirs) :
    q ∈ d.dirs ∨ .mkdir q ∈ ops := by
  induction ops generalizing d with
  | nil => cases h; exact Or.inl hq
  | cons o os ih =>
    rw [exec] at h
    cases ho : apply d o with
    | error e => rw [ho] at h; cases h
    | ok d1 =>
      rw [ho] at h
      rcases ih h with h1 | h1
      · cases o with
        | mkdir p =>
          simp only [apply] at ho
          split at ho
          · cases ho
          · split at ho
            · cases ho; exact Or.inl h1
            · split at ho
              · cases ho
                rcases List.mem_cons.1 h1 with h1 | h1
                · right; rw [h1]; simp
                · exact Or.inl h1
              · cases ho
        | create p =>
          simp only [apply] at ho
          split at ho
          · cases ho
          · cases ho; exact Or.inl h1
        | put p b =>
          simp only [apply] at ho
          cases ho
          exact Or.inl h1
      · exact Or.inr (List.mem_cons_of_mem _ h1)

theorem exec_nodup {d d' : Disk} {ops : List Op} (h : exec d ops = .ok d') (hn : d.names.Nodup) : d'.names.Nodup := by
  induction ops generalizing d with
  | nil => cases h; exact hn
  | cons o os ih =>
    rw [exec] at h
    cases ho : apply d o with
    | error e => rw [ho] at h; cases h
    | ok d1 =>
      rw [ho] at h
      refine ih h ?_
      cases o with
      | mkdir p =>
        simp only [apply] at ho
        split at ho
        · cases ho
        · split at ho
          · cases ho; exact hn
          · split at ho
            · cases ho; exact hn
            · cases ho
      | create p =>
        simp only [apply] at ho
        split at ho
        · cases ho
        · cases ho
          simp only
          split
          · exact hn
          · rename_i hp
            rw [List.nodup_append]
            refine ⟨hn, by simp, ?_⟩
            intro a ha b hb e
            rw [List.mem_singleton.1 hb] at e
            subst e
            exact hp (List.contains_iff_mem.2 ha)
      | put p b =>
        simp only [apply] at ho
        cases ho
        exact hn

/-- There is room for a folder: no file is in the way, and there are no folders in it. -/
structure Room (d : Disk) (cs : List Str) : Prop where
  noFile : ∀ n, (⟨[], cs.take n⟩ : Posix) ∉ d.names
  noDir : ∀ n, (⟨[], cs ++ [n]⟩ : Posix) ∉ d.dirs

theorem makedirs_take {cs : List Str} {k : Nat} (hk : k ≤ cs.length) :
    (makedirs ⟨[], cs⟩).take k = (List.range k).map (fun i => Op.mkdir ⟨[], cs.take (i + 1)⟩) := by
  unfold makedirs
  rw [← List.map_take, List.take_range, Nat.min_eq_left hk]

/-- Making the folders. -/
theorem mkdirs_run {d : Disk} {cs : List Str} (h : Room d cs) (k : Nat) (hk : k ≤ cs.length) :
    ∃ d', exec d ((makedirs ⟨[], cs⟩).take k) = .ok d' ∧ d'.names = d.names ∧ d'.content = d.content ∧
      Room d' cs ∧ ∀ n ≤ k, d'.isDir ⟨[], cs.take n⟩ = true := by
  induction k with
  | zero =>
    refine ⟨d, rfl, rfl, rfl, h, ?_⟩
    intro n hn
    obtain rfl : n = 0 := by omega
    simp [Disk.isDir]
  | succ k ih =>
    obtain ⟨d', he, hn, hc, hr, hd⟩ := ih (by omega)
    rw [makedirs_take (by omega)] at he
    rw [makedirs_take hk, List.range_succ, List.map_append, exec_append, he]
    simp only [List.map_cons, List.map_nil, exec]
    have h1 : (d'.names.contains (⟨[], cs.take (k + 1)⟩ : Posix)) = false := by
      simpa using hr.noFile (k + 1)
    have hp : d'.isDir (parent ⟨[], cs.take (k + 1)⟩) = true := by
      have : parent ⟨[], cs.take (k + 1)⟩ = ⟨[], cs.take k⟩ := by
        unfold parent
        simp only
        congr 1
        rw [List.dropLast_eq_take, List.take_take, List.length_take]
        congr 1
        omega
      rw [this]
      exact hd k (Nat.le_refl _)
    simp only [apply, h1, hp, if_true, if_false, Bool.false_eq_true]
    by_cases hx : d'.isDir ⟨[], cs.take (k + 1)⟩ = true
    · simp only [hx, if_true]
      refine ⟨d', rfl, hn, hc, hr, ?_⟩
      intro n hnk
      rcases Nat.lt_or_ge n (k + 1) with hlt | hge
      · exact hd n (by omega)
      · obtain rfl : n = k + 1 := by omega
        exact hx
    · simp only [hx, if_false, Bool.false_eq_true]
      refine ⟨_, rfl, hn, hc, ⟨hr.noFile, ?_⟩, ?_⟩
      · intro n hm
        rcases List.mem_cons.1 hm with e | hm
        · have e2 := congrArg (fun p : Posix => p.comps.length) e
          simp only [List.length_append, List.length_take, List.length_cons, List.length_nil] at e2
          omega
        · exact hr.noDir n hm
      · intro n hnk
        rcases Nat.lt_or_ge n (k + 1) with hlt | hge
        · have := hd n (by omega)
          simp only [Disk.isDir, Bool.or_eq_true, decide_eq_true_eq] at this ⊢
          rcases this with h | h
          · exact Or.inl h
          · exact Or.inr (by simp only [List.contains_iff_mem] at h ⊢; exact List.mem_cons_of_mem _ h)
        · obtain rfl : n = k + 1 := by omega
          simp [Disk.isDir]

/-- Writing the bytes. -/
theorem puts_run (d : Disk) (p : Posix) (bytes : Bytes) :
    ∃ d', exec d (bytes.map (.put p)) = .ok d' ∧ d'.names = d.names ∧ d'.dirs = d.dirs ∧
      (∀ q, q ≠ p → d'.content q = d.content q) ∧ d'.content p = d.content p ++ bytes := by
  induction bytes generalizing d with
  | nil => exact ⟨d, rfl, rfl, rfl, fun _ _ => rfl, by simp⟩
  | cons b bytes ih =>
    obtain ⟨d', he, h1, h2, h3, h4⟩ := ih { d with content := fun q => if q = p then d.content p ++ [b] else d.content q }
    refine ⟨d', by rw [List.map_cons, exec]; exact he, h1, h2, ?_, ?_⟩
    · intro q hq
      rw [h3 q hq]
      simp [hq]
    · rw [h4]; simp

/-- The names of the files when one is added. -/
def addName (names : List Posix) (p : Posix) : List Posix := if names.contains p then names else names ++ [p]

theorem mem_addName {names : List Posix} {p q : Posix} : q ∈ addName names p ↔ q ∈ names ∨ q = p := by
  unfold addName
  split
  · rename_i h
    simp only [List.contains_iff_mem] at h
    constructor
    · exact Or.inl
    · rintro (h1 | rfl)
      · exact h1
      · exact h
  · simp

/-- The steps of storing a blob in a folder. -/
def blobOps (cs : List Str) (n : Str) (bytes : Bytes) : List Op :=
  makedirs ⟨[], cs⟩ ++ .create ⟨[], cs ++ [n]⟩ :: bytes.map (.put ⟨[], cs ++ [n]⟩)

theorem blobOps_length (cs : List Str) (n : Str) (bytes : Bytes) :
    (blobOps cs n bytes).length = cs.length + 1 + bytes.length := by
  simp [blobOps, makedirs]; omega

/-- Storing a blob, up to any step. -/
theorem commit_run {d : Disk} {cs : List Str} (h : Room d cs) (n : Str) (bytes : Bytes) (k : Nat) :
    ∃ d', exec d ((blobOps cs n bytes).take k) = .ok d' ∧ Room d' cs ∧
      ((k ≤ cs.length ∧ d'.names = d.names ∧ d'.content = d.content) ∨
        (cs.length < k ∧ d'.names = addName d.names ⟨[], cs ++ [n]⟩ ∧
          (∀ q, q ≠ ⟨[], cs ++ [n]⟩ → d'.content q = d.content q) ∧
          d'.content ⟨[], cs ++ [n]⟩ = bytes.take (k - cs.length - 1))) := by
  have hlen : (makedirs ⟨[], cs⟩).length = cs.length := by simp [makedirs]
  by_cases hk : k ≤ cs.length
  · obtain ⟨d', he, h1, h2, h3, _⟩ := mkdirs_run h k hk
    refine ⟨d', ?_, h3, Or.inl ⟨hk, h1, h2⟩⟩
    unfold blobOps
    rw [List.take_append, hlen, Nat.sub_eq_zero_of_le hk, List.take_zero, List.append_nil]
    exact he
  · obtain ⟨d1, he, h1, h2, h3, h4⟩ := mkdirs_run h cs.length (Nat.le_refl _)
    have hfull : (makedirs ⟨[], cs⟩).take cs.length = makedirs ⟨[], cs⟩ := by
      rw [← hlen]; exact List.take_length
    rw [hfull] at he
    obtain ⟨m, hm⟩ : ∃ m, k - cs.length = m + 1 := ⟨k - cs.length - 1, by omega⟩
    have hnd : d1.isDir ⟨[], cs ++ [n]⟩ = false := by
      have := h3.noDir n
      simp only [Disk.isDir, Bool.or_eq_false_iff, decide_eq_false_iff_not]
      refine ⟨by simp, ?_⟩
      simpa using this
    have hpd : d1.isDir (parent ⟨[], cs ++ [n]⟩) = true := by
      have := h4 cs.length (Nat.le_refl _)
      simp only [List.take_length] at this
      simpa [parent] using this
    obtain ⟨d2, he2, g1, g2, g3, g4⟩ := puts_run
      { d1 with
        names := addName d1.names ⟨[], cs ++ [n]⟩
        content := fun q => if q = ⟨[], cs ++ [n]⟩ then [] else d1.content q } ⟨[], cs ++ [n]⟩ (bytes.take m)
    refine ⟨d2, ?_, ⟨?_, ?_⟩, Or.inr ⟨by omega, ?_, ?_, ?_⟩⟩
    · unfold blobOps
      rw [List.take_append, hlen, hm, List.take_succ_cons, ← List.map_take, exec_append]
      have : (makedirs ⟨[], cs⟩).take k = makedirs ⟨[], cs⟩ := List.take_of_length_le (by omega)
      rw [this, he]
      simp only [exec, apply, hnd, hpd, Bool.not_true, Bool.or_false, Bool.false_eq_true, if_false]
      exact he2
    · intro j
      rw [g1, mem_addName, not_or]
      refine ⟨h3.noFile j, ?_⟩
      intro e
      have e2 := congrArg (fun p : Posix => p.comps.length) e
      simp only [List.length_append, List.length_take, List.length_cons, List.length_nil] at e2
      omega
    · intro j
      rw [g2]
      exact h3.noDir j
    · rw [g1, h1]
    · intro q hq
      rw [g3 q hq]
      simp [hq, h2]
    · rw [g4]
      have : k - cs.length - 1 = m := by omega
      simp [this]

/-- The path of a blob in a folder. -/
abbrev at_ (cs : List Str) (it : Str × Bytes) : Posix := ⟨[], cs ++ [it.1]⟩

/-- Storing several blobs in a folder, up to any step: the first `j` are there, all but perhaps the last
of these complete. -/
theorem store_run {d : Disk} {cs : List Str} (h : Room d cs) (items : List (Str × Bytes))
    (hnd : (items.map Prod.fst).Nodup) (hnew : ∀ it ∈ items, at_ cs it ∉ d.names) (k : Nat) :
    ∃ j d', j ≤ items.length ∧
      exec d ((items.flatMap (fun it => blobOps cs it.1 it.2)).take k) = .ok d' ∧ Room d' cs ∧
      (∀ q, q ∈ d'.names ↔ q ∈ d.names ∨ ∃ it ∈ items.take j, q = at_ cs it) ∧
      (∀ q, (∀ it ∈ items, q ≠ at_ cs it) → d'.content q = d.content q) ∧
      (∀ it ∈ items.take (j - 1), d'.content (at_ cs it) = it.2) ∧
      (∀ it ∈ items.take j, d'.content (at_ cs it) <+: it.2) ∧
      ((items.flatMap (fun it => blobOps cs it.1 it.2)).length ≤ k →
        j = items.length ∧ ∀ it ∈ items, d'.content (at_ cs it) = it.2) := by
  induction items generalizing d k with
  | nil => exact ⟨0, d, by simp, by simp [exec], h, by simp, by simp, by simp, by simp, by simp⟩
  | cons a items ih =>
    simp only [List.map_cons, List.nodup_cons] at hnd
    have hne : ∀ it ∈ items, at_ cs it ≠ at_ cs a := by
      intro it hit e
      have e2 := congrArg Posix.comps e
      have e3 := List.append_cancel_left e2
      simp only [List.cons.injEq, and_true] at e3
      exact hnd.1 (List.mem_map.2 ⟨it, hit, e3⟩)
    have hl := blobOps_length cs a.1 a.2
    obtain ⟨d1, he, hr, hcase⟩ := commit_run h a.1 a.2 k
    by_cases hk : k ≤ (blobOps cs a.1 a.2).length
    · have hex : exec d (((a :: items).flatMap (fun it => blobOps cs it.1 it.2)).take k) = .ok d1 := by
        rw [List.flatMap_cons, List.take_append, Nat.sub_eq_zero_of_le hk, List.take_zero, List.append_nil]
        exact he
      rcases hcase with ⟨h0, h1, h2⟩ | ⟨h0, h1, h2, h3⟩
      · refine ⟨0, d1, by simp, hex, hr, by simp [h1], fun q _ => by rw [h2], by simp, by simp, ?_⟩
        intro hle
        exfalso
        rw [List.flatMap_cons, List.length_append] at hle
        omega
      · refine ⟨1, d1, by simp, hex, hr, ?_, ?_, by simp, ?_, ?_⟩
        · intro q
          rw [h1, mem_addName]
          simp
        · intro q hq
          exact h2 q (hq a (by simp))
        · intro it hit
          simp only [List.take_succ_cons, List.take_zero, List.mem_singleton] at hit
          subst hit
          rw [h3]
          exact List.take_prefix _ _
        · intro hle
          rw [List.flatMap_cons, List.length_append] at hle
          have hz : (items.flatMap (fun it => blobOps cs it.1 it.2)).length = 0 := by omega
          have hnil : items = [] := by
            cases items with
            | nil => rfl
            | cons b bs =>
              rw [List.flatMap_cons, List.length_append, blobOps_length] at hz
              omega
          subst hnil
          refine ⟨rfl, ?_⟩
          intro it hit
          rw [List.mem_singleton.1 hit, h3]
          apply List.take_of_length_le
          omega
    · -- the first is complete
      have hfull : (blobOps cs a.1 a.2).take k = blobOps cs a.1 a.2 := List.take_of_length_le (by omega)
      rw [hfull] at he
      rcases hcase with ⟨h0, _⟩ | ⟨_, h1, h2, h3⟩
      · omega
      have h3 : d1.content (at_ cs a) = a.2 := by
        rw [h3]; apply List.take_of_length_le; omega
      have hnew1 : ∀ it ∈ items, at_ cs it ∉ d1.names := by
        intro it hit
        rw [h1, mem_addName, not_or]
        exact ⟨hnew it (List.mem_cons_of_mem _ hit), hne it hit⟩
      obtain ⟨j, d2, hj, he2, hr2, g1, g2, g3, g4, g5⟩ :=
        ih hr hnd.2 hnew1 (k - (blobOps cs a.1 a.2).length)
      have hca : d2.content (at_ cs a) = a.2 := by
        rw [g2 _ (fun it hit e => hne it hit e.symm)]; exact h3
      refine ⟨j + 1, d2, by simp only [List.length_cons]; omega, ?_, hr2, ?_, ?_, ?_, ?_, ?_⟩
      · rw [List.flatMap_cons, List.take_append, hfull, exec_append, he]
        exact he2
      · intro q
        rw [g1, h1, mem_addName, List.take_succ_cons]
        simp only [List.mem_cons, exists_eq_or_imp, or_assoc]
      · intro q hq
        rw [g2 q (fun it hit => hq it (List.mem_cons_of_mem _ hit))]
        exact h2 q (hq a (by simp))
      · intro it hit
        rw [Nat.add_sub_cancel] at hit
        cases j with
        | zero => simp at hit
        | succ j =>
          rw [List.take_succ_cons, List.mem_cons] at hit
          rcases hit with rfl | hit
          · exact hca
          · exact g3 it (by rw [Nat.add_sub_cancel]; exact hit)
      · intro it hit
        rw [List.take_succ_cons, List.mem_cons] at hit
        rcases hit with rfl | hit
        · rw [hca]
          exact List.prefix_refl _
        · exact g4 it hit
      · intro hle
        rw [List.flatMap_cons, List.length_append] at hle
        obtain ⟨g6, g7⟩ := g5 (by omega)
        refine ⟨by simp [g6], ?_⟩
        intro it hit
        rcases List.mem_cons.1 hit with rfl | hit
        · exact hca
        · exact g7 it hit

end Mabel.Disk
