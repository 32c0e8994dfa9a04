import Verif.Lemmas.DiskMany
import Verif.Spec.StreamStorage
import Mathlib.Data.List.Induction

/-!
# Several processes storing blobs on one disk
-/

namespace Mabel.Disk
open Mabel.Py Mabel.Paths Mabel.Naming
open Mabel.StreamStorage (share)

/-- What a step of storing a blob is. -/
theorem mem_ops {p : Put} {o : Op} (h : o ∈ p.ops) :
    (∃ n, o = .mkdir ⟨[], p.folder.take n⟩) ∨ o = .create p.path ∨ ∃ b ∈ p.bytes, o = .put p.path b := by
  unfold Put.ops blobOps makedirs at h
  rcases List.mem_append.1 h with h | h
  · obtain ⟨n, -, rfl⟩ := List.mem_map.1 h
    exact Or.inl ⟨n + 1, rfl⟩
  · rcases List.mem_cons.1 h with rfl | h
    · exact Or.inr (Or.inl rfl)
    · obtain ⟨b, hb, rfl⟩ := List.mem_map.1 h
      exact Or.inr (Or.inr ⟨b, hb, rfl⟩)

theorem share_snoc (os : List (Nat × Op)) (i : Nat) (o : Op) (j : Nat) :
    share (os ++ [(i, o)]) j = if i = j then share os j ++ [o] else share os j := by
  unfold share
  rw [List.filter_append, List.map_append]
  by_cases h : i = j
  · simp [h]
  · simp [h]

/-- Steps of several processes, in any order in which each takes its own in order: every step goes well, and
what becomes of those blobs of a process that no other process stores is what would become of them if it were alone. -/
theorem merge_shared {d : Disk} (items : Nat → List Put)
    (hf : ∀ i, ∀ p ∈ items i, ∀ n, (⟨[], p.folder.take n⟩ : Posix) ∉ d.names)
    (hd : ∀ i, ∀ p ∈ items i, p.path ∉ d.dirs)
    (hx : ∀ i, ∀ p ∈ items i, ∀ j, ∀ p' ∈ items j, ∀ n, p.path ≠ ⟨[], p'.folder.take n⟩)
    (os : List (Nat × Op)) (hos : ∀ i, share os i <+: (items i).flatMap Put.ops)
    (solo : Nat → Disk) (hsolo : ∀ i, exec d (share os i) = .ok (solo i)) :
    ∃ d', exec d (os.map (·.2)) = .ok d' ∧
      (∀ q, q ∈ d'.names ↔ q ∈ d.names ∨ ∃ i, q ∈ (solo i).names) ∧
      (∀ i, ∀ p ∈ items i, (∀ j, i ≠ j → ∀ p' ∈ items j, p.path ≠ p'.path) → d'.content p.path = (solo i).content p.path) ∧
      (∀ i, ∀ q ∈ (solo i).dirs, q ∈ d'.dirs) ∧
      (∀ q ∈ d'.dirs, q ∈ d.dirs ∨ ∃ i, ∃ p ∈ items i, ∃ n, q = ⟨[], p.folder.take n⟩) ∧
      (∀ q ∈ d'.names, q ∈ d.names ∨ ∃ i, ∃ p ∈ items i, q = p.path) ∧
      (∀ q, (∀ i, ∀ p ∈ items i, q ≠ p.path) → d'.content q = d.content q) := by
  induction os using List.reverseRecOn generalizing solo with
  | nil =>
    have : ∀ i, solo i = d := fun i => by
      have := hsolo i
      simp only [share, List.filter_nil, List.map_nil, exec, Except.ok.injEq] at this
      exact this.symm
    refine ⟨d, rfl, ?_, ?_, ?_, ?_, ?_, ?_⟩
    · intro q
      constructor
      · exact Or.inl
      · rintro (h | ⟨i, h⟩)
        · exact h
        · rw [this] at h; exact h
    · intro i p hp _; rw [this]
    · intro i q hq; rw [this] at hq; exact hq
    · intro q hq; exact Or.inl hq
    · intro q hq; exact Or.inl hq
    · intro q _; rfl
  | append_singleton os x ih =>
    obtain ⟨i, o⟩ := x
    have hi := hsolo i
    rw [share_snoc, if_pos rfl, exec_append] at hi
    -- the state of the process before the step
    obtain ⟨di, hdi, ho⟩ : ∃ di, exec d (share os i) = .ok di ∧ apply di o = .ok (solo i) := by
      cases he : exec d (share os i) with
      | error e => rw [he] at hi; cases hi
      | ok di =>
        rw [he] at hi
        refine ⟨di, rfl, ?_⟩
        simp only [exec] at hi
        cases ha : apply di o with
        | error e => rw [ha] at hi; cases hi
        | ok d1 => rw [ha] at hi; simpa using hi
    have hpre : ∀ j, share os j <+: (items j).flatMap Put.ops := by
      intro j
      have := hos j
      rw [share_snoc] at this
      by_cases h : i = j
      · rw [if_pos h] at this
        exact (List.prefix_append _ _).trans this
      · rw [if_neg h] at this
        exact this
    let solo' : Nat → Disk := fun j => if j = i then di else solo j
    have hs' : ∀ j, exec d (share os j) = .ok (solo' j) := by
      intro j
      by_cases h : j = i
      · subst h; simp only [solo', if_true]; exact hdi
      · simp only [solo', if_neg h]
        have := hsolo j
        rw [share_snoc, if_neg (fun e => h e.symm)] at this
        exact this
    have hsi : solo' i = di := if_pos rfl
    have hsj : ∀ j, j ≠ i → solo' j = solo j := fun j h => if_neg h
    obtain ⟨d', he, g1, g2, g3, g4, g5, g6⟩ := ih hpre solo' hs'
    -- whose step it is
    obtain ⟨p, hp, hop⟩ : ∃ p ∈ items i, o ∈ p.ops := by
      have h := hos i
      rw [share_snoc, if_pos rfl] at h
      exact List.mem_flatMap.1 (h.subset (by simp))
    have hexec : ∀ d'', apply d' o = .ok d'' → exec d ((os ++ [(i, o)]).map (·.2)) = .ok d'' := by
      intro d'' h
      rw [List.map_append, exec_append, he]
      simp [exec, h]
    have hdir : ∀ q, di.isDir q = true → d'.isDir q = true := by
      intro q hq
      simp only [Disk.isDir, Bool.or_eq_true, decide_eq_true_eq, List.contains_iff_mem] at hq ⊢
      exact hq.imp id (fun h => g3 i q (by rw [hsi]; exact h))
    rcases mem_ops hop with ⟨n, rfl⟩ | rfl | ⟨b, hb, rfl⟩
    · -- a folder
      have hno : d'.names.contains (⟨[], p.folder.take n⟩ : Posix) = false := by
        rw [Bool.eq_false_iff, Ne, List.contains_iff_mem]
        intro hm
        rcases g5 _ hm with h | ⟨j, p', hp', h⟩
        · exact hf i p hp n h
        · exact hx j p' hp' i p hp n h.symm
      have hsn : (solo i).names = di.names ∧ (solo i).content = di.content ∧
          ∀ q ∈ (solo i).dirs, q ∈ di.dirs ∨ q = ⟨[], p.folder.take n⟩ := by
        simp only [apply] at ho
        split at ho
        · cases ho
        · split at ho
          · rw [← Except.ok.inj ho]; exact ⟨rfl, rfl, fun q hq => Or.inl hq⟩
          · split at ho
            · rw [← Except.ok.inj ho]
              refine ⟨rfl, rfl, fun q hq => ?_⟩
              rcases List.mem_cons.1 hq with h | h
              · exact Or.inr h
              · exact Or.inl h
            · cases ho
      obtain ⟨d'', ha, hn, hc, hds, hin, hmk⟩ : ∃ d'', apply d' (.mkdir ⟨[], p.folder.take n⟩) = .ok d'' ∧
          d''.names = d'.names ∧ d''.content = d'.content ∧
          (∀ q ∈ d''.dirs, q ∈ d'.dirs ∨ q = ⟨[], p.folder.take n⟩) ∧ (∀ q ∈ d'.dirs, q ∈ d''.dirs) ∧
          ((⟨[], p.folder.take n⟩ : Posix) ∈ (solo i).dirs → (⟨[], p.folder.take n⟩ : Posix) ∈ d''.dirs) := by
        simp only [apply, hno, Bool.false_eq_true, if_false]
        by_cases h1 : d'.isDir ⟨[], p.folder.take n⟩ = true
        · refine ⟨d', by rw [if_pos h1], rfl, rfl, fun q hq => Or.inl hq, fun q hq => hq, ?_⟩
          intro hm
          simp only [Disk.isDir, Bool.or_eq_true, decide_eq_true_eq, List.contains_iff_mem] at h1
          rcases h1 with h1 | h1
          · -- the working folder is not in the list
            refine g3 i _ ?_
            rw [hsi]
            simp only [apply] at ho
            split at ho
            · cases ho
            · split at ho
              · rw [← Except.ok.inj ho] at hm; exact hm
              · rename_i h3
                simp [Disk.isDir, h1] at h3
          · exact h1
        · have h2 : d'.isDir (parent ⟨[], p.folder.take n⟩) = true := by
            apply hdir
            simp only [apply] at ho
            split at ho
            · cases ho
            · split at ho
              · rename_i h3
                exact absurd (hdir _ h3) h1
              · split at ho
                · assumption
                · cases ho
          refine ⟨{ d' with dirs := ⟨[], p.folder.take n⟩ :: d'.dirs }, by rw [if_neg h1, if_pos h2], rfl, rfl, ?_, ?_, ?_⟩
          · intro q hq
            rcases List.mem_cons.1 hq with h | h
            · exact Or.inr h
            · exact Or.inl h
          · intro q hq; exact List.mem_cons_of_mem _ hq
          · intro _; exact List.mem_cons_self
      refine ⟨d'', hexec d'' ha, ?_, ?_, ?_, ?_, ?_, ?_⟩
      · intro q
        rw [hn, g1]
        refine or_congr Iff.rfl (exists_congr fun j => ?_)
        by_cases h : j = i
        · subst h; rw [hsi, hsn.1]
        · rw [hsj j h]
      · intro j p' hp' hne
        rw [hc, g2 j p' hp' hne]
        by_cases h : j = i
        · subst h; rw [hsi, hsn.2.1]
        · rw [hsj j h]
      · intro j q hq
        by_cases h : j = i
        · subst h
          rcases hsn.2.2 q hq with h | h
          · exact hin q (g3 j q (by rw [hsi]; exact h))
          · rw [h] at hq ⊢; exact hmk hq
        · exact hin q (g3 j q (by rw [hsj j h]; exact hq))
      · intro q hq
        rcases hds q hq with h | h
        · exact g4 q h
        · exact Or.inr ⟨i, p, hp, n, h⟩
      · rw [hn]; exact g5
      · rw [hc]; exact g6
    · -- the file
      have hpar : d'.isDir (parent p.path) = true := by
        apply hdir
        simp only [apply] at ho
        split at ho
        · cases ho
        · rename_i h
          simp only [Bool.or_eq_true, Bool.not_eq_true', not_or] at h
          simpa using h.2
      have hnd : d'.isDir p.path = false := by
        simp only [Disk.isDir, Bool.or_eq_false_iff, decide_eq_false_iff_not]
        refine ⟨by simp, ?_⟩
        rw [Bool.eq_false_iff, Ne, List.contains_iff_mem]
        intro hm
        rcases g4 _ hm with h | ⟨j, p', hp', n, h⟩
        · exact hd i p hp h
        · exact hx i p hp j p' hp' n h
      have hso : (∀ q, q ∈ (solo i).names ↔ q ∈ di.names ∨ q = p.path) ∧
          (solo i).content = (fun q => if q = p.path then [] else di.content q) ∧ (solo i).dirs = di.dirs := by
        simp only [apply] at ho
        split at ho
        · cases ho
        · rw [← Except.ok.inj ho]
          exact ⟨fun q => mem_addName, rfl, rfl⟩
      refine ⟨{ d' with
        names := if d'.names.contains p.path then d'.names else d'.names ++ [p.path]
        content := fun q => if q = p.path then [] else d'.content q }, hexec _ (by simp only [apply, hnd, hpar, Bool.not_true, Bool.or_false, Bool.false_eq_true, if_false]),
        ?_, ?_, ?_, ?_, ?_, ?_⟩
      · intro q
        show q ∈ addName d'.names p.path ↔ _
        rw [mem_addName, g1]
        constructor
        · rintro ((h | ⟨j, h⟩) | h)
          · exact Or.inl h
          · refine Or.inr ⟨j, ?_⟩
            by_cases hj : j = i
            · subst hj; rw [hsi] at h; exact (hso.1 q).2 (Or.inl h)
            · rw [hsj j hj] at h; exact h
          · exact Or.inr ⟨i, (hso.1 q).2 (Or.inr h)⟩
        · rintro (h | ⟨j, h⟩)
          · exact Or.inl (Or.inl h)
          · by_cases hj : j = i
            · subst hj
              rcases (hso.1 q).1 h with h | h
              · exact Or.inl (Or.inr ⟨j, by rw [hsi]; exact h⟩)
              · exact Or.inr h
            · exact Or.inl (Or.inr ⟨j, by rw [hsj j hj]; exact h⟩)
      · intro j p' hp' hne
        simp only
        by_cases hj : j = i
        · subst hj
          rw [hso.2.1]
          simp only
          rw [g2 j p' hp' hne, hsi]
        · rw [if_neg (fun e => hne i hj p hp e), g2 j p' hp' hne, hsj j hj]
      · intro j q hq
        by_cases hj : j = i
        · subst hj; rw [hso.2.2] at hq; exact g3 j q (by rw [hsi]; exact hq)
        · exact g3 j q (by rw [hsj j hj]; exact hq)
      · exact g4
      · intro q hq
        have hq : q ∈ addName d'.names p.path := hq
        rcases mem_addName.1 hq with h | h
        · exact g5 q h
        · exact Or.inr ⟨i, p, hp, h⟩
      · intro q hq
        simp only
        rw [if_neg (hq i p hp), g6 q hq]
    · -- a byte
      have hso : solo i = { di with content := fun q => if q = p.path then di.content p.path ++ [b] else di.content q } := by
        simp only [apply] at ho
        exact (Except.ok.inj ho).symm
      refine ⟨_, hexec _ rfl, ?_, ?_, ?_, ?_, ?_, ?_⟩
      · intro q
        show q ∈ d'.names ↔ _
        rw [g1]
        refine or_congr Iff.rfl (exists_congr fun j => ?_)
        by_cases h : j = i
        · subst h; rw [hsi, hso]
        · rw [hsj j h]
      · intro j p' hp' hne
        simp only
        by_cases hj : j = i
        · subst hj
          rw [hso]
          simp only
          rw [g2 j p' hp' hne, hsi]
          by_cases e : p'.path = p.path
          · rw [if_pos e, if_pos e, g2 j p hp (by rw [← e]; exact hne), hsi]
          · rw [if_neg e, if_neg e]
        · rw [if_neg (fun e => hne i hj p hp e), g2 j p' hp' hne, hsj j hj]
      · intro j q hq
        by_cases hj : j = i
        · subst hj; rw [hso] at hq; exact g3 j q (by rw [hsi]; exact hq)
        · exact g3 j q (by rw [hsj j hj]; exact hq)
      · exact g4
      · exact g5
      · intro q hq
        simp only
        rw [if_neg (hq i p hp), g6 q hq]

/-- The same if no two have a blob with the same name. -/
theorem merge_solo {d : Disk} (items : Nat → List Put)
    (hf : ∀ i, ∀ p ∈ items i, ∀ n, (⟨[], p.folder.take n⟩ : Posix) ∉ d.names)
    (hd : ∀ i, ∀ p ∈ items i, p.path ∉ d.dirs)
    (hx : ∀ i, ∀ p ∈ items i, ∀ j, ∀ p' ∈ items j, ∀ n, p.path ≠ ⟨[], p'.folder.take n⟩)
    (hne : ∀ i j, i ≠ j → ∀ p ∈ items i, ∀ p' ∈ items j, p.path ≠ p'.path)
    (os : List (Nat × Op)) (hos : ∀ i, share os i <+: (items i).flatMap Put.ops)
    (solo : Nat → Disk) (hsolo : ∀ i, exec d (share os i) = .ok (solo i)) :
    ∃ d', exec d (os.map (·.2)) = .ok d' ∧
      (∀ q, q ∈ d'.names ↔ q ∈ d.names ∨ ∃ i, q ∈ (solo i).names) ∧
      (∀ i, ∀ p ∈ items i, d'.content p.path = (solo i).content p.path) ∧
      (∀ i, ∀ q ∈ (solo i).dirs, q ∈ d'.dirs) ∧
      (∀ q ∈ d'.dirs, q ∈ d.dirs ∨ ∃ i, ∃ p ∈ items i, ∃ n, q = ⟨[], p.folder.take n⟩) ∧
      (∀ q ∈ d'.names, q ∈ d.names ∨ ∃ i, ∃ p ∈ items i, q = p.path) ∧
      (∀ q, (∀ i, ∀ p ∈ items i, q ≠ p.path) → d'.content q = d.content q) :=
  let ⟨d', h1, h2, h3, h4⟩ := merge_shared items hf hd hx os hos solo hsolo
  ⟨d', h1, h2, fun i p hp => h3 i p hp (fun j hij => hne i j hij p hp), h4⟩

/-- Steps of several processes, in any order in which each takes its own in order: of each process the first so
many blobs are there, all but perhaps the last of these complete. -/
theorem merge_run {d : Disk} (items : Nat → List Put)
    (hf : ∀ i, ∀ p ∈ items i, ∀ n, (⟨[], p.folder.take n⟩ : Posix) ∉ d.names)
    (hd : ∀ i, ∀ p ∈ items i, p.path ∉ d.dirs)
    (hx : ∀ i, ∀ p ∈ items i, ∀ j, ∀ p' ∈ items j, ∀ n, p.path ≠ ⟨[], p'.folder.take n⟩)
    (hne : ∀ i j, i ≠ j → ∀ p ∈ items i, ∀ p' ∈ items j, p.path ≠ p'.path)
    (hnd : ∀ i, ((items i).map Put.path).Nodup) (hnew : ∀ i, ∀ p ∈ items i, p.path ∉ d.names)
    (os : List (Nat × Op)) (hos : ∀ i, share os i <+: (items i).flatMap Put.ops) :
    ∃ (j : Nat → Nat) (d' : Disk), exec d (os.map (·.2)) = .ok d' ∧ (∀ i, j i ≤ (items i).length) ∧
      (∀ q, q ∈ d'.names ↔ q ∈ d.names ∨ ∃ i, ∃ p ∈ (items i).take (j i), q = p.path) ∧
      (∀ i, ∀ p ∈ (items i).take (j i - 1), d'.content p.path = p.bytes) ∧
      (∀ i, ∀ p ∈ (items i).take (j i), d'.content p.path <+: p.bytes) ∧
      (∀ i, ∀ m ≤ (items i).length, (((items i).take m).flatMap Put.ops).length ≤ (share os i).length → m ≤ j i ∧
        ∀ p ∈ (items i).take m, d'.content p.path = p.bytes) ∧
      (∀ i m, (share os i).length ≤ (((items i).take m).flatMap Put.ops).length → j i ≤ m) := by
  have hsolo : ∀ i, ∃ j s, j ≤ (items i).length ∧ exec d (share os i) = .ok s ∧
      (∀ q, q ∈ s.names ↔ q ∈ d.names ∨ ∃ p ∈ (items i).take j, q = p.path) ∧
      (∀ p ∈ (items i).take (j - 1), s.content p.path = p.bytes) ∧
      (∀ p ∈ (items i).take j, s.content p.path <+: p.bytes) ∧
      (∀ m ≤ (items i).length, (((items i).take m).flatMap Put.ops).length ≤ (share os i).length → m ≤ j ∧
        ∀ p ∈ (items i).take m, s.content p.path = p.bytes) ∧
      (∀ m, (share os i).length ≤ (((items i).take m).flatMap Put.ops).length → j ≤ m) := by
    intro i
    obtain ⟨j, s, h1, h2, h3, h4, h5, h6, -, h7⟩ := puts_many (items i) (hf i) (hd i) (fun p hp p' hp' => hx i p hp i p' hp')
      (hnd i) (hnew i) (share os i).length
    rw [← List.prefix_iff_eq_take.1 (hos i)] at h2
    exact ⟨j, s, h1, h2, h3, h4, h5, h6, h7⟩
  choose j s h1 h2 h3 h4 h5 h6 h7 using hsolo
  obtain ⟨d', he, g1, g2, -⟩ := merge_solo items hf hd hx hne os hos s h2
  have hmem : ∀ i m, ∀ p ∈ (items i).take m, p ∈ items i := fun i m p hp => List.mem_of_mem_take hp
  refine ⟨j, d', he, h1, ?_, ?_, ?_, ?_, h7⟩
  · intro q
    rw [g1]
    constructor
    · rintro (h | ⟨i, h⟩)
      · exact Or.inl h
      · rcases (h3 i q).1 h with h | h
        · exact Or.inl h
        · exact Or.inr ⟨i, h⟩
    · rintro (h | ⟨i, h⟩)
      · exact Or.inl h
      · exact Or.inr ⟨i, (h3 i q).2 (Or.inr h)⟩
  · intro i p hp
    rw [g2 i p (hmem i _ p hp)]
    exact h4 i p hp
  · intro i p hp
    rw [g2 i p (hmem i _ p hp)]
    exact h5 i p hp
  · intro i m hm hle
    refine ⟨(h6 i m hm hle).1, ?_⟩
    intro p hp
    rw [g2 i p (hmem i _ p hp)]
    exact (h6 i m hm hle).2 p hp

end Mabel.Disk
