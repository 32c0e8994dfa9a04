import Verif.Lemmas.CloudStream
import Verif.Lemmas.ManyReach

/-!
# Several processes with stream writers on object storage and on a disk side by side
-/

namespace Mabel.CloudStream
open Mabel.Py Mabel.Paths Mabel.Naming Mabel.Spec Mabel.Listing Mabel.ObjectStore Mabel.Cloud
open Mabel.StreamStorage hiding put handed_prefix zip_fst_sublist
open Mabel.History (Day Daily folderOf DaysOf rangeReader Fresh)
open Mabel.Stream (Machine)
open Mabel.Disk (Disk exec read Put Op)
variable {ρ β : Type}

theorem share_cons {α : Type} (x : Nat × α) (l : List (Nat × α)) (i : Nat) :
    share (x :: l) i = if x.1 = i then x.2 :: share l i else share l i := by
  unfold share
  by_cases h : x.1 = i
  · rw [if_pos h, List.filter_cons_of_pos (by simpa using h)]
    rfl
  · rw [if_neg h, List.filter_cons_of_neg (by simpa using h)]

theorem pairwise_of_shares {α : Type} {R : α → α → Prop} {l : List (Nat × α)} (h1 : ∀ i, (share l i).Pairwise R)
    (h2 : ∀ a ∈ l, ∀ b ∈ l, a.1 ≠ b.1 → R a.2 b.2) : l.Pairwise (fun a b => R a.2 b.2) := by
  induction l with
  | nil => exact List.Pairwise.nil
  | cons x l ih =>
    refine List.pairwise_cons.2 ⟨?_, ih ?_ (fun a ha b hb => h2 a (by simp [ha]) b (by simp [hb]))⟩
    · intro b hb
      by_cases h : x.1 = b.1
      · have := h1 b.1
        rw [share_cons, if_pos h] at this
        exact (List.pairwise_cons.1 this).1 b.2 (mem_share.2 hb)
      · exact h2 x (by simp) b (by simp [hb]) h
    · intro i
      have := h1 i
      rw [share_cons] at this
      by_cases h : x.1 = i
      · rw [if_pos h] at this
        exact (List.pairwise_cons.1 this).2
      · rw [if_neg h] at this
        exact this

/-- The storage and the disk after the same blobs of several processes, in the same order. -/
theorem many_bridge {w : Job} {ls : List (List Piece)} {n : Nat} {flt : Option PartitionFilter} {subs chosen : List (List Str)}
    (hy : Layout w ls n flt subs chosen) {S : DateTime → Prop} (hS : ∀ t, S t → Day t) (N : Nat) (ps : Nat → Process ρ β)
    (hsf : ∀ i < N, (ps i).setup.format = w.format) (m : Nat → Machine ρ)
    (hgo : ∀ i < N, ∀ x ∈ handed (m i).pool.store, Goes ls subs S x.1)
    (hids : ∀ i < N, ∀ x ∈ (ps i).ids, Id x) (hord : ∀ i < N, (ps i).ids.Pairwise Before)
    (hcross : ∀ i < N, ∀ j < N, i ≠ j → ∀ x ∈ (ps i).ids, ∀ y ∈ (ps j).ids, Before x y ∨ Before y x)
    (obj : List (Obj Disk.Bytes)) (hobj : ObjectStore.Tidy obj)
    (hempty : ∀ t, S t → ∀ q ∈ files obj, beneath ⟨[], folderOf ls t⟩ q = false)
    (us : List (Nat × Sent)) (husN : ∀ x ∈ us, x.1 < N)
    (hus : ∀ i < N, share us i <+: (ps i).ids.zip (handed (m i).pool.store)) :
    ∃ (os : List (Nat × Op)) (st' : List (Obj Disk.Bytes)), (∀ x ∈ os, x.1 < N) ∧
      (∀ i < N, ∀ ops, (ps i).steps (m i) = .ok ops → share os i <+: ops) ∧
      (∀ i < N, AtBlob (ps i).setup (ps i).ids (m i).pool.store (share os i).length) ∧
      (∀ i < N, ∀ store1, store1 <+: (m i).pool.store → (handed store1).length ≤ (share us i).length →
        Written (ps i).setup (ps i).ids store1 (share os i).length) ∧
      (∀ v, Either v → storeEach v w.format obj (us.map (·.2)) = .ok st') ∧
      ∀ d', exec ⟨[], [], fun _ => []⟩ (os.map (·.2)) = .ok d' → Alike ls S st' d' := by
  have hT : ∀ i < N, ∀ x ∈ handed (m i).pool.store, Target x.1 := fun i hi x hx => (goes_fold hy hS (hgo i hi x hx)).1
  let z : Nat → List Sent := fun i => if i < N then (ps i).ids.zip (handed (m i).pool.store) else []
  have hz1 : ∀ i < N, z i = (ps i).ids.zip (handed (m i).pool.store) := fun i hi => if_pos hi
  have hz0 : ∀ i, N ≤ i → z i = [] := fun i hi => if_neg (by omega)
  have hzm : ∀ i, ∀ x ∈ z i, i < N ∧ x.2 ∈ handed (m i).pool.store ∧ x.1 ∈ (ps i).ids := by
    intro i x hx
    by_cases hi : i < N
    · rw [hz1 i hi] at hx
      exact ⟨hi, (List.of_mem_zip hx).2, (List.of_mem_zip hx).1⟩
    · rw [hz0 i (by omega)] at hx
      cases hx
  have hzg : ∀ i, ∀ x ∈ z i, Goes ls subs S x.2.1 := fun i x hx => hgo i (hzm i x hx).1 _ (hzm i x hx).2.1
  have hzt : ∀ i, ∀ x ∈ z i, Target x.2.1 := fun i x hx => (goes_fold hy hS (hzg i x hx)).1
  have hzi : ∀ i, ∀ x ∈ z i, Id x.1 := fun i x hx => hids i (hzm i x hx).1 _ (hzm i x hx).2.2
  have hzord : ∀ i, (z i).Pairwise (fun x y => Before x.1 y.1) := by
    intro i
    by_cases hi : i < N
    · rw [hz1 i hi]
      exact List.pairwise_map.1 ((hord i hi).sublist (zip_fst_sublist _ _))
    · rw [hz0 i (by omega)]
      exact List.Pairwise.nil
  have hzc : ∀ i j, i ≠ j → ∀ x ∈ z i, ∀ y ∈ z j, Before x.1 y.1 ∨ Before y.1 x.1 := fun i j hij x hx y hy =>
    hcross i (hzm i x hx).1 j (hzm j y hy).1 hij _ (hzm i x hx).2.2 _ (hzm j y hy).2.2
  -- what is stored, of each process
  have hpre : ∀ i, share us i <+: z i := by
    intro i
    by_cases hi : i < N
    · rw [hz1 i hi]
      exact hus i hi
    · have : share us i = [] := List.eq_nil_iff_forall_not_mem.2 (fun x hx => hi (husN _ (mem_share.1 hx)))
      rw [this]
      exact List.nil_prefix
  have htake : ∀ i, share us i = (z i).take (share us i).length := fun i => List.prefix_iff_eq_take.1 (hpre i)
  have hmem : ∀ a ∈ us, a.2 ∈ z a.1 := fun a ha => (hpre a.1).subset (mem_share.2 ha)
  let os : List (Nat × Op) := us.flatMap fun x => ((StreamStorage.put w.format x.2).ops).map fun o => (x.1, o)
  have hos : ∀ i, share os i = ((share us i).map (StreamStorage.put w.format)).flatMap Put.ops := by
    intro i
    show share (us.flatMap _) i = _
    rw [share_flatMap us (fun x => (StreamStorage.put w.format x.2).ops) i, List.flatMap_map]
  have hosN : ∀ x ∈ os, x.1 < N := by
    intro x hx
    obtain ⟨a, ha, hx⟩ := List.mem_flatMap.1 hx
    obtain ⟨o, -, rfl⟩ := List.mem_map.1 hx
    exact husN a ha
  have hosp : ∀ i, share os i <+: ((z i).map (StreamStorage.put w.format)).flatMap Put.ops := by
    intro i
    rw [hos i]
    obtain ⟨c, hc⟩ := hpre i
    rw [← hc, List.map_append, List.flatMap_append]
    exact List.prefix_append _ _
  refine ⟨os, puts obj ((us.map (·.2)).map (objOf w.format)), hosN, ?_, ?_, ?_, ?_, ?_⟩
  · intro i hi ops hops
    unfold Process.steps at hops
    rw [diskOps_puts (hT i hi) (hids i hi), hsf i hi, ← hz1 i hi] at hops
    cases hops
    exact hosp i
  · intro i hi
    refine ⟨(share us i).length, ?_⟩
    intro ops hops
    rw [diskOps_puts (hT i hi) (fun x hx => hids i hi x (List.mem_of_mem_take hx)), zip_take, ← hz1 i hi, hsf i hi, ← htake i] at hops
    cases hops
    rw [hos i]
  · intro i hi store1 hp1 hj ops hops
    have hp := handed_prefix hp1
    rw [diskOps_puts (fun x hx => hT i hi x (hp.subset hx)) (hids i hi), zip_prefix _ hp, ← hz1 i hi, hsf i hi] at hops
    cases hops
    have : (z i).take (handed store1).length <+: share us i := by
      rw [htake i]
      exact List.take_prefix_take_left hj
    obtain ⟨c, hc⟩ := this
    rw [hos i, ← hc, List.map_append, List.flatMap_append, List.length_append]
    omega
  · intro v hv
    refine storeEach_puts hv _ _ ?_ obj
    intro x hx
    obtain ⟨a, ha, rfl⟩ := List.mem_map.1 hx
    exact hzt _ _ (hmem a ha)
  · intro d' hd'
    have hne : us.Pairwise (fun a b => a.2.1 ≠ b.2.1) := by
      refine pairwise_of_shares (R := fun x y : Sent => x.1 ≠ y.1) (fun i => ?_) ?_
      · rw [htake i]
        exact ((hzord i).sublist (List.take_sublist _ _)).imp (fun h => h.ne)
      · intro a ha b hb hab
        rcases hzc _ _ hab _ (hmem a ha) _ (hmem b hb) with h | h
        · exact h.ne
        · exact fun e => h.ne e.symm
    have hfresh : puts obj ((us.map (·.2)).map (objOf w.format)) = obj ++ (us.map (·.2)).map (objOf w.format) := by
      apply puts_fresh
      · rw [List.map_map, List.map_map, List.Nodup, List.pairwise_map]
        refine hne.imp_of_mem ?_
        intro a b ha hb hab e
        refine put_ne hab w.format ?_
        rw [← obj_file (hzt _ _ (hmem a ha)).folders (hzi _ _ (hmem a ha)),
          ← obj_file (hzt _ _ (hmem b hb)).folders (hzi _ _ (hmem b hb))]
        exact (file_key e).1
      · intro o ho x hx e
        rw [List.map_map] at ho
        obtain ⟨a, ha, rfl⟩ := List.mem_map.1 ho
        have ha := hmem a ha
        obtain ⟨t, hSt, hb⟩ := handed_beneath hy hS (hzg _ _ ha) (hzi _ _ ha)
        have e1 := file_key e
        simp only [Function.comp_apply] at e1
        rw [← e1.1, hempty t hSt] at hb
        · cases hb
        · unfold files
          refine List.mem_map.2 ⟨x, List.mem_filter.2 ⟨hx, ?_⟩, rfl⟩
          rw [e1.2, obj_slash (hzt _ _ ha).folders (hzi _ _ ha)]
          rfl
    have hfiles : ∀ q, q ∈ files (puts obj ((us.map (·.2)).map (objOf w.format))) ↔
        q ∈ files obj ∨ ∃ a ∈ us, q = (StreamStorage.put w.format a.2).path := by
      intro q
      rw [hfresh]
      unfold files
      rw [List.filter_append, List.map_append, List.mem_append, List.map_map]
      refine or_congr Iff.rfl ?_
      constructor
      · intro h
        obtain ⟨o, ho, rfl⟩ := List.mem_map.1 h
        obtain ⟨a, ha, rfl⟩ := List.mem_map.1 (List.mem_filter.1 ho).1
        exact ⟨a, ha, obj_file (hzt _ _ (hmem a ha)).folders (hzi _ _ (hmem a ha))⟩
      · rintro ⟨a, ha, rfl⟩
        refine List.mem_map.2 ⟨objOf w.format a.2, List.mem_filter.2 ⟨List.mem_map.2 ⟨a, ha, rfl⟩, ?_⟩, ?_⟩
        · rw [obj_slash (hzt _ _ (hmem a ha)).folders (hzi _ _ (hmem a ha))]
          rfl
        · exact obj_file (hzt _ _ (hmem a ha)).folders (hzi _ _ (hmem a ha))
    obtain ⟨j, d'', hj, hexec, g1, -, -, g2, g3⟩ := stored_many hy hS (d := ⟨[], [], fun _ => []⟩)
      (fun t _ => ⟨nofun, List.nodup_nil, nofun, nofun⟩) hzg hzord hzc os hosp
    rw [hexec] at hd'
    cases hd'
    have hlen : ∀ i, (share us i).length ≤ (z i).length := fun i => (hpre i).length_le
    have hj : ∀ i, (z i).take (j i) = share us i ∧ ∀ x ∈ share us i, d'.content (StreamStorage.put w.format x).path = x.2.2 := by
      intro i
      have e : (share os i).length = ((((z i).take (share us i).length).map (StreamStorage.put w.format)).flatMap Put.ops).length := by
        rw [← htake i, hos i]
      obtain ⟨h1, h2⟩ := g2 i _ (hlen i) (Nat.le_of_eq e.symm)
      have h3 := g3 i _ (Nat.le_of_eq e)
      rw [Nat.le_antisymm h3 h1, ← htake i]
      rw [← htake i] at h2
      exact ⟨rfl, h2⟩
    have hnames : ∀ q, q ∈ d'.names ↔ ∃ a ∈ us, q = (StreamStorage.put w.format a.2).path := by
      intro q
      rw [g1]
      constructor
      · rintro (h | ⟨i, x, hx, rfl⟩)
        · cases h
        · rw [(hj i).1] at hx
          exact ⟨(i, x), mem_share.1 hx, rfl⟩
      · rintro ⟨a, ha, rfl⟩
        exact Or.inr ⟨a.1, a.2, by rw [(hj a.1).1]; exact mem_share.2 ha, rfl⟩
    refine ⟨puts_tidy hobj ?_, ?_, ?_⟩
    · intro o ho
      rw [List.map_map] at ho
      obtain ⟨a, ha, rfl⟩ := List.mem_map.1 ho
      exact obj_tidy (hzt _ _ (hmem a ha)).folders (hzi _ _ (hmem a ha))
    · intro t hSt q
      rw [List.mem_filter, List.mem_filter, hfiles, hnames]
      constructor
      · rintro ⟨h | h, hb⟩
        · rw [hempty t hSt q h] at hb
          cases hb
        · exact ⟨h, hb⟩
      · rintro ⟨h, hb⟩
        exact ⟨Or.inr h, hb⟩
    · intro q hq
      obtain ⟨a, ha, rfl⟩ := (hnames q).1 hq
      refine ⟨objOf w.format a.2, ?_, obj_file (hzt _ _ (hmem a ha)).folders (hzi _ _ (hmem a ha)),
        obj_slash (hzt _ _ (hmem a ha)).folders (hzi _ _ (hmem a ha)), ((hj a.1).2 _ (mem_share.2 ha)).symm,
        obj_fetchable (hzt _ _ (hmem a ha)).folders (hzi _ _ (hmem a ha))⟩
      rw [hfresh, List.map_map]
      exact List.mem_append_right _ (List.mem_map.2 ⟨a, ha, rfl⟩)

end Mabel.CloudStream
