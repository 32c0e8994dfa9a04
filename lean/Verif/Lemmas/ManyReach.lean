import Verif.Lemmas.StreamReach
import Verif.Lemmas.ManyStreams

/-!
# What threads of several processes have called and what is read of it
-/

namespace Mabel.StreamStorage
open Mabel.Py Mabel.Paths Mabel.Naming Mabel.Spec Mabel.Listing Mabel.EndToEnd Mabel.Dates Mabel.History
open Mabel.Blobs (Lib Faithful Torn delivered Item readBlob Names formatOf BlobName)
open Mabel.WriterInit (Folders Nested)
open Mabel.Stream (Conf Machine Reach Pool run)
open Mabel.Stream.Spec (blobsAt routed Explains)
open Mabel.Disk hiding Bytes
variable {ρ β : Type}

/-- What calls ask of the pool of a process. -/
def Process.asks (p : Process ρ β) (hist : List (Nat × Call ρ β)) : List (Stream.Op ρ) :=
  hist.map (fun x => op p.setup p.valid p.str x.2)

theorem bytesFor_zip (ids : List Str) (store : List (Str × Writer.Stored)) (h : (handed store).length ≤ ids.length) (T : Str) :
    bytesFor (ids.zip (handed store)) T = blobsAt store T := by
  rw [blobsAt_handed]
  unfold bytesFor
  have e : (ids.zip (handed store)).filter (fun x => x.2.1 == T)
      = (ids.zip (handed store)).filter ((fun x : Str × Disk.Bytes => x.1 == T) ∘ (·.2)) := rfl
  conv_rhs => rw [← zip_snd ids (handed store) h]
  rw [e, List.filter_map, List.map_map]
  rfl

/-- What has become of one process. -/
theorem process_facts {ls : List (List Piece)} {subs : List (List Str)} {S : DateTime → Prop} (p : Process ρ β)
    (hcalls : ∀ t, ∀ a ∈ p.calls t, ∀ r ts, op p.setup p.valid p.str a = .append r ts → ∀ target ∈ ts, Goes ls subs S target)
    (m1 m2 : Machine ρ) (h1 : Reach p.conf p.start m1) (hfree : m1.owner = none) (h2 : Reach p.conf m1 m2)
    (records : List ρ) (hrec : ∀ t now r names combos, Call.append now r names combos ∈ p.calls t → r ∈ records) :
    ∃ (hist1 hist2 : List (Nat × Call ρ β)) (left1 left2 : Nat → List (Call ρ β)) (R : Str → List ρ),
      Served p.calls hist1 left1 ∧ Served left1 hist2 left2 ∧
      (∀ t, m1.todo t = (left1 t).map (op p.setup p.valid p.str)) ∧
      (∀ t, m2.todo t = (left2 t).map (op p.setup p.valid p.str)) ∧
      m1.pool = run p.conf { clock := p.clock } (p.asks hist1) ∧
      (∀ x ∈ handed m2.pool.store, Goes ls subs S x.1) ∧
      (∀ T, Writer.Spec.Holds p.conf.blob.codec p.conf.blob.format (blobsAt m2.pool.store T) (R T)) ∧
      (∀ T, R T <+: routed (p.asks (hist1 ++ hist2)) T) ∧
      (m1.pool.writers = [] → ∀ T, Writer.Spec.Holds p.conf.blob.codec p.conf.blob.format (blobsAt m1.pool.store T)
        (routed (p.asks hist1) T)) ∧
      (∀ h, h ⊆ hist1 ++ hist2 → ∀ T, routed (p.asks h) T ⊆ records) := by
  obtain ⟨o1, o2, e1, e2, hst, hst1, -, hrun⟩ := pool_between p.conf p.clock _ m1 m2 h1 hfree h2
  obtain ⟨hist1, left1, s1, rfl, t1⟩ := explains_calls (op p.setup p.valid p.str) o1 p.calls m1.todo e1
  have e2' : Explains (fun t => (left1 t).map (op p.setup p.valid p.str)) m2.todo o2 := by
    intro t
    rw [← e2 t, t1 t]
  obtain ⟨hist2, left2, s2, rfl, t2⟩ := explains_calls (op p.setup p.valid p.str) o2 left1 m2.todo e2'
  have hserved := s1.append s2
  have hmaps : ∀ h : List (Nat × Call ρ β), (h.map (fun x => (x.1, op p.setup p.valid p.str x.2))).map (·.2) = p.asks h := by
    intro h; rw [List.map_map]; rfl
  rw [← List.map_append, hmaps] at hst
  rw [hmaps] at hst1 hrun
  have hmem : ∀ h : List (Nat × Call ρ β), h ⊆ hist1 ++ hist2 → ∀ T, routed (p.asks h) T ⊆ records := by
    intro h hsub T r hr
    obtain ⟨t, now, names, combos, hx⟩ := routed_mem hr
    exact hrec t now r names combos (hserved.mem (hsub hx))
  choose R hR1 hR2 using hst
  refine ⟨hist1, hist2, left1, left2, R, s1, s2, t1, t2, hrun, ?_, hR1, hR2, hst1, hmem⟩
  intro x hx
  have hne : blobsAt m2.pool.store x.1 ≠ [] := by
    rw [blobsAt_handed]
    exact List.ne_nil_of_mem (List.mem_map.2 ⟨x, List.mem_filter.2 ⟨hx, by simp⟩, rfl⟩)
  have hRne : R x.1 ≠ [] := by
    intro h0
    obtain ⟨gs, k1, k2, k3⟩ := hR1 x.1
    rw [h0] at k2
    cases gs with
    | nil => exact hne k1
    | cons g gs =>
      rw [List.flatten_cons] at k2
      exact k3 g (by simp) (List.append_eq_nil_iff.1 k2).1
  obtain ⟨r, hr⟩ := List.exists_mem_of_ne_nil _ hRne
  have hr := (hR2 x.1).subset hr
  unfold routed at hr
  obtain ⟨o, ho, hr⟩ := List.mem_flatMap.1 hr
  obtain ⟨y, hy', rfl⟩ := List.mem_map.1 ho
  generalize hop : op p.setup p.valid p.str y.2 = o at hr
  cases o with
  | append r' ts =>
    obtain ⟨t', ht', -⟩ := List.mem_map.1 hr
    obtain ⟨h1, h2⟩ := List.mem_filter.1 ht'
    rw [← (by simpa using h2 : t' = x.1)]
    exact hcalls _ _ (hserved.mem hy') r' ts hop t' h1
  | attend => cases hr
  | finalize => cases hr

/-- **The whole way.**  Threads of several processes call stream writers; at the moment `m1 i` no call is under
way in the process `i`, at the moment `m2 i` any may be, and the disk has taken steps of the processes in any
order. -/
theorem many_whole {w : Job} {ls : List (List Piece)} {n : Nat} {flt : Option PartitionFilter}
    {subs chosen : List (List Str)} (hw : Daily w ls)
    (hfmt : w.format ≠ "text".toList) (hy : Layout w ls n flt subs chosen)
    {S : DateTime → Prop} (hS : ∀ t, S t → Day t) (N : Nat) (hN : 0 < N) (ps : Nat → Process ρ β)
    (hsf : ∀ i < N, (ps i).setup.format = w.format) (hc : ∀ i < N, (ps i).conf.blob.format = formatOf w.format)
    (hcalls : ∀ i < N, ∀ t, ∀ a ∈ (ps i).calls t, ∀ r ts, op (ps i).setup (ps i).valid (ps i).str a = .append r ts →
      ∀ target ∈ ts, Goes ls subs S target)
    (m1 m2 : Nat → Machine ρ) (h1 : ∀ i < N, Reach (ps i).conf (ps i).start (m1 i)) (hfree : ∀ i < N, (m1 i).owner = none)
    (h2 : ∀ i < N, Reach (ps i).conf (m1 i) (m2 i))
    (d : Disk) (hd : ∀ t, S t → Fresh (folderOf ls t) d) (hnd : d.names.Nodup)
    (hlen : ∀ i < N, (handed (m2 i).pool.store).length ≤ (ps i).ids.length) (hids : ∀ i < N, ∀ x ∈ (ps i).ids, Id x)
    (hord : ∀ i < N, (ps i).ids.Pairwise Before)
    (hcross : ∀ i < N, ∀ j < N, i ≠ j → ∀ x ∈ (ps i).ids, ∀ y ∈ (ps j).ids, Before x y ∨ Before y x)
    {first last : DateTime} (hf : Day first) (hl : Day last) (hle : first.seconds ≤ last.seconds)
    {days : List DateTime} (hdays : DaysOf first last days) (hSd : ∀ t ∈ days, S t)
    (records : List ρ)
    (hrec : ∀ i < N, ∀ t now r names combos, Call.append now r names combos ∈ (ps i).calls t → r ∈ records)
    (lib : Lib ρ) (hlib : ∀ i < N, Faithful (ps i).conf.blob.codec lib records)
    (htr : ∀ r ∈ records, lib.truthy r = true) (now : DateTime) (rnd : Str) (prefixes : List Str)
    (hallow : Reader.allowed prefixes w.dataset = true) (hash : Str → Nat) :
    ∃ (hist1 hist2 : Nat → List (Nat × Call ρ β)) (left1 left2 : Nat → Nat → List (Call ρ β)) (ops : Nat → List Op),
      (∀ i < N, Served (ps i).calls (hist1 i) (left1 i) ∧ Served (left1 i) (hist2 i) (left2 i) ∧
        (∀ t, (m1 i).todo t = (left1 i t).map (op (ps i).setup (ps i).valid (ps i).str)) ∧
        (∀ t, (m2 i).todo t = (left2 i t).map (op (ps i).setup (ps i).valid (ps i).str)) ∧
        (m1 i).pool = run (ps i).conf { clock := (ps i).clock } ((ps i).asks (hist1 i)) ∧
        (ps i).steps (m2 i) = .ok (ops i) ∧ (∀ x ∈ handed (m2 i).pool.store, Goes ls subs S x.1)) ∧
      ∀ os : List (Nat × Op), (∀ x ∈ os, x.1 < N) → (∀ i < N, share os i <+: ops i) →
      (∀ i < N, Torn (ps i).conf.blob.codec lib records ∨ AtBlob (ps i).setup (ps i).ids (m2 i).pool.store (share os i).length) →
      ∃ (d' : Disk) (rows : DateTime → List Str → List (Nat × ρ)), exec d (os.map (·.2)) = .ok d' ∧
        (∀ i < N, ∀ t ∈ days, ∀ sb ∈ chosen,
          share (rows t sb) i <+: routed ((ps i).asks (hist1 i ++ hist2 i)) (place ls t sb)) ∧
        (∀ i < N, (m1 i).pool.writers = [] →
          Written (ps i).setup (ps i).ids (m1 i).pool.store (share os i).length → ∀ t ∈ days, ∀ sb ∈ chosen,
            routed ((ps i).asks (hist1 i)) (place ls t sb) <+: share (rows t sb) i) ∧
        (∀ i < N, ∀ j < N, (∀ x ∈ (ps i).ids, ∀ y ∈ (ps j).ids, Before x y) → ∀ t ∈ days, ∀ sb ∈ chosen,
          (rows t sb).Pairwise (fun a b => ¬ (a.1 = j ∧ b.1 = i))) ∧
        (∀ t sb, ∀ x ∈ rows t sb, x.1 < N) ∧
        ((∀ i < N, ∀ t ∈ days, ∀ sb ∈ chosen, routed ((ps i).asks (hist1 i ++ hist2 i)) (place ls t sb) = []) →
          Reader.openReader (rangeReader w first last prefixes flt) now rnd (diskBlobsAt d'.names) = .error .dataNotFound) ∧
        ((Reader.openReader (rangeReader w first last prefixes flt) now rnd (diskBlobsAt d'.names) = .error .dataNotFound ∧
            ∀ t ∈ days, ∀ sb ∈ chosen, rows t sb = []) ∨
          ∃ l, Reader.openReader (rangeReader w first last prefixes flt) now rnd (diskBlobsAt d'.names) = .ok (0, l) ∧
            Names l ∧ delivered hash lib {} (read d') l
              = (days.flatMap fun t => chosen.flatMap fun sb => (rows t sb).map (·.2)).map .row) := by
  have hfacts : ∀ i, ∃ (hist1 hist2 : List (Nat × Call ρ β)) (left1 left2 : Nat → List (Call ρ β)) (R : Str → List ρ),
      (i < N → (Served (ps i).calls hist1 left1 ∧ Served left1 hist2 left2 ∧
        (∀ t, (m1 i).todo t = (left1 t).map (op (ps i).setup (ps i).valid (ps i).str)) ∧
        (∀ t, (m2 i).todo t = (left2 t).map (op (ps i).setup (ps i).valid (ps i).str)) ∧
        (m1 i).pool = run (ps i).conf { clock := (ps i).clock } ((ps i).asks hist1) ∧
        (∀ x ∈ handed (m2 i).pool.store, Goes ls subs S x.1) ∧
        (∀ T, Writer.Spec.Holds (ps i).conf.blob.codec (ps i).conf.blob.format (blobsAt (m2 i).pool.store T) (R T)) ∧
        (∀ T, R T <+: routed ((ps i).asks (hist1 ++ hist2)) T) ∧
        ((m1 i).pool.writers = [] → ∀ T, Writer.Spec.Holds (ps i).conf.blob.codec (ps i).conf.blob.format
          (blobsAt (m1 i).pool.store T) (routed ((ps i).asks hist1) T)) ∧
        (∀ h, h ⊆ hist1 ++ hist2 → ∀ T, routed ((ps i).asks h) T ⊆ records))) ∧ (N ≤ i → ∀ T, R T = []) := by
    intro i
    by_cases hi : i < N
    · obtain ⟨a, b, c, e, R, h⟩ := process_facts (ps i) (hcalls i hi) (m1 i) (m2 i) (h1 i hi) (hfree i hi) (h2 i hi) records
        (hrec i hi)
      exact ⟨a, b, c, e, R, fun _ => h, fun h => absurd hi (by omega)⟩
    · exact ⟨[], [], fun _ => [], fun _ => [], fun _ => [], fun h => absurd h hi, fun _ _ => rfl⟩
  choose hist1 hist2 left1 left2 R hfacts hout using hfacts
  have hT : ∀ i < N, ∀ x ∈ handed (m2 i).pool.store, Target x.1 := fun i hi x hx =>
    (goes_fold hy hS ((hfacts i hi).2.2.2.2.2.1 x hx)).1
  let z : Nat → List Sent := fun i => if i < N then (ps i).ids.zip (handed (m2 i).pool.store) else []
  have hz1 : ∀ i < N, z i = (ps i).ids.zip (handed (m2 i).pool.store) := fun i hi => if_pos hi
  have hz0 : ∀ i, N ≤ i → z i = [] := fun i hi => if_neg (by omega)
  have hzm : ∀ i, ∀ x ∈ z i, i < N ∧ x.2 ∈ handed (m2 i).pool.store ∧ x.1 ∈ (ps i).ids := by
    intro i x hx
    by_cases hi : i < N
    · rw [hz1 i hi] at hx
      exact ⟨hi, (List.of_mem_zip hx).2, (List.of_mem_zip hx).1⟩
    · rw [hz0 i (by omega)] at hx
      cases hx
  let ops : Nat → List Op := fun i => ((z i).map (put w.format)).flatMap Put.ops
  have hops : ∀ i < N, (ps i).steps (m2 i) = .ok (ops i) := by
    intro i hi
    unfold Process.steps
    rw [diskOps_puts (hT i hi) (hids i hi), hsf i hi, ← hz1 i hi]
  refine ⟨hist1, hist2, left1, left2, ops, ?_, ?_⟩
  · intro i hi
    obtain ⟨a, b, c, e, f, g, -⟩ := hfacts i hi
    exact ⟨a, b, c, e, f, hops i hi, g⟩
  intro os hosN hos htorn
  -- a process for every number
  let q : Nat → Nat := fun i => if i < N then i else 0
  have hq : ∀ i, q i < N := by
    intro i
    by_cases h : i < N
    · simpa [q, h] using h
    · simpa [q, h] using hN
  have hqi : ∀ i < N, q i = i := fun i hi => if_pos hi
  obtain ⟨d', rows, g1, g2, g3, g4, g5, g6, g7⟩ := many_core hw hfmt hy (fun i => (ps (q i)).conf.blob.codec) hf hl hle hdays hS
    hSd d hd hnd N z hz0 (fun i x hx => (hfacts i (hzm i x hx).1).2.2.2.2.2.1 _ (hzm i x hx).2.1)
    (fun i x hx => hids i (hzm i x hx).1 _ (hzm i x hx).2.2)
    (by
      intro i
      by_cases hi : i < N
      · rw [hz1 i hi]
        have : (((ps i).ids.zip (handed (m2 i).pool.store)).map (·.1)).Pairwise Before :=
          (hord i hi).sublist (zip_fst_sublist _ _)
        rw [List.pairwise_map] at this
        exact this
      · rw [hz0 i (by omega)]
        exact List.Pairwise.nil)
    (by
      intro i j hij x hx y hy
      exact hcross i (hzm i x hx).1 j (hzm j y hy).1 hij _ (hzm i x hx).2.2 _ (hzm j y hy).2.2)
    R
    (by
      intro i T
      by_cases hi : i < N
      · have := (hfacts i hi).2.2.2.2.2.2.1 T
        rw [hz1 i hi, bytesFor_zip _ _ (hlen i hi), hqi i hi, ← hc i hi]
        exact this
      · rw [hz0 i (by omega), hout i (by omega)]
        exact ⟨[], rfl, rfl, by simp⟩)
    records
    (by
      intro i T
      by_cases hi : i < N
      · obtain ⟨-, -, -, -, -, -, -, k, -, k'⟩ := hfacts i hi
        exact fun r hr => k' _ (fun _ h => h) T ((k T).subset hr)
      · rw [hout i (by omega)]
        simp)
    lib (fun i => hlib _ (hq i)) htr os
    (by
      intro i
      by_cases hi : i < N
      · exact hos i hi
      · have : share os i = [] := List.eq_nil_iff_forall_not_mem.2 (fun x hx => hi (hosN _ (mem_share.1 hx)))
        rw [this]
        exact List.nil_prefix)
    (by
      intro i
      by_cases hi : i < N
      · rw [hqi i hi]
        refine (htorn i hi).imp id ?_
        rintro ⟨k, hk⟩
        have hzi : ((ps i).ids.take k).zip (handed (m2 i).pool.store) = (z i).take (min k (z i).length) := by
          rw [zip_take_left, hz1 i hi, List.take_eq_take_iff]
          omega
        refine ⟨min k (z i).length, Nat.min_le_right _ _, ?_⟩
        rw [← hzi, ← hsf i hi]
        exact hk _ (diskOps_puts (hT i hi) (fun x hx => hids i hi x (List.mem_of_mem_take hx)))
      · have : share os i = [] := List.eq_nil_iff_forall_not_mem.2 (fun x hx => hi (hosN _ (mem_share.1 hx)))
        refine Or.inr ⟨0, Nat.zero_le _, ?_⟩
        rw [this]
        rfl)
    now rnd prefixes hallow hash
  refine ⟨d', rows, g1, ?_, ?_, ?_, g5, ?_, g7⟩
  · intro i hi t ht sb hsb
    obtain ⟨-, -, -, -, -, -, -, k, -⟩ := hfacts i hi
    exact (g2 i t ht sb hsb).trans (k _)
  · intro i hi hempty hwr
    obtain ⟨-, -, -, -, -, -, -, -, k, k'⟩ := hfacts i hi
    have hpre := reach_grows (h2 i hi)
    obtain ⟨m, hm⟩ : ∃ m, handed (m1 i).pool.store = (handed (m2 i).pool.store).take m :=
      ⟨_, (List.prefix_iff_eq_take.1 (handed_prefix hpre))⟩
    have hzm1 : (ps i).ids.zip (handed (m1 i).pool.store) = (z i).take m := by rw [hm, hz1 i hi, zip_take_right]
    have hmin : (z i).take m = (z i).take (min m (z i).length) := by
      rw [List.take_eq_take_iff]
      omega
    have hstep : diskOps (ps i).setup (ps i).ids (m1 i).pool.store
        = .ok ((((z i).take (min m (z i).length)).map (put w.format)).flatMap Put.ops) := by
      rw [diskOps_puts (fun x hx => hT i hi x ((handed_prefix hpre).subset hx)) (hids i hi), hzm1, hmin, hsf i hi]
    refine g3 i (min m (z i).length) (Nat.min_le_right _ _) (fun T => routed ((ps i).asks (hist1 i)) T)
      (fun T => k' _ (List.subset_append_left _ _) T) ?_ (hwr _ hstep)
    intro T
    rw [← hmin, ← hzm1, bytesFor_zip _ _ (Nat.le_trans (handed_prefix hpre).length_le (hlen i hi)), hqi i hi, ← hc i hi]
    exact k hempty T
  · intro i hi j hj hbef
    exact g4 i j (fun x hx y hy => hbef _ (hzm i x hx).2.2 _ (hzm j y hy).2.2)
  · intro hnone
    refine g6 ?_
    intro i t ht sb hsb
    by_cases hi : i < N
    · obtain ⟨-, -, -, -, -, -, -, k, -⟩ := hfacts i hi
      have := k (place ls t sb)
      rw [hnone i hi t ht sb hsb] at this
      exact List.prefix_nil.1 this
    · exact hout i (by omega) _

end Mabel.StreamStorage
