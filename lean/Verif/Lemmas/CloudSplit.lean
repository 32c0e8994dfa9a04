import Verif.Lemmas.CloudOverlap
import Verif.Lemmas.Split

/-! Writers on object storage that share a frame: the storage is as a disk is. -/

namespace Mabel.CloudSplit
open Mabel.Py Mabel.Paths Mabel.Naming Mabel.Spec Mabel.Listing Mabel.ObjectStore Mabel.Cloud Mabel.CloudOverlap
open Mabel.Disk (Bytes Disk Op exec Room addName blobOps at_ frameFolder runFiles commit_run mem_addName)
open Mabel.History (Day Daily folderOf on blobsOf filesOf Kept)
open Mabel.StreamStorage (share)
open Mabel.Overlap (Taken)
variable {ρ : Type}

/-- Files stored in a folder, of which some may be stored twice, alike. -/
theorem exec_again {cs : List Str} (items : List (Str × Bytes)) (hsame : ∀ a ∈ items, ∀ b ∈ items, a.1 = b.1 → a = b) {d : Disk}
    (h : Room d cs) :
    ∃ d', exec d (items.flatMap (fun it => blobOps cs it.1 it.2)) = .ok d' ∧
      (∀ q, q ∈ d'.names ↔ q ∈ d.names ∨ ∃ it ∈ items, q = at_ cs it) ∧
      (∀ it ∈ items, d'.content (at_ cs it) = it.2) ∧
      (∀ q, (∀ it ∈ items, q ≠ at_ cs it) → d'.content q = d.content q) := by
  induction items generalizing d with
  | nil => exact ⟨d, rfl, by simp, by simp, fun _ _ => rfl⟩
  | cons a items ih =>
    obtain ⟨d1, he, hr, hcase⟩ := commit_run h a.1 a.2 (blobOps cs a.1 a.2).length
    rw [List.take_length] at he
    have hl := Disk.blobOps_length cs a.1 a.2
    rcases hcase with ⟨hk, -⟩ | ⟨-, hn, hc1, hc2⟩
    · rw [hl] at hk; omega
    · obtain ⟨d', he', g1, g2, g3⟩ := ih (fun x hx y hy => hsame x (by simp [hx]) y (by simp [hy])) hr
      refine ⟨d', ?_, ?_, ?_, ?_⟩
      · rw [List.flatMap_cons, Disk.exec_append, he]
        exact he'
      · intro q
        rw [g1, hn, mem_addName]
        simp only [List.mem_cons, exists_eq_or_imp, at_]
        tauto
      · intro it hit
        by_cases hm : ∃ it' ∈ items, at_ cs it = at_ cs it'
        · obtain ⟨it', hit', e⟩ := hm
          have e3 := List.append_cancel_left (congrArg Posix.comps e)
          simp only [List.cons.injEq, and_true] at e3
          rw [hsame it hit it' (by simp [hit']) e3]
          exact g2 it' hit'
        · rw [g3 _ (fun it' hit' e => hm ⟨it', hit', e⟩)]
          rcases List.mem_cons.1 hit with rfl | hit
          · show d1.content ⟨[], cs ++ [it.1]⟩ = it.2
            rw [hc2, hl]
            apply List.take_of_length_le
            omega
          · exact absurd ⟨it, hit, rfl⟩ hm
      · intro q hq
        rw [g3 q (fun it hit => hq it (by simp [hit]))]
        exact hc1 q (hq a (by simp))

theorem puts_keeps {s os : List (Obj Bytes)} {o : Obj Bytes} (ho : o ∈ s) (h : ∀ a ∈ os, a.key = o.key → a = o) : o ∈ puts s os := by
  induction os generalizing s with
  | nil => exact ho
  | cons a os ih =>
    refine ih (s := put s a) (mem_put.2 ?_) (fun x hx => h x (by simp [hx]))
    by_cases e : a.key = o.key
    · exact Or.inr (h a (by simp) e).symm
    · exact Or.inl ⟨ho, fun e' => e e'.symm⟩

/-- Objects stored, of which some may be stored twice, alike. -/
theorem puts_again {s os : List (Obj Bytes)} (hsame : ∀ a ∈ os, ∀ b ∈ os, a.key = b.key → a = b)
    (hnew : ∀ o ∈ os, ∀ x ∈ s, x.key ≠ o.key) (o : Obj Bytes) : o ∈ puts s os ↔ o ∈ s ∨ o ∈ os := by
  constructor
  · exact mem_puts
  · rintro (h | h)
    · exact puts_keeps h (fun a ha e => absurd e.symm (hnew a ha o h))
    · obtain ⟨x, hx, e⟩ := (key_puts (s := s) (os := os)).2 (Or.inr ⟨o, h, rfl⟩)
      rcases mem_puts hx with h' | h'
      · exact absurd e (hnew o h x h')
      · rw [← hsame x h' o h e]
        exact hx

/-- Shares of a list are the images of shares of another. -/
theorem lift_shares {α γ : Type} (f : α → γ) (L : List (Nat × γ)) (items : Nat → List α) (h : ∀ i, share L i = (items i).map f) :
    ∃ L' : List (Nat × α), L = L'.map (fun x => (x.1, f x.2)) ∧ ∀ i, share L' i = items i := by
  induction L generalizing items with
  | nil =>
    refine ⟨[], rfl, fun i => ?_⟩
    have := h i
    simp only [share, List.filter_nil, List.map_nil] at this ⊢
    exact (List.map_eq_nil_iff.1 this.symm).symm
  | cons x L ih =>
    obtain ⟨j, c⟩ := x
    have hj := h j
    rw [CloudStream.share_cons, if_pos rfl] at hj
    cases hi : items j with
    | nil => rw [hi] at hj; cases hj
    | cons a rest =>
      rw [hi] at hj
      obtain ⟨hc, hrest⟩ := List.cons.inj hj
      obtain ⟨L', h1, h2⟩ := ih (fun i => if i = j then rest else items i) (by
        intro i
        by_cases hij : i = j
        · subst hij; rw [if_pos rfl]; exact hrest
        · have := h i
          rw [CloudStream.share_cons, if_neg (fun e => hij e.symm)] at this
          rw [if_neg hij]; exact this)
      refine ⟨(j, a) :: L', by have hc : c = f a := hc; rw [h1, hc]; rfl, ?_⟩
      intro i
      rw [CloudStream.share_cons, h2]
      by_cases hij : i = j
      · subst hij; simp [hi]
      · rw [if_neg hij, if_neg (fun e => hij e.symm)]

/-- Files of parts with the same name are the same. -/
theorem files_alike {w : Job} {r r' : History.Run ρ} (hr : r.OK w) (hr' : r'.OK w)
    (hids : r = r' ∨ ∀ p ∈ blobsOf r, ∀ p' ∈ blobsOf r', p.1 ≠ p'.1) {a b : Str × Bytes} (ha : a ∈ runFiles w (blobsOf r))
    (hb : b ∈ runFiles w (blobsOf r')) (e : a.1 = b.1) : a = b := by
  have hone : ∀ {r : History.Run ρ}, r.OK w → ∀ a ∈ runFiles w (blobsOf r), ∀ b ∈ runFiles w (blobsOf r), a.1 = b.1 → a = b :=
    fun hr a ha b hb e => List.inj_on_of_nodup_map (Disk.runFiles_nodup w hr.id hr.nodup) ha hb e
  have hmark : ∀ r : History.Run ρ, ("frame.complete".toList, ([] : Bytes)) ∈ runFiles w (blobsOf r) := by
    intro r; unfold runFiles; simp
  rcases hids with rfl | hids
  · exact hone hr a ha b hb e
  · have ha0 := ha
    have hb0 := hb
    unfold runFiles at ha0 hb0
    rcases List.mem_append.1 hb0 with h | h
    · rcases List.mem_append.1 ha0 with h' | h'
      · obtain ⟨x, hx, rfl⟩ := List.mem_map.1 h'
        obtain ⟨y, hy, rfl⟩ := List.mem_map.1 h
        exact absurd (List.append_cancel_right e) (hids x hx y hy)
      · rw [List.mem_singleton.1 h'] at e ⊢
        exact hone hr' _ (hmark r') b hb e
    · rw [List.mem_singleton.1 h] at e ⊢
      exact hone hr a ha _ (hmark r) e

/-- The storage while parts of a job are under way is as a disk is on which each of their files is stored in one go. -/
theorem parts_under_way {w : Job} {ls : List (List Piece)} (hw : Daily w ls) {S : DateTime → Prop} (hS : ∀ t, S t → Day t)
    {H : DateTime → List Batch} {d : Disk} (hk : Kept w ls S H d) {s : List (Obj Bytes)} (hsim : Sim ls S s d)
    {t : DateTime} (hSt : S t) {n0 : DateTime} (parts : List (History.Run ρ)) (hr : ∀ r ∈ parts, Proper (on w t) r ∧ r.now = n0)
    (hnew : ∀ b ∈ H t, b.now.seconds < n0.seconds)
    (hids : ∀ (i j : Nat) (r r' : History.Run ρ), i ≠ j → parts[i]? = some r → parts[j]? = some r' →
      ∀ p ∈ blobsOf r, ∀ p' ∈ blobsOf r', p.1 ≠ p'.1)
    {v : Service} (hv : v = gcs ∨ v = minio) (schedule : List Nat) (k : Nat) :
    ∃ (s1 : List (Obj Bytes)) (steps : List (Nat × Op)) (d' : Disk),
      storageAt v w (parts.map (fun r => (t, r))) s schedule k = .ok s1 ∧
      Taken w (parts.map (fun r => (t, r))) steps ∧
      (∀ (i : Nat) (r : History.Run ρ), parts[i]? = some r →
        share steps i = ((filesOf (on w t) r).take ((schedule.take k).count i)).flatMap
          (fun it => blobOps (frameFolder (on w t) ls n0) it.1 it.2)) ∧
      exec d (steps.map (·.2)) = .ok d' ∧
      (∀ u, S u → ∀ q, beneath ⟨[], folderOf ls u⟩ q = true → (q ∈ files s1 ↔ q ∈ d'.names)) ∧
      Sim ls (fun _ => False) s1 d' := by
  have hok := hw.ok t (hS t hSt).valid
  have hday := hS t hSt
  obtain ⟨P⟩ : Nonempty (Plain v) := by
    rcases hv with rfl | rfl
    · exact ⟨gcsPlain⟩
    · exact ⟨minioPlain⟩
  obtain ⟨ps, h1, h2⟩ : ∃ ps, (parts.map (fun r => (t, r))).mapM (fun p => begun v { w with date := p.1 } p.2) = .ok ps ∧
      ps.map (·.outs P) = parts.map (fun r => objects w ls (t, r)) := by
    clear hids
    induction parts with
    | nil => exact ⟨[], rfl, rfl⟩
    | cons r parts ih =>
      obtain ⟨ps, h1, h2⟩ := ih (fun q hq => hr q (by simp [hq]))
      obtain ⟨q, h3, h4⟩ := begun_outs hw hday r (hr r (by simp)).1 hv P
      have h3 : begun v { w with date := t } r = .ok q := h3
      refine ⟨q :: ps, ?_, by simp [h2, h4]⟩
      rw [List.map_cons, List.mapM_cons, h3, h1]
      rfl
  obtain ⟨L, h3, h4⟩ := underWay_puts P ps s (schedule.take k)
  let items : Nat → List (Str × Bytes) := fun i =>
    ((parts[i]?.map (filesOf (on w t))).getD []).take ((schedule.take k).count i)
  have h5 : ∀ i, share L i = (items i).map (objAt (on w t) ls n0) := by
    intro i
    rw [h4]
    have := congrArg (fun l => l[i]?) h2
    simp only [List.getElem?_map] at this
    rw [this]
    simp only [items]
    cases hp : parts[i]? with
    | none => simp
    | some r =>
      simp only [Option.map_some, Option.getD_some, List.map_take]
      unfold objects
      rw [(hr r (List.mem_of_getElem? hp)).2]
  obtain ⟨L', e, hsh⟩ := lift_shares (objAt (on w t) ls n0) L items h5
  subst e
  have hitem : ∀ x ∈ L', ∃ r, parts[x.1]? = some r ∧ x.2 ∈ filesOf (on w t) r := by
    intro x hx
    have hx := StreamStorage.mem_share.2 (show (x.1, x.2) ∈ L' from hx)
    rw [hsh] at hx
    simp only [items] at hx
    cases hp : parts[x.1]? with
    | none => rw [hp] at hx; simp at hx
    | some r => rw [hp] at hx; exact ⟨r, rfl, List.mem_of_mem_take hx⟩
  let its := L'.map (·.2)
  have hits : ∀ it ∈ its, ∃ r ∈ parts, it ∈ runFiles (on w t) (blobsOf r) := by
    intro it hit
    obtain ⟨x, hx, rfl⟩ := List.mem_map.1 hit
    obtain ⟨r, h, h'⟩ := hitem x hx
    exact ⟨r, List.mem_of_getElem? h, History.mem_filesOf h'⟩
  have hsame : ∀ a ∈ its, ∀ b ∈ its, a.1 = b.1 → a = b := by
    intro a ha b hb
    obtain ⟨x, hx, rfl⟩ := List.mem_map.1 ha
    obtain ⟨y, hy, rfl⟩ := List.mem_map.1 hb
    obtain ⟨r, h, h'⟩ := hitem x hx
    obtain ⟨r', g, g'⟩ := hitem y hy
    refine files_alike (hr r (List.mem_of_getElem? h)).1.toOK (hr r' (List.mem_of_getElem? g)).1.toOK ?_
      (History.mem_filesOf h') (History.mem_filesOf g')
    by_cases hxy : x.1 = y.1
    · left
      rw [hxy, g] at h
      exact (Option.some.inj h).symm
    · exact Or.inr (hids _ _ r r' hxy h g)
  have hfile : ∀ it ∈ its, (objAt (on w t) ls n0 it).file = at_ (frameFolder (on w t) ls n0) it := by
    intro it hit
    obtain ⟨r, hm, h⟩ := hits it hit
    obtain ⟨hp, rfl⟩ := hr r hm
    exact objAt_file hok hp.now hp.toOK.id h
  have htid : ∀ it ∈ its, Comp (objAt (on w t) ls n0 it).bucket ∧
      ∃ cs, cs ≠ [] ∧ (∀ c ∈ cs, Comp c) ∧ (objAt (on w t) ls n0 it).name = join ['/'] cs := by
    intro it hit
    obtain ⟨r, hm, h⟩ := hits it hit
    obtain ⟨hp, rfl⟩ := hr r hm
    exact objAt_tidy hok hp.now hp.toOK.id h
  have hfet : ∀ it ∈ its, Fetchable (objAt (on w t) ls n0 it) := by
    intro it hit
    obtain ⟨r, hm, h⟩ := hits it hit
    obtain ⟨hp, rfl⟩ := hr r hm
    exact objAt_fetchable hok hp.now hp.toOK.id h
  have hslash : ∀ it ∈ its, endsWith ['/'] (objAt (on w t) ls n0 it).name = false := by
    intro it hit
    obtain ⟨-, cs, hn, hc, e⟩ := htid it hit
    rw [e]
    exact join_last hc hn
  have hfresh : ∀ it ∈ its, at_ (frameFolder (on w t) ls n0) it ∉ d.names := by
    intro it hit
    obtain ⟨r, hm, -⟩ := hits it hit
    obtain ⟨hp, rfl⟩ := hr r hm
    exact new_names hok (hk.valid t hSt) (hk.hex t hSt) (hk.holds t hSt) hp.now hnew it
  have hinj : ∀ a ∈ its, ∀ b ∈ its, (objAt (on w t) ls n0 a).file = (objAt (on w t) ls n0 b).file → a = b := by
    intro a ha b hb e
    rw [hfile a ha, hfile b hb] at e
    have e3 := List.append_cancel_left (congrArg Posix.comps e)
    simp only [List.cons.injEq, and_true] at e3
    exact hsame a ha b hb e3
  -- the disk
  let steps : List (Nat × Op) :=
    L'.flatMap (fun x => (blobOps (frameFolder (on w t) ls n0) x.2.1 x.2.2).map (fun o => (x.1, o)))
  have hsteps : steps.map (·.2) = its.flatMap (fun it => blobOps (frameFolder (on w t) ls n0) it.1 it.2) := by
    simp only [steps, its, List.map_flatMap, List.flatMap_map, List.map_map]
    apply List.flatMap_congr
    intro x _
    exact List.map_id' _
  have hshare : ∀ (i : Nat) (r : History.Run ρ), parts[i]? = some r →
        share steps i = ((filesOf (on w t) r).take ((schedule.take k).count i)).flatMap
          (fun it => blobOps (frameFolder (on w t) ls n0) it.1 it.2) := by
    intro i r hp
    have := StreamStorage.share_flatMap L' (fun x => blobOps (frameFolder (on w t) ls n0) x.2.1 x.2.2) i
    rw [hsh] at this
    simp only [items, hp, Option.map_some, Option.getD_some] at this
    exact this
  obtain ⟨d', he, g1, g2, g3⟩ := exec_again its hsame (History.Tidy.clear (w := on w t) (ls := ls) (hk.tidy t hSt) n0).room
  have hos : ∀ o, o ∈ puts s (its.map (objAt (on w t) ls n0)) ↔ o ∈ s ∨ o ∈ its.map (objAt (on w t) ls n0) := by
    apply puts_again
    · intro a ha b hb e
      obtain ⟨x, hx, rfl⟩ := List.mem_map.1 ha
      obtain ⟨y, hy, rfl⟩ := List.mem_map.1 hb
      rw [hinj x hx y hy (file_key e).1]
    · intro o ho x hx e
      obtain ⟨it, hit, rfl⟩ := List.mem_map.1 ho
      obtain ⟨k1, k2⟩ := file_key e
      have hmem : x.file ∈ (files s).filter (beneath ⟨[], folderOf ls t⟩) := by
        refine List.mem_filter.2 ⟨List.mem_map.2 ⟨x, List.mem_filter.2 ⟨hx, ?_⟩, rfl⟩, ?_⟩
        · rw [k2, hslash it hit]; rfl
        · rw [k1, hfile it hit]
          exact Disk.beneath_at (on w t) ls n0 it
      rw [hsim.same t hSt] at hmem
      apply hfresh it hit
      rw [← hfile it hit, ← k1]
      exact (List.mem_filter.1 hmem).1
  have hL : (L'.map (fun x => (x.1, objAt (on w t) ls n0 x.2))).map (·.2) = its.map (objAt (on w t) ls n0) := by
    simp only [its, List.map_map]; rfl
  refine ⟨puts s (its.map (objAt (on w t) ls n0)), steps, d', ?_, ⟨?_, ?_⟩, hshare, by rw [hsteps]; exact he, ?_, ?_, nofun, ?_⟩
  · unfold storageAt
    rw [h1]
    show Except.ok (underWay v ps s (schedule.take k)) = _
    rw [h3, hL]
  · intro i p hp
    obtain ⟨e1, e2⟩ := Split.runs_get hp
    obtain ⟨hpr, hn⟩ := hr p.2 (List.mem_of_getElem? e2)
    refine ⟨_, by rw [e1]; exact History.ops_files (ls := ls) hok hpr.toOK, ?_⟩
    rw [hshare i p.2 e2, hn]
    refine ⟨((filesOf (on w t) p.2).drop ((schedule.take k).count i)).flatMap
          (fun it => blobOps (frameFolder (on w t) ls n0) it.1 it.2), ?_⟩
    rw [← List.flatMap_append, List.take_append_drop]
  · intro x hx
    obtain ⟨y, hy, hxy⟩ := List.mem_flatMap.1 hx
    obtain ⟨o, -, rfl⟩ := List.mem_map.1 hxy
    obtain ⟨r, hp, -⟩ := hitem y hy
    rw [List.length_map]
    exact (List.getElem?_eq_some_iff.1 hp).1
  · intro u hu q hq
    rw [g1]
    have hs0 : q ∈ files s ↔ q ∈ d.names := by
      have := congrArg (fun l => q ∈ l) (hsim.same u hu)
      simp only [List.mem_filter, hq, and_true] at this
      rw [this]
    rw [← hs0]
    unfold files
    simp only [List.mem_map, List.mem_filter, hos]
    constructor
    · rintro ⟨o, ⟨ho | ⟨it, hit, rfl⟩, hl⟩, rfl⟩
      · exact Or.inl ⟨o, ⟨ho, hl⟩, rfl⟩
      · exact Or.inr ⟨it, hit, hfile it hit⟩
    · rintro (⟨o, ⟨ho, hl⟩, rfl⟩ | ⟨it, hit, rfl⟩)
      · exact ⟨o, ⟨Or.inl ho, hl⟩, rfl⟩
      · exact ⟨objAt (on w t) ls n0 it, ⟨Or.inr ⟨it, hit, rfl⟩, by rw [hslash it hit]; rfl⟩, hfile it hit⟩
  · apply puts_tidy hsim.tidy
    intro o ho
    obtain ⟨it, hit, rfl⟩ := List.mem_map.1 ho
    exact htid it hit
  · intro q hq
    rcases (g1 q).1 hq with hq | ⟨it, hit, rfl⟩
    · obtain ⟨o, ho, k1, k2, k3, k4⟩ := hsim.data q hq
      refine ⟨o, (hos o).2 (Or.inl ho), k1, k2, ?_, k4⟩
      rw [k3, g3 q]
      intro it hit e
      exact hfresh it hit (e ▸ hq)
    · exact ⟨_, (hos _).2 (Or.inr (List.mem_map.2 ⟨it, hit, rfl⟩)), hfile it hit, hslash it hit,
        (g2 it hit).symm, hfet it hit⟩

end Mabel.CloudSplit
