import Verif.Spec.CloudOverlap
import Verif.Lemmas.CloudMany
import Verif.Lemmas.Cloud

/-! Runs of batch writers on object storage that overlap in time: the storage is as if they had been one after the other. -/

namespace Mabel.CloudOverlap
open Mabel.Py Mabel.Paths Mabel.Naming Mabel.Spec Mabel.Listing Mabel.ObjectStore Mabel.Cloud
open Mabel.Disk (Bytes)
open Mabel.Disk (at_ frameFolder runFiles)
open Mabel.History (Day Daily folderOf on)
open Mabel.StreamStorage (share)
variable {ρ : Type}

/-- A service whose writers put one object for each commit. -/
structure Plain (v : Service) where
  after : Inner → Inner
  object : Inner → Bytes → Option Str → Str → Obj Bytes
  eq : ∀ w s b o i, v.commit w s b o i = (after w, put s (object w b o i))

def gcsPlain : Plain gcs where
  after w := { w with filename := w.withoutBucket }
  object w b o i := ⟨w.bucket, ({ w with filename := w.withoutBucket } : Inner).chooseName o i, b⟩
  eq _ _ _ _ _ := rfl

def minioPlain : Plain minio where
  after w := w
  object w b o i := ⟨w.bucket, w.chooseName o i, b⟩
  eq _ _ _ _ _ := rfl

/-- The objects a process will store. -/
def outs {v : Service} (P : Plain v) (ids : Nat → Str) : Nat → Inner → List Writer.Stored → List (Obj Bytes)
  | _, _, [] => []
  | n, w, .data bytes :: rest => P.object w bytes none (ids n) :: outs P ids (n + 1) (P.after w) rest
  | n, w, .complete :: rest => P.object w [] (some (completionPath w.filename)) [] :: outs P ids n (P.after w) rest

theorem outs_length {v : Service} (P : Plain v) (ids : Nat → Str) (n : Nat) (w : Inner) (l : List Writer.Stored) :
    (outs P ids n w l).length = l.length := by
  induction l generalizing n w with
  | nil => rfl
  | cons x l ih => cases x <;> simp [outs, ih]

theorem outs_take {v : Service} (P : Plain v) (ids : Nat → Str) (n : Nat) (w : Inner) (l : List Writer.Stored) (k : Nat) :
    outs P ids n w (l.take k) = (outs P ids n w l).take k := by
  induction l generalizing n w k with
  | nil => simp [outs]
  | cons x l ih =>
    cases k with
    | zero => simp [outs]
    | succ k => cases x <;> simp [outs, ih]

theorem storeAll_outs {v : Service} (P : Plain v) (ids : Nat → Str) (n : Nat) (w : Inner) (s : List (Obj Bytes))
    (l : List Writer.Stored) : storeAll v ids n w s l = puts s (outs P ids n w l) := by
  induction l generalizing n w s with
  | nil => rfl
  | cons x l ih =>
    cases x with
    | data b => simp only [storeAll, P.eq, ih, outs, puts, List.foldl_cons]
    | complete => simp only [storeAll, P.eq, ih, outs, puts, List.foldl_cons]

def Proc.outs {v : Service} (P : Plain v) (p : Proc) : List (Obj Bytes) := CloudOverlap.outs P p.ids p.stored p.inner p.todo

theorem next_outs {v : Service} (P : Plain v) (p : Proc) (s : List (Obj Bytes)) :
    (p.outs P = [] ∧ (p.next v s).1.outs P = [] ∧ (p.next v s).2 = s) ∨
    ∃ o rest, p.outs P = o :: rest ∧ (p.next v s).1.outs P = rest ∧ (p.next v s).2 = put s o := by
  obtain ⟨inner, ids, n, todo⟩ := p
  cases todo with
  | nil => exact Or.inl ⟨rfl, rfl, rfl⟩
  | cons x l =>
    right
    cases x with
    | data b => exact ⟨_, _, rfl, by simp only [Proc.next, Proc.outs, P.eq], by simp only [Proc.next, P.eq]⟩
    | complete => exact ⟨_, _, rfl, by simp only [Proc.next, Proc.outs, P.eq], by simp only [Proc.next, P.eq]⟩

/-- What processes that are under way have stored, in the order in which it was. -/
theorem underWay_puts {v : Service} (P : Plain v) (ps : List Proc) (s : List (Obj Bytes)) (schedule : List Nat) :
    ∃ L : List (Nat × Obj Bytes), underWay v ps s schedule = puts s (L.map (·.2)) ∧
      ∀ i, share L i = ((ps[i]?.map (·.outs P)).getD []).take (schedule.count i) := by
  induction schedule generalizing ps s with
  | nil => exact ⟨[], rfl, fun i => by simp [share]⟩
  | cons i schedule ih =>
    cases hp : ps[i]? with
    | none =>
      obtain ⟨L, h1, h2⟩ := ih ps s
      refine ⟨L, by simp only [underWay, hp]; exact h1, ?_⟩
      intro j
      rw [h2]
      by_cases hj : i = j
      · subst hj; simp [hp]
      · rw [List.count_cons_of_ne hj]
    | some p =>
      have hlt := (List.getElem?_eq_some_iff.1 hp).1
      obtain ⟨L, h1, h2⟩ := ih (ps.set i (p.next v s).1) (p.next v s).2
      have hset : ∀ j, (ps.set i (p.next v s).1)[j]? = if i = j then some (p.next v s).1 else ps[j]? := by
        intro j
        rw [List.getElem?_set]
        by_cases hj : i = j
        · rw [if_pos hj, if_pos hj, if_pos hlt]
        · rw [if_neg hj, if_neg hj]
      rcases next_outs P p s with ⟨e1, e2, e3⟩ | ⟨o, rest, e1, e2, e3⟩
      · refine ⟨L, by simp only [underWay, hp]; rw [h1, e3], ?_⟩
        intro j
        rw [h2, hset]
        by_cases hj : i = j
        · subst hj; simp [hp, e1, e2]
        · rw [if_neg hj, List.count_cons_of_ne hj]
      · refine ⟨(i, o) :: L, by simp only [underWay, hp]; rw [h1, e3]; rfl, ?_⟩
        intro j
        rw [CloudStream.share_cons, h2, hset]
        by_cases hj : i = j
        · subst hj
          simp [hp, e1, e2]
        · rw [if_neg hj, List.count_cons_of_ne hj]
          simp [hj]


/-! ## The objects of a run -/

/-- The objects of a run. -/
noncomputable def objects (w : Job) (ls : List (List Piece)) (p : DateTime × History.Run ρ) : List (Obj Bytes) :=
  (History.filesOf (on w p.1) p.2).map (objAt (on w p.1) ls p.2.now)

theorem objects_length (w : Job) (ls : List (List Piece)) (p : DateTime × History.Run ρ) :
    (objects w ls p).length = p.2.stored.length := by
  rw [History.stored_eq p.2]
  unfold objects History.filesOf
  split <;> simp [blobs_length]

theorem puts_last (s l : List (Obj Bytes)) (o : Obj Bytes) : (puts s (l ++ [o])).getLast? = some o := by
  rw [puts_append]
  simp [puts, put]

theorem eq_of_puts {a b : List (Obj Bytes)} (hlen : a.length = b.length) (h : ∀ k, puts [] (a.take k) = puts [] (b.take k)) : a = b := by
  apply List.ext_getElem hlen
  intro k ha hb
  have h1 := congrArg List.getLast? (h (k + 1))
  rw [List.take_succ_eq_append_getElem ha, List.take_succ_eq_append_getElem hb, puts_last, puts_last] at h1
  exact Option.some.inj h1

theorem begun_outs {w : Job} {ls : List (List Piece)} (hw : Daily w ls) {t : DateTime} (ht : Day t) (r : History.Run ρ)
    (hr : Proper (on w t) r) {v : Service} (hv : v = gcs ∨ v = minio) (P : Plain v) :
    ∃ p, begun v (on w t) r = .ok p ∧ p.outs P = objects w ls (t, r) := by
  have hok := hw.ok t ht.valid
  have hall : ∀ (s : List (Obj Bytes)) (k : Nat), afterRun v (on w t) s { r with stop := k } = .ok (puts s ((objects w ls (t, r)).take k)) := by
    intro s k
    have hp : Proper (on w t) { r with stop := k } := ⟨⟨hr.now, hr.format, hr.hex, hr.order⟩, hr.marked⟩
    obtain ⟨h1, h2⟩ := afterRun_eq hok s { r with stop := k } hp
    have e : objsOf (on w t) ls [] (part { r with stop := k }) = (objects w ls (t, r)).take k := by
      rw [objs_items]
      exact List.map_take
    rw [e] at h1 h2
    rcases hv with rfl | rfl
    · exact h1
    · exact h2
  unfold begun
  have h0 := hall [] 0
  unfold afterRun at h0 hall
  cases hf : frameId (on w t).dataset (on w t).partitions (asAtName r.now) (on w t).date (on w t).rnd with
  | error e => simp only [hf] at h0; cases h0
  | ok frame =>
    simp only [hf] at h0 hall
    cases hm : v.make frame (on w t).format with
    | error e => simp only [hm] at h0; cases h0
    | ok inner =>
      simp only [hm] at hall
      refine ⟨⟨inner, r.ids, 0, r.stored⟩, by simp only [hm], ?_⟩
      apply eq_of_puts
      · rw [objects_length]
        exact outs_length _ _ _ _ _
      · intro k
        have := Except.ok.inj (hall [] k)
        rw [← this, storeAll_outs P]
        exact congrArg _ (outs_take P r.ids 0 inner r.stored k).symm

/-! ## They are all different -/

theorem objects_mem {w : Job} {ls : List (List Piece)} (hw : Daily w ls) {p : DateTime × History.Run ρ} (ht : Day p.1)
    (hr : Proper (on w p.1) p.2) {o : Obj Bytes} (ho : o ∈ objects w ls p) :
    (∃ name, o.file = ⟨[], folderOf ls p.1 ++ [asAtName p.2.now] ++ [name]⟩) ∧ endsWith ['/'] o.name = false ∧
      Comp o.bucket ∧ ∃ cs, cs ≠ [] ∧ (∀ c ∈ cs, Comp c) ∧ o.name = join ['/'] cs := by
  have hok := hw.ok p.1 ht.valid
  obtain ⟨it, hit, rfl⟩ := List.mem_map.1 ho
  have hsub := History.mem_filesOf hit
  have h1 := objAt_tidy (ls := ls) hok hr.now hr.toOK.id hsub
  refine ⟨⟨it.1, objAt_file hok hr.now hr.toOK.id hsub⟩, ?_, h1⟩
  obtain ⟨-, cs, hn, hc, e⟩ := h1
  rw [e]
  exact join_last hc hn

theorem objects_once {w : Job} {ls : List (List Piece)} (hw : Daily w ls) {p : DateTime × History.Run ρ} (ht : Day p.1)
    (hr : Proper (on w p.1) p.2) : ((objects w ls p).map Obj.key).Nodup := by
  have hok := hw.ok p.1 ht.valid
  have hndf : ((History.filesOf (on w p.1) p.2).map Prod.fst).Nodup :=
    (Disk.runFiles_nodup (on w p.1) hr.toOK.id hr.toOK.nodup).sublist ((History.filesOf_sublist (on w p.1) p.2).map _)
  have hfile : ∀ it ∈ History.filesOf (on w p.1) p.2, (objAt (on w p.1) ls p.2.now it).file = at_ (frameFolder (on w p.1) ls p.2.now) it :=
    fun it hit => objAt_file hok hr.now hr.toOK.id (History.mem_filesOf hit)
  refine List.Nodup.of_map (fun k : Str × Str => Posix.parse (k.1 ++ '/' :: k.2)) ?_
  rw [List.map_map]
  show ((objects w ls p).map (fun o => o.file)).Nodup
  unfold objects
  rw [List.map_map]
  have e : (History.filesOf (on w p.1) p.2).map ((fun o => o.file) ∘ objAt (on w p.1) ls p.2.now)
      = ((History.filesOf (on w p.1) p.2).map Prod.fst).map (fun n => ⟨[], frameFolder (on w p.1) ls p.2.now ++ [n]⟩) := by
    rw [List.map_map]
    exact List.map_congr_left (fun it hit => hfile it hit)
  rw [e]
  refine List.Pairwise.map _ ?_ hndf
  intro a b hab e
  simp only [Posix.mk.injEq, true_and] at e
  have := List.append_cancel_left e
  simp only [List.cons.injEq, and_true] at this
  exact hab this

theorem objects_apart {w : Job} {ls : List (List Piece)} (hw : Daily w ls) {p p' : DateTime × History.Run ρ} (ht : Day p.1)
    (hr : Proper (on w p.1) p.2) (ht' : Day p'.1) (hr' : Proper (on w p'.1) p'.2)
    (hlt : p.1 = p'.1 → p.2.now.seconds < p'.2.now.seconds) {o o' : Obj Bytes} (ho : o ∈ objects w ls p) (ho' : o' ∈ objects w ls p') :
    o.key ≠ o'.key := by
  intro e
  obtain ⟨⟨n, h1⟩, -⟩ := objects_mem hw ht hr ho
  obtain ⟨⟨n', h1'⟩, -⟩ := objects_mem hw ht' hr' ho'
  have e := (file_key e).1
  rw [h1, h1'] at e
  have e1 := congrArg Posix.comps e
  simp only at e1
  obtain ⟨e2, -⟩ := List.append_inj e1 (by simp [folderOf])
  obtain ⟨e3, e4⟩ := List.append_inj e2 (by simp [folderOf])
  have et : p.1 = p'.1 := by
    by_contra hc
    exact hw.folder_ne ht ht' hc e3
  have en := asAtName_inj hr.now hr'.now (List.cons.inj e4).1
  have := hlt et
  rw [en] at this
  omega

/-! ## Under way, and one after the other -/

/-- The runs, each stopped where it is. -/
def upTo (runs : List (DateTime × History.Run ρ)) (schedule : List Nat) : List (DateTime × History.Run ρ) :=
  runs.mapIdx (fun i p => (p.1, { p.2 with stop := schedule.count i }))

theorem upTo_get {runs : List (DateTime × History.Run ρ)} {schedule : List Nat} {i : Nat} :
    (upTo runs schedule)[i]? = runs[i]?.map (fun p => (p.1, { p.2 with stop := schedule.count i })) := by
  unfold upTo
  rw [List.getElem?_mapIdx]

theorem upTo_mem {runs : List (DateTime × History.Run ρ)} {schedule : List Nat} {q : DateTime × History.Run ρ} (h : q ∈ upTo runs schedule) :
    ∃ (i : Nat) (p : DateTime × History.Run ρ), runs[i]? = some p ∧ q = (p.1, { p.2 with stop := schedule.count i }) := by
  obtain ⟨i, hi⟩ := List.mem_iff_getElem?.1 h
  rw [upTo_get] at hi
  obtain ⟨p, hp, e⟩ := Option.map_eq_some_iff.1 hi
  exact ⟨i, p, hp, e.symm⟩

theorem upTo_pairwise {runs : List (DateTime × History.Run ρ)} (schedule : List Nat)
    (hord : runs.Pairwise (fun a b => a.1 = b.1 → a.2.now.seconds < b.2.now.seconds)) :
    (upTo runs schedule).Pairwise (fun a b => a.1 = b.1 → a.2.now.seconds < b.2.now.seconds) := by
  rw [List.pairwise_iff_getElem] at hord ⊢
  intro i j hi hj hij
  unfold upTo at hi hj ⊢
  simp only [List.length_mapIdx] at hi hj
  simp only [List.getElem_mapIdx]
  exact hord i j hi hj hij

/-- New objects are added. -/
theorem add_objects {w : Job} {ls : List (List Piece)} (hw : Daily w ls) {runs : List (DateTime × History.Run ρ)}
    (hok : ∀ p ∈ runs, Day p.1 ∧ Proper (on w p.1) p.2) {s : List (Obj Bytes)}
    (hempty : ∀ p ∈ runs, ∀ q ∈ files s, beneath ⟨[], folderOf ls p.1⟩ q = false) {os : List (Obj Bytes)}
    (hos : ∀ o ∈ os, ∃ p ∈ runs, o ∈ objects w ls p) (hnd : (os.map Obj.key).Nodup) : puts s os = s ++ os := by
  apply puts_fresh hnd
  intro o ho x hx e
  obtain ⟨p, hp, hop⟩ := hos o ho
  obtain ⟨⟨n, h1⟩, h2, -⟩ := objects_mem hw (hok p hp).1 (hok p hp).2 hop
  obtain ⟨k1, k2⟩ := file_key e
  have hm : x.file ∈ files s := List.mem_map.2 ⟨x, List.mem_filter.2 ⟨hx, by rw [k2, h2]; rfl⟩, rfl⟩
  have := hempty p hp _ hm
  rw [k1, h1] at this
  have hb := Disk.beneath_at (on w p.1) ls p.2.now (n, [])
  have hb : beneath ⟨[], folderOf ls p.1⟩ ⟨[], folderOf ls p.1 ++ [asAtName p.2.now] ++ [n]⟩ = true := hb
  rw [hb] at this
  cases this

theorem puts_objects_tidy {w : Job} {ls : List (List Piece)} (hw : Daily w ls) {runs : List (DateTime × History.Run ρ)}
    (hok : ∀ p ∈ runs, Day p.1 ∧ Proper (on w p.1) p.2) {s : List (Obj Bytes)} (hs : ObjectStore.Tidy s) {os : List (Obj Bytes)}
    (hos : ∀ o ∈ os, ∃ p ∈ runs, o ∈ objects w ls p) : ObjectStore.Tidy (puts s os) := by
  apply puts_tidy hs
  intro o ho
  obtain ⟨p, hp, hop⟩ := hos o ho
  exact (objects_mem hw (hok p hp).1 (hok p hp).2 hop).2.2

theorem nodup_keys {s : List (Obj Bytes)} (hs : ObjectStore.Tidy s) : s.Nodup := List.Nodup.of_map _ hs.once

/-- The storage while runs are under way. -/
theorem under_way {w : Job} {ls : List (List Piece)} (hw : Daily w ls) {runs : List (DateTime × History.Run ρ)}
    (hok : ∀ p ∈ runs, Day p.1 ∧ Proper (on w p.1) p.2)
    (hord : runs.Pairwise (fun a b => a.1 = b.1 → a.2.now.seconds < b.2.now.seconds)) {s : List (Obj Bytes)} (hs : ObjectStore.Tidy s)
    (hempty : ∀ p ∈ runs, ∀ q ∈ files s, beneath ⟨[], folderOf ls p.1⟩ q = false)
    {v : Service} (hv : v = gcs ∨ v = minio) (schedule : List Nat) (k : Nat) :
    ∃ s1, storageAt v w runs s schedule k = .ok s1 ∧ ObjectStore.Tidy s1 ∧
      ∀ o, o ∈ s1 ↔ o ∈ s ∨ ∃ i p, runs[i]? = some p ∧ o ∈ (objects w ls p).take ((schedule.take k).count i) := by
  obtain ⟨P⟩ : Nonempty (Plain v) := by
    rcases hv with rfl | rfl
    · exact ⟨gcsPlain⟩
    · exact ⟨minioPlain⟩
  obtain ⟨ps, h1, h2⟩ : ∃ ps, runs.mapM (fun p => begun v { w with date := p.1 } p.2) = .ok ps ∧
      ps.map (·.outs P) = runs.map (objects w ls) := by
    clear hord hempty
    induction runs with
    | nil => exact ⟨[], rfl, rfl⟩
    | cons p runs ih =>
      obtain ⟨ps, h1, h2⟩ := ih (fun q hq => hok q (by simp [hq]))
      obtain ⟨q, h3, h4⟩ := begun_outs hw (hok p (by simp)).1 p.2 (hok p (by simp)).2 hv P
      have h3 : begun v { w with date := p.1 } p.2 = .ok q := h3
      refine ⟨q :: ps, ?_, by simp [h2, h4]⟩
      rw [List.mapM_cons, h3, h1]
      rfl
  obtain ⟨L, h3, h4⟩ := underWay_puts P ps s (schedule.take k)
  have h5 : ∀ i, share L i = ((runs[i]?.map (objects w ls)).getD []).take ((schedule.take k).count i) := by
    intro i
    rw [h4]
    have := congrArg (fun l => l[i]?) h2
    simp only [List.getElem?_map] at this
    rw [this]
  have hmem : ∀ o, o ∈ L.map (·.2) ↔ ∃ i p, runs[i]? = some p ∧ o ∈ (objects w ls p).take ((schedule.take k).count i) := by
    intro o
    constructor
    · intro ho
      obtain ⟨⟨i, o⟩, hx, rfl⟩ := List.mem_map.1 ho
      have hx := StreamStorage.mem_share.2 hx
      rw [h5] at hx
      cases hp : runs[i]? with
      | none => rw [hp] at hx; simp at hx
      | some p => rw [hp] at hx; exact ⟨i, p, hp, hx⟩
    · rintro ⟨i, p, hp, ho⟩
      have := h5 i
      rw [hp] at this
      exact List.mem_map.2 ⟨(i, o), StreamStorage.mem_share.1 (by rw [this]; exact ho), rfl⟩
  have hos : ∀ o ∈ L.map (·.2), ∃ p ∈ runs, o ∈ objects w ls p := by
    intro o ho
    obtain ⟨i, p, hp, h⟩ := (hmem o).1 ho
    exact ⟨p, List.mem_of_getElem? hp, List.mem_of_mem_take h⟩
  have hnd : ((L.map (·.2)).map Obj.key).Nodup := by
    rw [List.map_map]
    show (L.map (fun x => x.2.key)).Pairwise (· ≠ ·)
    rw [List.pairwise_map]
    apply CloudStream.pairwise_of_shares (R := fun a b : Obj Bytes => a.key ≠ b.key)
    · intro i
      rw [h5]
      cases hp : runs[i]? with
      | none => simp
      | some p =>
        have hm := List.mem_of_getElem? hp
        exact (List.pairwise_map.1 (objects_once hw (hok p hm).1 (hok p hm).2)).sublist (List.take_sublist _ _)
    · intro a ha b hb hab
      have key : ∀ x ∈ L, ∃ p, runs[x.1]? = some p ∧ x.2 ∈ objects w ls p := by
        intro x hx
        have hx := StreamStorage.mem_share.2 (show (x.1, x.2) ∈ L from hx)
        rw [h5] at hx
        cases hp : runs[x.1]? with
        | none => rw [hp] at hx; simp at hx
        | some p => rw [hp] at hx; exact ⟨p, rfl, List.mem_of_mem_take hx⟩
      obtain ⟨p, hp, hap⟩ := key a ha
      obtain ⟨p', hp', hbp⟩ := key b hb
      have hm := List.mem_of_getElem? hp
      have hm' := List.mem_of_getElem? hp'
      obtain ⟨hi, hi'⟩ := List.getElem?_eq_some_iff.1 hp
      obtain ⟨hj, hj'⟩ := List.getElem?_eq_some_iff.1 hp'
      rw [List.pairwise_iff_getElem] at hord
      rcases Nat.lt_or_gt_of_ne hab with hlt | hlt
      · refine objects_apart hw (hok p hm).1 (hok p hm).2 (hok p' hm').1 (hok p' hm').2 ?_ hap hbp
        have := hord _ _ hi hj hlt
        rw [hi', hj'] at this
        exact this
      · refine (objects_apart hw (hok p' hm').1 (hok p' hm').2 (hok p hm).1 (hok p hm).2 ?_ hbp hap).symm
        have := hord _ _ hj hi hlt
        rw [hi', hj'] at this
        exact this
  refine ⟨_, by unfold storageAt; rw [h1], ?_, ?_⟩
  · rw [h3]
    exact puts_objects_tidy hw hok hs hos
  · intro o
    rw [h3, add_objects hw hok hempty hos hnd, List.mem_append, hmem]

/-- The storage after runs one after the other. -/
theorem in_turn {w : Job} {ls : List (List Piece)} (hw : Daily w ls) {runs : List (DateTime × History.Run ρ)}
    (hok : ∀ p ∈ runs, Day p.1 ∧ Proper (on w p.1) p.2)
    (hord : runs.Pairwise (fun a b => a.1 = b.1 → a.2.now.seconds < b.2.now.seconds)) {s : List (Obj Bytes)} (hs : ObjectStore.Tidy s)
    (hempty : ∀ p ∈ runs, ∀ q ∈ files s, beneath ⟨[], folderOf ls p.1⟩ q = false)
    {v : Service} (hv : v = gcs ∨ v = minio) :
    ∃ s1, afterDayRuns v w s runs = .ok s1 ∧ ObjectStore.Tidy s1 ∧
      ∀ o, o ∈ s1 ↔ o ∈ s ∨ ∃ p ∈ runs, o ∈ (objects w ls p).take p.2.stop := by
  have heq : ∀ (runs : List (DateTime × History.Run ρ)) (s : List (Obj Bytes)), (∀ p ∈ runs, Day p.1 ∧ Proper (on w p.1) p.2) →
      afterDayRuns v w s runs = .ok (puts s (runs.flatMap (fun p => (objects w ls p).take p.2.stop))) := by
    intro runs
    induction runs with
    | nil => intro s _; rfl
    | cons p runs ih =>
      intro s hok
      have h1 := afterRun_eq (ls := ls) (hw.ok p.1 (hok p (by simp)).1.valid) s p.2 (hok p (by simp)).2
      have e : objsOf (on w p.1) ls [] (part p.2) = (objects w ls p).take p.2.stop := by
        rw [objs_items]
        exact List.map_take
      rw [e] at h1
      have h1 : afterRun v { w with date := p.1 } s p.2 = .ok (puts s ((objects w ls p).take p.2.stop)) := by
        rcases hv with rfl | rfl
        · exact h1.1
        · exact h1.2
      simp only [afterDayRuns, h1, List.flatMap_cons, puts_append]
      exact ih _ (fun q hq => hok q (by simp [hq]))
  have hos : ∀ o ∈ runs.flatMap (fun p => (objects w ls p).take p.2.stop), ∃ p ∈ runs, o ∈ objects w ls p := by
    intro o ho
    obtain ⟨p, hp, h⟩ := List.mem_flatMap.1 ho
    exact ⟨p, hp, List.mem_of_mem_take h⟩
  have hnd : ((runs.flatMap (fun p => (objects w ls p).take p.2.stop)).map Obj.key).Nodup := by
    rw [List.map_flatMap, List.nodup_flatMap]
    refine ⟨?_, ?_⟩
    · intro p hp
      exact (objects_once hw (hok p hp).1 (hok p hp).2).sublist ((List.take_sublist _ _).map _)
    · refine hord.imp_of_mem ?_
      intro p p' hp hp' hlt
      simp only [Function.onFun, List.disjoint_left]
      intro x hx hx'
      obtain ⟨o, ho, rfl⟩ := List.mem_map.1 hx
      obtain ⟨o', ho', e⟩ := List.mem_map.1 hx'
      exact objects_apart hw (hok p hp).1 (hok p hp).2 (hok p' hp').1 (hok p' hp').2 hlt (List.mem_of_mem_take ho) (List.mem_of_mem_take ho') e.symm
  refine ⟨_, heq runs s hok, puts_objects_tidy hw hok hs hos, ?_⟩
  intro o
  rw [add_objects hw hok hempty hos hnd, List.mem_append, List.mem_flatMap]

/-- The storage while runs are under way is as if they had been one after the other, each to where it is. -/
theorem as_in_turn {w : Job} {ls : List (List Piece)} (hw : Daily w ls) {runs : List (DateTime × History.Run ρ)}
    (hok : ∀ p ∈ runs, Day p.1 ∧ Proper (on w p.1) p.2)
    (hord : runs.Pairwise (fun a b => a.1 = b.1 → a.2.now.seconds < b.2.now.seconds)) {s : List (Obj Bytes)} (hs : ObjectStore.Tidy s)
    (hempty : ∀ p ∈ runs, ∀ q ∈ files s, beneath ⟨[], folderOf ls p.1⟩ q = false)
    {v : Service} (hv : v = gcs ∨ v = minio) (schedule : List Nat) (k : Nat) :
    ∃ s1 s2, storageAt v w runs s schedule k = .ok s1 ∧ afterDayRuns v w s (upTo runs (schedule.take k)) = .ok s2 ∧ s1.Perm s2 := by
  obtain ⟨s1, h1, h2, h3⟩ := under_way hw hok hord hs hempty hv schedule k
  have hmem : ∀ q ∈ upTo runs (schedule.take k), ∃ p ∈ runs, q.1 = p.1 ∧ (Proper (on w p.1) p.2 → Proper (on w p.1) q.2) := by
    intro q hq
    obtain ⟨i, p, hp, rfl⟩ := upTo_mem hq
    exact ⟨p, List.mem_of_getElem? hp, rfl, fun h => ⟨⟨h.now, h.format, h.hex, h.order⟩, h.marked⟩⟩
  obtain ⟨s2, k1, k2, k3⟩ := in_turn hw (runs := upTo runs (schedule.take k))
    (by
      intro q hq
      obtain ⟨p, hp, e, h⟩ := hmem q hq
      rw [e]
      exact ⟨(hok p hp).1, h (hok p hp).2⟩) (upTo_pairwise _ hord) hs
    (by
      intro q hq
      obtain ⟨p, hp, e, -⟩ := hmem q hq
      rw [e]
      exact hempty p hp) hv
  refine ⟨s1, s2, h1, k1, ?_⟩
  rw [List.perm_ext_iff_of_nodup (nodup_keys h2) (nodup_keys k2)]
  intro o
  rw [h3, k3]
  refine or_congr_right ?_
  constructor
  · rintro ⟨i, p, hp, ho⟩
    refine ⟨(p.1, { p.2 with stop := (schedule.take k).count i }), List.mem_of_getElem? (i := i) (by rw [upTo_get, hp]; rfl), ho⟩
  · rintro ⟨q, hq, ho⟩
    obtain ⟨i, p, hp, rfl⟩ := upTo_mem hq
    exact ⟨i, p, hp, ho⟩

end Mabel.CloudOverlap
