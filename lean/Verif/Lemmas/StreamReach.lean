import Verif.Lemmas.StreamRead
import Verif.Spec.StreamStorage
import Verif.Props.Targets

/-!
# What threads have called and what is read of it
-/

namespace Mabel.StreamStorage
open Mabel.Py Mabel.Paths Mabel.Naming Mabel.Spec Mabel.Listing Mabel.EndToEnd Mabel.Dates Mabel.History
open Mabel.Blobs (Lib Faithful Torn delivered Item readBlob Names formatOf BlobName)
open Mabel.WriterInit (Folders Nested)
open Mabel.Stream (Conf Machine Reach Pool run reach_serial Inv run_inv run_append finalize_inv finish_grows blobsAt_prefix
  holds_prefix)
open Mabel.Stream.Spec (blobsAt routed Explains)
open Mabel.Disk hiding Bytes
variable {ρ β : Type}

/-! ## Calls -/

/-- What the threads have done, as calls. -/
theorem explains_calls (f : Call ρ β → Stream.Op ρ) (hist : List (Nat × Stream.Op ρ)) :
    ∀ (calls : Nat → List (Call ρ β)) (after : Nat → List (Stream.Op ρ)),
      Explains (fun t => (calls t).map f) after hist →
      ∃ (h : List (Nat × Call ρ β)) (left : Nat → List (Call ρ β)), Served calls h left ∧
        h.map (fun x => (x.1, f x.2)) = hist ∧ ∀ t, after t = (left t).map f := by
  induction hist with
  | nil =>
    intro calls after he
    exact ⟨[], calls, fun t => by simp, rfl, fun t => by have := he t; simpa using this.symm⟩
  | cons x hist ih =>
    obtain ⟨t0, o⟩ := x
    intro calls after he
    have h0 := he t0
    simp only [List.filter_cons, beq_self_eq_true, if_true, List.map_cons, List.cons_append] at h0
    cases hc : calls t0 with
    | nil => rw [hc] at h0; simp at h0
    | cons a as =>
      rw [hc, List.map_cons, List.cons.injEq] at h0
      obtain ⟨h1, h2⟩ := h0
      obtain ⟨h, left, k1, k2, k3⟩ := ih (fun t => if t = t0 then as else calls t) after (by
        intro t
        by_cases ht : t = t0
        · subst ht; simpa using h2
        · have := he t
          have hne : ¬ t0 = t := fun e => ht e.symm
          simp only [if_neg ht]
          simpa [hne] using this)
      refine ⟨(t0, a) :: h, left, ?_, by simp [k2, h1], k3⟩
      intro t
      have := k1 t
      by_cases ht : t = t0
      · subst ht
        simp only [if_true] at this
        simp [hc, this]
      · have hne : ¬ t0 = t := fun e => ht e.symm
        simp only [if_neg ht] at this
        simpa [hne] using this

theorem Served.mem {calls left : Nat → List (Call ρ β)} {hist : List (Nat × Call ρ β)} (h : Served calls hist left)
    {x : Nat × Call ρ β} (hx : x ∈ hist) : x.2 ∈ calls x.1 := by
  rw [h x.1]
  apply List.mem_append_left
  exact List.mem_map.2 ⟨x, List.mem_filter.2 ⟨hx, by simp⟩, rfl⟩

theorem Served.append {calls l1 l2 : Nat → List (Call ρ β)} {h1 h2 : List (Nat × Call ρ β)} (a : Served calls h1 l1)
    (b : Served l1 h2 l2) : Served calls (h1 ++ h2) l2 := by
  intro t
  rw [a t, b t]
  simp

theorem Served.none {l1 l2 : Nat → List (Call ρ β)} {h : List (Nat × Call ρ β)} (a : Served l1 h l2)
    (hl : ∀ t, (l1 t).length = (l2 t).length) : h = [] := by
  apply List.eq_nil_iff_forall_not_mem.2
  intro x hx
  have e := congrArg List.length (a x.1)
  rw [List.length_append, List.length_map] at e
  have := hl x.1
  have hp : 0 < (h.filter (fun y => y.1 == x.1)).length :=
    List.length_pos_iff.2 (List.ne_nil_of_mem (List.mem_filter.2 ⟨hx, by simp⟩))
  omega

/-- A call that can be asked: an append has a time that exists, on one of the days `S`, and Python goes through
the names of places and the combinations of values in some order. -/
def CallOK (s : Setup) (valid : ρ → Bool) (field : ρ → Str → Targets.Field β) (S : DateTime → Prop) : Call ρ β → Prop
  | .append now r names combos => (s.date.getD now).valid = true ∧ S (midnight (s.date.getD now)) ∧
      Targets.Enumerates (pathFor s valid now r) (field r) names combos
  | .attend => True
  | .finalize => True

/-! ## Targets -/

theorem placeholdersAux_none (n : Nat) : ∀ (p : Str), '{' ∉ p → Targets.placeholdersAux n p = [] := by
  induction n with
  | zero => intro p _; rfl
  | succ n ih =>
    intro p hp
    cases p with
    | nil => rfl
    | cons c cs =>
      have hc : c ≠ '{' := fun e => hp (by simp [e])
      rw [Targets.placeholdersAux.eq_def]
      split
      · rfl
      · rfl
      · rename_i heq; cases heq; exact absurd rfl hc
      · rename_i heq; cases heq; cases ‹_ + 1 = _ + 1›; exact ih _ (fun h => hp (List.mem_cons_of_mem _ h))

theorem targets_one {str : β → Str} {path : Str} {field : Str → Targets.Field β} {names : List Str} {combos : List (List β)}
    (h : Targets.Enumerates path field names combos) (hp : '{' ∉ path) : Targets.targets str path names combos = [path] := by
  have : names = [] := by
    apply List.eq_nil_iff_forall_not_mem.2
    intro n hn
    have := (h.namesMem n).1 hn
    unfold Targets.placeholders at this
    rw [placeholdersAux_none _ _ hp] at this
    cases this
  subst this
  rfl

section
variable {w : Job} {ls : List (List Piece)} {n : Nat} {flt : Option PartitionFilter} {subs chosen : List (List Str)}

theorem fold_of_place (hy : Layout w ls n flt subs chosen) {t : DateTime} {sb : List Str} (ht : Day t) (hsb : sb ∈ subs) :
    fold (place ls t sb) = folderOf ls t ++ sb ∧
      fold (place ls t sb ++ "/BACKOUT/".toList) = folderOf ls t ++ sb ++ [backout] := by
  have hf := hy.folders t ht sb hsb
  unfold fold place
  rw [parse_join hf.ne hf.comp, parse_backout hf]
  exact ⟨rfl, rfl⟩

/-- Different days and different folders beneath them are different places. -/
theorem place_inj (hw : Daily w ls) (hy : Layout w ls n flt subs chosen) {t t' : DateTime} {sb sb' : List Str}
    (ht : Day t) (ht' : Day t') (hsb : sb ∈ subs) (hsb' : sb' ∈ subs) :
    place ls t sb = place ls t' sb' ↔ t = t' ∧ sb = sb' := by
  constructor
  · intro e
    have e := congrArg fold e
    rw [(fold_of_place hy ht hsb).1, (fold_of_place hy ht' hsb').1] at e
    obtain ⟨e1, e2⟩ := List.append_inj e (by rw [folderOf_length, folderOf_length])
    refine ⟨?_, e2⟩
    by_contra hne
    exact hw.folder_ne ht ht' hne e1
  · rintro ⟨rfl, rfl⟩
    rfl

theorem backout_place (hy : Layout w ls n flt subs chosen) {t t' : DateTime} {sb sb' : List Str}
    (ht : Day t) (ht' : Day t') (hsb : sb ∈ subs) (hsb' : sb' ∈ subs) :
    place ls t sb ++ "/BACKOUT/".toList ≠ place ls t' sb' := by
  intro e
  have e := congrArg (fun p => (fold p).length) e
  rw [(fold_of_place hy ht hsb).2, (fold_of_place hy ht' hsb').1] at e
  simp only [List.length_append, folderOf_length, hy.len _ hsb, hy.len _ hsb', List.length_cons, List.length_nil] at e
  omega

end

theorem routed_mem {s : Setup} {valid : ρ → Bool} {str : β → Str} {hist : List (Nat × Call ρ β)} {target : Str} {r : ρ}
    (h : r ∈ routed (hist.map (fun x => op s valid str x.2)) target) :
    ∃ t now names combos, (t, Call.append now r names combos) ∈ hist := by
  unfold routed at h
  obtain ⟨o, ho, hr⟩ := List.mem_flatMap.1 h
  obtain ⟨⟨t, a⟩, hx, rfl⟩ := List.mem_map.1 ho
  cases a with
  | append now r' names combos =>
    simp only [op] at hr
    obtain ⟨_, -, rfl⟩ := List.mem_map.1 hr
    exact ⟨t, now, names, combos, hx⟩
  | attend => cases hr
  | finalize => cases hr

/-! ## The pool -/

theorem reach_trans {c : Conf ρ} {a b d : Machine ρ} (h1 : Reach c a b) (h2 : Reach c b d) : Reach c a d := by
  induction h2 with
  | refl => exact h1
  | step _ hs ih => exact .step ih hs

theorem reach_grows {c : Conf ρ} {a b : Machine ρ} (h : Reach c a b) : a.pool.store <+: b.pool.store := by
  induction h with
  | refl => exact List.prefix_rfl
  | @step b d _ hs ih =>
    refine ih.trans ?_
    cases hs with
    | acquire => exact List.prefix_rfl
    | release => exact List.prefix_rfl
    | work t k =>
      show b.pool.store <+: (Stream.micro c b.pool k).1.store
      cases k with
      | writes r ts =>
        cases ts with
        | nil => exact List.prefix_rfl
        | cons t ts =>
          have := Stream.writeTo_grows c b.pool t r
          simp only [Stream.micro]
          split <;> (rename_i he; rw [he] at this; exact this)
      | stale =>
        show b.pool.store <+: (Stream.now b.pool).2.store
        rw [(Stream.now_spec b.pool).2.1]
        exact List.prefix_rfl
      | removing ids =>
        cases ids with
        | nil => exact List.prefix_rfl
        | cons t ts =>
          have := Stream.removeWriter_grows c b.pool t
          simp only [Stream.micro]
          split <;> (rename_i he; rw [he] at this; exact this)
      | nominating => exact List.prefix_rfl
      | evicting ids =>
        cases ids with
        | nil => exact List.prefix_rfl
        | cons t ts =>
          have := Stream.removeWriter_grows c b.pool t
          simp only [Stream.micro]
          split <;> (rename_i he; rw [he] at this; exact this)
      | opening => exact List.prefix_rfl
      | dropping ids =>
        cases ids with
        | nil => exact List.prefix_rfl
        | cons t ts => exact Stream.removeWriter_grows c b.pool t
      | done => exact List.prefix_rfl

/-- What the pool has stored at two moments. -/
theorem pool_between (c : Conf ρ) (clock : List Int) (todo : Nat → List (Stream.Op ρ)) (m1 m2 : Machine ρ)
    (h1 : Reach c { pool := { clock := clock }, todo := todo } m1) (hfree : m1.owner = none) (h2 : Reach c m1 m2) :
    ∃ hist1 hist2 : List (Nat × Stream.Op ρ), Explains todo m1.todo hist1 ∧ Explains m1.todo m2.todo hist2 ∧
      (∀ T, ∃ stored, Writer.Spec.Holds c.blob.codec c.blob.format (blobsAt m2.pool.store T) stored ∧
        stored <+: routed ((hist1 ++ hist2).map (·.2)) T) ∧
      (m1.pool.writers = [] → ∀ T, Writer.Spec.Holds c.blob.codec c.blob.format (blobsAt m1.pool.store T)
        (routed (hist1.map (·.2)) T)) ∧
      (∀ init t, hist1 = init ++ [(t, .finalize)] → m1.pool.writers = []) ∧
      m1.pool = run c { clock := clock } (hist1.map (·.2)) := by
  obtain ⟨hist1, a1, a2, -⟩ := reach_serial h1 rfl
  obtain ⟨hist2, b1, b2, -⟩ := reach_serial h2 hfree
  rw [hfree] at a2
  simp only at a2
  have h0 : Inv c true ({ clock := clock } : Pool ρ) (fun _ => []) := Inv.init c clock [] true (fun _ => rfl)
  refine ⟨hist1, hist2, a1, b1, ?_, ?_, ?_, a2⟩
  · intro T
    have hi := run_inv ((hist1 ++ hist2).map (·.2)) h0
    rw [List.map_append, run_append, ← a2, ← b2, ← List.map_append] at hi
    have key : ∀ q : Pool ρ, m2.pool.store <+: q.store →
        Inv c true q (fun t => [] ++ routed ((hist1 ++ hist2).map (·.2)) t) →
        ∃ stored, Writer.Spec.Holds c.blob.codec c.blob.format (blobsAt m2.pool.store T) stored ∧
          stored <+: routed ((hist1 ++ hist2).map (·.2)) T := by
      intro q hq hinv
      obtain ⟨gs, pend, k1, k2, -, -, -, k6⟩ := hinv.holds T
      obtain ⟨first, f1, f2⟩ := holds_prefix (blobsAt_prefix hq T) ⟨gs, k1, rfl, k2⟩
      refine ⟨first, f1, f2.trans ?_⟩
      have := k6 rfl
      simp only [List.nil_append] at this
      rw [← this]; exact List.prefix_append _ _
    cases ho : m2.owner with
    | none => rw [ho] at hi; exact key _ List.prefix_rfl hi
    | some tk => obtain ⟨t', k⟩ := tk; rw [ho] at hi; exact key _ (finish_grows c m2.pool k) hi
  · intro he T
    have hi := run_inv (hist1.map (·.2)) h0
    rw [← a2] at hi
    obtain ⟨gs, pend, k1, k2, -, k4, -, k6⟩ := hi.holds T
    have hp : pend = [] := k4 (by rw [he]; simp)
    subst hp
    have := k6 rfl
    simp only [List.nil_append, List.append_nil] at this
    exact ⟨gs, k1, this, k2⟩
  · rintro init t rfl
    rw [a2, List.map_append, run_append]
    exact (finalize_inv (run_inv (init.map (·.2)) h0)).2

/-! ## From the calls to what is read -/

/-- **The whole way.**  Threads call a stream writer; at the moment `m1` no call is under way, at the moment
`m2` any may be, and the disk has got to any step. -/
theorem stream_whole {w : Job} {ls : List (List Piece)} {n : Nat} {flt : Option PartitionFilter}
    {subs chosen : List (List Str)} (hw : Daily w ls)
    (hfmt : w.format ≠ "text".toList) (hy : Layout w ls n flt subs chosen) (s : Setup)
    (hsf : s.format = w.format) (c : Conf ρ) (hc : c.blob.format = formatOf w.format)
    (valid : ρ → Bool) (str : β → Str)
    {S : DateTime → Prop} (hS : ∀ t, S t → Day t) (calls : Nat → List (Call ρ β))
    (hcalls : ∀ t, ∀ a ∈ calls t, ∀ r ts, op s valid str a = .append r ts → ∀ target ∈ ts, Goes ls subs S target) (clock : List Int) (m1 m2 : Machine ρ)
    (h1 : Reach c { pool := { clock := clock }, todo := fun t => (calls t).map (op s valid str) } m1)
    (hfree : m1.owner = none) (h2 : Reach c m1 m2)
    (d : Disk) (hd : ∀ t, S t → Fresh (folderOf ls t) d) (hnd : d.names.Nodup)
    (ids : List Str) (hlen : (handed m2.pool.store).length ≤ ids.length) (hids : ∀ i ∈ ids, Id i)
    (hord : ids.Pairwise Before)
    {first last : DateTime} (hf : Day first) (hl : Day last) (hle : first.seconds ≤ last.seconds)
    {days : List DateTime} (hdays : DaysOf first last days) (hSd : ∀ t ∈ days, S t)
    (records : List ρ) (hrec : ∀ t now r names combos, Call.append now r names combos ∈ calls t → r ∈ records)
    (lib : Lib ρ) (hlib : Faithful c.blob.codec lib records)
    (htr : ∀ r ∈ records, lib.truthy r = true) (now : DateTime) (rnd : Str) (prefixes : List Str)
    (hallow : Reader.allowed prefixes w.dataset = true) (hash : Str → Nat) :
    ∃ (hist1 hist2 : List (Nat × Call ρ β)) (left1 left2 : Nat → List (Call ρ β)),
      Served calls hist1 left1 ∧ Served left1 hist2 left2 ∧
      (∀ t, m1.todo t = (left1 t).map (op s valid str)) ∧ (∀ t, m2.todo t = (left2 t).map (op s valid str)) ∧
      ((∃ init t, hist1 = init ++ [(t, .finalize)]) → m1.pool.writers = []) ∧
      m1.pool = run c { clock := clock } (hist1.map (fun x => op s valid str x.2)) ∧
      (∀ x ∈ handed m2.pool.store, Goes ls subs S x.1) ∧
      ∀ k, Torn c.blob.codec lib records ∨ AtBlob s ids m2.pool.store k →
        ∃ (d' : Disk) (rows : DateTime → List Str → List ρ), onDisk s ids d m2.pool.store k = .ok d' ∧
        (∀ t ∈ days, ∀ sb ∈ chosen,
          rows t sb <+: routed ((hist1 ++ hist2).map (fun x => op s valid str x.2)) (place ls t sb)) ∧
        (m1.pool.writers = [] → Written s ids m1.pool.store k →
          ∀ t ∈ days, ∀ sb ∈ chosen,
            routed (hist1.map (fun x => op s valid str x.2)) (place ls t sb) <+: rows t sb) ∧
        ((∀ t ∈ days, ∀ sb ∈ chosen,
            routed ((hist1 ++ hist2).map (fun x => op s valid str x.2)) (place ls t sb) = []) →
          Reader.openReader (rangeReader w first last prefixes flt) now rnd (diskBlobsAt d'.names) = .error .dataNotFound) ∧
        ((Reader.openReader (rangeReader w first last prefixes flt) now rnd (diskBlobsAt d'.names) = .error .dataNotFound ∧
            ∀ t ∈ days, ∀ sb ∈ chosen, rows t sb = []) ∨
          ∃ l, Reader.openReader (rangeReader w first last prefixes flt) now rnd (diskBlobsAt d'.names) = .ok (0, l) ∧
            Names l ∧
            delivered hash lib {} (read d') l = (days.flatMap fun t => chosen.flatMap (rows t)).map .row) := by
  obtain ⟨o1, o2, e1, e2, hst, hst1, hfin, hrun⟩ := pool_between c clock _ m1 m2 h1 hfree h2
  obtain ⟨hist1, left1, s1, rfl, t1⟩ := explains_calls (op s valid str) o1 calls m1.todo e1
  have e2' : Explains (fun t => (left1 t).map (op s valid str)) m2.todo o2 := by
    intro t
    rw [← e2 t, t1 t]
  obtain ⟨hist2, left2, s2, rfl, t2⟩ := explains_calls (op s valid str) o2 left1 m2.todo e2'
  have hserved := s1.append s2
  have hmaps : ∀ h : List (Nat × Call ρ β), (h.map (fun x => (x.1, op s valid str x.2))).map (·.2)
      = h.map (fun x => op s valid str x.2) := by
    intro h; rw [List.map_map]; rfl
  rw [← List.map_append, hmaps] at hst
  rw [hmaps] at hst1 hrun
  have hmem : ∀ h : List (Nat × Call ρ β), h ⊆ hist1 ++ hist2 → ∀ T,
      routed (h.map (fun x => op s valid str x.2)) T ⊆ records := by
    intro h hsub T r hr
    obtain ⟨t, now, names, combos, hx⟩ := routed_mem hr
    exact hrec t now r names combos (hserved.mem (hsub hx))
  choose R hR1 hR2 using hst
  rw [hc] at hR1
  have hgo : ∀ x ∈ handed m2.pool.store, Goes ls subs S x.1 := by
    intro x hx
    have hne : blobsAt m2.pool.store x.1 ≠ [] := by
      rw [blobsAt_handed]
      exact List.ne_nil_of_mem (List.mem_map.2 ⟨x, List.mem_filter.2 ⟨hx, by simp⟩, rfl⟩)
    have hRne : R x.1 ≠ [] := by
      intro h0
      obtain ⟨gs, k1, k2, k3⟩ := hR1 x.1
      rw [h0] at k2
      cases gs with
      | nil => exact hne k1
      | cons g gs =>
        rw [List.flatten_cons] at k2
        exact k3 g (by simp) (List.append_eq_nil_iff.1 k2).1
    obtain ⟨r, hr⟩ := List.exists_mem_of_ne_nil _ hRne
    have hr := (hR2 x.1).subset hr
    unfold routed at hr
    obtain ⟨o, ho, hr⟩ := List.mem_flatMap.1 hr
    obtain ⟨y, hy', rfl⟩ := List.mem_map.1 ho
    generalize hop : op s valid str y.2 = o at hr
    cases o with
    | append r' ts =>
      obtain ⟨t', ht', -⟩ := List.mem_map.1 hr
      obtain ⟨h1, h2⟩ := List.mem_filter.1 ht'
      rw [← (by simpa using h2 : t' = x.1)]
      exact hcalls _ _ (hserved.mem hy') r' ts hop t' h1
    | attend => cases hr
    | finalize => cases hr
  refine ⟨hist1, hist2, left1, left2, s1, s2, t1, t2, ?_, hrun, hgo, ?_⟩
  · rintro ⟨init, t, rfl⟩
    exact hfin _ t (by rw [List.map_append]; rfl)
  · intro k htorn
    obtain ⟨d', rows, g1, g2, g3, g4, g5⟩ := stream_core hw hfmt hy s hsf c.blob.codec hf hl hle hdays hS hSd d hd hnd
      m2.pool.store
      hgo
      ids hlen hids hord R hR1 records (fun T _ hr => hmem _ (fun _ h => h) T ((hR2 T).subset hr)) lib hlib htr k htorn
      now rnd prefixes hallow hash
    refine ⟨d', rows, g1, ?_, ?_, ?_, g5⟩
    · intro t ht sb hsb
      exact (g2 t ht sb hsb).trans (hR2 _)
    · intro hempty hk t ht sb hsb
      refine g3 m1.pool.store (fun T => routed (hist1.map (fun x => op s valid str x.2)) T) (reach_grows h2)
        (fun T => hmem _ (List.subset_append_left _ _) T) ?_ hk t ht sb hsb
      rw [← hc]
      exact hst1 hempty
    · intro hnone
      refine g4 ?_
      intro t ht sb hsb
      have := hR2 (place ls t sb)
      rw [hnone t ht sb hsb] at this
      exact List.prefix_nil.1 this

/-! ## Partitions by the time -/

/-- Partitions beneath those of the reader that are filled in from the time. -/
structure Timed (es : List (List Piece)) (subs : List (List Str)) : Prop where
  folders : ∀ l ∈ es, Folder l
  sub : ∀ u, u.valid = true → folderOf es u ∈ subs

section
variable {w : Job} {ls es : List (List Piece)} {n : Nat} {flt : Option PartitionFilter} {subs chosen : List (List Str)}
  {S : DateTime → Prop} {s : Setup} {valid : ρ → Bool} {str : β → Str} {field : ρ → Str → Targets.Field β}

theorem pathFor_eq (hw : Daily w ls) (hes : Timed es subs) (hs : s.template = join ['/'] ((ls ++ es).map template))
    {now : DateTime} (hu : (s.date.getD now).valid = true) (r : ρ) :
    pathFor s valid now r = if valid r then place ls (midnight (s.date.getD now)) (folderOf es (s.date.getD now))
      else place ls (midnight (s.date.getD now)) (folderOf es (s.date.getD now)) ++ "/BACKOUT/".toList := by
  have hpl : Plain (pathPieces (ls ++ es)) := by
    apply plain_path
    intro l hl
    rcases List.mem_append.1 hl with hl | hl
    · exact ((hw.ok _ hu).folders l hl).plain
    · exact (hes.folders l hl).plain
  unfold pathFor Targets.identity place
  rw [hs, ← template_path, C52_template _ hpl _ hu, filled_path, ← hw.day _ hu, ← folderOf_append]
  rfl

theorem path_brace (hw : Daily w ls) (hy : Layout w ls n flt subs chosen) (hes : Timed es subs) (hS : ∀ t, S t → Day t)
    (hs : s.template = join ['/'] ((ls ++ es).map template)) {now : DateTime} (hu : (s.date.getD now).valid = true)
    (hSu : S (midnight (s.date.getD now))) (r : ρ) : '{' ∉ pathFor s valid now r := by
  rw [pathFor_eq hw hes hs hu r]
  have := hy.brace _ (hS _ hSu) _ (hes.sub _ hu)
  split
  · exact this
  · simp only [List.mem_append, not_or]
    exact ⟨this, by decide⟩

/-- Where an append goes. -/
theorem op_append (hw : Daily w ls) (hy : Layout w ls n flt subs chosen) (hes : Timed es subs) (hS : ∀ t, S t → Day t)
    (hs : s.template = join ['/'] ((ls ++ es).map template))
    {now : DateTime} {r : ρ} {names : List Str} {combos : List (List β)}
    (h : CallOK s valid field S (.append now r names combos)) :
    op s valid str (.append now r names combos) = .append r [pathFor s valid now r] := by
  obtain ⟨hu, hSu, he⟩ := h
  simp only [op]
  rw [targets_one he (path_brace hw hy hes hS hs hu hSu r)]

/-- The place of an append. -/
theorem path_place (hw : Daily w ls) (hy : Layout w ls n flt subs chosen) (hes : Timed es subs)
    (hs : s.template = join ['/'] ((ls ++ es).map template))
    (hS : ∀ t, S t → Day t) {now : DateTime} (hu : (s.date.getD now).valid = true) (hSu : S (midnight (s.date.getD now)))
    (r : ρ) {t : DateTime} {sb : List Str} (ht : Day t) (hsb : sb ∈ subs) :
    pathFor s valid now r = place ls t sb ↔
      valid r = true ∧ midnight (s.date.getD now) = t ∧ folderOf es (s.date.getD now) = sb := by
  rw [pathFor_eq hw hes hs hu r]
  cases hv : valid r with
  | true =>
    simp only [if_true, true_and]
    exact place_inj hw hy (hS _ hSu) ht (hes.sub _ hu) hsb
  | false =>
    simp only [Bool.false_eq_true, if_false, false_and, iff_false]
    exact backout_place hy (hS _ hSu) ht (hes.sub _ hu) hsb

/-- What is routed to a place. -/
theorem routed_place (hw : Daily w ls) (hy : Layout w ls n flt subs chosen) (hes : Timed es subs)
    (hs : s.template = join ['/'] ((ls ++ es).map template))
    (hS : ∀ t, S t → Day t) {t : DateTime} {sb : List Str} (ht : Day t) (hsb : sb ∈ subs)
    (hist : List (Nat × Call ρ β)) (hok : ∀ x ∈ hist, CallOK s valid field S x.2) :
    routed (hist.map (fun x => op s valid str x.2)) (place ls t sb)
      = appended s.date valid (fun u => midnight u = t ∧ folderOf es u = sb) hist := by
  induction hist with
  | nil => rfl
  | cons x hist ih =>
    obtain ⟨t0, a⟩ := x
    have ih := ih (fun x hx => hok x (by simp [hx]))
    unfold routed appended at *
    rw [List.map_cons, List.flatMap_cons, List.filterMap_cons, ih]
    cases a with
    | append now r names combos =>
      have h := hok (t0, .append now r names combos) (by simp)
      obtain ⟨hu, hSu, -⟩ := id h
      have hp := path_place (valid := valid) hw hy hes hs hS hu hSu r ht hsb
      simp only
      rw [op_append hw hy hes hS hs h]
      by_cases hc : valid r = true ∧ midnight (s.date.getD now) = t ∧ folderOf es (s.date.getD now) = sb
      · rw [if_pos hc, hp.2 hc]
        simp
      · rw [if_neg hc]
        have : ¬ pathFor s valid now r = place ls t sb := fun e => hc (hp.1 e)
        simp [this]
    | attend => rfl
    | finalize => rfl

/-- Appends go to the folders of the writer. -/
theorem timed_goes (hw : Daily w ls) (hy : Layout w ls n flt subs chosen) (hes : Timed es subs)
    (hs : s.template = join ['/'] ((ls ++ es).map template)) (hS : ∀ t, S t → Day t) {a : Call ρ β}
    (hok : CallOK s valid field S a) {r : ρ} {ts : List Str} (h : op s valid str a = .append r ts) :
    ∀ target ∈ ts, Goes ls subs S target := by
  cases a with
  | append now r' names combos =>
    rw [op_append hw hy hes hS hs hok] at h
    cases h
    intro target ht
    rw [List.mem_singleton.1 ht]
    obtain ⟨hu, hSu, -⟩ := hok
    rw [pathFor_eq hw hes hs hu]
    refine ⟨_, hSu, _, hes.sub _ hu, ?_⟩
    split
    · exact Or.inl rfl
    · exact Or.inr rfl
  | attend => cases h
  | finalize => cases h

/-- The whole way, for partitions by the time. -/
theorem stream_timed (hw : Daily w ls)
    (hfmt : w.format ≠ "text".toList) (hy : Layout w ls n flt subs chosen) (hes : Timed es subs) (s : Setup)
    (hsf : s.format = w.format) (hs : s.template = join ['/'] ((ls ++ es).map template)) (c : Conf ρ)
    (hc : c.blob.format = formatOf w.format) (valid : ρ → Bool) (str : β → Str) (field : ρ → Str → Targets.Field β)
    (hS : ∀ t, S t → Day t) (calls : Nat → List (Call ρ β))
    (hcalls : ∀ t, ∀ a ∈ calls t, CallOK s valid field S a) (clock : List Int) (m1 m2 : Machine ρ)
    (h1 : Reach c { pool := { clock := clock }, todo := fun t => (calls t).map (op s valid str) } m1)
    (hfree : m1.owner = none) (h2 : Reach c m1 m2)
    (d : Disk) (hd : ∀ t, S t → Fresh (folderOf ls t) d) (hnd : d.names.Nodup)
    (ids : List Str) (hlen : (handed m2.pool.store).length ≤ ids.length) (hids : ∀ i ∈ ids, Id i)
    (hord : ids.Pairwise Before)
    {first last : DateTime} (hf : Day first) (hl : Day last) (hle : first.seconds ≤ last.seconds)
    {days : List DateTime} (hdays : DaysOf first last days) (hSd : ∀ t ∈ days, S t)
    (records : List ρ) (hrec : ∀ t now r names combos, Call.append now r names combos ∈ calls t → r ∈ records)
    (lib : Lib ρ) (hlib : Faithful c.blob.codec lib records)
    (htr : ∀ r ∈ records, lib.truthy r = true) (now : DateTime) (rnd : Str) (prefixes : List Str)
    (hallow : Reader.allowed prefixes w.dataset = true) (hash : Str → Nat) :
    ∃ (hist1 hist2 : List (Nat × Call ρ β)) (left1 left2 : Nat → List (Call ρ β)),
      Served calls hist1 left1 ∧ Served left1 hist2 left2 ∧
      (∀ t, m1.todo t = (left1 t).map (op s valid str)) ∧ (∀ t, m2.todo t = (left2 t).map (op s valid str)) ∧
      ((∃ init t, hist1 = init ++ [(t, .finalize)]) → m1.pool.writers = []) ∧
      m1.pool = run c { clock := clock } (hist1.map (fun x => op s valid str x.2)) ∧
      (∀ x ∈ handed m2.pool.store, Goes ls subs S x.1) ∧
      ∀ k, Torn c.blob.codec lib records ∨ AtBlob s ids m2.pool.store k →
        ∃ (d' : Disk) (rows : DateTime → List Str → List ρ), onDisk s ids d m2.pool.store k = .ok d' ∧
        (∀ t ∈ days, ∀ sb ∈ chosen,
          rows t sb <+: appended s.date valid (fun u => midnight u = t ∧ folderOf es u = sb) (hist1 ++ hist2)) ∧
        (m1.pool.writers = [] → Written s ids m1.pool.store k →
          ∀ t ∈ days, ∀ sb ∈ chosen,
            appended s.date valid (fun u => midnight u = t ∧ folderOf es u = sb) hist1 <+: rows t sb) ∧
        ((∀ t ∈ days, ∀ sb ∈ chosen,
            appended s.date valid (fun u => midnight u = t ∧ folderOf es u = sb) (hist1 ++ hist2) = []) →
          Reader.openReader (rangeReader w first last prefixes flt) now rnd (diskBlobsAt d'.names) = .error .dataNotFound) ∧
        ((Reader.openReader (rangeReader w first last prefixes flt) now rnd (diskBlobsAt d'.names) = .error .dataNotFound ∧
            ∀ t ∈ days, ∀ sb ∈ chosen, rows t sb = []) ∨
          ∃ l, Reader.openReader (rangeReader w first last prefixes flt) now rnd (diskBlobsAt d'.names) = .ok (0, l) ∧
            Names l ∧
            delivered hash lib {} (read d') l = (days.flatMap fun t => chosen.flatMap (rows t)).map .row) := by
  obtain ⟨hist1, hist2, left1, left2, s1, s2, t1, t2, hfin, hrun, hgo, hk⟩ := stream_whole hw hfmt hy s hsf c hc valid str hS
    calls (fun t a ha r ts h => timed_goes hw hy hes hs hS (hcalls t a ha) h) clock m1 m2 h1 hfree h2 d hd hnd ids hlen hids
    hord hf hl hle hdays hSd records hrec lib hlib htr now rnd prefixes hallow hash
  refine ⟨hist1, hist2, left1, left2, s1, s2, t1, t2, hfin, hrun, hgo, ?_⟩
  have hok : ∀ x ∈ hist1 ++ hist2, CallOK s valid field S x.2 := fun x hx => hcalls _ _ ((s1.append s2).mem hx)
  have hok1 : ∀ x ∈ hist1, CallOK s valid field S x.2 := fun x hx => hok x (List.mem_append_left _ hx)
  have hr : ∀ t ∈ days, ∀ sb ∈ chosen, ∀ hist : List (Nat × Call ρ β), (∀ x ∈ hist, CallOK s valid field S x.2) →
      routed (hist.map (fun x => op s valid str x.2)) (place ls t sb)
        = appended s.date valid (fun u => midnight u = t ∧ folderOf es u = sb) hist := fun t ht sb hsb hist h =>
    routed_place hw hy hes hs hS ((hdays.mem t).1 ht).1 (hy.among sb hsb) hist h
  intro k htorn
  obtain ⟨d', rows, g1, g2, g3, g4, g5⟩ := hk k htorn
  refine ⟨d', rows, g1, ?_, ?_, ?_, g5⟩
  · intro t ht sb hsb
    rw [← hr t ht sb hsb _ hok]
    exact g2 t ht sb hsb
  · intro he hwr t ht sb hsb
    rw [← hr t ht sb hsb _ hok1]
    exact g3 he hwr t ht sb hsb
  · intro hnone
    refine g4 ?_
    intro t ht sb hsb
    rw [hr t ht sb hsb _ hok]
    exact hnone t ht sb hsb

end

end Mabel.StreamStorage
