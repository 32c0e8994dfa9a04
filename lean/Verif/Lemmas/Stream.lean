import Verif.Spec.Stream
import Verif.Lemmas.Writer

/-! Invariants of the writer pool. -/

namespace Mabel.Stream
open Mabel.Py Mabel.Writer Mabel.Writer.Spec Mabel.Stream.Spec
variable {ρ : Type}

/-! ### updateLast and findLast -/

theorem updateLast_of_none {α : Type _} (f : α → α) (q : α → Bool) (l : List α)
    (h : l.any q = false) : updateLast f q l = l := by
  cases l with
  | nil => rfl
  | cons x xs =>
    simp only [List.any_cons, Bool.or_eq_false_iff] at h
    simp [updateLast, h.1, h.2]

theorem updateLast_eq_map (f : Entry ρ → Entry ρ) (t : Str) (l : List (Entry ρ))
    (h : (l.map (·.identity)).Nodup) :
    updateLast f (fun w => w.identity == t) l = l.map (fun w => if w.identity == t then f w else w) := by
  induction l with
  | nil => rfl
  | cons x xs ih =>
    simp only [List.map_cons, List.nodup_cons] at h
    simp only [updateLast, List.map_cons]
    by_cases hx : xs.any (fun w => w.identity == t)
    · rw [if_pos hx, ih h.2]
      have : (x.identity == t) = false := by
        simp only [List.any_eq_true] at hx
        obtain ⟨w, hw, he⟩ := hx
        simp only [beq_iff_eq] at he
        simp only [beq_eq_false_iff_ne]
        intro hxt
        exact h.1 (by rw [hxt, ← he]; exact List.mem_map_of_mem hw)
      simp [this]
    · have hx' : xs.any (fun w => w.identity == t) = false := by simpa using hx
      rw [if_neg hx, ← ih h.2, updateLast_of_none _ _ _ hx']
      split <;> rfl

theorem findLast_some {α : Type _} {q : α → Bool} {l : List α} {x : α} (h : findLast q l = some x) :
    x ∈ l ∧ q x = true := by
  induction l with
  | nil => simp [findLast] at h
  | cons y ys ih =>
    simp only [findLast] at h
    cases hf : findLast q ys with
    | some z =>
      rw [hf] at h; simp only [Option.some.injEq] at h; subst h
      have := ih hf
      exact ⟨List.mem_cons_of_mem _ this.1, this.2⟩
    | none =>
      rw [hf] at h; simp only at h
      split at h
      · simp only [Option.some.injEq] at h; subst h; exact ⟨List.mem_cons_self, by assumption⟩
      · cases h

theorem findLast_none {α : Type _} {q : α → Bool} {l : List α} (h : findLast q l = none) :
    ∀ x ∈ l, q x = false := by
  induction l with
  | nil => simp
  | cons y ys ih =>
    simp only [findLast] at h
    cases hf : findLast q ys with
    | some z => rw [hf] at h; cases h
    | none =>
      rw [hf] at h; simp only at h
      split at h
      · cases h
      · intro x hx
        rcases List.mem_cons.1 hx with rfl | hx
        · exact Bool.eq_false_iff.2 ‹¬ q x = true›
        · exact ih hf x hx

/-! ### The invariant -/

/-- What the storage and the pool say about the records routed so far; `ok` = storage has never
failed and never will. -/
structure Inv (c : Conf ρ) (ok : Bool) (p : Pool ρ) (recs : Str → List ρ) : Prop where
  nodup : (p.writers.map (·.identity)).Nodup
  sound : ok = true → p.faults = []
  holds : ∀ t, ∃ (groups : List (List ρ)) (pend : List ρ),
    blobsAt p.store t = groups.map (encode c.blob.codec c.blob.format) ∧
    (∀ g ∈ groups, g ≠ []) ∧
    (∀ w ∈ p.writers, w.identity = t → Pending c.blob w.writer pend) ∧
    ((∀ w ∈ p.writers, w.identity ≠ t) → pend = []) ∧
    (groups.flatten ++ pend).Sublist (recs t) ∧
    (ok = true → groups.flatten ++ pend = recs t)

theorem blobsAt_append (a b : List (Str × Stored)) (t : Str) :
    blobsAt (a ++ b) t = blobsAt a t ++ blobsAt b t := by
  simp [blobsAt, dataBlobs_append]

theorem blobsAt_same (c : Conf ρ) (gs : List (List ρ)) (t : Str) :
    blobsAt (gs.map (fun g => (t, Stored.data (encode c.blob.codec c.blob.format g)))) t =
      gs.map (encode c.blob.codec c.blob.format) := by
  induction gs with
  | nil => rfl
  | cons g gs ih => simp [blobsAt, dataBlobs] at ih ⊢; exact ih

theorem blobsAt_other (c : Conf ρ) (gs : List (List ρ)) {t u : Str} (h : t ≠ u) :
    blobsAt (gs.map (fun g => (t, Stored.data (encode c.blob.codec c.blob.format g)))) u = [] := by
  induction gs with
  | nil => rfl
  | cons g gs ih => simp [blobsAt, dataBlobs, h] at ih ⊢

theorem Inv.init (c : Conf ρ) (clock : List Int) (faults : List Bool) (ok : Bool)
    (h : ok = true → faults = []) :
    Inv c ok { clock := clock, faults := faults } (fun _ => []) :=
  ⟨by simp, h, fun t => ⟨[], [], rfl, by simp, by simp, by simp, by simp, by simp⟩⟩

/-! ### Single pool operations -/

theorem rep_of_pending {c : Writer.Config ρ} {s : Writer.State ρ} {pend : List ρ} (fs : List Bool)
    (h : Pending c s pend) : Rep c { s with store := [], faults := fs } [] pend :=
  ⟨rfl, by simp, h⟩

/-- What appending through a pool member does. -/
theorem onWriter_append (c : Conf ρ) (p : Pool ρ) (w : Entry ρ) (r : ρ) {pend : List ρ}
    (h : Pending c.blob w.writer pend) :
    ∃ (p' : Pool ρ) (w' : Entry ρ) (res : Except Err Nat) (gs : List (List ρ)) (pend' : List ρ),
      onWriter p w (fun s => blobAppend c.blob s r) = (p', w', res) ∧
      p'.writers = p.writers ∧ p'.clock = p.clock ∧
      w'.identity = w.identity ∧ w'.lastAccess = w.lastAccess ∧
      p'.store = p.store ++ gs.map (fun g => (w.identity, Stored.data (encode c.blob.codec c.blob.format g))) ∧
      (∀ g ∈ gs, g ≠ []) ∧ Pending c.blob w'.writer pend' ∧
      (gs.flatten ++ pend' = pend ++ [r] ∨ (gs.flatten ++ pend' = pend)) ∧
      (p.faults = [] → p'.faults = [] ∧ gs.flatten ++ pend' = pend ++ [r] ∧ ∃ n, res = .ok n) := by
  have hrep := rep_of_pending p.faults h
  rcases blobAppend_cases hrep r with
    ⟨s', n, groups', pend', he, hr', -, -, -, hf, hcase⟩ | ⟨s', he, hfs, -, -, hst, hcase⟩
  · unfold onWriter
    simp only [he]
    have hp : Pending c.blob { s' with store := [], faults := [] } pend' := hr'.pending
    rcases hcase with ⟨hg, hpe, -, hst⟩ | ⟨hg, hpe, -, -, hst⟩ | ⟨hg, hpe, -, hne, -, hst⟩
    · refine ⟨_, _, _, [], pend', rfl, rfl, rfl, rfl, rfl, ?_, by simp, hp, ?_, ?_⟩
      · simp [hst]
      · left; simp [hpe]
      · intro h0; exact ⟨hf h0, by simp [hpe], n, rfl⟩
    · refine ⟨_, _, _, [pend ++ [r]], pend', rfl, rfl, rfl, rfl, rfl, ?_, by simp, hp, ?_, ?_⟩
      · simp [hst]
      · left; simp [hpe]
      · intro h0; exact ⟨hf h0, by simp [hpe], n, rfl⟩
    · refine ⟨_, _, _, [pend], pend', rfl, rfl, rfl, rfl, rfl, ?_, by simpa using hne, hp, ?_, ?_⟩
      · simp [hst]
      · left; simp [hpe]
      · intro h0; exact ⟨hf h0, by simp [hpe], n, rfl⟩
  · unfold onWriter
    simp only [he]
    rcases hcase with ⟨-, hr'⟩ | ⟨-, hr'⟩
    · have hp : Pending c.blob { s' with store := [], faults := [] } (pend ++ [r]) := hr'.pending
      refine ⟨_, _, _, [], _, rfl, rfl, rfl, rfl, rfl, ?_, by simp, hp, ?_, ?_⟩
      · simp [hst]
      · left; simp
      · intro h0; simp [h0] at hfs
    · have hp : Pending c.blob { s' with store := [], faults := [] } pend := hr'.pending
      refine ⟨_, _, _, [], _, rfl, rfl, rfl, rfl, rfl, ?_, by simp, hp, ?_, ?_⟩
      · simp [hst]
      · right; simp
      · intro h0; simp [h0] at hfs

/-- What committing a pool member does. -/
theorem onWriter_commit (c : Conf ρ) (p : Pool ρ) (w : Entry ρ) {pend : List ρ}
    (h : Pending c.blob w.writer pend) :
    ∃ (p' : Pool ρ) (w' : Entry ρ) (res : Except Err Unit) (gs : List (List ρ)) (pend' : List ρ),
      onWriter p w (commit c.blob) = (p', w', res) ∧
      p'.writers = p.writers ∧ p'.clock = p.clock ∧ w'.identity = w.identity ∧
      p'.store = p.store ++ gs.map (fun g => (w.identity, Stored.data (encode c.blob.codec c.blob.format g))) ∧
      (∀ g ∈ gs, g ≠ []) ∧ Pending c.blob w'.writer pend' ∧
      gs.flatten ++ pend' = pend ∧ (res = .ok () → pend' = []) ∧
      (p.faults = [] → p'.faults = [] ∧ res = .ok ()) := by
  have hrep := rep_of_pending p.faults h
  rcases commit_cases hrep with ⟨fs, he, hfs, hne⟩ | ⟨s', he, hr', -, -, -, hf, hst⟩
  · unfold onWriter
    simp only [he]
    have hp : Pending c.blob { w.writer with store := [], faults := [] } pend := h
    refine ⟨_, _, _, [], pend, rfl, rfl, rfl, rfl, ?_, by simp, hp, by simp, by simp, ?_⟩
    · simp
    · intro h0; simp [h0] at hfs
  · unfold onWriter
    simp only [he]
    have hp : Pending c.blob { s' with store := [], faults := [] } [] := hr'.pending
    by_cases hz : pend = []
    · refine ⟨_, _, _, [], [], rfl, rfl, rfl, rfl, ?_, by simp, hp, by simp [hz], by simp, ?_⟩
      · simp [hst, hz]
      · intro h0; exact ⟨hf h0, rfl⟩
    · refine ⟨_, _, _, [pend], [], rfl, rfl, rfl, rfl, ?_, by simpa using hz, hp, by simp, by simp, ?_⟩
      · simp [hst, hz]
      · intro h0; exact ⟨hf h0, rfl⟩

theorem now_spec (p : Pool ρ) :
    (now p).2.writers = p.writers ∧ (now p).2.store = p.store ∧ (now p).2.faults = p.faults := by
  unfold now; cases p.clock <;> exact ⟨rfl, rfl, rfl⟩

/-- `get_writer` leaves the invariant alone and makes sure there is a member for the target. -/
theorem getWriter_inv {c : Conf ρ} {ok : Bool} {p : Pool ρ} {recs : Str → List ρ}
    (h : Inv c ok p recs) (t : Str) :
    Inv c ok (getWriter p t) recs ∧ ∃ w ∈ (getWriter p t).writers, w.identity = t := by
  obtain ⟨hw, hs, hf⟩ := now_spec p
  unfold getWriter
  by_cases ha : p.writers.any (fun w => w.identity == t)
  · rw [if_pos ha]
    simp only [hw]
    rw [updateLast_eq_map _ _ _ h.nodup]
    refine ⟨⟨?_, ?_, ?_⟩, ?_⟩
    · have : (p.writers.map (fun w => if (w.identity == t) = true then { w with lastAccess := (now p).1 } else w)).map
          (·.identity) = p.writers.map (·.identity) := by
        rw [List.map_map]; apply List.map_congr_left
        intro w _; simp only [Function.comp_apply]; split <;> rfl
      simp only [this]; exact h.nodup
    · intro hok; simp only [hf]; exact h.sound hok
    · intro u
      obtain ⟨gs, pend, h1, h2, h3, h4, h5, h6⟩ := h.holds u
      refine ⟨gs, pend, by simpa only [hs] using h1, h2, ?_, ?_, h5, h6⟩
      · intro w hwm hid
        simp only [List.mem_map] at hwm
        obtain ⟨w0, hw0, rfl⟩ := hwm
        by_cases hc : (w0.identity == t) = true
        · simp only [hc, if_true] at hid ⊢; exact h3 w0 hw0 hid
        · simp only [hc] at hid ⊢; exact h3 w0 hw0 hid
      · intro hn
        apply h4
        intro w hwm hid
        refine hn (if (w.identity == t) = true then { w with lastAccess := (now p).1 } else w) ?_ ?_
        · exact List.mem_map_of_mem (f := fun w => if (w.identity == t) = true then { w with lastAccess := (now p).1 } else w) hwm
        · split <;> exact hid
    · simp only [List.any_eq_true, beq_iff_eq] at ha
      obtain ⟨w, hwm, hid⟩ := ha
      refine ⟨{ w with lastAccess := (now p).1 }, ?_, hid⟩
      simp only [List.mem_map]
      exact ⟨w, hwm, by simp [hid]⟩
  · rw [if_neg ha]
    have hn : ∀ w ∈ p.writers, w.identity ≠ t := by
      intro w hwm hid
      apply ha
      simp only [List.any_eq_true, beq_iff_eq]
      exact ⟨w, hwm, hid⟩
    unfold createWriter
    simp only [hw]
    refine ⟨⟨?_, ?_, ?_⟩, ?_⟩
    · simp only [List.map_append, List.map_cons, List.map_nil]
      rw [List.nodup_append]
      refine ⟨h.nodup, by simp, ?_⟩
      intro a hm b hb
      simp only [List.mem_singleton] at hb
      subst hb
      obtain ⟨w, hwm, rfl⟩ := List.mem_map.1 hm
      exact hn w hwm
    · intro hok; simp only [hf]; exact h.sound hok
    · intro u
      obtain ⟨gs, pend, h1, h2, h3, h4, h5, h6⟩ := h.holds u
      refine ⟨gs, pend, by simpa only [hs] using h1, h2, ?_, ?_, h5, h6⟩
      · intro w hwm hid
        rcases List.mem_append.1 hwm with hwm | hwm
        · exact h3 w hwm hid
        · simp only [List.mem_singleton] at hwm
          subst hwm
          have hid' : t = u := hid
          subst hid'
          rw [h4 hn]
          exact ⟨rfl, fun _ => rfl, fun _ => rfl⟩
      · intro hn'
        exact h4 fun w hwm => hn' w (List.mem_append_left _ hwm)
    · exact ⟨_, List.mem_append_right _ (List.mem_singleton.2 rfl), rfl⟩

theorem unique_of_nodup {l : List (Entry ρ)} (h : (l.map (·.identity)).Nodup) {a b : Entry ρ}
    (ha : a ∈ l) (hb : b ∈ l) (hid : a.identity = b.identity) : a = b := by
  induction l with
  | nil => cases ha
  | cons x xs ih =>
    simp only [List.map_cons, List.nodup_cons] at h
    rcases List.mem_cons.1 ha with rfl | ha' <;> rcases List.mem_cons.1 hb with rfl | hb'
    · rfl
    · exact absurd (hid ▸ List.mem_map_of_mem hb') h.1
    · exact absurd (hid ▸ List.mem_map_of_mem ha') h.1
    · exact ih h.2 ha' hb'

/-- Add a record to what is routed to one target. -/
def addRec (recs : Str → List ρ) (t : Str) (r : ρ) : Str → List ρ :=
  fun u => if u = t then recs u ++ [r] else recs u

theorem writeTo_inv {c : Conf ρ} {ok : Bool} {p : Pool ρ} {recs : Str → List ρ}
    (h : Inv c ok p recs) (t : Str) (r : ρ) :
    Inv c ok (writeTo c p t r).1 (addRec recs t r) ∧
    (ok = true → ∃ n, (writeTo c p t r).2 = .ok n) := by
  obtain ⟨hg, w0, hw0, hid0⟩ := getWriter_inv h t
  unfold writeTo
  generalize getWriter p t = q at hg hw0
  simp only []
  cases hfl : findLast (fun w => w.identity == t) q.writers with
  | none =>
    exact absurd hid0 (by simpa using findLast_none hfl w0 hw0)
  | some w =>
    obtain ⟨hwm, hwt⟩ := findLast_some hfl
    simp only [beq_iff_eq] at hwt
    obtain ⟨gs, pend, h1, h2, h3, h4, h5, h6⟩ := hg.holds t
    obtain ⟨p', w', res, gs', pend', he, e1, e2, e3, e4, e5, e6, e7, e8, e9⟩ :=
      onWriter_append c q w r (h3 w hwm hwt)
    simp only [he, e1]
    rw [updateLast_eq_map _ _ _ hg.nodup]
    refine ⟨⟨?_, ?_, ?_⟩, ?_⟩
    · have : (q.writers.map (fun w => if (w.identity == t) = true then w' else w)).map
          (·.identity) = q.writers.map (·.identity) := by
        rw [List.map_map]; apply List.map_congr_left
        intro w1 _; simp only [Function.comp_apply]; split
        · rename_i hx; simp only [beq_iff_eq] at hx; rw [e3, hwt, hx]
        · rfl
      simp only [this]; exact hg.nodup
    · intro hok; exact (e9 (hg.sound hok)).1
    · intro u
      by_cases hu : u = t
      · subst hu
        refine ⟨gs ++ gs', pend', ?_, ?_, ?_, ?_, ?_, ?_⟩
        · simp only [e5, blobsAt_append, h1]
          rw [hwt, blobsAt_same]; simp
        · intro g hgm
          rcases List.mem_append.1 hgm with hgm | hgm
          · exact h2 g hgm
          · exact e6 g hgm
        · intro w1 hw1 hid1
          simp only [List.mem_map] at hw1
          obtain ⟨w2, hw2, rfl⟩ := hw1
          by_cases hc : (w2.identity == u) = true
          · simp only [hc, if_true]; exact e7
          · simp only [hc] at hid1
            exact absurd hid1 (by simpa using hc)
        · intro hn
          exfalso
          refine hn w' ?_ (by rw [e3, hwt])
          simp only [List.mem_map]
          exact ⟨w, hwm, by simp [hwt]⟩
        · simp only [addRec, if_true, List.flatten_append, List.append_assoc]
          rcases e8 with e8 | e8
          · rw [e8, ← List.append_assoc]
            exact List.Sublist.append h5 (List.Sublist.refl _)
          · rw [e8]
            exact h5.trans (List.sublist_append_left _ _)
        · intro hok
          simp only [addRec, if_true, List.flatten_append, List.append_assoc]
          rw [(e9 (hg.sound hok)).2.1, ← List.append_assoc, h6 hok]
      · obtain ⟨ks, pe, k1, k2, k3, k4, k5, k6⟩ := hg.holds u
        refine ⟨ks, pe, ?_, k2, ?_, ?_, ?_, ?_⟩
        · simp only [e5, blobsAt_append, k1]
          rw [hwt, blobsAt_other c gs' (fun hx => hu hx.symm)]; simp
        · intro w1 hw1 hid1
          simp only [List.mem_map] at hw1
          obtain ⟨w2, hw2, rfl⟩ := hw1
          by_cases hc : (w2.identity == t) = true
          · simp only [hc, if_true] at hid1
            exact absurd (by rw [← hid1, e3, hwt]) hu
          · simp only [hc] at hid1 ⊢; exact k3 w2 hw2 hid1
        · intro hn
          apply k4
          intro w1 hw1 hid1
          refine hn w1 ?_ hid1
          simp only [List.mem_map]
          refine ⟨w1, hw1, ?_⟩
          have : w1.identity ≠ t := by rw [hid1]; exact hu
          simp [this]
        · simpa only [addRec, hu, if_false] using k5
        · simpa only [addRec, hu, if_false] using k6
    · intro hok; exact (e9 (hg.sound hok)).2.2

theorem filter_unique {l : List (Entry ρ)} (h : (l.map (·.identity)).Nodup) {w : Entry ρ}
    (hw : w ∈ l) : l.filter (fun x => x.identity == w.identity) = [w] := by
  induction l with
  | nil => cases hw
  | cons x xs ih =>
    simp only [List.map_cons, List.nodup_cons] at h
    rcases List.mem_cons.1 hw with rfl | hw'
    · simp only [List.filter_cons, BEq.rfl, if_true, List.cons.injEq, true_and, List.filter_eq_nil_iff]
      intro y hy hc
      simp only [beq_iff_eq] at hc
      exact h.1 (hc ▸ List.mem_map_of_mem hy)
    · rw [List.filter_cons]
      have : (x.identity == w.identity) = false := by
        simp only [beq_eq_false_iff_ne]
        intro hc; exact h.1 (hc ▸ List.mem_map_of_mem hw')
      simp only [this]
      exact ih h.2 hw'

theorem nodup_filter {l : List (Entry ρ)} (q : Entry ρ → Bool) (h : (l.map (·.identity)).Nodup) :
    ((l.filter q).map (·.identity)).Nodup :=
  h.sublist (List.Sublist.map _ List.filter_sublist)

/-- `remove_writer` moves what is pending to storage and closes the target; with storage failures
the pending records may be lost. -/
theorem removeWriter_inv {c : Conf ρ} {ok : Bool} {p : Pool ρ} {recs : Str → List ρ}
    (h : Inv c ok p recs) (t : Str) :
    Inv c ok (removeWriter c p t).1 recs ∧
    (removeWriter c p t).1.writers = p.writers.filter (fun w => w.identity != t) ∧
    (ok = true → (removeWriter c p t).2 = .ok ()) := by
  unfold removeWriter
  by_cases hm : ∃ w ∈ p.writers, w.identity = t
  · obtain ⟨w, hwm, rfl⟩ := hm
    rw [filter_unique h.nodup hwm]
    simp only []
    obtain ⟨gs, pend, h1, h2, h3, h4, h5, h6⟩ := h.holds w.identity
    -- the storage part, for a commit sequence that stores `gs'` and leaves `pend'`
    have key : ∀ (p' : Pool ρ) (gs' : List (List ρ)) (pend' : List ρ),
        p'.writers = p.writers.filter (fun x => x.identity != w.identity) →
        p'.store = p.store ++ gs'.map (fun g => (w.identity, Stored.data (encode c.blob.codec c.blob.format g))) →
        (∀ g ∈ gs', g ≠ []) → gs'.flatten ++ pend' = pend → (ok = true → pend' = []) →
        (ok = true → p'.faults = []) → Inv c ok p' recs := by
      intro p' gs' pend' k1 k2 k3 k4 k5 k6
      refine ⟨by rw [k1]; exact nodup_filter _ h.nodup, k6, ?_⟩
      intro u
      by_cases hu : u = w.identity
      · subst hu
        refine ⟨gs ++ gs', [], ?_, ?_, ?_, by simp, ?_, ?_⟩
        · rw [k2, blobsAt_append, h1, blobsAt_same]; simp
        · intro g hgm
          rcases List.mem_append.1 hgm with hgm | hgm
          · exact h2 g hgm
          · exact k3 g hgm
        · intro x hx hid
          rw [k1] at hx
          simp [List.mem_filter, hid] at hx
        · refine List.Sublist.trans ?_ h5
          rw [← k4, List.flatten_append, List.append_nil, ← List.append_assoc]
          exact List.sublist_append_left _ _
        · intro hok
          rw [← h6 hok, ← k4, k5 hok]; simp
      · obtain ⟨ks, pe, m1, m2, m3, m4, m5, m6⟩ := h.holds u
        refine ⟨ks, pe, ?_, m2, ?_, ?_, m5, m6⟩
        · rw [k2, blobsAt_append, m1, blobsAt_other c gs' (fun hx => hu hx.symm)]; simp
        · intro x hx hid
          rw [k1] at hx
          exact m3 x (List.mem_filter.1 hx).1 hid
        · intro hn
          apply m4
          intro x hx hid
          refine hn x ?_ hid
          rw [k1]
          exact List.mem_filter.2 ⟨hx, by simp [hid, hu]⟩
    obtain ⟨p', w', res, gs', pend', he, e1, e2, e3, e4, e5, e6, e7, e8, e9⟩ :=
      onWriter_commit c { p with writers := p.writers.filter (fun x => x.identity != w.identity) } w
        (h3 w hwm rfl)
    rw [he]
    cases res with
    | ok u =>
      simp only []
      refine ⟨key p' gs' pend' e1 e4 e5 e7 (fun _ => e8 rfl) (fun hok => (e9 (h.sound hok)).1), e1, fun _ => trivial⟩
    | error err =>
      simp only []
      obtain ⟨p'', w'', res', gs'', pend'', he', f1, f2, f3, f4, f5, f6, f7, f8, f9⟩ :=
        onWriter_commit c p' w' e6
      rw [he']
      simp only []
      refine ⟨?_, by rw [f1, e1], ?_⟩
      · refine key p'' (gs' ++ gs'') pend'' (by rw [f1, e1]) ?_ ?_ ?_ ?_ ?_
        · rw [f4, e4, e3]; simp
        · intro g hgm
          rcases List.mem_append.1 hgm with hgm | hgm
          · exact e5 g hgm
          · exact f5 g hgm
        · rw [List.flatten_append, List.append_assoc, f7, e7]
        · intro hok; cases (e9 (h.sound hok)).2
        · intro hok; cases (e9 (h.sound hok)).2
      · intro hok; cases (e9 (h.sound hok)).2
  · have hnil : p.writers.filter (fun w => w.identity == t) = [] := by
      rw [List.filter_eq_nil_iff]
      intro w hwm hc
      exact hm ⟨w, hwm, by simpa using hc⟩
    rw [hnil]
    refine ⟨h, ?_, fun _ => rfl⟩
    simp only []
    symm
    rw [List.filter_eq_self]
    intro w hwm
    simp only [bne_iff_ne, ne_eq]
    exact fun hc => hm ⟨w, hwm, hc⟩

theorem now_inv {c : Conf ρ} {ok : Bool} {p : Pool ρ} {recs : Str → List ρ} (h : Inv c ok p recs) :
    Inv c ok (now p).2 recs := by
  obtain ⟨hw, hs, hf⟩ := now_spec p
  exact ⟨by rw [hw]; exact h.nodup, by rw [hf]; exact h.sound, by rw [hw, hs]; exact h.holds⟩

/-! ### Loops -/

theorem removeAll_inv {c : Conf ρ} {ok : Bool} {recs : Str → List ρ} (ids : List Str) :
    ∀ {p : Pool ρ}, Inv c ok p recs → Inv c ok (removeAll c p ids).1 recs := by
  induction ids with
  | nil => intro p h; exact h
  | cons t ts ih =>
    intro p h
    have := (removeWriter_inv h t).1
    unfold removeAll
    split
    · rename_i p' u he; rw [he] at this; exact ih this
    · rename_i p' e he; rw [he] at this; exact this

theorem dropAll_inv {c : Conf ρ} {ok : Bool} {recs : Str → List ρ} (ids : List Str) :
    ∀ {p : Pool ρ}, Inv c ok p recs → Inv c ok (dropAll c p ids) recs ∧
      (dropAll c p ids).writers = p.writers.filter (fun w => !ids.contains w.identity) := by
  induction ids with
  | nil => intro p h; exact ⟨h, by simp only [dropAll]; exact (List.filter_eq_self.2 (by simp)).symm⟩
  | cons t ts ih =>
    intro p h
    obtain ⟨h1, h2, -⟩ := removeWriter_inv h t
    obtain ⟨h3, h4⟩ := ih h1
    refine ⟨h3, ?_⟩
    simp only [dropAll]
    rw [h4, h2, List.filter_filter]
    apply List.filter_congr
    intro w _
    simp only [List.contains_cons, Bool.not_or]
    rw [Bool.and_comm]; rfl

theorem attend_inv {c : Conf ρ} {ok : Bool} {p : Pool ρ} {recs : Str → List ρ}
    (h : Inv c ok p recs) : Inv c ok (attend c p).1 recs := by
  unfold attend staleWriters
  simp only []
  have h1 := removeAll_inv (c := c) (((now p).2.writers.filter
    (fun w => decide ((now p).1 - w.lastAccess > c.idle))).map (·.identity)) (now_inv h)
  split
  · rename_i q u he; rw [he] at h1; exact removeAll_inv _ h1
  · rename_i q e he; rw [he] at h1; exact h1

theorem finalize_inv {c : Conf ρ} {ok : Bool} {p : Pool ρ} {recs : Str → List ρ}
    (h : Inv c ok p recs) : Inv c ok (finalize c p) recs ∧ (finalize c p).writers = [] := by
  obtain ⟨h1, h2⟩ := dropAll_inv (c := c) (p.writers.map (·.identity)) h
  refine ⟨h1, ?_⟩
  unfold finalize
  rw [h2, List.filter_eq_nil_iff]
  intro w hw
  simp only [Bool.not_eq_true, Bool.not_eq_false']
  rw [List.contains_iff_mem]
  exact List.mem_map_of_mem hw

/-- `routed` after one more call. -/
def addOp (recs : Str → List ρ) (op : Op ρ) : Str → List ρ := fun t => recs t ++ routed [op] t

theorem Inv.congr {c : Conf ρ} {ok : Bool} {p : Pool ρ} {r1 r2 : Str → List ρ} (h : Inv c ok p r1)
    (he : ∀ t, r1 t = r2 t) : Inv c ok p r2 := by
  have : r1 = r2 := funext he
  rw [← this]; exact h

/-- More may have been routed than was stored, unless storage is reliable. -/
theorem Inv.mono {c : Conf ρ} {p : Pool ρ} {r1 r2 : Str → List ρ} (h : Inv c false p r1)
    (he : ∀ t, (r1 t).Sublist (r2 t)) : Inv c false p r2 := by
  refine ⟨h.nodup, h.sound, fun t => ?_⟩
  obtain ⟨gs, pend, h1, h2, h3, h4, h5, _⟩ := h.holds t
  exact ⟨gs, pend, h1, h2, h3, h4, h5.trans (he t), by simp⟩

theorem writeAll_inv {c : Conf ρ} {ok : Bool} (r : ρ) (ts : List Str) :
    ∀ {p : Pool ρ} {recs : Str → List ρ}, Inv c ok p recs →
      Inv c ok (writeAll c p r ts).1 (addOp recs (.append r ts)) := by
  induction ts with
  | nil => intro p recs h; exact h.congr (by simp [addOp, routed])
  | cons t ts ih =>
    intro p recs h
    obtain ⟨h1, h2⟩ := writeTo_inv h t r
    have hrec : ∀ u, addOp (addRec recs t r) (.append r ts) u = addOp recs (.append r (t :: ts)) u := by
      intro u
      by_cases hu : u = t
      · subst hu; simp [addOp, addRec, routed]
      · have : ¬ t = u := fun hc => hu hc.symm
        simp [addOp, addRec, routed, hu, this]
    unfold writeAll
    split
    · rename_i q n he
      rw [he] at h1
      exact (ih h1).congr hrec
    · rename_i q e he
      rw [he] at h1 h2
      cases ok with
      | true => obtain ⟨n, hn⟩ := h2 rfl; cases hn
      | false =>
        refine h1.mono ?_
        intro u
        rw [← hrec u]
        exact List.sublist_append_left _ _

theorem step_inv {c : Conf ρ} {ok : Bool} {p : Pool ρ} {recs : Str → List ρ}
    (h : Inv c ok p recs) (op : Op ρ) : Inv c ok (step c p op) (addOp recs op) := by
  cases op with
  | append r ts => exact writeAll_inv r ts h
  | attend => exact (attend_inv h).congr (by simp [addOp, routed])
  | finalize => exact (finalize_inv h).1.congr (by simp [addOp, routed])

theorem run_inv {c : Conf ρ} {ok : Bool} (ops : List (Op ρ)) :
    ∀ {p : Pool ρ} {recs : Str → List ρ}, Inv c ok p recs →
      Inv c ok (run c p ops) (fun t => recs t ++ routed ops t) := by
  induction ops with
  | nil => intro p recs h; exact h.congr (by simp [routed])
  | cons op ops ih =>
    intro p recs h
    refine (ih (step_inv h op)).congr ?_
    intro t; simp [addOp, routed]

theorem run_append (c : Conf ρ) (p : Pool ρ) (a b : List (Op ρ)) :
    run c p (a ++ b) = run c (run c p a) b := by
  induction a generalizing p with
  | nil => rfl
  | cons x xs ih => exact ih _

/-! ### The lock serialises the critical sections -/

/-- What the rest of a critical section does if it is left alone. -/
def finish (c : Conf ρ) (p : Pool ρ) : Cont ρ → Pool ρ
  | .writes r ts => (writeAll c p r ts).1
  | .stale => (attend c p).1
  | .removing ids => match removeAll c p ids with
    | (p, .ok ()) => (evict c p).1
    | (p, .error _) => p
  | .nominating => (evict c p).1
  | .evicting ids => (removeAll c p ids).1
  | .opening => finalize c p
  | .dropping ids => dropAll c p ids
  | .done => p

theorem finish_start (c : Conf ρ) (p : Pool ρ) (op : Op ρ) : finish c p (start op) = step c p op := by
  cases op <;> rfl

theorem finish_micro (c : Conf ρ) (p : Pool ρ) (k : Cont ρ) :
    finish c (micro c p k).1 (micro c p k).2 = finish c p k := by
  cases k with
  | writes r ts =>
    cases ts with
    | nil => rfl
    | cons t ts =>
      simp only [micro, finish]
      rw [writeAll.eq_def]
      simp only []
      cases he : writeTo c p t r with
      | mk q res => cases res <;> rfl
  | stale =>
    simp only [micro, finish, attend]
    generalize staleWriters p c.idle = x
    obtain ⟨ids, q⟩ := x
    simp only []
    cases removeAll c q ids with
    | mk q' res => cases res <;> rfl
  | removing ids =>
    cases ids with
    | nil => rfl
    | cons t ts =>
      simp only [micro, finish, removeAll]
      cases he : removeWriter c p t with
      | mk q res => cases res <;> rfl
  | nominating => rfl
  | evicting ids =>
    cases ids with
    | nil => rfl
    | cons t ts =>
      simp only [micro, finish, removeAll]
      cases he : removeWriter c p t with
      | mk q res => cases res <;> rfl
  | opening => rfl
  | dropping ids =>
    cases ids with
    | nil => rfl
    | cons t ts => rfl
  | done => rfl

/-- Whatever the scheduler does, the pool is on the way to the result of running whole critical
sections in the order the lock was obtained. -/
theorem reach_serial {c : Conf ρ} {a b : Machine ρ} (h : Reach c a b) (ha : a.owner = none) :
    ∃ hist : List (Nat × Op ρ), Explains a.todo b.todo hist ∧
      (match b.owner with
       | none => b.pool
       | some (_, k) => finish c b.pool k) = run c a.pool (hist.map (·.2)) ∧
      (b.owner = none ∨ hist ≠ []) := by
  induction h with
  | refl => exact ⟨[], fun t => by simp, by rw [ha]; rfl, Or.inl ha⟩
  | @step b d _ hs ih =>
    obtain ⟨hist, h1, h2, h3⟩ := ih
    cases hs with
    | acquire t op rest ho ht =>
      refine ⟨hist ++ [(t, op)], ?_, ?_, ?_⟩
      · intro u
        rw [h1 u]
        by_cases hu : u = t
        · subst hu; simp [ht]
        · have : ¬ t = u := fun hc => hu hc.symm
          simp [hu, this]
      · rw [ho] at h2
        simp only [List.map_append, List.map_cons, List.map_nil, run_append, ← h2]
        rw [finish_start]; rfl
      · right; simp
    | work t k ho hk =>
      refine ⟨hist, h1, ?_, ?_⟩
      · rw [ho] at h2
        simp only at h2 ⊢
        rw [finish_micro, h2]
      · rw [ho] at h3
        right; simpa using h3
    | release t ho =>
      refine ⟨hist, h1, ?_, Or.inl rfl⟩
      rw [ho] at h2
      exact h2

/-! ### Storage only grows -/

theorem onWriter_grows {α : Type} (p : Pool ρ) (e : Entry ρ)
    (act : Writer.State ρ → Writer.State ρ × Except Err α) : p.store <+: (onWriter p e act).1.store :=
  ⟨_, rfl⟩

theorem getWriter_store (p : Pool ρ) (t : Str) : (getWriter p t).store = p.store := by
  have := (now_spec p).2.1
  unfold getWriter createWriter
  split <;> exact this

theorem writeTo_grows (c : Conf ρ) (p : Pool ρ) (t : Str) (r : ρ) :
    p.store <+: (writeTo c p t r).1.store := by
  unfold writeTo
  simp only []
  split
  · rw [getWriter_store]; exact List.prefix_rfl
  · have := onWriter_grows (getWriter p t) (by assumption) (fun s => blobAppend c.blob s r)
    rw [getWriter_store] at this
    exact this

theorem removeWriter_grows (c : Conf ρ) (p : Pool ρ) (t : Str) :
    p.store <+: (removeWriter c p t).1.store := by
  unfold removeWriter
  split
  · rename_i w _
    simp only []
    have h1 := onWriter_grows { p with writers := p.writers.filter (fun w => w.identity != t) } w (commit c.blob)
    split
    · rename_i q _ he; rw [he] at h1; exact h1
    · rename_i q w' e he
      rw [he] at h1
      exact List.IsPrefix.trans h1 (onWriter_grows _ _ _)
  · exact List.prefix_rfl

theorem writeAll_grows (c : Conf ρ) (r : ρ) (ts : List Str) :
    ∀ p : Pool ρ, p.store <+: (writeAll c p r ts).1.store := by
  induction ts with
  | nil => intro p; exact List.prefix_rfl
  | cons t ts ih =>
    intro p
    have h := writeTo_grows c p t r
    unfold writeAll
    split
    · rename_i q n he; rw [he] at h; exact h.trans (ih q)
    · rename_i q n he; rw [he] at h; exact h

theorem removeAll_grows (c : Conf ρ) (ts : List Str) :
    ∀ p : Pool ρ, p.store <+: (removeAll c p ts).1.store := by
  induction ts with
  | nil => intro p; exact List.prefix_rfl
  | cons t ts ih =>
    intro p
    have h := removeWriter_grows c p t
    unfold removeAll
    split
    · rename_i q n he; rw [he] at h; exact h.trans (ih q)
    · rename_i q n he; rw [he] at h; exact h

theorem dropAll_grows (c : Conf ρ) (ts : List Str) :
    ∀ p : Pool ρ, p.store <+: (dropAll c p ts).store := by
  induction ts with
  | nil => intro p; exact List.prefix_rfl
  | cons t ts ih => intro p; exact (removeWriter_grows c p t).trans (ih _)

theorem finish_grows (c : Conf ρ) (p : Pool ρ) (k : Cont ρ) : p.store <+: (finish c p k).store := by
  have hev : ∀ q : Pool ρ, q.store <+: (evict c q).1.store := fun q => removeAll_grows c _ q
  cases k with
  | writes r ts => exact writeAll_grows c r ts p
  | stale =>
    simp only [finish, attend, staleWriters]
    have h1 := removeAll_grows c (((now p).2.writers.filter
      (fun w => decide ((now p).1 - w.lastAccess > c.idle))).map (·.identity)) (now p).2
    rw [(now_spec p).2.1] at h1
    split
    · rename_i x q he; rw [he] at h1; exact h1.trans (hev q)
    · rename_i q u he; rw [he] at h1; exact h1
  | removing ids =>
    have h1 := removeAll_grows c ids p
    simp only [finish]
    split
    · rename_i x q he; rw [he] at h1; exact h1.trans (hev q)
    · rename_i q u he; rw [he] at h1; exact h1
  | nominating => exact hev p
  | evicting ids => exact removeAll_grows c ids p
  | opening => exact dropAll_grows c _ p
  | dropping ids => exact dropAll_grows c _ p
  | done => exact List.prefix_rfl

theorem blobsAt_prefix {a b : List (Str × Stored)} (h : a <+: b) (t : Str) :
    blobsAt a t <+: blobsAt b t := by
  obtain ⟨x, rfl⟩ := h
  rw [blobsAt_append]; exact List.prefix_append _ _

/-- Blobs that are among the first of those that hold `records` hold the first of them. -/
theorem holds_prefix {c : Codec ρ} {f : Format} {a b : List Bytes} {records : List ρ} (h : a <+: b)
    (hb : Holds c f b records) : ∃ first, Holds c f a first ∧ first <+: records := by
  obtain ⟨gs, h1, h2, h3⟩ := hb
  obtain ⟨x, hx⟩ := h
  refine ⟨(gs.take a.length).flatten, ⟨gs.take a.length, ?_, rfl, fun g hg => h3 g (List.mem_of_mem_take hg)⟩, ?_⟩
  · rw [List.map_take, ← h1, ← hx]; simp
  · rw [← h2]
    conv => rhs; rw [← List.take_append_drop a.length gs, List.flatten_append]
    exact List.prefix_append _ _

/-- Between any two pool operations the invariant holds for some routing. -/
theorem micro_inv {c : Conf ρ} {p : Pool ρ} (h : ∃ recs, Inv c false p recs) (k : Cont ρ) :
    ∃ recs, Inv c false (micro c p k).1 recs := by
  obtain ⟨recs, h⟩ := h
  have hr : ∀ t, ∃ recs, Inv c false (removeWriter c p t).1 recs := fun t => ⟨_, (removeWriter_inv h t).1⟩
  cases k with
  | writes r ts =>
    cases ts with
    | nil => exact ⟨_, h⟩
    | cons t ts =>
      have := (writeTo_inv h t r).1
      simp only [micro]
      split <;> (rename_i he; rw [he] at this; exact ⟨_, this⟩)
  | stale => exact ⟨_, now_inv h⟩
  | removing ids =>
    cases ids with
    | nil => exact ⟨_, h⟩
    | cons t ts =>
      have := hr t
      simp only [micro]
      split <;> (rename_i he; rw [he] at this; exact this)
  | nominating => exact ⟨_, h⟩
  | evicting ids =>
    cases ids with
    | nil => exact ⟨_, h⟩
    | cons t ts =>
      have := hr t
      simp only [micro]
      split <;> (rename_i he; rw [he] at this; exact this)
  | opening => exact ⟨_, h⟩
  | dropping ids =>
    cases ids with
    | nil => exact ⟨_, h⟩
    | cons t ts => exact hr t
  | done => exact ⟨_, h⟩

theorem reach_inv {c : Conf ρ} {a b : Machine ρ} (h : Reach c a b)
    (ha : ∃ recs, Inv c false a.pool recs) : ∃ recs, Inv c false b.pool recs := by
  induction h with
  | refl => exact ha
  | step _ hs ih =>
    cases hs with
    | acquire => exact ih
    | work t k ho hk => exact micro_inv ih k
    | release => exact ih

end Mabel.Stream
