import Verif.Spec.Writer

/-! Invariants of the writer state machine. -/

namespace Mabel.Writer
open Mabel.Py Mabel.Writer.Spec
variable {ρ : Type}

theorem text_append' (c : Codec ρ) (a b : List ρ) : text c (a ++ b) = text c a ++ text c b := by
  simp [text]

theorem dataBlobs_append (a b : List Stored) : dataBlobs (a ++ b) = dataBlobs a ++ dataBlobs b := by
  simp [dataBlobs]

/-- The pending records `pend` are what the buffers hold. -/
def Pending (c : Config ρ) (s : State ρ) (pend : List ρ) : Prop :=
  s.recordsInBuffer = pend.length ∧
    (c.format = .parquet → s.wal = pend) ∧
    (c.format ≠ .parquet → s.buffer = text c.codec pend)

/-- Storage holds `groups` and the buffers hold `pend`. -/
structure Rep (c : Config ρ) (s : State ρ) (groups : List (List ρ)) (pend : List ρ) : Prop where
  stored : dataBlobs s.store = groups.map (encode c.codec c.format)
  nonempty : ∀ g ∈ groups, g ≠ []
  pending : Pending c s pend

theorem Rep.init (c : Config ρ) (faults : List Bool) : Rep c { faults := faults } [] [] :=
  ⟨rfl, by simp, rfl, fun _ => rfl, fun _ => rfl⟩

theorem pending_openBuffer (c : Config ρ) (s : State ρ) : Pending c (openBuffer c s) [] := by
  unfold openBuffer Pending
  cases c.format <;> simp [text]

@[simp] theorem openBuffer_store (c : Config ρ) (s : State ρ) : (openBuffer c s).store = s.store := by
  unfold openBuffer; cases c.format <;> rfl
@[simp] theorem openBuffer_faults (c : Config ρ) (s : State ρ) : (openBuffer c s).faults = s.faults := by
  unfold openBuffer; cases c.format <;> rfl
@[simp] theorem openBuffer_records (c : Config ρ) (s : State ρ) : (openBuffer c s).records = s.records := by
  unfold openBuffer; cases c.format <;> rfl
@[simp] theorem openBuffer_seen (c : Config ρ) (s : State ρ) :
    (openBuffer c s).seenFailures = s.seenFailures := by
  unfold openBuffer; cases c.format <;> rfl

theorem writeBuffer_eq {c : Config ρ} {s : State ρ} {pend : List ρ} (h : Pending c s pend) :
    writeBuffer c s = encode c.codec c.format pend := by
  obtain ⟨_, hw, hb⟩ := h
  unfold writeBuffer
  cases hf : c.format
  · simp [encode, hb (by simp [hf])]
  · simp [encode, hb (by simp [hf])]
  · simp [encode, hw hf]

/-- What `inner_writer.commit` may do to the state. -/
theorem innerCommit_cases (s : State ρ) (x : Stored) :
    (∃ fs, innerCommit s x = ({ s with faults := fs }, .error .storageFailed) ∧ s.faults = true :: fs) ∨
    (∃ fs, innerCommit s x = ({ s with faults := fs, store := s.store ++ [x] }, .ok ()) ∧
      fs = s.faults.tail) := by
  unfold innerCommit
  cases hs : s.faults with
  | nil => right; exact ⟨[], by cases s; simp at hs; subst hs; rfl, rfl⟩
  | cons f fs => cases f
                 · right; exact ⟨fs, rfl, rfl⟩
                 · left; exact ⟨fs, rfl, rfl⟩

/-- The groups in storage after a successful commit. -/
def closeGroup (groups : List (List ρ)) (pend : List ρ) : List (List ρ) :=
  if pend = [] then groups else groups ++ [pend]

theorem closeGroup_flatten (groups : List (List ρ)) (pend : List ρ) :
    (closeGroup groups pend).flatten = groups.flatten ++ pend := by
  unfold closeGroup; split <;> simp_all

/-- `commit` either stores the pending group and empties the buffer, or raises and changes nothing
but the fault list. -/
theorem commit_cases {c : Config ρ} {s : State ρ} {groups : List (List ρ)} {pend : List ρ}
    (h : Rep c s groups pend) :
    (∃ fs, commit c s = ({ s with faults := fs }, .error .storageFailed) ∧ s.faults = true :: fs ∧
      pend ≠ []) ∨
    (∃ s', commit c s = (s', .ok ()) ∧ Rep c s' (closeGroup groups pend) [] ∧
      s'.records = s.records ∧ s'.seenFailures = s.seenFailures ∧ s'.finalized = s.finalized ∧
      (s.faults = [] → s'.faults = []) ∧
      s'.store = s.store ++ (if pend = [] then [] else [.data (encode c.codec c.format pend)])) := by
  obtain ⟨hst, hne, hp⟩ := h
  have hlen := hp.1
  unfold commit
  by_cases hz : pend = []
  · right
    subst hz
    simp only [hlen, List.length_nil, gt_iff_lt, Nat.lt_irrefl, if_false]
    refine ⟨_, rfl, ⟨?_, ?_, pending_openBuffer c s⟩, ?_⟩
    · simp [closeGroup, hst]
    · simpa [closeGroup] using hne
    · simp
      unfold openBuffer; cases c.format <;> rfl
  · have hpos : s.recordsInBuffer > 0 := by
      rw [hlen]; exact List.length_pos_iff.2 hz
    rw [if_pos hpos]
    rcases innerCommit_cases s (.data (writeBuffer c s)) with ⟨fs, he, hf⟩ | ⟨fs, he, hf⟩
    · left; refine ⟨fs, ?_, hf, hz⟩
      rw [he]
    · right
      rw [he]
      refine ⟨_, rfl, ⟨?_, ?_, pending_openBuffer c _⟩, ?_, ?_, ?_, ?_, ?_⟩
      · simp only [openBuffer_store, dataBlobs_append, hst, writeBuffer_eq hp]
        simp [closeGroup, hz, dataBlobs]
      · intro g hg
        simp only [closeGroup, hz, if_false, List.mem_append, List.mem_singleton] at hg
        rcases hg with hg | rfl
        · exact hne g hg
        · exact hz
      · simp
      · simp
      · unfold openBuffer; cases c.format <;> rfl
      · intro h0; simp [hf, h0]
      · simp [hz, writeBuffer_eq hp]

/-- The records that a call adds to what the writer is responsible for. -/
def added (c : Config ρ) (op : Op ρ) (out : Except Err Unit) : List ρ :=
  match op, out with
  | .append r, .ok _ => [r]
  | .append r, .error _ => if c.format = .parquet ∧ c.valid r = true then [r] else []
  | .finalize _, _ => []

/-- What `blobAppend` may do. -/
theorem blobAppend_cases {c : Config ρ} {s : State ρ} {groups : List (List ρ)} {pend : List ρ}
    (h : Rep c s groups pend) (r : ρ) :
    (∃ s' n groups' pend', blobAppend c s r = (s', .ok n) ∧ Rep c s' groups' pend' ∧
      n = pend'.length ∧
      s'.records = s.records ∧ s'.seenFailures = s.seenFailures ∧
      (s.faults = [] → s'.faults = []) ∧
      ((groups' = groups ∧ pend' = pend ++ [r] ∧
          ((c.format = .parquet ∧ size c.codec c.format (pend ++ [r]) ≤ c.maximumBlobSize) ∨
           (c.format ≠ .parquet ∧ size c.codec c.format pend ≤ c.maximumBlobSize)) ∧
          s'.store = s.store) ∨
       (groups' = groups ++ [pend ++ [r]] ∧ pend' = [] ∧ c.format = .parquet ∧
          size c.codec c.format (pend ++ [r]) > c.maximumBlobSize ∧
          s'.store = s.store ++ [.data (encode c.codec c.format (pend ++ [r]))]) ∨
       (groups' = groups ++ [pend] ∧ pend' = [r] ∧ c.format ≠ .parquet ∧ pend ≠ [] ∧
          size c.codec c.format pend > c.maximumBlobSize ∧
          s'.store = s.store ++ [.data (encode c.codec c.format pend)]))) ∨
    (∃ s', blobAppend c s r = (s', .error .storageFailed) ∧ s.faults = true :: s'.faults ∧
      s'.records = s.records ∧ s'.seenFailures = s.seenFailures ∧ s'.store = s.store ∧
      ((c.format = .parquet ∧ Rep c s' groups (pend ++ [r])) ∨
       (c.format ≠ .parquet ∧ Rep c s' groups pend))) := by
  obtain ⟨hst, hne, hlen, hw, hb⟩ := h
  by_cases hf : c.format = .parquet
  · -- parquet
    have hw' := hw hf
    have e : blobAppend c s r = arrowAppend c s r := by simp [blobAppend, hf]
    rw [e]; unfold arrowAppend
    simp only []
    have hrep : Rep c { s with recordsInBuffer := s.recordsInBuffer + 1, wal := s.wal ++ [r] }
        groups (pend ++ [r]) := by
      refine ⟨hst, hne, ?_, ?_, ?_⟩
      · simp [hlen]
      · intro _; simp [hw']
      · intro h; exact absurd hf h
    by_cases hsz : c.codec.nbytes (s.wal ++ [r]) > c.maximumBlobSize
    · rw [if_pos hsz]
      rcases commit_cases hrep with ⟨fs, he, hfs, _⟩ | ⟨s', he, hr', h1, h2, h3, h4, h5⟩
      · right
        rw [he]
        refine ⟨_, rfl, hfs, rfl, rfl, rfl, Or.inl ⟨hf, ?_⟩⟩
        exact ⟨hst, hne, hrep.pending⟩
      · left
        rw [he]
        refine ⟨openBuffer c s', _, groups ++ [pend ++ [r]], [], rfl, ?_, ?_, ?_, ?_, ?_, Or.inr (Or.inl ⟨rfl, rfl, hf, ?_, ?_⟩)⟩
        · have := hr'.stored
          refine ⟨?_, ?_, pending_openBuffer c s'⟩
          · simpa [closeGroup] using this
          · simpa [closeGroup] using hr'.nonempty
        · exact (pending_openBuffer c s').1
        · simpa using h1
        · simpa using h2
        · simpa using h4
        · simpa [size, hf, hw'] using hsz
        · simpa using h5
    · rw [if_neg hsz]
      left
      refine ⟨_, _, groups, pend ++ [r], rfl, hrep, ?_, rfl, rfl, fun h => h, Or.inl ⟨rfl, rfl, Or.inl ⟨hf, ?_⟩, rfl⟩⟩
      · simp [hlen]
      · simpa [size, hf, hw'] using hsz
  · have hb' := hb hf
    have e : blobAppend c s r = textAppend c s r := by
      unfold blobAppend; cases hc : c.format <;> simp_all
    have hsize : ∀ g, size c.codec c.format g = (text c.codec g).length := by
      intro g; cases hc : c.format <;> simp_all [size]
    rw [e]; unfold textAppend
    simp only []
    by_cases hsz : s.buffer.length > c.maximumBlobSize
    · rw [if_pos hsz]
      have hpn : pend ≠ [] := by
        rintro rfl
        simp [hb', text] at hsz
      rcases commit_cases (⟨hst, hne, hlen, hw, hb⟩ : Rep c s groups pend) with
        ⟨fs, he, hfs, _⟩ | ⟨s', he, hr', h1, h2, h3, h4, h5⟩
      · right
        rw [he]
        exact ⟨_, rfl, hfs, rfl, rfl, rfl, Or.inr ⟨hf, hst, hne, hlen, hw, hb⟩⟩
      · left
        rw [he]
        simp only [extendBuffer]
        have ob : openBuffer c s' = { s' with buffer := [], recordsInBuffer := 0 } := by
          unfold openBuffer; cases hc : c.format <;> simp_all
        refine ⟨_, _, groups ++ [pend], [r], rfl, ⟨?_, ?_, ?_, ?_, ?_⟩, ?_, ?_, ?_, ?_, Or.inr (Or.inr ⟨rfl, rfl, hf, hpn, ?_, ?_⟩)⟩
        · simpa [closeGroup, hpn] using hr'.stored
        · simpa [closeGroup, hpn] using hr'.nonempty
        · simp [ob]
        · intro h; exact absurd h hf
        · intro _; simp [ob, text]
        · simp [ob]
        · simpa using h1
        · simpa using h2
        · simpa using h4
        · rw [hsize, ← hb']; exact hsz
        · simpa [hpn] using h5
    · rw [if_neg hsz]
      left
      simp only [extendBuffer]
      refine ⟨_, _, groups, pend ++ [r], rfl, ⟨hst, hne, ?_, ?_, ?_⟩, ?_, rfl, rfl, fun h => h, Or.inl ⟨rfl, rfl, Or.inr ⟨hf, ?_⟩, rfl⟩⟩
      · simp [hlen]
      · intro h; exact absurd h hf
      · intro _; simp [hb', text]
      · simp [hlen]
      · rw [hsize, ← hb']; omega

/-- All records a history of calls makes the writer responsible for. -/
def addedLog (c : Config ρ) (log : List (Op ρ × Except Err Unit)) : List ρ :=
  log.flatMap fun x => added c x.1 x.2

theorem accepted_append (a b : List (Op ρ × Except Err Unit)) :
    accepted (a ++ b) = accepted a ++ accepted b := by simp [accepted]

theorem accepted_cons (x : Op ρ × Except Err Unit) (l : List (Op ρ × Except Err Unit)) :
    accepted (x :: l) = accepted [x] ++ accepted l := accepted_append [x] l

theorem accepted_sublist_addedLog (c : Config ρ) (log : List (Op ρ × Except Err Unit)) :
    (accepted log).Sublist (addedLog c log) := by
  induction log with
  | nil => simp [accepted, addedLog]
  | cons x l ih =>
    rw [accepted_cons]
    simp only [addedLog, List.flatMap_cons]
    refine List.Sublist.append ?_ ih
    obtain ⟨op, out⟩ := x
    cases op <;> cases out <;> simp [accepted, added]

theorem addedLog_text {c : Config ρ} (hf : c.format ≠ .parquet)
    (log : List (Op ρ × Except Err Unit)) : addedLog c log = accepted log := by
  induction log with
  | nil => rfl
  | cons x l ih =>
    rw [accepted_cons, ← ih]
    simp only [addedLog, List.flatMap_cons]
    congr 1
    obtain ⟨op, out⟩ := x
    cases op <;> cases out <;> simp [accepted, added, hf]

/-- Whether the policy of batch_writer.py:111-126 lets the marker be written. -/
def MayComplete (c : Config ρ) (s : State ρ) (f : Bool) : Prop :=
  f = false ∧ s.seenFailures = false ∧ (s.records ≠ 0 ∨ c.alwaysComplete = true)

/-- All behaviours of `finalize`. -/
theorem finalize_cases {c : Config ρ} {s : State ρ} {groups : List (List ρ)} {pend : List ρ}
    (h : Rep c s groups pend) (f : Bool) :
    (∃ fs, finalize c s f = ({ s with finalized := true, faults := fs }, .error .storageFailed) ∧
      s.faults = true :: fs) ∨
    (∃ s' e r, finalize c s f = (s', r) ∧ Rep c s' (closeGroup groups pend) [] ∧
      s'.records = s.records ∧ (s.faults = [] → s'.faults = []) ∧
      .complete ∉ e ∧ dataBlobs (s.store ++ e) = (closeGroup groups pend).map (encode c.codec c.format) ∧
      ((r = .ok .minusOne ∧ ¬ MayComplete c s f ∧ s'.store = s.store ++ e ∧
          s'.seenFailures = (s.seenFailures || f)) ∨
       (r = .ok .done ∧ MayComplete c s f ∧ s'.store = s.store ++ e ++ [.complete] ∧
          s'.seenFailures = false) ∨
       (r = .error .storageFailed ∧ MayComplete c s f ∧ s'.store = s.store ++ e ∧ s.faults ≠ [] ∧
          s'.seenFailures = false))) := by
  have h0 : Rep c { s with finalized := true } groups pend := ⟨h.stored, h.nonempty, h.pending⟩
  unfold finalize
  simp only []
  rcases commit_cases h0 with ⟨fs, he, hfs, _⟩ | ⟨s', he, hr', h1, h2, h3, h4, h5⟩
  · left
    exact ⟨fs, by rw [he], hfs⟩
  · right
    rw [he]
    simp only [] at h1 h2 h4 h5 ⊢
    have hst : ∃ e, s'.store = s.store ++ e ∧ .complete ∉ e := by
      refine ⟨_, h5, ?_⟩
      split <;> simp
    obtain ⟨e, hs1, hs2⟩ := hst
    have hdb : dataBlobs (s.store ++ e) = (closeGroup groups pend).map (encode c.codec c.format) := by
      rw [← hs1, hr'.stored]
    by_cases hff : f = true
    · subst hff
      refine ⟨{ s' with seenFailures := true }, e, .ok .minusOne, by simp, ⟨hr'.stored, hr'.nonempty, hr'.pending⟩, h1, h4, hs2, hdb, ?_⟩
      exact Or.inl ⟨rfl, by simp [MayComplete], hs1, by simp⟩
    · have hf0 : f = false := by simpa using hff
      subst hf0
      simp only [Bool.false_eq_true, if_false]
      by_cases hseen : s'.seenFailures = true
      · refine ⟨s', e, .ok .minusOne, by simp [hseen], hr', h1, h4, hs2, hdb, Or.inl ⟨rfl, ?_, hs1, ?_⟩⟩
        · rw [h2] at hseen; simp [MayComplete, hseen]
        · simp [h2]
      · have hs0 : s.seenFailures = false := by rw [← h2]; simpa using hseen
        by_cases hrec : (s'.records == 0 && !c.alwaysComplete) = true
        · refine ⟨s', e, .ok .minusOne, by simp [hseen, hrec], hr', h1, h4, hs2, hdb, Or.inl ⟨rfl, ?_, hs1, ?_⟩⟩
          · rw [h1] at hrec
            simp at hrec
            simp [MayComplete, hrec]
          · simp [h2]
        · have may : MayComplete c s false := by
            refine ⟨rfl, hs0, ?_⟩
            rw [h1] at hrec
            simp at hrec
            by_cases hz : s.records = 0
            · exact Or.inr (hrec hz)
            · exact Or.inl hz
          rcases innerCommit_cases s' .complete with ⟨fs, he2, hf2⟩ | ⟨fs, he2, hf2⟩
          · refine ⟨{ s' with faults := fs }, e, .error .storageFailed, ?_, ⟨hr'.stored, hr'.nonempty, hr'.pending⟩, h1, ?_, hs2, hdb, Or.inr (Or.inr ⟨rfl, may, hs1, ?_, ?_⟩)⟩
            · simp only [hseen, hrec, if_false, Bool.false_eq_true, he2]
            · intro hz; rw [h4 hz] at hf2; simp at hf2
            · intro hz; rw [h4 hz] at hf2; simp at hf2
            · simpa using hseen
          · refine ⟨{ s' with faults := fs, store := s'.store ++ [.complete] }, e, .ok .done, ?_, ⟨?_, hr'.nonempty, hr'.pending⟩, h1, ?_, hs2, hdb, Or.inr (Or.inl ⟨rfl, may, ?_, ?_⟩)⟩
            · simp only [hseen, hrec, if_false, Bool.false_eq_true, he2]
            · simp only [dataBlobs_append, hr'.stored]
              simp [dataBlobs]
            · intro hz; simp [hf2, h4 hz]
            · simp [hs1]
            · simpa using hseen

/-- The objects that one call adds to storage, and how the representation moves. -/
theorem step_rep {c : Config ρ} {s : State ρ} {groups : List (List ρ)} {pend : List ρ}
    (h : Rep c s groups pend) (op : Op ρ) :
    ∃ groups' pend', Rep c (step c s op).1 groups' pend' ∧
      groups'.flatten ++ pend' = groups.flatten ++ pend ++ added c op (step c s op).2 ∧
      (s.faults = [] → (step c s op).1.faults = []) ∧
      ((∃ e, (step c s op).1.store = s.store ++ e ∧ .complete ∉ e) ∨
       (∃ e, op = .finalize false ∧ (step c s op).2 = .ok () ∧ .complete ∉ e ∧
          (step c s op).1.store = s.store ++ e ++ [.complete] ∧
          dataBlobs (s.store ++ e) = groups'.map (encode c.codec c.format) ∧
          pend' = [])) := by
  cases op with
  | append r =>
    simp only [step, append]
    by_cases hv : c.valid r = true
    · rw [if_pos hv]
      rcases blobAppend_cases h r with ⟨s', n, g', p', he, hr, -, h1, h2, h3, h4⟩ |
        ⟨s', he, h1, h2, h3, h4, h5⟩
      · rw [he]
        refine ⟨g', p', ⟨hr.stored, hr.nonempty, hr.pending⟩, ?_, h3, Or.inl ?_⟩
        · rcases h4 with ⟨rfl, rfl, _⟩ | ⟨rfl, rfl, _⟩ | ⟨rfl, rfl, _⟩ <;> simp [added]
        · rcases h4 with ⟨_, _, _, h⟩ | ⟨_, _, _, _, h⟩ | ⟨_, _, _, _, _, h⟩
          · exact ⟨[], by simp [h], by simp⟩
          · exact ⟨_, h, by simp⟩
          · exact ⟨_, h, by simp⟩
      · rw [he]
        rcases h5 with ⟨hf, hr⟩ | ⟨hf, hr⟩
        · refine ⟨groups, pend ++ [r], hr, by simp [added, hf, hv], ?_, Or.inl ⟨[], by simp [h4], by simp⟩⟩
          intro h0; rw [h0] at h1; simp at h1
        · refine ⟨groups, pend, hr, by simp [added, hf], ?_, Or.inl ⟨[], by simp [h4], by simp⟩⟩
          intro h0; rw [h0] at h1; simp at h1
    · rw [if_neg hv]
      exact ⟨groups, pend, h, by simp [added, hv], fun h => h, Or.inl ⟨[], by simp, by simp⟩⟩
  | finalize f =>
    simp only [step, added]
    rcases finalize_cases h f with ⟨fs, he, hfs⟩ | ⟨s', e, r, he, hr', h1, h2, h3, h4, h5⟩
    · rw [he]
      refine ⟨groups, pend, ⟨h.stored, h.nonempty, h.pending⟩, by simp, ?_, Or.inl ⟨[], by simp, by simp⟩⟩
      intro h0
      exact absurd (hfs.symm.trans h0) (by simp)
    · rw [he]
      rcases h5 with ⟨rfl, hm, hs, -⟩ | ⟨rfl, hm, hs, -⟩ | ⟨rfl, hm, hs, -⟩
      · exact ⟨_, _, hr', by simp [closeGroup_flatten], h2, Or.inl ⟨e, hs, h3⟩⟩
      · refine ⟨_, _, hr', by simp [closeGroup_flatten], h2, Or.inr ⟨e, ?_, rfl, h3, hs, h4, rfl⟩⟩
        rw [hm.1]
      · exact ⟨_, _, hr', by simp [closeGroup_flatten], h2, Or.inl ⟨e, hs, h3⟩⟩

theorem run_append (c : Config ρ) (s : State ρ) (a b : List (Op ρ)) :
    run c s (a ++ b) = run c (run c s a) b := by
  induction a generalizing s with
  | nil => rfl
  | cons x a ih => exact ih _

theorem outcomes_append (c : Config ρ) (s : State ρ) (a b : List (Op ρ)) :
    outcomes c s (a ++ b) = outcomes c s a ++ outcomes c (run c s a) b := by
  induction a generalizing s with
  | nil => rfl
  | cons x a ih => simp [outcomes, run, ih]

/-- The invariant over a whole history. -/
theorem run_rep {c : Config ρ} {s : State ρ} {groups : List (List ρ)} {pend : List ρ}
    (h : Rep c s groups pend) (ops : List (Op ρ)) :
    ∃ groups' pend', Rep c (run c s ops) groups' pend' ∧
      groups'.flatten ++ pend' = groups.flatten ++ pend ++ addedLog c (outcomes c s ops) ∧
      (s.faults = [] → (run c s ops).faults = []) := by
  induction ops generalizing s groups pend with
  | nil => exact ⟨groups, pend, h, by simp [addedLog, outcomes], fun h => h⟩
  | cons op ops ih =>
    obtain ⟨g1, p1, hr1, he1, hf1, -⟩ := step_rep h op
    obtain ⟨g2, p2, hr2, he2, hf2⟩ := ih hr1
    refine ⟨g2, p2, hr2, ?_, fun h0 => hf2 (hf1 h0)⟩
    rw [he2, he1]
    simp [addedLog, outcomes]

/-- Without storage faults a call raises only for an invalid record. -/
theorem step_noFault {c : Config ρ} {s : State ρ} {groups : List (List ρ)} {pend : List ρ}
    (h : Rep c s groups pend) (h0 : s.faults = []) (op : Op ρ) :
    (step c s op).2 = match op with
      | .append r => if c.valid r then .ok () else .error .validationFailed
      | .finalize _ => .ok () := by
  cases op with
  | append r =>
    simp only [step, append]
    split
    · rcases blobAppend_cases h r with ⟨s', n, g', p', he, -⟩ | ⟨s', he, h1, -⟩
      · rw [he]
      · rw [h0] at h1; simp at h1
    · rfl
  | finalize f =>
    simp only [step]
    rcases finalize_cases h f with ⟨fs, he, hfs⟩ | ⟨s', e, r, he, hr', h1, h2, h3, h4, h5⟩
    · rw [h0] at hfs; simp at hfs
    · rw [he]
      rcases h5 with ⟨rfl, -⟩ | ⟨rfl, -⟩ | ⟨rfl, -, -, h, -⟩
      · rfl
      · rfl
      · exact absurd h0 h

theorem addedLog_noFault {c : Config ρ} {s : State ρ} {groups : List (List ρ)} {pend : List ρ}
    (h : Rep c s groups pend) (h0 : s.faults = []) (ops : List (Op ρ)) :
    addedLog c (outcomes c s ops) = accepted (outcomes c s ops) ∧
    accepted (outcomes c s ops) = offered c.valid ops := by
  induction ops generalizing s groups pend with
  | nil => exact ⟨rfl, rfl⟩
  | cons op ops ih =>
    obtain ⟨g1, p1, hr1, he1, hf1, -⟩ := step_rep h op
    obtain ⟨i1, i2⟩ := ih hr1 (hf1 h0)
    simp only [outcomes]
    rw [accepted_cons]
    have hs := step_noFault h h0 op
    rw [hs]
    have e1 : ∀ x, addedLog c (x :: outcomes c (step c s op).1 ops) =
      added c x.1 x.2 ++ addedLog c (outcomes c (step c s op).1 ops) := by
      intro x; simp [addedLog]
    have e2 : offered c.valid (op :: ops) = offered c.valid [op] ++ offered c.valid ops := by
      simp only [offered]
      rw [← List.filterMap_append]
      rfl
    rw [e1, e2, i1, i2]
    cases op with
    | append r => by_cases hv : c.valid r = true <;> simp [added, accepted, offered, hv]
    | finalize f => simp [added, accepted, offered]

/-- `records` counts the accepted records. -/
theorem step_records {c : Config ρ} {s : State ρ} {groups : List (List ρ)} {pend : List ρ}
    (h : Rep c s groups pend) (op : Op ρ) :
    (step c s op).1.records = s.records + (accepted [(op, (step c s op).2)]).length := by
  cases op with
  | append r =>
    simp only [step, append]
    split
    · rcases blobAppend_cases h r with ⟨s', n, g', p', he, -, -, h1, -⟩ | ⟨s', he, -, h1, -⟩
      · rw [he]; simp [accepted, h1]
      · rw [he]; simp [accepted, h1]
    · simp [accepted]
  | finalize f =>
    simp only [step]
    rcases finalize_cases h f with ⟨fs, he, hfs⟩ | ⟨s', e, r, he, hr', h1, h2, h3, h4, h5⟩
    · rw [he]; simp [accepted]
    · rw [he]
      rcases h5 with ⟨rfl, -⟩ | ⟨rfl, -⟩ | ⟨rfl, -⟩ <;> simp [accepted, h1]

theorem run_records {c : Config ρ} {s : State ρ} {groups : List (List ρ)} {pend : List ρ}
    (h : Rep c s groups pend) (ops : List (Op ρ)) :
    (run c s ops).records = s.records + (accepted (outcomes c s ops)).length := by
  induction ops generalizing s groups pend with
  | nil => simp [run, outcomes, accepted]
  | cons op ops ih =>
    obtain ⟨g1, p1, hr1, -⟩ := step_rep h op
    have e : accepted (outcomes c s (op :: ops)) =
      accepted [(op, (step c s op).2)] ++ accepted (outcomes c (step c s op).1 ops) :=
      accepted_cons _ _
    rw [run, ih hr1, step_records h, e, List.length_append, Nat.add_assoc]

/-- Every completion marker in storage was written by a finalize, after everything that the writer
was responsible for at that moment. -/
theorem run_markers {c : Config ρ} {s : State ρ} {groups : List (List ρ)} {pend : List ρ}
    (h : Rep c s groups pend) (ops : List (Op ρ)) :
    ∃ ext, (run c s ops).store = s.store ++ ext ∧
      ∀ pre post, ext = pre ++ .complete :: post →
        ∃ before after, ops = before ++ .finalize false :: after ∧
          Holds c.codec c.format (dataBlobs (s.store ++ pre))
            (groups.flatten ++ pend ++ addedLog c (outcomes c s before)) := by
  induction ops generalizing s groups pend with
  | nil => exact ⟨[], by simp [run], by simp⟩
  | cons op ops ih =>
    obtain ⟨g1, p1, hr1, he1, -, hs⟩ := step_rep h op
    obtain ⟨ext, hx, hm⟩ := ih hr1
    have shift : ∀ pre1 pre post, ext = pre ++ .complete :: post →
        (step c s op).1.store = s.store ++ pre1 →
        ∃ before after, op :: ops = before ++ .finalize false :: after ∧
          Holds c.codec c.format (dataBlobs (s.store ++ (pre1 ++ pre)))
            (groups.flatten ++ pend ++ addedLog c (outcomes c s before)) := by
      intro pre1 pre post he hst
      obtain ⟨b, a, hb, hh⟩ := hm pre post he
      refine ⟨op :: b, a, by simp [hb], ?_⟩
      rw [hst, he1] at hh
      simpa [addedLog, outcomes] using hh
    rcases hs with ⟨e, hst, hc⟩ | ⟨e, rfl, hok, hc, hst, hd, rfl⟩
    · refine ⟨e ++ ext, by simp [run, hx, hst], ?_⟩
      intro pre post heq
      rcases List.append_eq_append_iff.1 heq with ⟨a', h1, h2⟩ | ⟨c', h1, h2⟩
      · obtain ⟨b, a, hb, hh⟩ := shift e a' post h2 hst
        exact ⟨b, a, hb, by rw [h1]; exact hh⟩
      · cases c' with
        | nil =>
          simp at h1 h2
          obtain ⟨b, a, hb, hh⟩ := shift e [] post (by simp [h2]) hst
          exact ⟨b, a, hb, by rw [← h1]; simpa using hh⟩
        | cons z zs =>
          exfalso
          apply hc
          simp at h2
          rw [h1, ← h2.1]
          simp
    · refine ⟨e ++ [.complete] ++ ext, by simp [run, hx, hst], ?_⟩
      intro pre post heq
      have heq' : e ++ (.complete :: ext) = pre ++ (.complete :: post) := by simpa using heq
      rcases List.append_eq_append_iff.1 heq' with ⟨a', h1, h2⟩ | ⟨c', h1, h2⟩
      · cases a' with
        | nil =>
          simp at h1
          refine ⟨[], ops, rfl, g1, ?_, ?_, hr1.nonempty⟩
          · rw [h1, hd]
          · simp at he1
            simp [addedLog, outcomes, he1, added]
        | cons z zs =>
          simp at h2
          obtain ⟨b, a, hb, hh⟩ := shift (e ++ [.complete]) zs post h2.2 (by simp [hst])
          refine ⟨b, a, hb, ?_⟩
          rw [h1, ← h2.1]
          simpa using hh
      · cases c' with
        | nil =>
          simp at h1
          refine ⟨[], ops, rfl, g1, ?_, ?_, hr1.nonempty⟩
          · rw [← h1, hd]
          · simp at he1
            simp [addedLog, outcomes, he1, added]
        | cons z zs =>
          exfalso
          apply hc
          simp at h2
          rw [h1, ← h2.1]
          simp

/-- No blob, and not the buffer, was over the limit before its last record. -/
structure Sized (c : Config ρ) (groups : List (List ρ)) (pend : List ρ) : Prop where
  ofGroups : ∀ g ∈ groups, g.length = 1 ∨ size c.codec c.format g.dropLast ≤ c.maximumBlobSize
  ofPend : pend.length ≤ 1 ∨ size c.codec c.format pend.dropLast ≤ c.maximumBlobSize
  ofParquet : c.format = .parquet → pend = [] ∨ size c.codec c.format pend ≤ c.maximumBlobSize

theorem Sized.close {c : Config ρ} {groups : List (List ρ)} {pend : List ρ}
    (h : Sized c groups pend) : Sized c (closeGroup groups pend) [] := by
  refine ⟨?_, by simp, fun _ => Or.inl rfl⟩
  intro g hg
  unfold closeGroup at hg
  split at hg
  · exact h.ofGroups g hg
  · rename_i hne
    rcases List.mem_append.1 hg with hg | hg
    · exact h.ofGroups g hg
    · rw [List.mem_singleton.1 hg]
      rcases h.ofPend with hp | hp
      · left
        have := List.length_pos_iff.2 hne
        omega
      · exact Or.inr hp

theorem step_sized {c : Config ρ} {s : State ρ} {groups : List (List ρ)} {pend : List ρ}
    (h : Rep c s groups pend) (hz : Sized c groups pend) (h0 : s.faults = []) (op : Op ρ) :
    ∃ groups' pend', Rep c (step c s op).1 groups' pend' ∧ Sized c groups' pend' ∧
      groups'.flatten ++ pend' = groups.flatten ++ pend ++ added c op (step c s op).2 ∧
      (step c s op).1.faults = [] ∧
      (∀ r, op = .append r →
        (∀ g ∈ groups, size c.codec c.format g > c.maximumBlobSize) →
        (∀ g ∈ groups', size c.codec c.format g > c.maximumBlobSize)) ∧
      (∀ f, op = .finalize f → groups' = closeGroup groups pend) := by
  cases op with
  | append r =>
    simp only [step, append]
    by_cases hv : c.valid r = true
    · rw [if_pos hv]
      rcases blobAppend_cases h r with ⟨s', n, g', p', he, hr, -, h1, h2, h3, h4⟩ |
        ⟨s', he, h1, -⟩
      · rw [he]
        refine ⟨g', p', ⟨hr.stored, hr.nonempty, hr.pending⟩, ?_, ?_, h3 h0, ?_, by simp⟩
        · rcases h4 with ⟨rfl, rfl, hd, _⟩ | ⟨rfl, rfl, hf, hd, _⟩ | ⟨rfl, rfl, hf, hp, hd, _⟩
          · refine ⟨hz.ofGroups, ?_, ?_⟩
            · rcases hd with ⟨hf, hd⟩ | ⟨hf, hd⟩
              · rcases hz.ofParquet hf with rfl | hh
                · left; simp
                · right; simpa using hh
              · right; simpa using hd
            · intro hf
              rcases hd with ⟨_, hd⟩ | ⟨hf', hd⟩
              · exact Or.inr hd
              · exact absurd hf hf'
          · refine ⟨?_, by simp, fun _ => Or.inl rfl⟩
            intro g hg
            rcases List.mem_append.1 hg with hg | hg
            · exact hz.ofGroups g hg
            · rw [List.mem_singleton.1 hg]
              rcases hz.ofParquet hf with rfl | hh
              · left; simp
              · right; simpa using hh
          · refine ⟨?_, by simp, fun h => absurd h hf⟩
            intro g hg
            rcases List.mem_append.1 hg with hg | hg
            · exact hz.ofGroups g hg
            · rw [List.mem_singleton.1 hg]
              rcases hz.ofPend with hh | hh
              · left
                have := List.length_pos_iff.2 hp
                omega
              · exact Or.inr hh
        · rcases h4 with ⟨rfl, rfl, _⟩ | ⟨rfl, rfl, _⟩ | ⟨rfl, rfl, _⟩ <;> simp [added]
        · intro r' _ hg g hgm
          rcases h4 with ⟨rfl, rfl, hd, _⟩ | ⟨rfl, rfl, hf, hd, _⟩ | ⟨rfl, rfl, hf, hp, hd, _⟩
          · exact hg g hgm
          · rcases List.mem_append.1 hgm with hgm | hgm
            · exact hg g hgm
            · rw [List.mem_singleton.1 hgm]; exact hd
          · rcases List.mem_append.1 hgm with hgm | hgm
            · exact hg g hgm
            · rw [List.mem_singleton.1 hgm]; exact hd
      · rw [h0] at h1; simp at h1
    · rw [if_neg hv]
      exact ⟨groups, pend, h, hz, by simp [added, hv], h0, fun _ _ h => h, by simp⟩
  | finalize f =>
    simp only [step, added]
    rcases finalize_cases h f with ⟨fs, he, hfs⟩ | ⟨s', e, r, he, hr', h1, h2, h3, h4, h5⟩
    · rw [h0] at hfs; simp at hfs
    · rw [he]
      rcases h5 with ⟨rfl, -⟩ | ⟨rfl, -⟩ | ⟨rfl, -⟩ <;>
      exact ⟨_, _, hr', hz.close, by simp [closeGroup_flatten], h2 h0, by simp, fun _ _ => rfl⟩

theorem run_sized {c : Config ρ} {s : State ρ} {groups : List (List ρ)} {pend : List ρ}
    (h : Rep c s groups pend) (hz : Sized c groups pend) (h0 : s.faults = []) (ops : List (Op ρ)) :
    ∃ groups' pend', Rep c (run c s ops) groups' pend' ∧ Sized c groups' pend' ∧
      groups'.flatten ++ pend' = groups.flatten ++ pend ++ addedLog c (outcomes c s ops) ∧
      (run c s ops).faults = [] ∧
      ((∀ op ∈ ops, ∃ r, op = .append r) →
        (∀ g ∈ groups, size c.codec c.format g > c.maximumBlobSize) →
        (∀ g ∈ groups', size c.codec c.format g > c.maximumBlobSize)) := by
  induction ops generalizing s groups pend with
  | nil => exact ⟨groups, pend, h, hz, by simp [addedLog, outcomes], h0, fun _ h => h⟩
  | cons op ops ih =>
    obtain ⟨g1, p1, hr1, hz1, he1, hf1, hb1, -⟩ := step_sized h hz h0 op
    obtain ⟨g2, p2, hr2, hz2, he2, hf2, hb2⟩ := ih hr1 hz1 hf1
    refine ⟨g2, p2, hr2, hz2, ?_, hf2, ?_⟩
    · rw [he2, he1]
      simp [addedLog, outcomes]
    · intro hall hg
      obtain ⟨r, hr⟩ := hall op (by simp)
      exact hb2 (fun o ho => hall o (by simp [ho])) (hb1 r hr hg)

theorem Sized.init (c : Config ρ) : Sized c [] [] := ⟨by simp, by simp, fun _ => Or.inl rfl⟩

/-- The sticky failure flag. -/
theorem step_seen {c : Config ρ} {s : State ρ} {groups : List (List ρ)} {pend : List ρ}
    (h : Rep c s groups pend) (op : Op ρ) :
    (step c s op).1.seenFailures = true ↔
      (s.seenFailures = true ∨ (op = .finalize true ∧ (step c s op).2 = .ok ())) := by
  cases op with
  | append r =>
    simp only [step, append]
    split
    · rcases blobAppend_cases h r with ⟨s', n, g', p', he, -, -, -, h1, -⟩ | ⟨s', he, -, -, h1, -⟩
      · rw [he]; simp [h1]
      · rw [he]; simp [h1]
    · simp
  | finalize f =>
    simp only [step]
    rcases finalize_cases h f with ⟨fs, he, hfs⟩ | ⟨s', e, r, he, hr', h1, h2, h3, h4, h5⟩
    · rw [he]; simp
    · rw [he]
      rcases h5 with ⟨rfl, hm, -, hs⟩ | ⟨rfl, hm, -, hs⟩ | ⟨rfl, hm, -, -, hs⟩
      · cases f <;> simp [hs]
      · simp [hs, hm.1, hm.2.1]
      · simp [hs, hm.1, hm.2.1]

theorem run_seen {c : Config ρ} {s : State ρ} {groups : List (List ρ)} {pend : List ρ}
    (h : Rep c s groups pend) (ops : List (Op ρ)) :
    (run c s ops).seenFailures = true ↔
      (s.seenFailures = true ∨ (.finalize true, .ok ()) ∈ outcomes c s ops) := by
  induction ops generalizing s groups pend with
  | nil => simp [run, outcomes]
  | cons op ops ih =>
    obtain ⟨g1, p1, hr1, -⟩ := step_rep h op
    rw [run, ih hr1, step_seen h, outcomes, List.mem_cons, or_assoc]
    have : (op = .finalize true ∧ (step c s op).2 = .ok ()) ↔
      (Op.finalize true, Except.ok ()) = (op, (step c s op).2) := by
      constructor
      · rintro ⟨h1, h2⟩; rw [h2, h1]
      · intro h; exact ⟨(congrArg Prod.fst h).symm, (congrArg Prod.snd h).symm⟩
    rw [this]

end Mabel.Writer
