import Verif.Props.Writer

/-!
# A writer that is used after it has finalized

C123.
-/

namespace Mabel.Writer
open Mabel.Py Mabel.Writer.Spec

variable {ρ : Type}

/-- The same writer, with more in storage before. -/
def shift (pre : List Stored) (s : State ρ) : State ρ := { s with store := pre ++ s.store }

theorem innerCommit_shift (pre : List Stored) (s : State ρ) (x : Stored) :
    innerCommit (shift pre s) x = (shift pre (innerCommit s x).1, (innerCommit s x).2) := by
  unfold innerCommit shift
  rcases s with ⟨b, w, n, m, f, z, st, _ | ⟨_ | _, fs⟩⟩ <;> simp

theorem openBuffer_shift (c : Config ρ) (pre : List Stored) (s : State ρ) :
    openBuffer c (shift pre s) = shift pre (openBuffer c s) := by
  unfold openBuffer shift; cases c.format <;> rfl

theorem commit_shift (c : Config ρ) (pre : List Stored) (s : State ρ) :
    commit c (shift pre s) = (shift pre (commit c s).1, (commit c s).2) := by
  unfold commit
  rw [show (shift pre s).recordsInBuffer = s.recordsInBuffer from rfl]
  split
  · rw [innerCommit_shift, show writeBuffer c (shift pre s) = writeBuffer c s from rfl]
    rcases innerCommit s (.data (writeBuffer c s)) with ⟨s1, _ | _⟩
    · rfl
    · simp only [openBuffer_shift]
  · rw [openBuffer_shift]

theorem step_shift (c : Config ρ) (pre : List Stored) (s : State ρ) (op : Op ρ) :
    step c (shift pre s) op = (shift pre (step c s op).1, (step c s op).2) := by
  cases op with
  | append r =>
    simp only [step, append]
    split
    · have key : blobAppend c (shift pre s) r = (shift pre (blobAppend c s r).1, (blobAppend c s r).2) := by
        have arrow : arrowAppend c (shift pre s) r = (shift pre (arrowAppend c s r).1, (arrowAppend c s r).2) := by
          unfold arrowAppend
          simp only []
          have e : ({ shift pre s with recordsInBuffer := (shift pre s).recordsInBuffer + 1, wal := (shift pre s).wal ++ [r] } : State ρ)
            = shift pre { s with recordsInBuffer := s.recordsInBuffer + 1, wal := s.wal ++ [r] } := rfl
          rw [show (shift pre s).wal = s.wal from rfl, show (shift pre s).recordsInBuffer = s.recordsInBuffer from rfl] at *
          split
          · rw [e, commit_shift]
            rcases commit c { s with recordsInBuffer := s.recordsInBuffer + 1, wal := s.wal ++ [r] } with ⟨s1, _ | _⟩
            · rfl
            · simp only [openBuffer_shift]; rfl
          · rfl
        have txt : textAppend c (shift pre s) r = (shift pre (textAppend c s r).1, (textAppend c s r).2) := by
          unfold textAppend
          simp only []
          rw [show (shift pre s).buffer = s.buffer from rfl]
          split
          · rw [commit_shift]
            rcases commit c s with ⟨s1, _ | _⟩
            · rfl
            · simp only [openBuffer_shift]; rfl
          · rfl
        unfold blobAppend
        cases c.format
        all_goals first | exact arrow | exact txt
      rw [key]
      rcases blobAppend c s r with ⟨s1, _ | _⟩ <;> rfl
    · rfl
  | finalize f =>
    simp only [step, finalize]
    rw [show ({ shift pre s with finalized := true } : State ρ) = shift pre { s with finalized := true } from rfl, commit_shift]
    rcases commit c { s with finalized := true } with ⟨s1, _ | _⟩
    · rfl
    · simp only []
      cases f
      · simp only [Bool.false_eq_true, if_false]
        rw [show (shift pre s1).seenFailures = s1.seenFailures from rfl, show (shift pre s1).records = s1.records from rfl]
        cases s1.seenFailures
        · simp only [Bool.false_eq_true, if_false]
          cases hz : (s1.records == 0 && !c.alwaysComplete)
          · simp only [Bool.false_eq_true, if_false]
            rw [innerCommit_shift]
            rcases innerCommit s1 .complete with ⟨s2, _ | _⟩ <;> rfl
          · rfl
        · rfl
      · rfl

theorem run_shift (c : Config ρ) (pre : List Stored) : ∀ (ops : List (Op ρ)) (s : State ρ),
    run c (shift pre s) ops = shift pre (run c s ops)
  | [], _ => rfl
  | op :: ops, s => by
    rw [run, run, step_shift]
    exact run_shift c pre ops _

theorem dataBlobs_shift (a b : List Stored) : dataBlobs (a ++ b) = dataBlobs a ++ dataBlobs b := by
  simp [dataBlobs, List.filterMap_append]

/-- Right after a finalize nothing is pending. -/
theorem finalized_rep (c : Config ρ) (faults : List Bool) (before : List (Op ρ)) (f : Bool)
    (hok : (step c (run c { faults := faults } before) (.finalize f)).2 = .ok ()) :
    ∃ g, Rep c (run c { faults := faults } (before ++ [.finalize f])) g [] ∧
      (faults = [] → (run c { faults := faults } (before ++ [.finalize f])).faults = []) := by
  obtain ⟨g, p, hr, -, hf⟩ := run_rep (Rep.init c faults) before
  rw [run_append]
  show ∃ g, Rep c (step c (run c { faults := faults } before) (.finalize f)).1 g [] ∧ _
  simp only [step] at hok ⊢
  rcases finalize_cases hr f with ⟨fs, h1, h2⟩ | ⟨s', e, r, h1, h2, h3, h4, -⟩
  · rw [h1] at hok; cases hok
  · refine ⟨closeGroup g p, ?_, fun h0 => ?_⟩
    · rw [h1]; cases r <;> exact h2
    · show (step c (run c { faults := faults } before) (.finalize f)).1.faults = []
      simp only [step]
      rw [h1]; cases r <;> exact h4 (hf h0)

/-- The calls that add nothing: finalize, and appends of records that are refused. -/
def Idle (c : Config ρ) : Op ρ → Prop
  | .append r => c.valid r = false
  | .finalize _ => True

theorem idle_run (c : Config ρ) (g : List (List ρ)) : ∀ (later : List (Op ρ)) (s : State ρ), Rep c s g [] →
    (∀ op ∈ later, Idle c op) → Rep c (run c s later) g []
  | [], _, h, _ => h
  | op :: later, s, h, hl => by
    refine idle_run c g later _ ?_ (fun op' h' => hl op' (List.mem_cons_of_mem _ h'))
    cases op with
    | append r =>
      have hv : c.valid r = false := hl _ List.mem_cons_self
      simp only [step, append, hv, Bool.false_eq_true, if_false]
      exact h
    | finalize f =>
      simp only [step]
      rcases finalize_cases h f with ⟨fs, h1, h2⟩ | ⟨s', e, r, h1, h2, -⟩
      · rw [h1]; exact ⟨h.stored, h.nonempty, h.pending⟩
      · rw [h1]; cases r <;> exact h2

/-- C123: once a finalize has returned, whatever the storage does, the blobs of the frame stay as they are: calling finalize
again, appending records that are refused and dropping the writer store none. -/
theorem C123_stays (c : Config ρ) (faults : List Bool) (before later : List (Op ρ)) (f : Bool)
    (hok : (step c (run c { faults := faults } before) (.finalize f)).2 = .ok ()) (hl : ∀ op ∈ later, Idle c op) :
    dataBlobs (drop c (run c { faults := faults } (before ++ .finalize f :: later))).store =
      dataBlobs (run c { faults := faults } (before ++ [.finalize f])).store := by
  obtain ⟨g, hr, -⟩ := finalized_rep c faults before f hok
  rw [show before ++ .finalize f :: later = (before ++ [.finalize f]) ++ later by simp, run_append]
  have h := idle_run c g later _ hr hl
  rw [hr.stored]
  unfold drop
  rcases commit_cases h with ⟨fs, -, -, h3⟩ | ⟨s', h1, h2, -⟩
  · exact absurd rfl h3
  · rw [h1]; simpa [closeGroup] using h2.stored

/-- C123: records that are appended after a finalize are stored in new blobs, after those that were there, which stay: the new
ones hold exactly the records that were valid, each once, in order, when the writer is dropped. -/
theorem C123_later_records (c : Config ρ) (before later : List (Op ρ)) (f : Bool) :
    ∃ more, dataBlobs (drop c (run c {} (before ++ .finalize f :: later))).store =
        dataBlobs (run c {} (before ++ [.finalize f])).store ++ more ∧
      Holds c.codec c.format more (offered c.valid later) := by
  have hok : (step c (run c {} before) (.finalize f)).2 = .ok () := by
    obtain ⟨g, p, hr, -, hf⟩ := run_rep (Rep.init c []) before
    exact (step_noFault hr (hf rfl) (.finalize f))
  obtain ⟨g, hr, hf⟩ := finalized_rep c [] before f hok
  rw [show before ++ .finalize f :: later = (before ++ [.finalize f]) ++ later by simp, run_append]
  generalize run c { faults := [] } (before ++ [.finalize f]) = s at hr hf ⊢
  have e : s = shift s.store { s with store := [] } := by simp [shift]
  have h0 : Rep c { s with store := [] } [] [] := ⟨rfl, by simp, hr.pending⟩
  have hf0 : ({ s with store := [] } : State ρ).faults = [] := hf rfl
  obtain ⟨g', p', hr', he', hf'⟩ := run_rep h0 later
  obtain ⟨ha, hb⟩ := addedLog_noFault h0 hf0 later
  refine ⟨dataBlobs (drop c (run c { s with store := [] } later)).store, ?_, ?_⟩
  · conv => lhs; rw [e, run_shift]
    unfold drop
    rw [commit_shift]
    exact dataBlobs_shift _ _
  · unfold drop
    rcases commit_cases hr' with ⟨fs, -, h2, -⟩ | ⟨s', h1, h2, -⟩
    · rw [hf' hf0] at h2; cases h2
    · rw [h1]
      refine ⟨closeGroup g' p', h2.stored, ?_, h2.nonempty⟩
      rw [closeGroup_flatten, he', ha, hb]
      simp

/-- One record, a finalize, another finalize, a record that is refused; then two more records, of which the first fills a blob. -/
example : (step (demo .text) (run (demo .text) {} [.append 2]) (.finalize false)).2 = .ok () ∧
    Idle (demo .text) (.append 9) ∧ Idle (demo .text) (.finalize true) ∧
    (drop (demo .text) (run (demo .text) {} [.append 2, .finalize false, .append 9, .finalize true])).store
      = [.data [0, 0, 10], .complete] ∧
    (drop (demo .text) (run (demo .text) {} [.append 2, .finalize false, .append 5, .append 1])).store
      = [.data [0, 0, 10], .complete, .data [0, 0, 0, 0, 0, 10], .data [0, 10]] := by
  refine ⟨rfl, rfl, trivial, ?_, ?_⟩ <;> decide

/-- C123 fails for records that are appended after a finalize: the frame is marked as complete, and has some of them, not yet
the others. -/
theorem C123_grows_fails : ∃ (ops : List (Op Nat)) (held : List Nat),
    .complete ∈ (run (demo .text) {} ops).store ∧
    Holds (demo .text).codec .text (dataBlobs (run (demo .text) {} ops).store) held ∧
    held ≠ accepted (outcomes (demo .text) {} ops) ∧
    ∀ before after f, ops = before ++ .finalize f :: after → held ≠ accepted (outcomes (demo .text) {} before) := by
  refine ⟨[.append 2, .finalize false, .append 5, .append 1], [2, 5], by decide, ⟨[[2], [5]], by decide, rfl, by decide⟩, by decide, ?_⟩
  intro before after f h
  match before, h with
  | [], h => cases h
  | [x], h => cases h; decide
  | [x, y], h => cases h
  | [x, y, z], h => cases h
  | x :: y :: z :: w :: rest, h => simp at h

end Mabel.Writer
