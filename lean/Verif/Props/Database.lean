import Verif.Model.Database
import Mathlib.Data.List.Basic

/-!
# The database writer: C13, C14
-/

namespace Mabel.Database
open Mabel.Py

variable {ρ : Type}

/-- The records a program appended that fit the schema, in order. -/
def appended (valid : ρ → Bool) : List (Op ρ) → List ρ
  | [] => []
  | .append r :: ops => (if valid r then [r] else []) ++ appended valid ops
  | _ :: ops => appended valid ops

theorem appended_append (valid : ρ → Bool) (a b : List (Op ρ)) :
    appended valid (a ++ b) = appended valid a ++ appended valid b := by
  induction a with
  | nil => rfl
  | cons o a ih => cases o <;> simp [appended, ih]

/-! ## Nothing is lost or repeated -/

/-- What every call keeps. -/
structure Inv (valid : ρ → Bool) (done : List ρ) (s : State ρ) : Prop where
  data : s.inserted.flatten ++ s.wal = done
  count : s.recordsInBuffer = s.wal.length
  total : s.records = done.length
  ne : ∀ b ∈ s.inserted, b ≠ []

theorem inv_commit {valid : ρ → Bool} {done : List ρ} {s : State ρ} (h : Inv valid done s) :
    Inv valid done (commit s).1 ∧ ((commit s).2 = .ok () → (commit s).1.wal = []) := by
  unfold commit
  by_cases hw : s.wal.length > 0
  · rw [if_pos hw]
    unfold insert
    cases hn : next s.faults with
    | mk b fs =>
      cases b with
      | true => exact ⟨⟨h.data, h.count, h.total, h.ne⟩, fun hx => by cases hx⟩
      | false =>
        refine ⟨⟨?_, rfl, h.total, ?_⟩, fun _ => rfl⟩
        · simpa using h.data
        · intro b hb
          rcases List.mem_append.1 hb with hb | hb
          · exact h.ne b hb
          · rw [List.mem_singleton.1 hb]
            exact List.ne_nil_of_length_pos hw
  · rw [if_neg hw]
    exact ⟨h, fun _ => List.length_eq_zero_iff.1 (Nat.le_zero.1 (Nat.le_of_not_lt hw))⟩

theorem inv_append {valid : ρ → Bool} {done : List ρ} {s : State ρ} (h : Inv valid done s) (r : ρ) :
    Inv valid (done ++ if valid r then [r] else []) (append valid s r).1 := by
  unfold append
  by_cases hv : valid r = true
  · rw [if_pos hv, if_pos hv]
    have h1 : Inv valid (done ++ [r])
        { s with wal := s.wal ++ [r], recordsInBuffer := s.recordsInBuffer + 1, records := s.records + 1 } :=
      ⟨by rw [← h.data]; simp, by simp [h.count], by simp [h.total], h.ne⟩
    simp only []
    split
    · have h2 := inv_commit h1
      cases hc : commit { s with wal := s.wal ++ [r], recordsInBuffer := s.recordsInBuffer + 1, records := s.records + 1 } with
      | mk s' res =>
        rw [hc] at h2
        cases res with
        | error e => exact h2.1
        | ok u =>
          cases u
          have hw := h2.2 rfl
          exact ⟨by have := h2.1.data; rw [hw] at this; exact this, rfl, h2.1.total, h2.1.ne⟩
    · exact h1
  · rw [if_neg hv, if_neg hv]
    simpa using h

theorem inv_innerFinalize {valid : ρ → Bool} {done : List ρ} {s : State ρ} (h : Inv valid done s) (f : Bool) :
    Inv valid done (innerFinalize f s).1 := by
  unfold innerFinalize
  split
  · cases hn : next s.finFaults with
    | mk b fs => cases b <;> exact ⟨h.data, h.count, h.total, h.ne⟩
  · exact ⟨h.data, h.count, h.total, h.ne⟩

theorem inv_finalize {valid : ρ → Bool} {done : List ρ} {s : State ρ} (h : Inv valid done s) (f : Bool) :
    Inv valid done (finalize f s).1 := by
  have h1 := (inv_commit h).1
  unfold finalize
  cases hc : commit s with
  | mk s' res =>
    rw [hc] at h1
    cases res with
    | error e => exact h1
    | ok u =>
      have h2 := inv_innerFinalize h1 f
      simp only []
      cases hi : innerFinalize f s' with
      | mk s'' res' =>
        rw [hi] at h2
        cases res' <;> exact h2

theorem inv_del {valid : ρ → Bool} {done : List ρ} {s : State ρ} (h : Inv valid done s) (f : Bool) :
    Inv valid done (del f s).1 := by
  have h1 := (inv_commit h).1
  unfold del
  cases hc : commit s with
  | mk s' res =>
    rw [hc] at h1
    cases res with
    | error e => exact h1
    | ok u =>
      have h2 := inv_finalize h1 f
      simp only []
      cases hi : finalize f s' with
      | mk s'' res' =>
        rw [hi] at h2
        cases res' <;> exact h2

theorem inv_run {valid : ρ → Bool} {done : List ρ} {s : State ρ} (h : Inv valid done s) (f : Bool)
    (ops : List (Op ρ)) : Inv valid (done ++ appended valid ops) (run valid f s ops) := by
  induction ops generalizing s done with
  | nil => simpa [run, appended] using h
  | cons o ops ih =>
    cases o with
    | append r =>
      have := ih (inv_append h r)
      rw [show done ++ appended valid (.append r :: ops) = done ++ (if valid r then [r] else []) ++ appended valid ops by
        simp [appended]]
      exact this
    | commit => exact ih (inv_commit h).1
    | finalize => exact ih (inv_finalize h f)
    | leaveScope => exact ih (inv_del h f)

theorem inv_new (valid : ρ → Bool) (faults fin : List Bool) :
    Inv valid [] ({ faults := faults, finFaults := fin } : State ρ) :=
  ⟨rfl, rfl, rfl, by simp⟩

/-- **C13, nothing lost, repeated or reordered**: after any calls, with any inserts failing, the batches in
the database followed by the records still pending are exactly the valid records appended, in order, and
no batch is empty. -/
theorem C13_exactly_once (valid : ρ → Bool) (f : Bool) (faults fin : List Bool) (ops : List (Op ρ)) :
    let s := run valid f { faults := faults, finFaults := fin } ops
    s.inserted.flatten ++ s.wal = appended valid ops ∧ ∀ b ∈ s.inserted, b ≠ [] := by
  have h := inv_run (inv_new valid faults fin) f ops
  exact ⟨by simpa using h.data, h.ne⟩

/-- **C13, once finalised all is in the database**: when `finalize` returns, it returns the number of records
appended, and the database holds exactly these, in order. -/
theorem C13_finalized (valid : ρ → Bool) (f : Bool) (faults fin : List Bool) (ops : List (Op ρ)) (n : Nat)
    (s : State ρ) (h : finalize f (run valid f { faults := faults, finFaults := fin } ops) = (s, .ok n)) :
    s.inserted.flatten = appended valid ops ∧ n = (appended valid ops).length ∧ s.wal = [] := by
  have h0 := inv_run (inv_new valid faults fin) f ops
  rw [List.nil_append] at h0
  revert h0 h
  generalize run valid f { faults := faults, finFaults := fin } ops = t
  intro h h0
  have h1 := inv_commit h0
  unfold finalize at h
  cases hc : commit t with
  | mk t' res =>
    rw [hc] at h h1
    cases res with
    | error e => cases h
    | ok u =>
      have h2 := inv_innerFinalize h1.1 f
      have hw := h1.2 rfl
      have hw' : (innerFinalize f t').1.wal = t'.wal := by
        unfold innerFinalize
        split
        · cases hn : next t'.finFaults with
          | mk b fs => cases b <;> rfl
        · rfl
      simp only [] at h
      cases hi : innerFinalize f t' with
      | mk t'' res' =>
        rw [hi] at h h2 hw'
        cases res' with
        | error e => cases h
        | ok u =>
          cases h
          simp only [] at hw'
          rw [hw] at hw'
          have hd := h2.data
          simp only [] at hd
          rw [hw', List.append_nil] at hd
          exact ⟨hd, h2.total, hw'⟩

example : (finalize true (run (fun n : Nat => n ≠ 0) true {} [.append 1, .append 0, .append 2])).2 = .ok 2 ∧
    (finalize true (run (fun n : Nat => n ≠ 0) true {} [.append 1, .append 0, .append 2])).1.inserted = [[1, 2]] := by
  exact ⟨rfl, rfl⟩

/-! ## The batches -/

/-- Without failing inserts, what every call keeps about sizes. -/
structure Sized (s : State ρ) : Prop where
  ok : s.faults = []
  wal : s.wal.length < batchSize
  batches : ∀ b ∈ s.inserted, b.length ≤ batchSize

theorem commit_ok {s : State ρ} (h : s.faults = []) : commit s =
    (if s.wal.length > 0 then
      { s with faults := [], inserted := s.inserted ++ [s.wal], wal := [], recordsInBuffer := 0 } else s, .ok ()) := by
  unfold commit insert
  rw [h]
  split <;> rfl

theorem sized_commit {s : State ρ} (hf : s.faults = []) (hw : s.wal.length ≤ batchSize)
    (hb : ∀ b ∈ s.inserted, b.length ≤ batchSize) : Sized (commit s).1 := by
  rw [commit_ok hf]
  by_cases h : s.wal.length > 0
  · rw [if_pos h]
    refine ⟨rfl, by simp [batchSize], ?_⟩
    intro b hb'
    rcases List.mem_append.1 hb' with hb' | hb'
    · exact hb b hb'
    · rw [List.mem_singleton.1 hb']; exact hw
  · rw [if_neg h]
    exact ⟨hf, by simp only [batchSize]; omega, hb⟩

theorem sized_innerFinalize {s : State ρ} (h : Sized s) (f : Bool) : Sized (innerFinalize f s).1 := by
  unfold innerFinalize
  split
  · cases hn : next s.finFaults with
    | mk b fs => cases b <;> exact ⟨h.ok, h.wal, h.batches⟩
  · exact ⟨h.ok, h.wal, h.batches⟩

theorem sized_finalize {s : State ρ} (h : Sized s) (f : Bool) : Sized (finalize f s).1 := by
  have h1 := sized_commit h.ok (Nat.le_of_lt h.wal) h.batches
  unfold finalize
  cases hc : commit s with
  | mk s' res =>
    rw [hc] at h1
    cases res with
    | error e => exact h1
    | ok u =>
      have h2 := sized_innerFinalize h1 f
      simp only []
      cases hi : innerFinalize f s' with
      | mk s'' res' =>
        rw [hi] at h2
        cases res' <;> exact h2

theorem sized_step {valid : ρ → Bool} {f : Bool} {s : State ρ} (h : Sized s) (o : Op ρ) :
    Sized (step valid f s o) := by
  cases o with
  | commit => exact sized_commit h.ok (Nat.le_of_lt h.wal) h.batches
  | finalize => exact sized_finalize h f
  | leaveScope =>
    have h1 := sized_commit h.ok (Nat.le_of_lt h.wal) h.batches
    show Sized (del f s).1
    unfold del
    cases hc : commit s with
    | mk s' res =>
      rw [hc] at h1
      cases res with
      | error e => exact h1
      | ok u =>
        have h2 := sized_finalize h1 f
        simp only []
        cases hi : finalize f s' with
        | mk s'' res' =>
          rw [hi] at h2
          cases res' <;> exact h2
  | append r =>
    show Sized (append valid s r).1
    unfold append
    by_cases hv : valid r = true
    · rw [if_pos hv]
      simp only []
      split
      · rename_i hfull
        have h1 := sized_commit (s := { s with wal := s.wal ++ [r], recordsInBuffer := s.recordsInBuffer + 1, records := s.records + 1 })
          h.ok (by have := h.wal; simp only [List.length_append, List.length_cons, List.length_nil]; omega) h.batches
        cases hc : commit { s with wal := s.wal ++ [r], recordsInBuffer := s.recordsInBuffer + 1, records := s.records + 1 } with
        | mk s' res =>
          rw [hc] at h1
          cases res with
          | error e => exact h1
          | ok u => exact ⟨h1.ok, by simp [batchSize], h1.batches⟩
      · rename_i hfull
        exact ⟨h.ok, by simpa using hfull, h.batches⟩
    · rw [if_neg hv]
      exact h

/-- **C13, the batch size (partial)**: as long as no insert fails, no batch holds more than a hundred records
(and fewer than a hundred are pending at any time).  Missing: batches after a failed insert, see
`C13_batch_size_fails`. -/
theorem C13_batch_size_partial (valid : ρ → Bool) (f : Bool) (fin : List Bool) (ops : List (Op ρ)) :
    let s := run valid f { finFaults := fin } ops
    (∀ b ∈ s.inserted, b.length ≤ 100) ∧ s.wal.length < 100 := by
  have key : ∀ (ops : List (Op ρ)) (s : State ρ), Sized s → Sized (run valid f s ops) := by
    intro ops
    induction ops with
    | nil => intro s h; exact h
    | cons o ops ih => intro s h; exact ih _ (sized_step h o)
  have h := key ops { finFaults := fin } ⟨rfl, by simp [batchSize], by simp⟩
  exact ⟨h.batches, h.wal⟩

/-- **C13, full batches**: a program that only appends, and then finalises, inserts batches of exactly a
hundred records and one last one with the rest, if there is a rest. -/
theorem C13_full_batches (valid : ρ → Bool) (f : Bool) (rs : List ρ) :
    let s := run valid f {} (rs.map .append ++ [.finalize])
    ∃ (full : List (List ρ)) (rest : List ρ), s.inserted = full ++ (if rest = [] then [] else [rest]) ∧
      (∀ b ∈ full, b.length = 100) ∧ rest.length < 100 := by
  have key : ∀ (rs : List ρ) (s : State ρ), s.faults = [] → s.wal.length < 100 → (∀ b ∈ s.inserted, b.length = 100) →
      let t := run valid f s (rs.map .append)
      t.faults = [] ∧ t.wal.length < 100 ∧ ∀ b ∈ t.inserted, b.length = 100 := by
    intro rs
    induction rs with
    | nil => intro s h1 h2 h3; exact ⟨h1, h2, h3⟩
    | cons r rs ih =>
      intro s h1 h2 h3
      have : (append valid s r).1.faults = [] ∧ (append valid s r).1.wal.length < 100 ∧
          ∀ b ∈ (append valid s r).1.inserted, b.length = 100 := by
        unfold append
        by_cases hv : valid r = true
        · rw [if_pos hv]
          simp only []
          split
          · rename_i hfull
            rw [commit_ok (s := { s with wal := s.wal ++ [r], recordsInBuffer := s.recordsInBuffer + 1, records := s.records + 1 }) h1]
            simp only [List.length_append, List.length_cons, List.length_nil, batchSize] at hfull
            rw [if_pos (by simp only [List.length_append, List.length_cons, List.length_nil]; omega)]
            refine ⟨rfl, by simp, ?_⟩
            intro b hb
            rcases List.mem_append.1 hb with hb | hb
            · exact h3 b hb
            · rw [List.mem_singleton.1 hb]
              simp only [List.length_append, List.length_cons, List.length_nil]; omega
          · rename_i hfull
            exact ⟨h1, Nat.lt_of_not_le hfull, h3⟩
        · rw [if_neg hv]
          exact ⟨h1, h2, h3⟩
      exact ih _ this.1 this.2.1 this.2.2
  obtain ⟨h1, h2, h3⟩ := key rs {} rfl (by simp) (by simp)
  have hrun : run valid f {} (rs.map .append ++ [.finalize]) =
      (finalize f (run valid f {} (rs.map Op.append))).1 := by
    simp [run, List.foldl_append, step]
  simp only []
  rw [hrun]
  revert h1 h2 h3
  generalize run valid f {} (rs.map Op.append) = t
  intro h1 h2 h3
  have hfin : ∀ u : State ρ, (innerFinalize f u).1.inserted = u.inserted := by
    intro u
    unfold innerFinalize
    split
    · cases hn : next u.finFaults with
      | mk b fs => cases b <;> rfl
    · rfl
  have hins : (finalize f t).1.inserted = (commit t).1.inserted := by
    unfold finalize
    rw [commit_ok h1]
    simp only []
    have := hfin (if t.wal.length > 0 then
      { t with faults := [], inserted := t.inserted ++ [t.wal], wal := [], recordsInBuffer := 0 } else t)
    split <;> rename_i heq <;> rw [heq] at this <;> exact this
  refine ⟨t.inserted, t.wal, ?_, h3, h2⟩
  rw [hins, commit_ok h1]
  by_cases hw : t.wal = []
  · simp [hw]
  · rw [if_pos (List.length_pos_of_ne_nil hw), if_neg hw]

/-- 250 records: two full batches and one of fifty. -/
example : (run (fun _ : Nat => true) true {} ((List.range 250).map .append ++ [.finalize])).inserted.map List.length
    = [100, 100, 50] := by decide +kernel

/-- **C13, the batch size fails after a failed insert**: the hundredth record's insert fails, the program goes on,
and the next batch has 101 records. -/
theorem C13_batch_size_fails :
    (run (fun _ : Nat => true) true { faults := [true] } ((List.range 101).map .append)).inserted.map List.length
      = [101] := by decide +kernel

/-- **C13, a caller that retries a failed append repeats the record**: the append that raised has kept it. -/
theorem C13_retry_fails :
    let s := run (fun _ : Nat => true) true { faults := [true] } ((List.range 100).map .append)
    (append (fun _ => true) (run (fun _ : Nat => true) true { faults := [true] } ((List.range 99).map .append)) 99).2
        = .error .storageFailed ∧
      (finalize true (step (fun _ => true) true s (.append 99))).1.inserted = [List.range 100 ++ [99]] := by
  decide +kernel

/-- **C13, append reports the pending records**: what `append` returns is the number of records that are
pending afterwards. -/
theorem C13_append_reports_pending (valid : ρ → Bool) (f : Bool) (faults fin : List Bool) (ops : List (Op ρ))
    (r : ρ) (n : Nat) (s : State ρ)
    (h : append valid (run valid f { faults := faults, finFaults := fin } ops) r = (s, .ok n)) :
    n = s.wal.length := by
  have h0 := inv_append (inv_run (inv_new valid faults fin) f ops) r
  rw [h] at h0
  have hn : n = s.recordsInBuffer := by
    revert h
    generalize run valid f { faults := faults, finFaults := fin } ops = t
    intro h
    unfold append at h
    split at h
    · simp only [] at h
      split at h
      · split at h
        · cases h
        · cases h; rfl
      · cases h; rfl
    · cases h
  rw [hn]
  exact h0.count

/-! ## C14 -/

/-- A call that appends nothing. -/
def Op.closing : Op ρ → Prop
  | .append _ => False
  | _ => True

/-- **C14, leaving the scope**: if no insert and no finalizer fails, leaving the writer's scope inserts every
pending record and runs the finalizer, once, after the last insert. -/
theorem C14_leave_scope (valid : ρ → Bool) (ops : List (Op ρ)) (hops : ∀ o ∈ ops, (∃ r, o = Op.append r) ∨ o = .commit) :
    let s := step valid true (run valid true {} ops) .leaveScope
    s.inserted.flatten = appended valid ops ∧ s.wal = [] ∧ s.finalizerRuns = [s.inserted] := by
  have key : ∀ (ops : List (Op ρ)) (s : State ρ), (∀ o ∈ ops, (∃ r, o = Op.append r) ∨ o = .commit) → s.faults = [] → s.finFaults = [] →
      s.finalized = false → s.finalizerRuns = [] →
      let t := run valid true s ops
      t.faults = [] ∧ t.finFaults = [] ∧ t.finalized = false ∧ t.finalizerRuns = [] := by
    intro ops
    induction ops with
    | nil => intro s _ h1 h2 h3 h4; exact ⟨h1, h2, h3, h4⟩
    | cons o ops ih =>
      intro s ho h1 h2 h3 h4
      rcases ho o (by simp) with ⟨r, rfl⟩ | rfl
      swap
      · have : (commit s).1.faults = [] ∧ (commit s).1.finFaults = [] ∧ (commit s).1.finalized = false ∧
            (commit s).1.finalizerRuns = [] := by
          rw [commit_ok h1]
          simp only []
          split
          · exact ⟨rfl, h2, h3, h4⟩
          · exact ⟨h1, h2, h3, h4⟩
        exact ih _ (fun o h => ho o (by simp [h])) this.1 this.2.1 this.2.2.1 this.2.2.2
      have : (append valid s r).1.faults = [] ∧ (append valid s r).1.finFaults = [] ∧
          (append valid s r).1.finalized = false ∧ (append valid s r).1.finalizerRuns = [] := by
        unfold append
        split
        · simp only []
          split
          · rw [commit_ok (s := { s with wal := s.wal ++ [r], recordsInBuffer := s.recordsInBuffer + 1, records := s.records + 1 }) h1]
            simp only []
            split
            · exact ⟨rfl, h2, h3, h4⟩
            · exact ⟨h1, h2, h3, h4⟩
          · exact ⟨h1, h2, h3, h4⟩
        · exact ⟨h1, h2, h3, h4⟩
      exact ih _ (fun o h => ho o (by simp [h])) this.1 this.2.1 this.2.2.1 this.2.2.2
  obtain ⟨h1, h2, h3, h4⟩ := key ops {} hops rfl rfl rfl rfl
  have hinv := inv_run (inv_new valid [] []) true ops
  rw [List.nil_append] at hinv
  simp only [step]
  revert h1 h2 h3 h4 hinv
  have e0 : run valid true ({ faults := [], finFaults := [] } : State ρ) ops = run valid true {} ops := rfl
  rw [e0]
  generalize run valid true {} ops = t
  intro h1 h2 h3 h4 hinv
  have hdata := hinv.data
  unfold del finalize
  rw [commit_ok h1]
  by_cases hw : t.wal.length > 0
  · rw [if_pos hw]
    simp only []
    rw [commit_ok rfl]
    simp only [List.length_nil, gt_iff_lt, Nat.lt_irrefl, if_false, innerFinalize, h3, h2, h4, next, Bool.not_false,
      Bool.and_self, if_true, List.nil_append, List.flatten_append, List.flatten_cons, List.flatten_nil, List.append_nil]
    exact ⟨hdata, trivial, trivial⟩
  · have hw0 : t.wal = [] := List.length_eq_zero_iff.1 (by omega)
    rw [if_neg hw]
    simp only []
    rw [commit_ok h1, if_neg hw]
    rw [hw0, List.append_nil] at hdata
    simp only [innerFinalize, h3, h2, h4, next, Bool.not_false, Bool.and_self, if_true, List.nil_append]
    exact ⟨hdata, hw0, trivial⟩

example : (step (fun _ : Nat => true) true (run (fun _ : Nat => true) true {} [.append 1, .append 2]) .leaveScope).finalizerRuns
    = [[[1, 2]]] := rfl

/-- **C14, again writes nothing again**: once `finalize` has returned, no number of further commits,
finalizes and ends of scope changes what is in the database or runs the finalizer again. -/
theorem C14_again (valid : ρ → Bool) (f : Bool) (s t : State ρ) (n : Nat) (hs : finalize f s = (t, .ok n))
    (ops : List (Op ρ)) (hops : ∀ o ∈ ops, o.closing) :
    (run valid f t ops).inserted = t.inserted ∧ (run valid f t ops).finalizerRuns = t.finalizerRuns := by
  have ht : t.wal = [] ∧ t.finalized = true := by
    unfold finalize at hs
    cases hc : commit s with
    | mk s1 res =>
      rw [hc] at hs
      cases res with
      | error e => cases hs
      | ok u =>
        have hw1 : s1.wal = [] := by
          unfold commit insert at hc
          split at hc
          · cases hn : next s.faults with
            | mk b fs =>
              rw [hn] at hc
              cases b
              · cases hc; rfl
              · cases hc
          · rename_i h
            cases hc
            exact List.length_eq_zero_iff.1 (by omega)
        simp only [] at hs
        unfold innerFinalize at hs
        split at hs
        · cases hs
        · rename_i s2 u' heq
          cases hs
          split at heq
          · cases hn : next s1.finFaults with
            | mk b fs =>
              rw [hn] at heq
              cases b
              · cases heq; exact ⟨hw1, rfl⟩
              · cases heq
          · cases heq; exact ⟨hw1, rfl⟩
  have key : ∀ (ops : List (Op ρ)) (u : State ρ), (∀ o ∈ ops, o.closing) → u.wal = [] → u.finalized = true →
      (run valid f u ops).inserted = u.inserted ∧ (run valid f u ops).finalizerRuns = u.finalizerRuns := by
    intro ops
    induction ops with
    | nil => intro u _ _ _; exact ⟨rfl, rfl⟩
    | cons o ops ih =>
      intro u ho h1 h2
      have hstep : step valid f u o = u := by
        have hcom : commit u = (u, .ok ()) := by unfold commit; rw [if_neg (by simp [h1])]
        have hin : innerFinalize f u = (u, .ok ()) := by
          unfold innerFinalize
          rw [h2]
          simp only [Bool.not_true, Bool.and_false, Bool.false_eq_true, if_false]
          rw [← h2]
        have hfin : finalize f u = (u, .ok u.records) := by unfold finalize; rw [hcom]; simp only []; rw [hin]
        cases o with
        | append r => exact absurd (ho (.append r) (by simp)) (by simp [Op.closing])
        | commit => simp only [step, hcom]
        | finalize => simp only [step, hfin]
        | leaveScope => simp only [step, del, hcom, hfin]
      show (run valid f (step valid f u o) ops).inserted = _ ∧ (run valid f (step valid f u o) ops).finalizerRuns = _
      rw [hstep]
      exact ih u (fun o h => ho o (by simp [h])) h1 h2
  exact key ops t hops ht.1 ht.2

example : (run (fun _ : Nat => true) true {} [.append 1, .finalize, .finalize, .commit, .leaveScope]).inserted = [[1]] ∧
    (run (fun _ : Nat => true) true {} [.append 1, .finalize, .finalize, .commit, .leaveScope]).finalizerRuns = [[[1]]] :=
  ⟨rfl, rfl⟩

theorem runs_commit (s : State ρ) : (commit s).1.finalizerRuns = s.finalizerRuns ∧ (commit s).1.finalized = s.finalized := by
  unfold commit insert
  split
  · cases next s.faults with
    | mk b fs => cases b <;> exact ⟨rfl, rfl⟩
  · exact ⟨rfl, rfl⟩

/-- **C14, the finalizer completes at most once**, whatever the calls and whatever fails. -/
theorem C14_finalizer_at_most_once (valid : ρ → Bool) (f : Bool) (faults fin : List Bool) (ops : List (Op ρ)) :
    (run valid f { faults := faults, finFaults := fin } ops).finalizerRuns.length ≤ 1 := by
  let P : State ρ → Prop := fun s => s.finalizerRuns.length ≤ 1 ∧ (s.finalized = false → s.finalizerRuns = [])
  have hcommit : ∀ s, P s → P (commit s).1 := by
    intro s h
    have := runs_commit s
    exact ⟨by rw [this.1]; exact h.1, by rw [this.1, this.2]; exact h.2⟩
  have hinner : ∀ s, P s → P (innerFinalize f s).1 := by
    intro s h
    unfold innerFinalize
    split
    · rename_i hc
      have hfin : s.finalized = false := by cases hx : s.finalized <;> simp [hx] at hc ⊢
      cases next s.finFaults with
      | mk b fs =>
        cases b
        · exact ⟨by simp [h.2 hfin], fun hx => by cases hx⟩
        · exact ⟨h.1, h.2⟩
    · exact ⟨h.1, fun hx => by cases hx⟩
  have hfinalize : ∀ s, P s → P (finalize f s).1 := by
    intro s h
    have h1 := hcommit s h
    unfold finalize
    cases hc : commit s with
    | mk s' res =>
      rw [hc] at h1
      cases res with
      | error e => exact h1
      | ok u =>
        have h2 := hinner s' h1
        simp only []
        cases hi : innerFinalize f s' with
        | mk s'' res' => rw [hi] at h2; cases res' <;> exact h2
  have hstep : ∀ s o, P s → P (step valid f s o) := by
    intro s o h
    cases o with
    | commit => exact hcommit s h
    | finalize => exact hfinalize s h
    | leaveScope =>
      have h1 := hcommit s h
      show P (del f s).1
      unfold del
      cases hc : commit s with
      | mk s' res =>
        rw [hc] at h1
        cases res with
        | error e => exact h1
        | ok u =>
          have h2 := hfinalize s' h1
          simp only []
          cases hi : finalize f s' with
          | mk s'' res' => rw [hi] at h2; cases res' <;> exact h2
    | append r =>
      show P (append valid s r).1
      unfold append
      split
      · simp only []
        have h1 := hcommit { s with wal := s.wal ++ [r], recordsInBuffer := s.recordsInBuffer + 1, records := s.records + 1 } h
        split
        · cases hc : commit { s with wal := s.wal ++ [r], recordsInBuffer := s.recordsInBuffer + 1, records := s.records + 1 } with
          | mk s' res => rw [hc] at h1; cases res <;> exact h1
        · exact h
      · exact h
  have key : ∀ (ops : List (Op ρ)) (s : State ρ), P s → P (run valid f s ops) := by
    intro ops
    induction ops with
    | nil => intro s h; exact h
    | cons o ops ih => intro s h; exact ih _ (hstep s o h)
  exact (key ops _ ⟨by simp, fun _ => rfl⟩).1

/-- **C14 fails for records appended after finalize**: they are inserted when the scope is left, but the
finalizer, which has already run, does not see them. -/
theorem C14_late_record_fails :
    (run (fun _ : Nat => true) true {} [.append 1, .finalize, .append 2, .leaveScope]).inserted = [[1], [2]] ∧
    (run (fun _ : Nat => true) true {} [.append 1, .finalize, .append 2, .leaveScope]).finalizerRuns = [[[1]]] :=
  ⟨rfl, rfl⟩

/-- **C14, a failing insert at the end of the scope loses the records**: the exception is ignored. -/
theorem C14_scope_failure_fails :
    (run (fun _ : Nat => true) true { faults := [true] } [.append 1, .leaveScope]).inserted = [] ∧
    (run (fun _ : Nat => true) true { faults := [true] } [.append 1, .leaveScope]).finalizerRuns = [] :=
  ⟨rfl, rfl⟩

end Mabel.Database
