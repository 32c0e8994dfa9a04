import Verif.Lemmas.Writer

/-!
# Properties of the batch writer (C01 - C07)

A client makes any sequence of calls (`Op`), starting with a new writer `{ faults := faults }`;
`outcomes` are the results it sees, `store` is what storage holds.  See `Verif/Spec/Writer.lean` for
`accepted`, `dataBlobs`, `Holds`.
-/

namespace Mabel.Writer
open Mabel.Py Mabel.Writer.Spec
variable {ρ : Type}

/-! ## C01 nothing lost, duplicated or reordered -/

/-- With working storage, after any calls ending in a finalize the data blobs hold exactly the
accepted records, in the order they were appended; and the accepted ones are the valid ones. -/
theorem C01_conservation (c : Config ρ) (ops : List (Op ρ)) (f : Bool) :
    Holds c.codec c.format (dataBlobs (run c {} (ops ++ [.finalize f])).store)
      (accepted (outcomes c {} ops)) ∧
    accepted (outcomes c {} ops) = offered c.valid ops := by
  have h0 : Rep c ({} : State ρ) [] [] := Rep.init c []
  obtain ⟨g, p, hr, he, hf⟩ := run_rep h0 ops
  obtain ⟨ha, hb⟩ := addedLog_noFault h0 rfl ops
  refine ⟨?_, hb⟩
  rw [run_append]
  obtain ⟨g', p', hr', -, he', -, -, hc⟩ :=
    step_sized (groups := []) (pend := []) (Rep.init c []) (Sized.init c) rfl (.finalize f)
  rcases finalize_cases hr f with ⟨fs, h1, h2⟩ | ⟨s', e, r, h1, h2, -⟩
  · rw [hf rfl] at h2; simp at h2
  · have : (run c (run c {} ops) [.finalize f]) = s' := by
      simp only [run, step, h1]
      cases r <;> rfl
    rw [this]
    refine ⟨closeGroup g p, h2.stored, ?_, h2.nonempty⟩
    rw [closeGroup_flatten, he, ha]
    simp

/-- With working storage, a writer that is dropped, after any calls and without a finalize, has stored all accepted records
too, in the order they were appended. -/
theorem C01_dropped (c : Config ρ) (ops : List (Op ρ)) :
    Holds c.codec c.format (dataBlobs (drop c (run c {} ops)).store) (accepted (outcomes c {} ops)) := by
  have h0 : Rep c ({} : State ρ) [] [] := Rep.init c []
  obtain ⟨g, p, hr, he, hf⟩ := run_rep h0 ops
  obtain ⟨ha, -⟩ := addedLog_noFault h0 rfl ops
  unfold drop
  rcases commit_cases hr with ⟨fs, -, h2, -⟩ | ⟨s', h1, h2, -⟩
  · rw [hf rfl] at h2; cases h2
  · rw [h1]
    refine ⟨closeGroup g p, h2.stored, ?_, h2.nonempty⟩
    rw [closeGroup_flatten, he, ha]
    simp

/-- A codec for the examples: a record is a number `n`, serialised as `n` zero bytes. -/
def demoCodec : Codec Nat where
  serialise n := List.replicate n 0
  compress b := 1 :: b
  parquet g := g.map (·.toUInt8)
  nbytes g := g.sum

def demo (f : Format) : Config Nat :=
  { codec := demoCodec, format := f, maximumBlobSize := 4, valid := fun n => n < 9, alwaysComplete := false }

/-- Non-vacuity: three accepted records roll over into two blobs, one record is rejected. -/
example : (run (demo .text) {} ([.append 2, .append 3, .append 9, .append 1] ++ [.finalize false])).store
    = [.data [0, 0, 10, 0, 0, 0, 10], .data [0, 10], .complete] ∧
    accepted (outcomes (demo .text) {} [.append 2, .append 3, .append 9, .append 1]) = [2, 3, 1] := by
  decide

/-- Non-vacuity: two blobs, of which the second is stored when the writer is dropped; no marker. -/
example : (drop (demo .text) (run (demo .text) {} [.append 2, .append 3, .append 9, .append 1])).store
    = [.data [0, 0, 10, 0, 0, 0, 10], .data [0, 10]] := by
  decide

/-! ## C02 blob sizes -/

/-- With working storage, in every reachable state each stored blob holds at least one record, and
without its last record it was within the limit (or it has a single record). -/
theorem C02_blob_size (c : Config ρ) (ops : List (Op ρ)) :
    ∃ groups : List (List ρ),
      dataBlobs (run c {} ops).store = groups.map (encode c.codec c.format) ∧
      groups.flatten <+: accepted (outcomes c {} ops) ∧
      ∀ g ∈ groups, g ≠ [] ∧ (g.length = 1 ∨ size c.codec c.format g.dropLast ≤ c.maximumBlobSize) := by
  have h0 : Rep c ({} : State ρ) [] [] := Rep.init c []
  obtain ⟨g, p, hr, hz, he, -, -⟩ := run_sized h0 (Sized.init c) rfl ops
  refine ⟨g, hr.stored, ?_, fun x hx => ⟨hr.nonempty x hx, hz.ofGroups x hx⟩⟩
  refine ⟨p, ?_⟩
  rw [he, (addedLog_noFault h0 rfl ops).1]
  simp

/-- For text formats: the bytes of a stored blob before compression exceed the limit by at most the
length of its last line. -/
theorem C02_text_bound (c : Config ρ) (hf : c.format ≠ .parquet) (ops : List (Op ρ)) :
    ∃ groups : List (List ρ),
      dataBlobs (run c {} ops).store = groups.map (encode c.codec c.format) ∧
      ∀ g ∈ groups, ∃ last ∈ g,
        (text c.codec g).length ≤ c.maximumBlobSize + ((c.codec.serialise last).length + 1) := by
  obtain ⟨groups, h1, -, h3⟩ := C02_blob_size c ops
  refine ⟨groups, h1, fun g hg => ?_⟩
  obtain ⟨hne, hs⟩ := h3 g hg
  refine ⟨g.getLast hne, List.getLast_mem hne, ?_⟩
  have e : g = g.dropLast ++ [g.getLast hne] := (List.dropLast_concat_getLast hne).symm
  have hl : (text c.codec g).length =
      (text c.codec g.dropLast).length + ((c.codec.serialise (g.getLast hne)).length + 1) := by
    have := congrArg (fun x => (text c.codec x).length) e
    simp only [text_append'] at this
    rw [this]
    simp [text]
  have hsz : size c.codec c.format g.dropLast = (text c.codec g.dropLast).length := by
    cases hc : c.format
    · rfl
    · rfl
    · exact absurd hc hf
  rw [hl]
  rcases hs with hs | hs
  · have : g.dropLast = [] := by
      apply List.length_eq_zero_iff.1
      simp [hs]
    rw [this]
    simp [text]
  · omega

/-- Blobs are not cut early: when records are appended and then finalized, every blob but the last
is over the limit. -/
theorem C02_blobs_are_full (c : Config ρ) (rs : List ρ) (f : Bool) :
    ∃ groups : List (List ρ),
      dataBlobs (run c {} (rs.map .append ++ [.finalize f])).store = groups.map (encode c.codec c.format) ∧
      groups.flatten = rs.filter c.valid ∧
      ∀ g ∈ groups.dropLast, size c.codec c.format g > c.maximumBlobSize := by
  have h0 : Rep c ({} : State ρ) [] [] := Rep.init c []
  obtain ⟨g, p, hr, hz, he, hfa, hb⟩ := run_sized h0 (Sized.init c) rfl (rs.map Op.append)
  have hb' := hb (by simp) (by simp)
  obtain ⟨g', p', hr', hz', he', hf', -, hcl⟩ := step_sized hr hz hfa (.finalize f)
  have hg' := hcl f rfl
  refine ⟨g', ?_, ?_, ?_⟩
  · rw [run_append]; exact hr'.stored
  · rw [hg', closeGroup_flatten, he, (addedLog_noFault h0 rfl _).1, (addedLog_noFault h0 rfl _).2]
    simp only [List.flatten_nil, List.nil_append, offered, List.filterMap_map]
    induction rs with
    | nil => rfl
    | cons r rs ih =>
      clear ih
      induction (r :: rs) with
      | nil => rfl
      | cons a l ih =>
        by_cases hv : c.valid a = true
        · rw [List.filterMap_cons_some (b := a) (by simp [hv]), List.filter_cons_of_pos hv, ih]
        · rw [List.filterMap_cons_none (by simp [hv]), List.filter_cons_of_neg hv, ih]
  · intro x hx
    rw [hg'] at hx
    unfold closeGroup at hx
    split at hx
    · exact hb' x (List.dropLast_subset _ hx)
    · rw [List.dropLast_concat] at hx
      exact hb' x hx

/-- The documented "maximum size of blobs" is not a maximum: a blob can be larger. -/
theorem C02_maximum_is_exceeded :
    ∃ (c : Config Nat) (ops : List (Op Nat)), ∃ b ∈ dataBlobs (run c {} ops).store,
      c.format = .text ∧ b.length > c.maximumBlobSize :=
  ⟨demo .text, [.append 2, .append 3, .append 1], [0, 0, 10, 0, 0, 0, 10], by decide⟩

example : dataBlobs (run (demo .parquet) {} [.append 2, .append 3, .append 1, .finalize false]).store
    = [[2, 3], [1]] := by decide

/-! ## C03 the number returned by the blob writer's append -/

/-- With working storage the returned number is the number of accepted records not yet stored. -/
theorem C03_append_count (c : Config ρ) (ops : List (Op ρ)) (r : ρ) :
    ∃ n stored pending,
      (blobAppend c (run c {} ops) r).2 = .ok n ∧
      Holds c.codec c.format (dataBlobs (blobAppend c (run c {} ops) r).1.store) stored ∧
      stored ++ pending = accepted (outcomes c {} ops) ++ [r] ∧
      n = pending.length := by
  have h0 : Rep c ({} : State ρ) [] [] := Rep.init c []
  obtain ⟨g, p, hr, he, hf⟩ := run_rep h0 ops
  rw [(addedLog_noFault h0 rfl ops).1] at he
  rcases blobAppend_cases hr r with ⟨s', n, g', p', h1, h2, h3, -, -, -, h4⟩ | ⟨s', h1, h2, -⟩
  · refine ⟨n, g'.flatten, p', by rw [h1], ⟨g', by rw [h1]; exact h2.stored, rfl, h2.nonempty⟩, ?_, h3⟩
    have he' : g.flatten ++ p = accepted (outcomes c {} ops) := by simpa using he
    rw [← he']
    rcases h4 with ⟨rfl, rfl, _⟩ | ⟨rfl, rfl, _⟩ | ⟨rfl, rfl, _⟩ <;> simp
  · rw [hf rfl] at h2; simp at h2

example : (blobAppend (demo .text) (run (demo .text) {} [.append 2, .append 3]) 1).2 = .ok 1 ∧
    (blobAppend (demo .text) (run (demo .text) {} [.append 2]) 1).2 = .ok 2 := by
  constructor <;> rfl

/-! ## C04 rejected records -/

/-- Calls that offer an invalid record raise and can be removed from any history, with any storage
faults, without changing the final state (and so nothing that is ever stored). -/
theorem C04_rejected_has_no_effect (c : Config ρ) (s : State ρ) (ops : List (Op ρ)) :
    run c s ops = run c s (ops.filter fun
      | .append r => c.valid r
      | .finalize _ => true) ∧
    ∀ r, c.valid r = false → step c s (.append r) = (s, .error .validationFailed) := by
  constructor
  · induction ops generalizing s with
    | nil => rfl
    | cons op ops ih =>
      cases op with
      | finalize f => simp [run, ih]
      | append r =>
        by_cases hv : c.valid r = true
        · simp [run, ih, hv]
        · simp [run, ih, hv, step, append]
  · intro r hr; simp [step, append, hr]

example : (run (demo .text) {} [.append 9, .append 2, .append 9, .finalize false]).store =
    [.data [0, 0, 10], .complete] := by decide

/-! ## C05 failing storage -/

/-- Text formats: for every pattern of storage failures, whenever a finalize returns normally the
data blobs hold exactly the accepted records, each once, in order: failed stores lost nothing, and a
call that raised did not accept its record. -/
theorem C05_failed_store_text (c : Config ρ) (hf : c.format ≠ .parquet) (faults : List Bool)
    (ops : List (Op ρ)) (f : Bool)
    (hok : (step c (run c { faults := faults } ops) (.finalize f)).2 = .ok ()) :
    Holds c.codec c.format (dataBlobs (run c { faults := faults } (ops ++ [.finalize f])).store)
      (accepted (outcomes c { faults := faults } ops)) := by
  have h0 := Rep.init c faults
  obtain ⟨g, p, hr, he, -⟩ := run_rep h0 ops
  rw [addedLog_text hf] at he
  rw [run_append]
  simp only [run]
  simp only [step] at hok ⊢
  rcases finalize_cases hr f with ⟨fs, h1, h2⟩ | ⟨s', e, r, h1, h2, -⟩
  · rw [h1] at hok; simp at hok
  · rw [h1] at hok ⊢
    cases r with
    | error e => simp at hok
    | ok v =>
      refine ⟨closeGroup g p, h2.stored, ?_, h2.nonempty⟩
      rw [closeGroup_flatten, he]; simp

/-- Text formats: for every pattern of storage failures, a writer that is dropped after any calls has stored exactly the
accepted records, each once, in order, unless the store fails when it is dropped, which changes nothing. -/
theorem C05_dropped (c : Config ρ) (hf : c.format ≠ .parquet) (faults : List Bool) (ops : List (Op ρ)) :
    Holds c.codec c.format (dataBlobs (drop c (run c { faults := faults } ops)).store)
      (accepted (outcomes c { faults := faults } ops)) ∨
    (run c { faults := faults } ops).faults.head? = some true ∧
      (drop c (run c { faults := faults } ops)).store = (run c { faults := faults } ops).store := by
  have h0 := Rep.init c faults
  obtain ⟨g, p, hr, he, -⟩ := run_rep h0 ops
  rw [addedLog_text hf] at he
  unfold drop
  rcases commit_cases hr with ⟨fs, h1, h2, -⟩ | ⟨s', h1, h2, -⟩
  · right
    rw [h1, h2]
    exact ⟨rfl, rfl⟩
  · left
    rw [h1]
    refine ⟨closeGroup g p, h2.stored, ?_, h2.nonempty⟩
    rw [closeGroup_flatten, he]; simp

/-- Non-vacuity: the finalize raises because the store fails, the drop stores. -/
example : (outcomes (demo .text) { faults := [true] } [.append 2, .finalize false]).map (·.2.isOk) = [true, false] ∧
    (drop (demo .text) (run (demo .text) { faults := [true] } [.append 2, .finalize false])).store = [.data [0, 0, 10]] := by
  decide

/-- Any format, any failures, at any time (finalized or not): what is stored together with what is
still pending is, in order and without repetition, a list that contains every accepted record, and
contains nothing that was not offered; once a finalize returns normally nothing is pending.
Missing for parquet: the list can also contain records whose append raised. -/
theorem C05_failed_store_partial (c : Config ρ) (faults : List Bool) (ops : List (Op ρ)) :
    ∃ stored pending : List ρ,
      Holds c.codec c.format (dataBlobs (run c { faults := faults } ops).store) stored ∧
      (accepted (outcomes c { faults := faults } ops)).Sublist (stored ++ pending) ∧
      (stored ++ pending).Sublist (offered c.valid ops) ∧
      (∀ f, (step c (run c { faults := faults } ops) (.finalize f)).2 = .ok () →
        Holds c.codec c.format (dataBlobs (run c { faults := faults } (ops ++ [.finalize f])).store)
          (stored ++ pending)) := by
  have h0 := Rep.init c faults
  obtain ⟨g, p, hr, he, -⟩ := run_rep h0 ops
  have he' : g.flatten ++ p = addedLog c (outcomes c { faults := faults } ops) := by simpa using he
  refine ⟨g.flatten, p, ⟨g, hr.stored, rfl, hr.nonempty⟩, ?_, ?_, ?_⟩
  · rw [he']; exact accepted_sublist_addedLog c _
  · rw [he']
    have key : ∀ s : State ρ, (addedLog c (outcomes c s ops)).Sublist (offered c.valid ops) := by
      clear hr he he' h0
      induction ops with
      | nil => intro s; simp [addedLog, outcomes]
      | cons op ops ih =>
        intro s
        have e2 : offered c.valid (op :: ops) = offered c.valid [op] ++ offered c.valid ops := by
          simp only [offered]
          rw [← List.filterMap_append]
          rfl
        rw [e2]
        simp only [outcomes, addedLog, List.flatMap_cons]
        refine List.Sublist.append ?_ (ih _)
        cases op with
        | finalize f => simp [added]
        | append r =>
          by_cases hv : c.valid r = true
          · have e3 : offered c.valid [Op.append r] = [r] := by simp [offered, hv]
            rw [e3]
            cases (step c s (Op.append r)).2 with
            | ok _ => simp [added]
            | error _ => simp only [added]; split <;> simp
          · simp [step, append, hv, added]
    exact key _
  · intro f hok
    rw [run_append]
    simp only [run]
    simp only [step] at hok ⊢
    rcases finalize_cases hr f with ⟨fs, h1, h2⟩ | ⟨s', e, r, h1, h2, -⟩
    · rw [h1] at hok; simp at hok
    · rw [h1] at hok ⊢
      cases r with
      | error e => simp at hok
      | ok v => exact ⟨closeGroup g p, h2.stored, closeGroup_flatten g p, h2.nonempty⟩

/-- Parquet: an append that raised has nevertheless kept its record, so a caller who retries stores
it twice. -/
theorem C05_parquet_retry_fails :
    ∃ (c : Config Nat) (faults : List Bool) (r : Nat),
      c.format = .parquet ∧
      (outcomes c { faults := faults } [.append r, .append r]).map (·.2.isOk) = [false, true] ∧
      accepted (outcomes c { faults := faults } [.append r, .append r]) = [r] ∧
      dataBlobs (run c { faults := faults } [.append r, .append r, .finalize false]).store =
        [c.codec.parquet [r, r]] :=
  ⟨demo .parquet, [true], 5, by decide⟩

/-- Non-vacuity of `C05_failed_store_text`: the first attempt to store fails, the append raises, the
retry and the finalize succeed. -/
example : (outcomes (demo .text) { faults := [true] }
      [.append 2, .append 3, .append 1, .append 1, .finalize false]).map (·.2.isOk)
        = [true, true, false, true, true] ∧
    (run (demo .text) { faults := [true] }
      [.append 2, .append 3, .append 1, .append 1, .finalize false]).store =
      [.data [0, 0, 10, 0, 0, 0, 10], .data [0, 10], .complete] := by decide

/-! ## C06 completion marker policy -/

/-- With working storage: a finalize adds one completion marker if its flag is clear, no earlier
finalize signalled a failure, and a record was accepted or the writer always completes; otherwise
it adds none.  Appends never add one. -/
theorem C06_marker_policy (c : Config ρ) (ops : List (Op ρ)) (f : Bool) :
    (∃ k, (run c {} (ops ++ [.finalize f])).store.count .complete =
        (run c {} ops).store.count .complete + k ∧ k ≤ 1 ∧
      (k = 1 ↔ f = false ∧ Op.finalize true ∉ ops ∧
        (accepted (outcomes c {} ops) ≠ [] ∨ c.alwaysComplete = true))) ∧
    ∀ r, (run c {} (ops ++ [.append r])).store.count .complete =
      (run c {} ops).store.count .complete := by
  have h0 : Rep c ({} : State ρ) [] [] := Rep.init c []
  obtain ⟨g, p, hr, he, hf⟩ := run_rep h0 ops
  have hseen := run_seen h0 ops
  have hrec := run_records h0 ops
  have hmem : Op.finalize true ∈ ops ↔ (run c {} ops).seenFailures = true := by
    rw [hseen]
    simp only [Bool.false_eq_true, false_or]
    clear hseen hrec hr he hf g p
    have key : ∀ (s : State ρ) (g : List (List ρ)) (p : List ρ), Rep c s g p → s.faults = [] →
        (Op.finalize true ∈ ops ↔ (Op.finalize true, Except.ok ()) ∈ outcomes c s ops) := by
      induction ops with
      | nil => intro s g p _ _; simp [outcomes]
      | cons op ops ih =>
        intro s g p hr hfa
        obtain ⟨g1, p1, hr1, -, hf1, -⟩ := step_rep hr op
        have hs := step_noFault hr hfa op
        rw [outcomes, List.mem_cons, List.mem_cons, ih _ g1 p1 hr1 (hf1 hfa), hs]
        cases op with
        | append r => simp
        | finalize b => simp
    exact key {} [] [] h0 rfl
  constructor
  · rw [run_append]
    simp only [run, step]
    rcases finalize_cases hr f with ⟨fs, h1, h2⟩ | ⟨s', e, r, h1, h2, h3, h4, h5, h6, h7⟩
    · rw [hf rfl] at h2; simp at h2
    · have hmay : MayComplete c (run c {} ops) f ↔ (f = false ∧ Op.finalize true ∉ ops ∧
          (accepted (outcomes c {} ops) ≠ [] ∨ c.alwaysComplete = true)) := by
        unfold MayComplete
        rw [hmem, hrec]
        have hr0 : ((run c ({} : State ρ) ops).seenFailures = false) ↔
          ¬ (run c ({} : State ρ) ops).seenFailures = true := by simp
        rw [hr0]
        simp
      have hec : List.count Stored.complete e = 0 := List.count_eq_zero.2 h5
      rw [h1]
      rcases h7 with ⟨rfl, hm, hs, -⟩ | ⟨rfl, hm, hs, -⟩ | ⟨rfl, hm, hs, hh, -⟩
      · exact ⟨0, by simp [hs, hec], by omega, by simpa using fun h1 h2 h3 => hm (hmay.2 ⟨h1, h2, h3⟩)⟩
      · exact ⟨1, by simp [hs, hec], by omega, fun _ => hmay.1 hm, fun _ => rfl⟩
      · exact absurd (hf rfl) hh
  · intro r
    rw [run_append]
    simp only [run]
    obtain ⟨g1, p1, hr1, -, -, hs⟩ := step_rep hr (.append r)
    rcases hs with ⟨e, hs, hc⟩ | ⟨e, hs, -⟩
    · rw [hs]; simp [List.count_eq_zero.2 hc]
    · simp at hs

/-- Any failures: a writer that is dropped after any calls is not marked complete by that. -/
theorem C06_dropped (c : Config ρ) (faults : List Bool) (ops : List (Op ρ)) :
    (drop c (run c { faults := faults } ops)).store.count .complete = (run c { faults := faults } ops).store.count .complete := by
  obtain ⟨g, p, hr, -, -⟩ := run_rep (Rep.init c faults) ops
  unfold drop
  rcases commit_cases hr with ⟨fs, h1, -⟩ | ⟨s', h1, -, -, -, -, -, h2⟩
  · rw [h1]
  · rw [h1, h2]
    split <;> simp

/-- With any storage faults: a failure signalled to a finalize that returned normally is never
forgotten, no later call adds a completion marker. -/
theorem C06_failure_is_sticky (c : Config ρ) (faults : List Bool) (before after : List (Op ρ))
    (hok : (step c (run c { faults := faults } before) (.finalize true)).2 = .ok ()) :
    (run c { faults := faults } (before ++ .finalize true :: after)).store.count .complete =
      (run c { faults := faults } before).store.count .complete := by
  have h0 := Rep.init c faults
  obtain ⟨g, p, hr, he, hf⟩ := run_rep h0 before
  rw [run_append, run]
  have hs1 := (step_seen hr (.finalize true)).2 (Or.inr ⟨rfl, hok⟩)
  obtain ⟨g1, p1, hr1, -, -, hst⟩ := step_rep hr (.finalize true)
  have hc1 : (step c (run c { faults := faults } before) (.finalize true)).1.store.count .complete
      = (run c { faults := faults } before).store.count .complete := by
    rcases hst with ⟨e, hs, hc⟩ | ⟨e, hs, -⟩
    · rw [hs]; simp [List.count_eq_zero.2 hc]
    · simp at hs
  rw [← hc1]
  generalize (step c (run c { faults := faults } before) (.finalize true)).1 = s at hs1 hr1
  clear hc1 hst hok hr he hf h0
  induction after generalizing s g1 p1 with
  | nil => rfl
  | cons op ops ih =>
    obtain ⟨g2, p2, hr2, -, -, -⟩ := step_rep hr1 op
    rw [run, ih g2 p2 _ ((step_seen hr1 op).2 (Or.inl hs1)) hr2]
    cases op with
    | append r =>
      obtain ⟨_, _, -, -, -, hst⟩ := step_rep hr1 (.append r)
      rcases hst with ⟨e, hs, hc⟩ | ⟨e, hs, -⟩
      · rw [hs]; simp [List.count_eq_zero.2 hc]
      · simp at hs
    | finalize f =>
      simp only [step]
      rcases finalize_cases hr1 f with ⟨fs, h1, h2⟩ | ⟨s', e, r, h1, h2, h3, h4, h5, h6, h7⟩
      · rw [h1]
      · rw [h1]
        have hec : List.count Stored.complete e = 0 := List.count_eq_zero.2 h5
        rcases h7 with ⟨rfl, hm, hs, -⟩ | ⟨rfl, hm, hs, -⟩ | ⟨rfl, hm, hs, hh, -⟩
        · simp [hs, hec]
        · exact absurd hm.2.1 (by simp [hs1])
        · exact absurd hm.2.1 (by simp [hs1])

/-- But a failure signalled to a finalize whose data store raised *is* forgotten: the flag is only
recorded after the store, and the next finalize marks the frame complete. -/
theorem C06_failure_forgotten_fails :
    ∃ (c : Config Nat) (faults : List Bool) (ops : List (Op Nat)),
      Op.finalize true ∈ ops ∧
      .complete ∈ (run c { faults := faults } (ops ++ [.finalize false])).store :=
  ⟨demo .text, [true], [.append 1, .finalize true], by simp, by decide⟩

example : (run (demo .text) {} [.append 1, .finalize true, .append 1, .finalize false]).store =
    [.data [0, 10], .data [0, 10]] := by decide
example : (run (demo .text) {} [.finalize false]).store = [] ∧
    (run { demo .text with alwaysComplete := true } {} [.finalize false]).store = [.complete] := by decide

/-! ## C07 crash consistency -/

/-- The process may die at any time: what survives is a prefix `p` of what the run would have
stored.  If `p` contains the completion marker then it was written by a finalize of the history
and, before it, `p` holds every record accepted before that finalize (in order, each once); for
text formats, or when no store failed, it holds exactly those. -/
theorem C07_crash_consistency (c : Config ρ) (faults : List Bool) (ops : List (Op ρ))
    (p : List Stored) (hp : p <+: (run c { faults := faults } ops).store) (hm : .complete ∈ p) :
    ∃ before after pre post held,
      ops = before ++ .finalize false :: after ∧
      p = pre ++ .complete :: post ∧
      Holds c.codec c.format (dataBlobs pre) held ∧
      (accepted (outcomes c { faults := faults } before)).Sublist held ∧
      (c.format ≠ .parquet ∨ faults = [] → held = accepted (outcomes c { faults := faults } before)) := by
  have h0 := Rep.init c faults
  obtain ⟨ext, hx, hall⟩ := run_markers h0 ops
  obtain ⟨pre, post, rfl⟩ := List.append_of_mem hm
  obtain ⟨rest, hrest⟩ := hp
  have e : ext = pre ++ .complete :: (post ++ rest) := by
    have : ext = (run c { faults := faults } ops).store := by simp [hx]
    rw [this, ← hrest]; simp
  obtain ⟨b, a, hb, hh⟩ := hall pre _ e
  refine ⟨b, a, pre, post, addedLog c (outcomes c { faults := faults } b), hb, rfl, ?_, accepted_sublist_addedLog c _, ?_⟩
  · simpa using hh
  · rintro (h | h)
    · exact addedLog_text h _
    · subst h; exact (addedLog_noFault h0 rfl b).1

example : Stored.complete ∈ [Stored.data [0, 0, 10, 0, 0, 0, 10], .data [0, 10], .complete] ∧
  [Stored.data [0, 0, 10, 0, 0, 0, 10], .data [0, 10], .complete] <+:
    (run (demo .text) {} [.append 2, .append 3, .append 1, .finalize false, .append 1, .finalize false]).store := by
  decide

end Mabel.Writer
