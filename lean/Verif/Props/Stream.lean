import Verif.Lemmas.Stream
import Verif.Lemmas.Sort

/-!
# Properties of the stream writer (C08 - C10, C66)

`Machine`/`Reach` (Verif/Model/Stream.lean) let any number of threads call `append`, run attendant
passes and call `finalize`, interleaved in any way the module lock allows, with any clock readings.
`routed`, `blobsAt` and `Explains` are in Verif/Spec/Stream.lean.
-/

namespace Mabel.Stream
open Mabel.Py Mabel.Writer Mabel.Writer.Spec Mabel.Stream.Spec
variable {ρ : Type}

/-! ## C08 exactly once per target, under any schedule -/

/-- Any sequence of critical sections that ends with a finalize leaves at every target exactly the
records routed to it, in call order. -/
theorem C08_exactly_once (c : Conf ρ) (clock : List Int) (ops : List (Op ρ)) (t : Str) :
    Holds c.blob.codec c.blob.format
      (blobsAt (run c { clock := clock } (ops ++ [.finalize])).store t) (routed ops t) := by
  have h0 : Inv c true ({ clock := clock } : Pool ρ) (fun _ => []) := Inv.init c clock [] true (fun _ => rfl)
  have h1 := run_inv ops h0
  obtain ⟨h2, h3⟩ := finalize_inv h1
  rw [run_append]
  obtain ⟨gs, pend, k1, k2, -, k4, -, k6⟩ := h2.holds t
  have hp : pend = [] := k4 (by rw [h3]; simp)
  subst hp
  refine ⟨gs, k1, ?_, k2⟩
  have := k6 rfl
  simpa using this

/-- Threads and scheduling: when the lock is free and the pool has been emptied, every target holds
exactly the records routed to it by the calls made so far, in the order in which those calls
obtained the lock (which respects every thread's own order). -/
theorem C08_any_schedule (c : Conf ρ) (clock : List Int) (todo : Nat → List (Op ρ)) (m : Machine ρ)
    (h : Reach c { pool := { clock := clock }, todo := todo } m)
    (hfree : m.owner = none) (hempty : m.pool.writers = []) :
    ∃ hist : List (Nat × Op ρ), Explains todo m.todo hist ∧
      ∀ t, Holds c.blob.codec c.blob.format (blobsAt m.pool.store t) (routed (hist.map (·.2)) t) := by
  obtain ⟨hist, h1, h2, -⟩ := reach_serial h rfl
  refine ⟨hist, h1, fun t => ?_⟩
  rw [hfree] at h2
  simp only at h2
  have h0 : Inv c true ({ clock := clock } : Pool ρ) (fun _ => []) := Inv.init c clock [] true (fun _ => rfl)
  have hi := run_inv (hist.map (·.2)) h0
  rw [← h2] at hi
  obtain ⟨gs, pend, k1, k2, -, k4, -, k6⟩ := hi.holds t
  have hp : pend = [] := k4 (by rw [hempty]; simp)
  subst hp
  exact ⟨gs, k1, by simpa using k6 rfl, k2⟩

/-- The hypothesis of `C08_any_schedule` is what a finalize brings about: whenever the last call to
have obtained the lock is a finalize and it has released it, the pool is empty. -/
theorem C08_finalize_empties (c : Conf ρ) (clock : List Int) (todo : Nat → List (Op ρ)) (m : Machine ρ)
    (h : Reach c { pool := { clock := clock }, todo := todo } m) (hfree : m.owner = none) :
    ∃ hist : List (Nat × Op ρ), Explains todo m.todo hist ∧
      m.pool = run c { clock := clock } (hist.map (·.2)) ∧
      ∀ init t, hist = init ++ [(t, .finalize)] → m.pool.writers = [] := by
  obtain ⟨hist, h1, h2, -⟩ := reach_serial h rfl
  rw [hfree] at h2
  simp only at h2
  refine ⟨hist, h1, h2, ?_⟩
  rintro init t rfl
  rw [h2, List.map_append, run_append]
  have h0 : Inv c true ({ clock := clock } : Pool ρ) (fun _ => []) := Inv.init c clock [] true (fun _ => rfl)
  exact (finalize_inv (run_inv (init.map (·.2)) h0)).2

/-- At any instant whatever (lock held or not, any call half done), what a crash would leave at a
target is a prefix of the records routed to it: no gap, no duplicate, no reordering. -/
theorem C08_stored_is_prefix (c : Conf ρ) (clock : List Int) (todo : Nat → List (Op ρ)) (m : Machine ρ)
    (h : Reach c { pool := { clock := clock }, todo := todo } m) :
    ∃ hist : List (Nat × Op ρ), Explains todo m.todo hist ∧
      ∀ t, ∃ stored, Holds c.blob.codec c.blob.format (blobsAt m.pool.store t) stored ∧
        stored <+: routed (hist.map (·.2)) t := by
  obtain ⟨hist, h1, h2, -⟩ := reach_serial h rfl
  refine ⟨hist, h1, fun t => ?_⟩
  have h0 : Inv c true ({ clock := clock } : Pool ρ) (fun _ => []) := Inv.init c clock [] true (fun _ => rfl)
  have hi := run_inv (hist.map (·.2)) h0
  rw [← h2] at hi
  have key : ∀ q : Pool ρ, m.pool.store <+: q.store →
      Inv c true q (fun t => [] ++ routed (hist.map (·.2)) t) →
      ∃ stored, Holds c.blob.codec c.blob.format (blobsAt m.pool.store t) stored ∧
        stored <+: routed (hist.map (·.2)) t := by
    intro q hq hinv
    obtain ⟨gs, pend, k1, k2, -, -, -, k6⟩ := hinv.holds t
    obtain ⟨first, f1, f2⟩ := holds_prefix (blobsAt_prefix hq t) ⟨gs, k1, rfl, k2⟩
    refine ⟨first, f1, f2.trans ?_⟩
    have := k6 rfl
    simp only [List.nil_append] at this
    rw [← this]; exact List.prefix_append _ _
  cases ho : m.owner with
  | none => rw [ho] at hi; exact key _ List.prefix_rfl hi
  | some tk => obtain ⟨t', k⟩ := tk; rw [ho] at hi; exact key _ (finish_grows c m.pool k) hi

/-- The configuration used in the examples: at most two writers in the pool, idle after 5 seconds,
text blobs of about 4 bytes. -/
def demo : Conf Nat where
  blob := { codec := { serialise := fun n => List.replicate n 0, compress := id,
                       parquet := fun g => g.map (·.toUInt8), nbytes := fun g => g.sum },
            format := .text, maximumBlobSize := 4, valid := fun _ => true, alwaysComplete := false }
  poolSize := 2
  idle := 5

/-- Non-vacuity: writes to three targets, an idle eviction, re-opening, a finalize. -/
example : (run demo { clock := [0, 1, 2, 10, 11] }
    ([.append 1 ["a".toList], .append 2 ["b".toList, "a".toList], .attend, .append 3 ["b".toList]]
      ++ [.finalize])).store =
    [("a".toList, .data [0, 10, 0, 0, 10]), ("b".toList, .data [0, 0, 10]), ("b".toList, .data [0, 0, 0, 10])] := by
  decide

/-- An executable scheduler, for examples: each number is the thread that moves next. -/
def schedule (c : Conf ρ) (m : Machine ρ) : List Nat → Option (Machine ρ)
  | [] => some m
  | t :: ts =>
    match m.owner with
    | none => match m.todo t with
      | [] => none
      | op :: rest =>
        schedule c { m with owner := some (t, start op), todo := fun u => if u = t then rest else m.todo u } ts
    | some (u, .done) => if u = t then schedule c { m with owner := none } ts else none
    | some (u, k) =>
      if u = t then schedule c { m with pool := (micro c m.pool k).1, owner := some (u, (micro c m.pool k).2) } ts
      else none

theorem schedule_reach (c : Conf ρ) (ts : List Nat) : ∀ {m0 m m' : Machine ρ}, Reach c m0 m →
    schedule c m ts = some m' → Reach c m0 m' := by
  induction ts with
  | nil => intro m0 m m' h he; simp only [schedule, Option.some.injEq] at he; exact he ▸ h
  | cons t ts ih =>
    intro m0 m m' h he
    unfold schedule at he
    split at he
    · split at he
      · cases he
      · rename_i ho _ op rest ht
        exact ih (h.step (.acquire m t op rest ho ht)) he
    · split at he
      · rename_i u ho hu
        exact ih (h.step (.release m u ho)) he
      · cases he
    · split at he
      · rename_i u k hk ho hu
        exact ih (h.step (.work m u k ho (fun hc => hk hc))) he
      · cases he

/-- Non-vacuity: a run in which two threads append to the same target and one of them finalizes
reaches a state with the lock free and an empty pool. -/
example : ∃ m : Machine Nat, Reach demo
    { pool := {}, todo := fun t => if t = 0 then [.append 1 ["a".toList], .finalize]
                                   else if t = 1 then [.append 2 ["a".toList]] else [] } m ∧
    m.owner = none ∧ m.pool.writers = [] ∧ m.pool.store = [("a".toList, .data [0, 0, 10, 0, 10])] := by
  refine ⟨_, schedule_reach demo [1, 1, 1, 1, 0, 0, 0, 0, 0, 0, 0, 0, 0] (.refl _) rfl, rfl, ?_, ?_⟩ <;> decide

/-! ## C09 one writer per target -/

/-- However calls interleave, and at any point inside a call, the pool has at most one writer for
any target (storage may fail). -/
theorem C09_one_writer_per_target (c : Conf ρ) (clock : List Int) (faults : List Bool)
    (todo : Nat → List (Op ρ)) (m : Machine ρ)
    (h : Reach c { pool := { clock := clock, faults := faults }, todo := todo } m) :
    (m.pool.writers.map (·.identity)).Nodup := by
  obtain ⟨recs, hi⟩ := reach_inv h ⟨_, Inv.init c clock faults false (by simp)⟩
  exact hi.nodup

/-- Asking for a target that is open opens nothing and gives back the writer with what it holds;
asking for another opens an empty one and leaves the others alone. -/
theorem C09_get_writer (p : Pool ρ) (t : Str) (hn : (p.writers.map (·.identity)).Nodup) :
    (t ∈ p.writers.map (·.identity) →
      (getWriter p t).writers.map (fun w => (w.identity, w.writer)) =
        p.writers.map (fun w => (w.identity, w.writer))) ∧
    (t ∉ p.writers.map (·.identity) →
      (getWriter p t).writers.map (fun w => (w.identity, w.writer)) =
        p.writers.map (fun w => (w.identity, w.writer)) ++ [(t, ({ } : Writer.State ρ))]) := by
  have hw := (now_spec p).1
  constructor
  · intro hm
    have ha : p.writers.any (fun w => w.identity == t) = true := by
      simp only [List.mem_map] at hm
      obtain ⟨w, h1, h2⟩ := hm
      simp only [List.any_eq_true, beq_iff_eq]
      exact ⟨w, h1, h2⟩
    unfold getWriter
    rw [if_pos ha]
    simp only [hw]
    rw [updateLast_eq_map _ _ _ hn, List.map_map]
    apply List.map_congr_left
    intro w _
    simp only [Function.comp_apply]
    split <;> rfl
  · intro hm
    have ha : ¬ p.writers.any (fun w => w.identity == t) = true := by
      simp only [List.any_eq_true, beq_iff_eq]
      rintro ⟨w, h1, h2⟩
      exact hm (List.mem_map.2 ⟨w, h1, h2⟩)
    unfold getWriter
    rw [if_neg ha]
    simp [createWriter, hw]

/-! ## C10 eviction -/

theorem age_preorder : TotalPreorder (fun a b : Entry ρ => decide (a.lastAccess ≤ b.lastAccess)) where
  total a b := by simp only [decide_eq_true_eq]; omega
  trans a b c h1 h2 := by simp only [decide_eq_true_eq] at *; omega

/-- The nominated writers are the `k` least recently used ones, for some `k`. -/
theorem nominate_take (k : Int) (ws : List (Entry ρ)) :
    ∃ n, nominate k ws =
      ((sorted (fun a b => decide (a.lastAccess ≤ b.lastAccess)) ws).take n).map (·.identity) := by
  unfold nominate
  simp only [sliceTo]
  split <;> split <;> exact ⟨_, by rw [List.take_take]⟩

/-- A nominated writer was not used after one that is kept. -/
theorem C10_least_recently_used (k : Int) (ws : List (Entry ρ)) (hn : (ws.map (·.identity)).Nodup)
    (a b : Entry ρ) (ha : a ∈ ws) (hb : b ∈ ws)
    (hna : a.identity ∈ nominate k ws) (hnb : b.identity ∉ nominate k ws) :
    a.lastAccess ≤ b.lastAccess := by
  obtain ⟨n, he⟩ := nominate_take k ws
  rw [he] at hna hnb
  generalize hs : sorted (fun a b : Entry ρ => decide (a.lastAccess ≤ b.lastAccess)) ws = s at hna hnb
  have hp := sorted_pairwise age_preorder ws
  rw [hs] at hp
  obtain ⟨a', ha', hid⟩ := List.mem_map.1 hna
  have ham : a' ∈ ws := by
    have := List.mem_of_mem_take ha'
    rw [← hs, mem_sorted] at this; exact this
  have : a' = a := unique_of_nodup hn ham ha hid
  subst this
  have hbs : b ∈ s.take n ++ s.drop n := by rw [List.take_append_drop, ← hs, mem_sorted]; exact hb
  rcases List.mem_append.1 hbs with hb' | hb'
  · exact absurd (List.mem_map_of_mem hb') hnb
  · rw [← List.take_append_drop n s, List.pairwise_append] at hp
    simpa using hp.2.2 a' ha' b hb'

/-- Over capacity, the excess is nominated, but no more than the capacity at a time; at capacity
nothing is. -/
theorem C10_over_capacity (k : Nat) (ws : List (Entry ρ)) (h : k ≤ ws.length) :
    (nominate k ws).length = min (ws.length - k) k := by
  unfold nominate
  simp only [List.length_map]
  have h1 : ¬ ((ws.length : Int) - (k : Int) < 0) := by omega
  have h2 : ¬ ((k : Int) < 0) := by omega
  have h3 : ((ws.length : Int) - (k : Int)).toNat = ws.length - k := by omega
  simp only [sliceTo, h1, h2, if_false, h3, Int.toNat_natCast, List.length_take, length_sorted]
  omega

/-- Below capacity the negative slice bound of writer_pool.py:88 nominates all but the missing
number of writers; so a pool that is more than half full is drained although there is room. -/
theorem C10_below_capacity (k : Nat) (ws : List (Entry ρ)) (h : ws.length < k) :
    (nominate k ws).length = ws.length - (k - ws.length) := by
  unfold nominate
  simp only [List.length_map]
  have h1 : ((ws.length : Int) - (k : Int) < 0) := by omega
  have h2 : ¬ ((k : Int) < 0) := by omega
  have h3 : ((ws.length : Int) - (k : Int)).natAbs = k - ws.length := by omega
  simp only [sliceTo, h1, h2, if_true, if_false, h3, Int.toNat_natCast, List.length_take, length_sorted]
  omega

/-- The second half of C10 as stated is false: six writers in a pool of ten, two are nominated. -/
theorem C10_none_within_capacity_fails :
    ¬ ∀ (k : Nat) (ws : List (Entry Nat)), (ws.map (·.identity)).Nodup → ws.length ≤ k →
      nominate k ws = [] := by
  intro h
  have := h 10 ((List.range 6).map fun i => ⟨List.replicate i 'x', (i : Int), {}⟩) (by decide) (by decide)
  exact absurd this (by decide)

/-- It is true of pools that are at most half full. -/
theorem C10_within_capacity_partial (k : Nat) (ws : List (Entry ρ)) (h : 2 * ws.length ≤ k ∨ ws.length = k) :
    nominate k ws = [] := by
  apply List.eq_nil_of_length_eq_zero
  rcases h with h | h
  · by_cases hz : ws.length = 0
    · have : ws = [] := List.eq_nil_of_length_eq_zero hz
      subst this; simp [nominate, sorted, sliceTo]
    · rw [C10_below_capacity k ws (by omega)]; omega
  · rw [C10_over_capacity k ws (by omega)]; omega

/-- Non-vacuity: of three writers with capacity two, the oldest is nominated. -/
example : nominate 2 ([⟨"a".toList, 3, {}⟩, ⟨"b".toList, 1, {}⟩, ⟨"c".toList, 2, {}⟩] : List (Entry Nat))
    = ["b".toList] := by decide

/-- Using a target's writer, new or not, sets its time of last use to the clock's reading and leaves the
other writers' times alone; every writer that was open stays open. -/
theorem C10_last_use (p : Pool ρ) (t : Str) (hn : (p.writers.map (·.identity)).Nodup) :
    ∀ u a, (u, a) ∈ (getWriter p t).writers.map (fun w => (w.identity, w.lastAccess)) ↔
      (u = t ∧ a = p.clock.headD 0) ∨
      (u ≠ t ∧ (u, a) ∈ p.writers.map (fun w => (w.identity, w.lastAccess))) := by
  have hw := (now_spec p).1
  have hnow : (now p).1 = p.clock.headD 0 := by unfold now; cases p.clock <;> rfl
  intro u a
  unfold getWriter
  by_cases ha : p.writers.any (fun w => w.identity == t) = true
  · rw [if_pos ha]
    simp only []
    rw [hw, updateLast_eq_map _ _ _ hn, List.map_map]
    simp only [List.any_eq_true, beq_iff_eq] at ha
    obtain ⟨w0, hw0, hid0⟩ := ha
    simp only [List.mem_map, Function.comp_apply, Prod.mk.injEq]
    constructor
    · rintro ⟨w, hm, h1, h2⟩
      by_cases hid : w.identity = t
      · simp [hid] at h1 h2; left; exact ⟨h1.symm, by rw [← h2, hnow]⟩
      · simp [hid] at h1 h2; right; exact ⟨fun hc => hid (h1.trans hc), w, hm, h1, h2⟩
    · rintro (⟨rfl, rfl⟩ | ⟨hne, w, hm, h1, h2⟩)
      · exact ⟨w0, hw0, by simp [hid0], by simp [hid0, hnow]⟩
      · have hid : w.identity ≠ t := fun hc => hne (h1.symm.trans hc)
        exact ⟨w, hm, by rw [if_neg (by simpa using hid)]; exact h1, by rw [if_neg (by simpa using hid)]; exact h2⟩
  · rw [if_neg ha]
    simp only [createWriter, hw, hnow, List.map_append, List.mem_append, List.map_cons, List.map_nil,
      List.mem_singleton, Prod.mk.injEq]
    simp only [List.any_eq_true, beq_iff_eq, not_exists, not_and] at ha
    constructor
    · rintro (h | h)
      · right
        obtain ⟨w, hm, he⟩ := List.mem_map.1 h
        simp only [Prod.mk.injEq] at he
        exact ⟨fun hc => ha w hm (he.1.trans hc), h⟩
      · left; exact h
    · rintro (h | h)
      · right; exact h
      · left; exact h.2

theorem removeAll_writers {c : Conf ρ} {recs : Str → List ρ} (ids : List Str) :
    ∀ {p : Pool ρ}, Inv c true p recs →
      (removeAll c p ids).2 = .ok () ∧
      (removeAll c p ids).1.writers = p.writers.filter (fun w => !ids.contains w.identity) := by
  induction ids with
  | nil => intro p h; exact ⟨rfl, by simp only [removeAll]; exact (List.filter_eq_self.2 (by simp)).symm⟩
  | cons t ts ih =>
    intro p h
    obtain ⟨h1, h2, h3⟩ := removeWriter_inv h t
    have h3 := h3 rfl
    unfold removeAll
    rcases hr : removeWriter c p t with ⟨q, res⟩
    rw [hr] at h1 h2 h3
    simp only at h1 h2 h3
    subst h3
    simp only []
    obtain ⟨h4, h5⟩ := ih h1
    refine ⟨h4, ?_⟩
    rw [h5, h2, List.filter_filter]
    congr 1
    funext w
    by_cases hw : w.identity = t <;> simp [hw]

/-- What an attendant pass does, with working storage: it reads the clock, closes exactly the writers idle
for longer than the limit, then exactly those of the rest that are nominated; the others stay as they
are. -/
theorem C10_attendant_pass (c : Conf ρ) (clock : List Int) (ops : List (Op ρ)) :
    let p := run c { clock := clock } ops
    let fresh := p.writers.filter fun w => decide (p.clock.headD 0 - w.lastAccess ≤ c.idle)
    (run c { clock := clock } (ops ++ [.attend])).writers =
      fresh.filter fun w => !(nominate c.poolSize fresh).contains w.identity := by
  intro p fresh
  have h0 : Inv c true ({ clock := clock } : Pool ρ) (fun _ => []) := Inv.init c clock [] true (fun _ => rfl)
  have hi := run_inv ops h0
  rw [run_append]
  change (attend c p).1.writers = _
  have hn := now_inv hi
  obtain ⟨hw, hs, hf⟩ := now_spec p
  have hnow : (now p).1 = p.clock.headD 0 := by unfold now; cases p.clock <;> rfl
  unfold attend staleWriters
  simp only []
  obtain ⟨k1, k2⟩ := removeAll_writers (((now p).2.writers.filter
    (fun w => decide ((now p).1 - w.lastAccess > c.idle))).map (·.identity)) hn
  have k3 := removeAll_inv (c := c) (((now p).2.writers.filter
    (fun w => decide ((now p).1 - w.lastAccess > c.idle))).map (·.identity)) hn
  have hfresh : p.writers.filter (fun w => !(((now p).2.writers.filter
      (fun w => decide ((now p).1 - w.lastAccess > c.idle))).map (·.identity)).contains w.identity) = fresh := by
    apply List.filter_congr
    intro w hm
    rw [hw, hnow, Bool.eq_iff_iff]
    simp only [Bool.not_eq_true', decide_eq_true_eq]
    rw [← Bool.not_eq_true]
    simp only [List.contains_iff_mem, List.mem_map, List.mem_filter, decide_eq_true_eq, not_exists, not_and]
    constructor
    · intro h
      by_contra hc
      exact h w ⟨hm, by omega⟩ rfl
    · rintro h w' ⟨hm', hc⟩ hid
      have := unique_of_nodup hi.nodup hm' hm hid
      subst this
      omega
  rw [hw] at k2
  rw [hw] at hfresh
  rw [hw] at k1 k3
  rw [hw]
  rw [hfresh] at k2
  generalize hq : removeAll c (now p).2 ((p.writers.filter
    (fun w => decide ((now p).1 - w.lastAccess > c.idle))).map (·.identity)) = q at k1 k2 k3 ⊢
  obtain ⟨q1, q2⟩ := q
  simp only at k1 k2 k3
  subst k1
  simp only []
  unfold evict
  obtain ⟨k4, k5⟩ := removeAll_writers (nominate c.poolSize q1.writers) k3
  rw [k5, k2]

/-- Non-vacuity: three writers, capacity two; the pass at time 10 closes the one idle since 1 (limit 5),
and the pool is then at capacity. -/
example : (run { demo with poolSize := 2, idle := 5 } { clock := [1, 7, 8, 10] }
    [.append 1 ["a".toList], .append 1 ["b".toList], .append 1 ["c".toList], .attend]).writers.map (·.identity) =
    ["b".toList, "c".toList] := by decide

/-! ## C66 failing storage -/

/-- Whatever stores fail, the records stored at a target are a subsequence of those routed to it:
failures never duplicate, invent or reorder records. -/
theorem C66_no_duplicates (c : Conf ρ) (clock : List Int) (faults : List Bool)
    (todo : Nat → List (Op ρ)) (m : Machine ρ)
    (h : Reach c { pool := { clock := clock, faults := faults }, todo := todo } m) (hfree : m.owner = none) :
    ∃ hist : List (Nat × Op ρ), Explains todo m.todo hist ∧
      ∀ t, ∃ stored, Holds c.blob.codec c.blob.format (blobsAt m.pool.store t) stored ∧
        stored.Sublist (routed (hist.map (·.2)) t) := by
  obtain ⟨hist, h1, h2, -⟩ := reach_serial h rfl
  refine ⟨hist, h1, fun t => ?_⟩
  rw [hfree] at h2
  simp only at h2
  have h0 : Inv c false ({ clock := clock, faults := faults } : Pool ρ) (fun _ => []) :=
    Inv.init c clock faults false (by simp)
  have hi := run_inv (hist.map (·.2)) h0
  rw [← h2] at hi
  obtain ⟨gs, pend, k1, k2, -, -, k5, -⟩ := hi.holds t
  refine ⟨gs.flatten, ⟨gs, k1, rfl, k2⟩, ?_⟩
  simp only [List.nil_append] at k5
  exact (List.sublist_append_left _ _).trans k5

/-- But a record whose store fails twice while finalizing is lost without the caller being told:
the append returned normally, finalize returns normally, and nothing is stored. -/
theorem C66_loss_is_reported_fails :
    ∃ (p : Pool Nat), writeAll demo { faults := [true, true] } 1 ["a".toList] = (p, .ok ()) ∧
      (finalize demo p).store = [] ∧ (finalize demo p).writers = [] := by
  refine ⟨_, rfl, ?_, ?_⟩ <;> decide

end Mabel.Stream
