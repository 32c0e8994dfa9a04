import Verif.Model.Parallel
import Mathlib.Data.List.Perm.Basic
import Mathlib.Data.List.Count

/-!
# Multi-process reading: C26
-/

namespace Mabel.Parallel
open Mabel.Py

/-! ## The invariant -/

/-- The blobs being read. -/
def busy (ws : List Worker) : List Str :=
  ws.filterMap fun
    | .working b => some b
    | _ => none

/-- The blobs waiting to be read. -/
def waitingBlobs (q : List Msg) : List Str :=
  q.filterMap fun
    | .blob b => some b
    | .terminate => none

theorem set_split {α : Type} {l : List α} {i : Nat} {x : α} (h : l[i]? = some x) :
    ∃ a b, l = a ++ x :: b ∧ ∀ y, l.set i y = a ++ y :: b := by
  induction l generalizing i with
  | nil => simp at h
  | cons z l ih =>
    cases i with
    | zero =>
      have : z = x := by simpa using h
      subst this
      exact ⟨[], l, rfl, fun y => rfl⟩
    | succ i =>
      obtain ⟨a, b, h1, h2⟩ := ih (i := i) (by simpa using h)
      exact ⟨z :: a, b, by rw [h1]; rfl, fun y => by rw [List.set_cons_succ, h2 y]; rfl⟩

/-- What holds in every state of a run without crashes. -/
structure Inv (items : List Str) (n : Nat) (s : State) : Prop where
  perm : (s.delivered ++ s.replyQueue ++ busy s.workers ++ waitingBlobs s.sendQueue).Perm (items.take s.index)
  told : (.terminate ∈ s.sendQueue ∨ .told ∈ s.workers) → items.length ≤ s.index
  fresh : (∀ w ∈ s.workers, w = .start ∨ w = .gaveUp) → s.sendQueue = (items.take n).map .blob ∧ s.index = n
  len : s.workers.length = n
  noCrash : .crashed ∉ s.workers
  done : s.ended = some .done → s.workers.all Worker.stopped = true ∧ s.replyQueue = [] ∧ s.sendQueue = []

theorem inv_init (items : List Str) (n : Nat) : Inv items n (init items n) where
  perm := by
    have h1 : busy (init items n).workers = [] := by
      simp only [init, busy, List.filterMap_eq_nil_iff]
      intro w hw
      rw [(List.mem_replicate.1 hw).2]
    have h2 : waitingBlobs (init items n).sendQueue = items.take n := by
      simp only [init, waitingBlobs]
      generalize items.take n = l
      induction l with
      | nil => rfl
      | cons x l ih => simp [ih]
    rw [h1, h2]
    simp [init]
  told := by
    rintro (h | h)
    · obtain ⟨x, -, hx⟩ := List.mem_map.1 (show Msg.terminate ∈ (items.take n).map Msg.blob from h)
      cases hx
    · simp [init] at h
  fresh := fun _ => ⟨rfl, rfl⟩
  len := by simp [init]
  noCrash := by simp [init]
  done := by simp [init]

theorem busy_append (a b : List Worker) : busy (a ++ b) = busy a ++ busy b := List.filterMap_append
theorem waiting_append (a b : List Msg) : waitingBlobs (a ++ b) = waitingBlobs a ++ waitingBlobs b :=
  List.filterMap_append

theorem mem_set_self {a b : List Worker} {w : Worker} : w ∈ a ++ w :: b := by simp

theorem inv_step {items : List Str} {n : Nat} {s s' : State} (h : Inv items n s) {e : Event}
    (he : ∀ i, e ≠ .crash i) (hs : step items s e = some s') : Inv items n s' := by
  obtain ⟨hp, ht, hf, hl, hc, hd⟩ := h
  cases e with
  | crash i => exact absurd rfl (he i)
  | take i =>
    simp only [step] at hs
    split at hs
    · rename_i w m q hw hq
      split at hs
      · rename_i hpoll
        obtain ⟨a, b, hab, hset⟩ := set_split hw
        have hnd : s.ended ≠ some .done := by
          intro hx
          have := (hd hx).2.2
          rw [hq] at this
          cases this
        have hbw : busy [w] = [] := by cases w <;> first | rfl | cases hpoll
        have hb1 : busy s.workers = busy a ++ busy b := by
          rw [hab, show a ++ w :: b = a ++ [w] ++ b by simp, busy_append, busy_append, hbw]; simp
        cases m with
        | blob x =>
          cases hs
          refine ⟨?_, ?_, ?_, by simp [hl], ?_, fun hx => absurd hx hnd⟩
          · refine List.Perm.trans ?_ hp
            simp only [hset]
            rw [hb1, hq, show a ++ Worker.working x :: b = a ++ [.working x] ++ b by simp, busy_append, busy_append,
              show busy [.working x] = [x] from rfl, show Msg.blob x :: q = [.blob x] ++ q from rfl, waiting_append,
              show waitingBlobs [.blob x] = [x] from rfl]
            rw [List.perm_iff_count]
            intro z
            simp only [List.count_append]
            omega
          · simp only [hset]
            intro hx
            apply ht
            rcases hx with hx | hx
            · left; rw [hq]; simp [hx]
            · right
              rw [hab]
              simp only [List.mem_append, List.mem_cons] at hx ⊢
              rcases hx with hx | hx | hx
              · exact Or.inl hx
              · cases hx
              · exact Or.inr (Or.inr hx)
          · simp only [hset]
            intro hx
            rcases hx (.working x) mem_set_self with hx | hx <;> cases hx
          · simp only [hset]
            rw [hab] at hc
            simp only [List.mem_append, List.mem_cons, not_or] at hc ⊢
            exact ⟨hc.1, by simp, hc.2.2⟩
        | terminate =>
          cases hs
          have hidx : items.length ≤ s.index := ht (Or.inl (by rw [hq]; simp))
          refine ⟨?_, fun _ => hidx, ?_, by simp [hl], ?_, fun hx => absurd hx hnd⟩
          · refine List.Perm.trans ?_ hp
            simp only [hset]
            rw [hb1, hq, show a ++ Worker.told :: b = a ++ [.told] ++ b by simp, busy_append, busy_append,
              show busy [.told] = [] from rfl, show Msg.terminate :: q = [.terminate] ++ q from rfl, waiting_append,
              show waitingBlobs [.terminate] = [] from rfl]
            simp
          · simp only [hset]
            intro hx
            rcases hx .told mem_set_self with hx | hx <;> cases hx
          · simp only [hset]
            rw [hab] at hc
            simp only [List.mem_append, List.mem_cons, not_or] at hc ⊢
            exact ⟨hc.1, by simp, hc.2.2⟩
      · cases hs
    · cases hs
  | giveUp i =>
    simp only [step] at hs
    split at hs
    · rename_i hw
      cases hs
      obtain ⟨a, b, hab, hset⟩ := set_split hw
      have hnd : s.ended ≠ some .done := by
        intro hx
        have := List.all_eq_true.1 (hd hx).1 .start (by rw [hab]; simp)
        cases this
      refine ⟨?_, ?_, ?_, by simp [hl], ?_, fun hx => absurd hx hnd⟩
      · refine List.Perm.trans ?_ hp
        simp only [hset]
        rw [hab, show a ++ Worker.gaveUp :: b = a ++ [.gaveUp] ++ b by simp,
          show a ++ Worker.start :: b = a ++ [.start] ++ b by simp]
        simp only [busy_append]
        exact List.Perm.refl _
      · simp only [hset]
        intro hx
        apply ht
        rcases hx with hx | hx
        · exact Or.inl hx
        · right
          rw [hab]
          simp only [List.mem_append, List.mem_cons] at hx ⊢
          rcases hx with hx | hx | hx
          · exact Or.inl hx
          · cases hx
          · exact Or.inr (Or.inr hx)
      · simp only [hset]
        intro hx
        apply hf
        intro w hw'
        rw [hab] at hw'
        rcases List.mem_append.1 hw' with hw' | hw'
        · exact hx w (by simp [hw'])
        · rcases List.mem_cons.1 hw' with rfl | hw'
          · exact Or.inl rfl
          · exact hx w (by simp [hw'])
      · simp only [hset]
        rw [hab] at hc
        simp only [List.mem_append, List.mem_cons, not_or] at hc ⊢
        exact ⟨hc.1, by simp, hc.2.2⟩
    · cases hs
  | reply i =>
    simp only [step] at hs
    split at hs
    · rename_i x hw
      cases hs
      obtain ⟨a, b, hab, hset⟩ := set_split hw
      have hnd : s.ended ≠ some .done := by
        intro hx
        have := List.all_eq_true.1 (hd hx).1 (.working x) (by rw [hab]; simp)
        cases this
      refine ⟨?_, ?_, ?_, by simp [hl], ?_, fun hx => absurd hx hnd⟩
      · refine List.Perm.trans ?_ hp
        simp only [hset]
        rw [hab, show a ++ Worker.waiting :: b = a ++ [.waiting] ++ b by simp,
          show a ++ Worker.working x :: b = a ++ [.working x] ++ b by simp]
        simp only [busy_append, show busy [.working x] = [x] from rfl, show busy [.waiting] = [] from rfl]
        rw [List.perm_iff_count]
        intro z
        simp only [List.count_append, List.count_nil]
        omega
      · simp only [hset]
        intro hx
        apply ht
        rcases hx with hx | hx
        · exact Or.inl hx
        · right
          rw [hab]
          simp only [List.mem_append, List.mem_cons] at hx ⊢
          rcases hx with hx | hx | hx
          · exact Or.inl hx
          · cases hx
          · exact Or.inr (Or.inr hx)
      · simp only [hset]
        intro hx
        rcases hx .waiting mem_set_self with hx | hx <;> cases hx
      · simp only [hset]
        rw [hab] at hc
        simp only [List.mem_append, List.mem_cons, not_or] at hc ⊢
        exact ⟨hc.1, by simp, hc.2.2⟩
    · cases hs
  | receive =>
    simp only [step] at hs
    split at hs
    · cases hs
    · rename_i hend
      have hnd : s.ended ≠ some .done := by
        intro hx
        rw [hx] at hend
        exact hend rfl
      -- there is a worker that has worked
      have hold : ∀ b q, s.replyQueue = b :: q → ¬ ∀ w ∈ s.workers, w = .start ∨ w = .gaveUp := by
        intro b q hq hx
        obtain ⟨h1, h2⟩ := hf hx
        have h3 := hp.length_eq
        rw [h1, hq, h2] at h3
        have h4 : (waitingBlobs ((items.take n).map Msg.blob)).length = (items.take n).length := by
          generalize items.take n = l
          induction l with
          | nil => rfl
          | cons x l ih =>
            simp only [List.map_cons, waitingBlobs, List.filterMap_cons, List.length_cons] at ih ⊢
            rw [ih]
        simp only [List.length_append, List.length_cons, h4] at h3
        omega
      split at hs
      · cases hs
      · rename_i b q hq
        split at hs
        · rename_i x hx
          cases hs
          have hlt : s.index < items.length := (List.getElem?_eq_some_iff.1 hx).1
          have hxe : items[s.index] = x := (List.getElem?_eq_some_iff.1 hx).2
          refine ⟨?_, ?_, fun hw => absurd hw (hold b q hq), hl, hc, fun hx => absurd hx hnd⟩
          · have hxe' : items.take (s.index + 1) = items.take s.index ++ [x] := by
              rw [List.take_add_one, hx]; rfl
            simp only [hxe', waiting_append, show waitingBlobs [.blob x] = [x] from rfl]
            rw [hq] at hp
            have := List.perm_iff_count.1 hp
            rw [List.perm_iff_count]
            intro z
            have := this z
            simp only [List.count_append, List.count_cons, List.count_nil] at this ⊢
            omega
          · intro hw
            exfalso
            have : Msg.terminate ∈ s.sendQueue ∨ Worker.told ∈ s.workers := by
              rcases hw with hw | hw
              · left; simpa using hw
              · exact Or.inr hw
            have := ht this
            omega
        · rename_i hx
          cases hs
          have hge : items.length ≤ s.index := List.getElem?_eq_none_iff.1 hx
          refine ⟨?_, fun _ => hge, fun hw => absurd hw (hold b q hq), hl, hc, fun hx => absurd hx hnd⟩
          rw [hq] at hp
          simp only [waiting_append, show waitingBlobs [.terminate] = [] from rfl, List.append_nil]
          have := List.perm_iff_count.1 hp
          rw [List.perm_iff_count]
          intro z
          have := this z
          simp only [List.count_append, List.count_cons, List.count_nil] at this ⊢
          omega
  | finish =>
    simp only [step] at hs
    split at hs
    · cases hs
    · split at hs
      · rename_i hcond
        cases hs
        simp only [Bool.and_eq_true, List.isEmpty_iff] at hcond
        exact ⟨hp, ht, hf, hl, hc, fun _ => ⟨hcond.1.1, hcond.1.2, hcond.2⟩⟩
      · cases hs
  | abandon =>
    simp only [step] at hs
    split at hs
    · cases hs
    · cases hs
      exact ⟨hp, ht, hf, hl, hc, fun hx => by cases hx⟩

theorem inv_exec {items : List Str} {n : Nat} {es : List Event} {s s' : State} (h : Inv items n s)
    (he : ∀ i, Event.crash i ∉ es) (hs : exec items es s = some s') : Inv items n s' := by
  induction es generalizing s with
  | nil => cases hs; exact h
  | cons e es ih =>
    simp only [exec] at hs
    split at hs
    · cases hs
    · rename_i s1 h1
      exact ih (inv_step h (fun i hi => he i (by simp [hi])) h1) (fun i hi => he i (by simp [hi])) hs

/-! ## C26 -/

/-- **C26.**  Whatever the schedule of the reader and its worker processes (including workers that start
late and give up at once), if no worker crashes then, when the reader ends because there is nothing left
to do, the records of every blob have been delivered exactly once, those of a blob together and in
order; every worker has stopped, because it was told to or because it gave up at the start. -/
theorem C26_each_blob_once {ρ : Type} (content : Str → List ρ) (items : List Str) (n : Nat) (hn : 1 ≤ n)
    (es : List Event) (hc : ∀ i, Event.crash i ∉ es) (s : State)
    (hs : exec items es (init items n) = some s) (hd : s.ended = some .done) :
    ∃ order : List Str, order.Perm items ∧ output content s = order.flatMap content ∧
      ∀ w ∈ s.workers, w = .told ∨ w = .gaveUp := by
  have h := inv_exec (inv_init items n) hc hs
  obtain ⟨h1, h2, h3⟩ := h.done hd
  have hw : ∀ w ∈ s.workers, w = .told ∨ w = .gaveUp := by
    intro w hw
    have := List.all_eq_true.1 h1 w hw
    cases w with
    | told => exact Or.inl rfl
    | gaveUp => exact Or.inr rfl
    | crashed => exact absurd hw h.noCrash
    | start => cases this
    | waiting => cases this
    | working b => cases this
  have hbusy : busy s.workers = [] := by
    simp only [busy, List.filterMap_eq_nil_iff]
    intro w hw'
    rcases hw w hw' with rfl | rfl <;> rfl
  have hidx : items.length ≤ s.index := by
    by_cases ht : Worker.told ∈ s.workers
    · exact h.told (Or.inr ht)
    · obtain ⟨e1, e2⟩ := h.fresh (fun w hw' => by
        rcases hw w hw' with rfl | rfl
        · exact absurd hw' ht
        · exact Or.inr rfl)
      rw [h3] at e1
      have : items.take n = [] := by simpa using e1.symm
      cases items with
      | nil => simp
      | cons x items =>
        cases n with
        | zero => omega
        | succ n => simp at this
  have hp := h.perm
  rw [h2, h3, hbusy, List.take_of_length_le hidx] at hp
  exact ⟨s.delivered, by simpa [waitingBlobs] using hp, rfl, hw⟩

/-! ### Every run ends -/

/-- How much is left to do. -/
def left (items : List Str) (s : State) : Nat :=
  5 * (items.length - s.index) + 4 * (waitingBlobs s.sendQueue).length + s.sendQueue.count .terminate
    + 3 * (busy s.workers).length + 2 * s.replyQueue.length + s.workers.count .start
    + (if s.ended.isNone then 1 else 0)

theorem busy_split (a b : List Worker) (w : Worker) : busy (a ++ w :: b) = busy a ++ busy [w] ++ busy b := by
  rw [show a ++ w :: b = a ++ [w] ++ b by simp, busy_append, busy_append]

theorem left_step {items : List Str} {s s' : State} {e : Event} (hs : step items s e = some s') :
    left items s' < left items s := by
  cases e with
  | crash i =>
    simp only [step] at hs
    split at hs
    · rename_i x hw
      cases hs
      obtain ⟨a, b, hab, hset⟩ := set_split hw
      simp only [left, hset]
      rw [hab]
      simp only [busy_split, show busy [.crashed] = [] from rfl, show busy [.working x] = [x] from rfl,
        List.length_append, List.count_append, List.count_cons, List.length_cons, List.length_nil]
      simp
    · cases hs
  | take i =>
    simp only [step] at hs
    split at hs
    · rename_i w m q hw hq
      split at hs
      · rename_i hpoll
        obtain ⟨a, b, hab, hset⟩ := set_split hw
        have hbw : busy [w] = [] := by cases w <;> first | rfl | cases hpoll
        cases m with
        | blob x =>
          cases hs
          simp only [left, hset]
          rw [hab, hq]
          simp only [busy_split, hbw, show busy [.working x] = [x] from rfl,
            show Msg.blob x :: q = [.blob x] ++ q from rfl, waiting_append,
            show waitingBlobs [.blob x] = [x] from rfl,
            List.length_append, List.count_append, List.count_cons, List.length_cons, List.length_nil,
            List.count_nil]
          simp
          omega
        | terminate =>
          cases hs
          simp only [left, hset]
          rw [hab, hq]
          simp only [busy_split, hbw, show busy [.told] = [] from rfl,
            show Msg.terminate :: q = [.terminate] ++ q from rfl, waiting_append,
            show waitingBlobs [.terminate] = [] from rfl,
            List.length_append, List.count_append, List.count_cons, List.length_cons, List.length_nil,
            List.count_nil]
          simp
          omega
      · cases hs
    · cases hs
  | giveUp i =>
    simp only [step] at hs
    split at hs
    · rename_i hw
      cases hs
      obtain ⟨a, b, hab, hset⟩ := set_split hw
      simp only [left, hset]
      rw [hab]
      simp only [busy_split, show busy [.gaveUp] = [] from rfl, show busy [.start] = [] from rfl,
        List.length_append, List.count_append, List.count_cons, List.length_nil]
      simp
    · cases hs
  | reply i =>
    simp only [step] at hs
    split at hs
    · rename_i x hw
      cases hs
      obtain ⟨a, b, hab, hset⟩ := set_split hw
      simp only [left, hset]
      rw [hab]
      simp only [busy_split, show busy [.waiting] = [] from rfl, show busy [.working x] = [x] from rfl,
        List.length_append, List.count_append, List.count_cons, List.length_cons, List.length_nil]
      simp
      omega
    · cases hs
  | receive =>
    simp only [step] at hs
    split at hs
    · cases hs
    · split at hs
      · cases hs
      · rename_i b q hq
        split at hs
        · rename_i x hx
          cases hs
          have hlt : s.index < items.length := (List.getElem?_eq_some_iff.1 hx).1
          simp only [left, hq, waiting_append, show waitingBlobs [.blob x] = [x] from rfl,
            List.length_append, List.count_append, List.length_cons, List.length_nil]
          simp
          omega
        · cases hs
          simp only [left, hq, waiting_append, show waitingBlobs [.terminate] = [] from rfl,
            List.length_append, List.count_append, List.length_cons, List.length_nil]
          simp
          omega
  | finish =>
    simp only [step] at hs
    split at hs
    · cases hs
    · rename_i hend
      split at hs
      · cases hs
        have : s.ended = none := by simpa using hend
        simp [left, this]
      · cases hs
  | abandon =>
    simp only [step] at hs
    split at hs
    · cases hs
    · rename_i hend
      cases hs
      have : s.ended = none := by simpa using hend
      simp [left, this]

/-- **C26, every run ends**: whatever the schedule, even with crashes, the reader and its workers take at
most five steps for every blob, and one more for every worker and one for the reader. -/
theorem C26_every_run_ends (items : List Str) (n : Nat) (es : List Event) (s : State)
    (hs : exec items es (init items n) = some s) : es.length ≤ 5 * items.length + n + 1 := by
  have key : ∀ (es : List Event) (t : State), exec items es t = some s → es.length ≤ left items t := by
    intro es
    induction es with
    | nil => intro t _; simp
    | cons e es ih =>
      intro t ht
      simp only [exec] at ht
      split at ht
      · cases ht
      · rename_i t1 h1
        have := ih t1 ht
        have := left_step h1
        simp only [List.length_cons]
        omega
  refine Nat.le_trans (key es _ hs) ?_
  have h1 : busy (init items n).workers = [] := by
    simp only [init, busy, List.filterMap_eq_nil_iff]
    intro w hw
    rw [(List.mem_replicate.1 hw).2]
  have h2 : (waitingBlobs (init items n).sendQueue).length = min n items.length := by
    have := (inv_init items n).perm.length_eq
    rw [h1] at this
    simpa [init] using this
  have h3 : (init items n).sendQueue.count .terminate = 0 := by
    rw [List.count_eq_zero]
    intro h
    obtain ⟨x, -, hx⟩ := List.mem_map.1 (show Msg.terminate ∈ (items.take n).map Msg.blob from h)
    cases hx
  simp only [left, h1, h2, h3]
  simp only [init, List.count_replicate, List.length_nil]
  simp
  omega

/-! ### And nothing blocks, if no worker starts late -/

/-- What holds in every state of a run without crashes in which no worker gives up at its start. -/
structure Full (items : List Str) (n : Nat) (s : State) : Prop where
  count : s.workers.count .told + s.sendQueue.count .terminate + s.index = s.delivered.length + n
  le : s.index ≤ items.length
  noGiveUp : .gaveUp ∉ s.workers

theorem full_init (items : List Str) (n : Nat) (hn : n ≤ items.length) : Full items n (init items n) where
  count := by
    have h3 : (init items n).sendQueue.count .terminate = 0 := by
      rw [List.count_eq_zero]
      intro h
      obtain ⟨x, -, hx⟩ := List.mem_map.1 (show Msg.terminate ∈ (items.take n).map Msg.blob from h)
      cases hx
    rw [h3]
    simp [init, List.count_replicate]
  le := hn
  noGiveUp := by simp [init]

theorem full_step {items : List Str} {n : Nat} {s s' : State} (h : Full items n s) {e : Event}
    (he : ∀ i, e ≠ .crash i ∧ e ≠ .giveUp i) (hs : step items s e = some s') : Full items n s' := by
  obtain ⟨hcount, hle, hg⟩ := h
  cases e with
  | crash i => exact absurd rfl (he i).1
  | giveUp i => exact absurd rfl (he i).2
  | take i =>
    simp only [step] at hs
    split at hs
    · rename_i w m q hw hq
      split at hs
      · rename_i hpoll
        obtain ⟨a, b, hab, hset⟩ := set_split hw
        have hnt : w ≠ .told := by rintro rfl; cases hpoll
        rw [hab, hq] at hcount
        rw [hab] at hg
        simp only [List.mem_append, List.mem_cons, not_or] at hg
        cases m with
        | blob x =>
          cases hs
          refine ⟨?_, hle, ?_⟩
          · simp only [hset]
            simp only [List.count_append, List.count_cons] at hcount ⊢
            simp [hnt] at hcount ⊢
            omega
          · simp only [hset, List.mem_append, List.mem_cons, not_or]
            exact ⟨hg.1, by simp, hg.2.2⟩
        | terminate =>
          cases hs
          refine ⟨?_, hle, ?_⟩
          · simp only [hset]
            simp only [List.count_append, List.count_cons] at hcount ⊢
            simp [hnt] at hcount ⊢
            omega
          · simp only [hset, List.mem_append, List.mem_cons, not_or]
            exact ⟨hg.1, by simp, hg.2.2⟩
      · cases hs
    · cases hs
  | reply i =>
    simp only [step] at hs
    split at hs
    · rename_i x hw
      cases hs
      obtain ⟨a, b, hab, hset⟩ := set_split hw
      rw [hab] at hcount hg
      simp only [List.mem_append, List.mem_cons, not_or] at hg
      refine ⟨?_, hle, ?_⟩
      · simp only [hset]
        simp only [List.count_append, List.count_cons] at hcount ⊢
        simp at hcount ⊢
        omega
      · simp only [hset, List.mem_append, List.mem_cons, not_or]
        exact ⟨hg.1, by simp, hg.2.2⟩
    · cases hs
  | receive =>
    simp only [step] at hs
    split at hs
    · cases hs
    · split at hs
      · cases hs
      · rename_i b q hq
        split at hs
        · rename_i x hx
          cases hs
          have hlt : s.index < items.length := (List.getElem?_eq_some_iff.1 hx).1
          refine ⟨?_, hlt, hg⟩
          simp only [List.count_append, List.length_append]
          simp
          omega
        · cases hs
          refine ⟨?_, hle, hg⟩
          simp only [List.count_append, List.length_append]
          simp
          omega
  | finish =>
    simp only [step] at hs
    split at hs
    · cases hs
    · split at hs
      · cases hs; exact ⟨hcount, hle, hg⟩
      · cases hs
  | abandon =>
    simp only [step] at hs
    split at hs
    · cases hs
    · cases hs; exact ⟨hcount, hle, hg⟩

theorem full_exec {items : List Str} {n : Nat} {es : List Event} {s s' : State} (h : Full items n s)
    (he : ∀ i, Event.crash i ∉ es ∧ Event.giveUp i ∉ es) (hs : exec items es s = some s') :
    Full items n s' := by
  induction es generalizing s with
  | nil => cases hs; exact h
  | cons e es ih =>
    simp only [exec] at hs
    split at hs
    · cases hs
    · rename_i s1 h1
      refine ih (full_step h (fun i => ⟨fun hi => (he i).1 (by simp [hi]), fun hi => (he i).2 (by simp [hi])⟩) h1)
        (fun i => ⟨fun hi => (he i).1 (by simp [hi]), fun hi => (he i).2 (by simp [hi])⟩) hs

theorem queue_length (q : List Msg) : q.length = (waitingBlobs q).length + q.count .terminate := by
  induction q with
  | nil => rfl
  | cons m q ih =>
    cases m with
    | blob b =>
      rw [show waitingBlobs (.blob b :: q) = b :: waitingBlobs q from rfl]
      simp [ih]; omega
    | terminate =>
      rw [show waitingBlobs (.terminate :: q) = waitingBlobs q from rfl]
      simp [ih]; omega

/-- A step that does useful work: not a crash, a worker giving up or the reader's time running out. -/
def Event.useful : Event → Bool
  | .take _ => true
  | .reply _ => true
  | .receive => true
  | .finish => true
  | _ => false

/-- **C26, nothing blocks**: with at least as many blobs as workers, as long as no worker crashes or
starts so late that it gives up, the reader is never stuck: until it has ended, the reader or one of its
workers can do something useful. -/
theorem C26_never_stuck (items : List Str) (n : Nat) (hn : n ≤ items.length) (es : List Event)
    (hc : ∀ i, Event.crash i ∉ es ∧ Event.giveUp i ∉ es) (s : State)
    (hs : exec items es (init items n) = some s) (hend : s.ended = none) :
    ∃ e, e.useful = true ∧ (step items s e).isSome = true := by
  have h := inv_exec (inv_init items n) (fun i => (hc i).1) hs
  have hf := full_exec (full_init items n hn) hc hs
  by_cases hr : s.replyQueue = []
  swap
  · obtain ⟨b, q, hq⟩ := List.exists_cons_of_ne_nil hr
    refine ⟨.receive, rfl, ?_⟩
    simp only [step, hend, hq]
    cases items[s.index]? <;> rfl
  by_cases hb : ∃ (i : Nat) (b : Str), s.workers[i]? = some (Worker.working b)
  · obtain ⟨i, b, hi⟩ := hb
    exact ⟨.reply i, rfl, by simp only [step, hi]; rfl⟩
  have hbusy : busy s.workers = [] := by
    simp only [busy, List.filterMap_eq_nil_iff]
    intro w hw
    cases w with
    | working b =>
      obtain ⟨i, hi⟩ := List.getElem?_of_mem hw
      exact absurd ⟨i, b, hi⟩ hb
    | _ => rfl
  have hlen := h.perm.length_eq
  have hq := queue_length s.sendQueue
  have hcount := hf.count
  have hle := hf.le
  rw [hr, hbusy] at hlen
  simp only [List.length_append, List.length_nil, List.length_take] at hlen
  by_cases hall : ∀ w ∈ s.workers, w = .told
  · -- everyone was told to stop
    have htold : s.workers.count .told = n := by
      rw [List.count_eq_length.2 (fun w hw => (hall w hw).symm), h.len]
    have hq0 : s.sendQueue = [] := by
      apply List.length_eq_zero_iff.1
      omega
    refine ⟨.finish, rfl, ?_⟩
    have : s.workers.all Worker.stopped = true := List.all_eq_true.2 (fun w hw => by rw [hall w hw]; rfl)
    simp [step, hend, this, hr, hq0]
  · -- someone is polling
    simp only [not_forall] at hall
    obtain ⟨w, hw, hwt⟩ := hall
    have hpoll : w.polls = true := by
      cases w with
      | start => rfl
      | waiting => rfl
      | told => exact absurd rfl hwt
      | gaveUp => exact absurd hw hf.noGiveUp
      | crashed => exact absurd hw h.noCrash
      | working b =>
        obtain ⟨i, hi⟩ := List.getElem?_of_mem hw
        exact absurd ⟨i, b, hi⟩ hb
    have htold : s.workers.count .told < n := by
      rw [← h.len]
      refine Nat.lt_of_le_of_ne List.count_le_length (fun hx => ?_)
      exact hwt (List.count_eq_length.1 hx w hw).symm
    have hq0 : s.sendQueue ≠ [] := by
      intro hx
      rw [hx] at hq hcount
      simp only [List.length_nil, List.count_nil] at hq hcount
      rw [hx] at hlen
      simp only [waitingBlobs, List.filterMap_nil, List.length_nil] at hlen
      omega
    obtain ⟨m, q, hmq⟩ := List.exists_cons_of_ne_nil hq0
    obtain ⟨i, hi⟩ := List.getElem?_of_mem hw
    refine ⟨.take i, rfl, ?_⟩
    simp only [step, hi, hmq, hpoll]
    cases m <;> rfl

/-- **C26, all together**: with at least as many blobs as workers, every run in which no worker crashes or
gives up at its start and the reader's time does not run out, and which goes on until nothing useful can
happen any more, has ended with every blob's records delivered once and every worker told to stop. -/
theorem C26_complete_run (items : List Str) (n : Nat) (hn1 : 1 ≤ n) (hn : n ≤ items.length)
    {ρ : Type} (content : Str → List ρ) (es : List Event) (hu : ∀ e ∈ es, e.useful = true) (s : State)
    (hs : exec items es (init items n) = some s)
    (hmax : ∀ e, e.useful = true → step items s e = none) :
    s.ended = some .done ∧ (∀ w ∈ s.workers, w = .told) ∧
      ∃ order : List Str, order.Perm items ∧ output content s = order.flatMap content := by
  have hc : ∀ i, Event.crash i ∉ es ∧ Event.giveUp i ∉ es :=
    fun i => ⟨fun hi => absurd (hu _ hi) (by simp [Event.useful]), fun hi => absurd (hu _ hi) (by simp [Event.useful])⟩
  have hab : s.ended ≠ some .abandoned := by
    have key : ∀ (es : List Event) (t : State), (∀ e ∈ es, e.useful = true) → t.ended ≠ some .abandoned →
        exec items es t = some s → s.ended ≠ some .abandoned := by
      intro es
      induction es with
      | nil => intro t _ ht h; cases h; exact ht
      | cons e es ih =>
        intro t hu ht h
        simp only [exec] at h
        split at h
        · cases h
        · rename_i t1 h1
          refine ih t1 (fun e he => hu e (by simp [he])) ?_ h
          have heu := hu e (by simp)
          cases e with
          | take i =>
            simp only [step] at h1
            split at h1
            · split at h1
              · split at h1 <;> (cases h1; exact ht)
              · cases h1
            · cases h1
          | reply i =>
            simp only [step] at h1
            split at h1
            · cases h1; exact ht
            · cases h1
          | receive =>
            simp only [step] at h1
            split at h1
            · cases h1
            · split at h1
              · cases h1
              · split at h1 <;> (cases h1; exact ht)
          | finish =>
            simp only [step] at h1
            split at h1
            · cases h1
            · split at h1
              · cases h1; simp
              · cases h1
          | giveUp i => cases heu
          | crash i => cases heu
          | abandon => cases heu
    exact key es _ hu (by simp [init]) hs
  have hd : s.ended = some .done := by
    cases hend : s.ended with
    | none =>
      obtain ⟨e, he, hst⟩ := C26_never_stuck items n hn es hc s hs hend
      rw [hmax e he] at hst
      cases hst
    | some x =>
      cases x with
      | done => rfl
      | abandoned => exact absurd hend hab
  obtain ⟨order, h1, h2, h3⟩ := C26_each_blob_once content items n hn1 es (fun i => (hc i).1) s hs hd
  refine ⟨hd, fun w hw => ?_, order, h1, h2⟩
  rcases h3 w hw with h | h
  · exact h
  · subst h
    exact absurd hw (full_exec (full_init items n hn) hc hs).noGiveUp

/-- Three blobs, two workers; the second blob is delivered first. -/
example :
    let items := ["a", "b", "c"].map String.toList
    let es : List Event := [.take 0, .take 1, .reply 1, .receive, .take 1, .reply 0, .receive, .take 0, .reply 1,
      .receive, .take 1, .finish]
    (∀ e ∈ es, e.useful = true) ∧ ∃ s, exec items es (init items 2) = some s ∧ s.ended = some .done ∧
      s.delivered = ["b", "a", "c"].map String.toList := by
  refine ⟨by decide, ?_⟩
  refine ⟨(exec (["a", "b", "c"].map String.toList) [.take 0, .take 1, .reply 1, .receive, .take 1, .reply 0, .receive,
    .take 0, .reply 1, .receive, .take 1, .finish] (init (["a", "b", "c"].map String.toList) 2)).get (by decide), ?_, ?_, ?_⟩
  · simp
  · decide
  · decide

/-! ### What can go wrong -/

/-- **C26 fails for workers that start late.**  Two blobs and two workers, and the first worker reads both
before the second looks for work: the second gives up.  Everything has been delivered, but the reader
waits: one TERMINATE_SIGNAL stays in the queue, nobody is left to take it, and the only step that remains
is the end of the 600 seconds. -/
theorem C26_late_worker_fails :
    ∃ s, exec ["a".toList, "b".toList] [.take 0, .reply 0, .take 0, .reply 0, .giveUp 1, .receive, .receive, .take 0]
        (init ["a".toList, "b".toList] 2) = some s ∧ s.delivered = ["a".toList, "b".toList] ∧
      s.ended = none ∧ s.workers = [.told, .gaveUp] ∧
      ∀ e, e ≠ .abandon → step ["a".toList, "b".toList] s e = none := by
  refine ⟨⟨[.terminate], [], [.told, .gaveUp], 2, ["a".toList, "b".toList], none⟩, by decide, rfl, rfl, rfl, ?_⟩
  intro e he
  cases e with
  | take i => match i with
    | 0 => rfl
    | 1 => rfl
    | i + 2 => rfl
  | giveUp i => match i with
    | 0 => rfl
    | 1 => rfl
    | i + 2 => rfl
  | reply i => match i with
    | 0 => rfl
    | 1 => rfl
    | i + 2 => rfl
  | crash i => match i with
    | 0 => rfl
    | 1 => rfl
    | i + 2 => rfl
  | receive => rfl
  | finish => rfl
  | abandon => exact absurd rfl he

/-- **C26 fails for a single blob.**  There are always at least two workers, but only one TERMINATE_SIGNAL is
sent for a single blob.  If the worker that did not read the blob takes it, the other waits for ever (and
the reader, once it has given up after 600 seconds, waits for that worker). -/
theorem C26_single_blob_fails :
    ∃ s, exec ["a".toList] [.take 0, .reply 0, .receive, .take 1] (init ["a".toList] (slots ["a".toList] 8)) = some s ∧
      s.delivered = ["a".toList] ∧ s.ended = none ∧ s.workers = [.waiting, .told] ∧
      ∀ e, e ≠ .abandon → step ["a".toList] s e = none := by
  refine ⟨⟨[], [], [.waiting, .told], 2, ["a".toList], none⟩, by decide, rfl, rfl, rfl, ?_⟩
  intro e he
  cases e with
  | take i => match i with
    | 0 => rfl
    | 1 => rfl
    | i + 2 => rfl
  | giveUp i => match i with
    | 0 => rfl
    | 1 => rfl
    | i + 2 => rfl
  | reply i => match i with
    | 0 => rfl
    | 1 => rfl
    | i + 2 => rfl
  | crash i => match i with
    | 0 => rfl
    | 1 => rfl
    | i + 2 => rfl
  | receive => rfl
  | finish => rfl
  | abandon => exact absurd rfl he

/-- With no blobs at all and workers that find nothing, the reader ends at once with nothing. -/
example : ∃ s, exec [] [.giveUp 0, .giveUp 1, .finish] (init [] (slots [] 8)) = some s ∧ s.ended = some .done ∧
    s.delivered = [] := ⟨⟨[], [], [.gaveUp, .gaveUp], 2, [], some .done⟩, by decide, rfl, rfl⟩

/-- **C26 fails silently when a worker crashes**: the worker that reads blob "b" dies, the other two find
nothing and stop, and the reader ends as if all were well, without the records of "b". -/
theorem C26_crash_fails :
    ∃ s, exec ["b".toList] [.take 0, .giveUp 1, .crash 0, .finish] (init ["b".toList] 2) = some s ∧
      s.ended = some .done ∧ s.delivered = [] :=
  ⟨⟨[], [], [.crashed, .gaveUp], 2, [], some .done⟩, by decide, rfl, rfl⟩

/-! ### What goes through the queue -/

/-- Text (in bytes) without line breaks and not empty, as a record's JSON text is. -/
def Lines (dumps : Record → Blobs.Bytes) : Prop := ∀ r, dumps r ≠ [] ∧ 10 ∉ dumps r

theorem splitNewline_join (b : Blobs.Bytes) (hb : 10 ∉ b) (acc rest : Blobs.Bytes) :
    Blobs.splitNewline acc (b ++ 10 :: rest) = (acc ++ b) :: Blobs.splitNewline [] rest := by
  induction b generalizing acc with
  | nil => simp [Blobs.splitNewline]
  | cons x b ih =>
    have hx : x ≠ 10 := fun h => hb (by simp [h])
    simp only [List.cons_append, Blobs.splitNewline, hx, if_false]
    rw [ih (fun h => hb (by simp [h]))]
    simp

theorem splitNewline_last (b : Blobs.Bytes) (hb : 10 ∉ b) (acc : Blobs.Bytes) :
    Blobs.splitNewline acc b = [acc ++ b] := by
  induction b generalizing acc with
  | nil => simp [Blobs.splitNewline]
  | cons x b ih =>
    have hx : x ≠ 10 := fun h => hb (by simp [h])
    simp only [Blobs.splitNewline, hx, if_false]
    rw [ih (fun h => hb (by simp [h]))]
    simp

/-- **C26, the records**: if reading back JSON text gives the record, the records of a blob come out of the
queue in order and with every None replaced by the text `None`. -/
theorem C26_queue_round_trip (dumps : Record → Blobs.Bytes) (loads : Blobs.Bytes → Except Err Record)
    (hl : Lines dumps) (hld : ∀ r, loads (dumps r) = .ok r) (rs : List Record) :
    unpack loads (pack dumps rs) = .ok (rs.map fixDict) := by
  have hsplit : ∀ rs : List Record, (Blobs.splitNewline [] (pack dumps rs)).filter (fun l => l ≠ [])
      = rs.map (fun r => dumps (fixDict r)) := by
    intro rs
    induction rs with
    | nil => rfl
    | cons r rs ih =>
      cases rs with
      | nil =>
        simp only [pack, List.map_cons, List.map_nil, joinNewline]
        rw [splitNewline_last _ (hl _).2]
        simp [(hl (fixDict r)).1]
      | cons r' rs =>
        have : pack dumps (r :: r' :: rs) = dumps (fixDict r) ++ 10 :: pack dumps (r' :: rs) := by
          simp [pack, joinNewline]
        rw [this, splitNewline_join _ (hl _).2, List.filter_cons, ih]
        simp [(hl (fixDict r)).1]
  unfold unpack
  rw [hsplit]
  induction rs with
  | nil => rfl
  | cons r rs ih =>
    simp only [List.map_cons, List.mapM_cons, hld]
    rw [ih]
    rfl

/-- Records without None come out unchanged. -/
theorem C26_queue_unchanged_partial (dumps : Record → Blobs.Bytes) (loads : Blobs.Bytes → Except Err Record)
    (hl : Lines dumps) (hld : ∀ r, loads (dumps r) = .ok r) (rs : List Record)
    (hnone : ∀ r ∈ rs, ∀ kv ∈ r, kv.2 ≠ .none) : unpack loads (pack dumps rs) = .ok rs := by
  rw [C26_queue_round_trip dumps loads hl hld]
  congr 1
  rw [List.map_congr_left (g := id), List.map_id]
  intro r hr
  show fixDict r = r
  unfold fixDict
  rw [List.map_congr_left (g := id), List.map_id]
  rintro ⟨k, v⟩ hkv
  have := hnone r hr _ hkv
  cases v <;> first | rfl | exact absurd rfl this

/-- **C26 fails for None**: read by several processes, a record's None is the text "None"; read by one
process it is None. -/
theorem C26_none_becomes_text_fails (dumps : Record → Blobs.Bytes) (loads : Blobs.Bytes → Except Err Record)
    (hl : Lines dumps) (hld : ∀ r, loads (dumps r) = .ok r) :
    unpack loads (pack dumps [[("a".toList, .none)]]) = .ok [[("a".toList, .str "None".toList)]] := by
  rw [C26_queue_round_trip dumps loads hl hld]
  rfl

end Mabel.Parallel
