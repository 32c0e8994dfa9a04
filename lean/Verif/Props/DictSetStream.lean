import Verif.Model.DictSetStream
import Verif.Props.DictSet
import Mathlib.Data.Rat.Floor
import Mathlib.Algebra.Order.Floor.Ring
import Mathlib.Tactic.FieldSimp
import Mathlib.Tactic.Linarith
import Mathlib.Tactic.NormNum
import Mathlib.Tactic.Positivity
import Mathlib.Tactic.Ring

/-!
# C80: a set which is not stored hands out each record once
-/

namespace Mabel.DictSet
open Mabel.Py

variable {α : Type}

/-! ## Specification -/

/-- A generator which has yielded nothing so far. -/
def Stage.Fresh : Stage α → Prop
  | .take _ count => count = 0
  | .distinct _ seen => seen = []
  | _ => True

/-- Does a generator keep what `tag` looks at (all do, except for selecting columns)? -/
def Stage.Keeps {τ : Type} (tag : α → τ) : Stage α → Prop
  | .select columns => ∀ x, tag (columns x) = tag x
  | _ => True

/-- A program which derives only with generators that keep `tag`. -/
def Command.Keeps {τ : Type} (tag : α → τ) : Command α → Prop
  | .derive _ stage => stage.Keeps tag
  | _ => True

/-- A read of the set itself, not of one derived from it. -/
def Command.Own : Command α → Prop
  | .next none => True
  | .all none => True
  | _ => False

/-- The first record of each fingerprint. -/
def firstOfEach (fp : α → BitVec 64) (l : List α) : List α :=
  (l.zipIdx.filter fun xi => decide (∀ j < xi.2, (l[j]?).map fp ≠ some (fp xi.1))).map (·.1)

/-- What filter, select, take, distinct and sample mean for a list of records. -/
def Stage.meaning : Stage α → List α → List α
  | .filter keep, l => l.filter keep
  | .select columns, l => l.map columns
  | .take items _, l => if items ≤ 0 then l else l.take items.toNat
  | .distinct fp _, l => firstOfEach fp l
  | .sample selector draws, l => (l.zipIdx.filter fun xi => (draws[xi.2]?).getD 0 % selector == 0).map (·.1)

/-- The commands that derive a set from the last one with each of the generators in turn; `n` sets were
derived before. -/
def chain : Nat → List (Stage α) → List (Command α)
  | _, [] => []
  | n, s :: ss => .derive (if n = 0 then none else some (n - 1)) s :: chain (n + 1) ss

/-! ## Once each -/

theorem step_keeps {τ : Type} (tag : α → τ) (s : Stage α) (x : α) (h : s.Keeps tag) :
    (s.step x).1.Keeps tag ∧ ∀ y, (s.step x).2 = some y → tag y = tag x := by
  cases s with
  | filter keep => refine ⟨trivial, fun y hy => ?_⟩; simp only [Stage.step] at hy; split at hy <;> simp_all
  | select columns => exact ⟨h, fun y hy => by simp [Stage.step] at hy; rw [← hy]; exact h x⟩
  | take items count => exact ⟨trivial, fun y hy => by simp [Stage.step] at hy; rw [hy]⟩
  | distinct fp seen =>
    simp only [Stage.step]
    split
    · exact ⟨trivial, fun y hy => by simp at hy⟩
    · exact ⟨trivial, fun y hy => by simp at hy; rw [hy]⟩
  | sample selector draws => refine ⟨trivial, fun y hy => ?_⟩; simp only [Stage.step] at hy; split at hy <;> simp_all

theorem feed_keeps {τ : Type} (tag : α → τ) (ss : List (Stage α)) : ∀ (x : α), (∀ s ∈ ss, s.Keeps tag) →
    (∀ s ∈ (feed ss x).1, s.Keeps tag) ∧ (∀ y, (feed ss x).2 = some y → tag y = tag x) ∧
      (feed ss x).1.length = ss.length := by
  induction ss with
  | nil => intro x _; simp [feed]
  | cons s ss ih =>
    intro x h
    have hs := step_keeps tag s x (h s List.mem_cons_self)
    have hss : ∀ t ∈ ss, t.Keeps tag := fun t ht => h t (List.mem_cons_of_mem _ ht)
    unfold feed
    rcases hst : s.step x with ⟨s', o⟩
    rw [hst] at hs
    cases o with
    | none =>
      refine ⟨?_, by simp, by simp⟩
      intro t ht
      rcases List.mem_cons.1 ht with rfl | ht
      · exact hs.1
      · exact hss t ht
    | some y =>
      have hr := ih y hss
      refine ⟨?_, ?_, by simp [hr.2.2]⟩
      · intro t ht
        rcases List.mem_cons.1 ht with rfl | ht
        · exact hs.1
        · exact hr.1 t ht
      · intro z hz; rw [hr.2.1 z hz]; exact hs.2 y rfl

theorem pull_sublist {τ : Type} (tag : α → τ) (l : List α) : ∀ ss : List (Stage α), (∀ s ∈ ss, s.Keeps tag) →
    (((pull ss l).1.toList ++ (pull ss l).2.2).map tag).Sublist (l.map tag) ∧
      (∀ s ∈ (pull ss l).2.1, s.Keeps tag) := by
  induction l with
  | nil => intro ss h; simpa [pull] using h
  | cons x xs ih =>
    intro ss h
    unfold pull
    split
    · exact ⟨by simp, h⟩
    · have hf := feed_keeps tag ss x h
      rcases hfe : feed ss x with ⟨ss', o⟩
      rw [hfe] at hf
      cases o with
      | none => exact ⟨(ih ss' hf.1).1.trans (by simp), (ih ss' hf.1).2⟩
      | some y =>
        refine ⟨?_, hf.1⟩
        simp [hf.2.1 y rfl]

theorem drain_sublist {τ : Type} (tag : α → τ) (l : List α) : ∀ ss : List (Stage α), (∀ s ∈ ss, s.Keeps tag) →
    (((drain ss l).1 ++ (drain ss l).2.2).map tag).Sublist (l.map tag) ∧
      (∀ s ∈ (drain ss l).2.1, s.Keeps tag) := by
  induction l with
  | nil => intro ss h; simpa [drain] using h
  | cons x xs ih =>
    intro ss h
    unfold drain
    split
    · exact ⟨by simp, h⟩
    · have hf := feed_keeps tag ss x h
      rcases hfe : feed ss x with ⟨ss', o⟩
      rw [hfe] at hf
      have hi := ih ss' hf.1
      refine ⟨?_, hi.2⟩
      cases o with
      | none => exact hi.1.trans (by simp)
      | some y =>
        simp only [Option.toList, List.cons_append, List.nil_append, List.map_cons, hf.2.1 y rfl]
        exact hi.1.cons_cons _

theorem stagesAt_keeps {τ : Type} (tag : α → τ) (nodes : List (Node α)) (path : List Nat)
    (h : ∀ n ∈ nodes, n.stage.Keeps tag) : ∀ s ∈ stagesAt nodes path, s.Keeps tag := by
  intro s hs
  obtain ⟨i, _, hi⟩ := List.mem_filterMap.1 hs
  cases hn : nodes[i]? with
  | none => simp [hn] at hi
  | some n =>
    simp only [hn, Option.map_some, Option.some.injEq] at hi
    rw [← hi]; exact h n (List.mem_of_getElem? hn)

theorem writeStages_keeps {τ : Type} (tag : α → τ) (path : List Nat) : ∀ (nodes : List (Node α)) (ss : List (Stage α)),
    (∀ n ∈ nodes, n.stage.Keeps tag) → (∀ s ∈ ss, s.Keeps tag) → ∀ n ∈ writeStages nodes path ss, n.stage.Keeps tag := by
  induction path with
  | nil => intro nodes ss h _; unfold writeStages; exact h
  | cons i is ih =>
    intro nodes ss h hss
    cases ss with
    | nil => unfold writeStages; exact h
    | cons s ss =>
      unfold writeStages
      apply ih _ _ _ (fun t ht => hss t (List.mem_cons_of_mem _ ht))
      intro n hn
      obtain ⟨j, hj⟩ := List.mem_iff_getElem?.1 hn
      rw [List.getElem?_modify] at hj
      cases hnj : nodes[j]? with
      | none => simp [hnj] at hj
      | some m =>
        simp only [hnj, Option.map_eq_map, Option.map_some, Option.some.injEq] at hj
        split at hj
        · rw [← hj]; exact hss s List.mem_cons_self
        · rw [← hj]; exact h m (List.mem_of_getElem? hnj)

theorem run_sublist {τ : Type} (tag : α → τ) (s : Session α) (c : Command α) (hc : c.Keeps tag)
    (h : ∀ n ∈ s.nodes, n.stage.Keeps tag) :
    (((s.run c).1 ++ (s.run c).2.source).map tag).Sublist (s.source.map tag) ∧
      ∀ n ∈ (s.run c).2.nodes, n.stage.Keeps tag := by
  cases c with
  | derive parent stage =>
    simp only [Session.run]
    split
    · refine ⟨by simp, fun n hn => ?_⟩
      rcases List.mem_append.1 hn with hn | hn
      · exact h n hn
      · simp at hn; rw [hn]; exact hc
    · exact ⟨by simp, h⟩
  | next of =>
    have := pull_sublist tag s.source _ (stagesAt_keeps tag s.nodes (s.path of) h)
    exact ⟨this.1, writeStages_keeps tag _ _ _ h this.2⟩
  | all of =>
    have := drain_sublist tag s.source _ (stagesAt_keeps tag s.nodes (s.path of) h)
    exact ⟨this.1, writeStages_keeps tag _ _ _ h this.2⟩

theorem runAll_sublist {τ : Type} (tag : α → τ) (cs : List (Command α)) : ∀ (s : Session α),
    (∀ c ∈ cs, c.Keeps tag) → (∀ n ∈ s.nodes, n.stage.Keeps tag) →
    (((s.runAll cs).1.flatten ++ (s.runAll cs).2.source).map tag).Sublist (s.source.map tag) := by
  induction cs with
  | nil => intro s _ _; simp [Session.runAll]
  | cons c cs ih =>
    intro s hc h
    have h1 := run_sublist tag s c (hc c List.mem_cons_self) h
    have h2 := ih (s.run c).2 (fun d hd => hc d (List.mem_cons_of_mem _ hd)) h1.2
    unfold Session.runAll
    simp only [List.flatten_cons, List.append_assoc]
    refine List.Sublist.trans ?_ h1.1
    rw [List.map_append, List.map_append (l₁ := (s.run c).1)]
    exact List.Sublist.append (List.Sublist.refl _) h2

/-- C80: over any history of reads of a set which is not stored and of sets derived from it, interleaved
in any way, what is handed out and what is left over come from distinct records of the source, in the order
of the source.  `tag` is whatever identifies a record and is not touched by selecting columns. -/
theorem C80_at_most_once {τ : Type} (tag : α → τ) (l : List α) (history : List (Command α))
    (h : ∀ c ∈ history, c.Keeps tag) :
    ((((⟨l, []⟩ : Session α).runAll history).1.flatten ++ ((⟨l, []⟩ : Session α).runAll history).2.source).map
      tag).Sublist (l.map tag) :=
  runAll_sublist tag history ⟨l, []⟩ h (by simp)

/-- C80: so no record is handed out twice. -/
theorem C80_never_twice {τ : Type} (tag : α → τ) (l : List α) (hl : (l.map tag).Nodup) (history : List (Command α))
    (h : ∀ c ∈ history, c.Keeps tag) :
    (((⟨l, []⟩ : Session α).runAll history).1.flatten.map tag).Nodup := by
  have := (C80_at_most_once tag l history h).nodup hl
  rw [List.map_append] at this
  exact (List.nodup_append.1 this).1

theorem pull_own (l : List α) : pull [] l = (l.head?, [], l.tail) := by
  cases l <;> simp [pull, feed]

theorem drain_own (l : List α) : drain [] l = (l, [], []) := by
  induction l with
  | nil => rfl
  | cons x xs ih => unfold drain; simp [feed, ih]

/-- C80: reads of the set itself lose nothing: what they hand out followed by what is left is the source. -/
theorem C80_nothing_lost (l : List α) (history : List (Command α)) (h : ∀ c ∈ history, c.Own) :
    ((⟨l, []⟩ : Session α).runAll history).1.flatten ++ ((⟨l, []⟩ : Session α).runAll history).2.source = l := by
  have hp : ∀ s : Session α, s.nodes = [] → s.path none = [] ∧ ∀ p, stagesAt s.nodes p = [] := by
    intro s hs
    refine ⟨?_, fun p => ?_⟩
    · unfold Session.path; rw [hs]; rfl
    · unfold stagesAt; rw [hs]; simp
  have : ∀ (history : List (Command α)) (s : Session α), s.nodes = [] → (∀ c ∈ history, c.Own) →
      (s.runAll history).1.flatten ++ (s.runAll history).2.source = s.source := by
    intro history
    induction history with
    | nil => intro s _ _; rfl
    | cons c cs ih =>
      intro s hs hc
      have hcs := fun d hd => hc d (List.mem_cons_of_mem _ hd)
      unfold Session.runAll
      simp only [List.flatten_cons, List.append_assoc]
      cases c with
      | derive p st => exact absurd (hc _ List.mem_cons_self) (by simp [Command.Own])
      | next of =>
        cases of with
        | some i => exact absurd (hc _ List.mem_cons_self) (by simp [Command.Own])
        | none =>
          rw [ih _ (by simp [Session.run, (hp s hs).1, writeStages, hs]) hcs]
          simp only [Session.run, (hp s hs).1, (hp s hs).2, pull_own]
          cases s.source <;> rfl
      | all of =>
        cases of with
        | some i => exact absurd (hc _ List.mem_cons_self) (by simp [Command.Own])
        | none =>
          rw [ih _ (by simp [Session.run, (hp s hs).1, writeStages, hs]) hcs]
          simp only [Session.run, (hp s hs).1, (hp s hs).2, drain_own, List.append_nil]
  exact this history _ rfl h

/-- Sample programs meet the hypotheses: a filtered set and the set itself read in turns. -/
example : ((⟨[1, 2, 3, 4, 5, 6], []⟩ : Session Nat).runAll
    [.derive none (.filter fun n => n % 2 == 0), .next (some 0), .next none, .next (some 0), .all none]).1 =
    [[], [2], [3], [4], [5, 6]] := by decide

example : ((⟨[1, 2, 3, 4, 5, 6], []⟩ : Session Nat).runAll [.next none, .all none, .next none]).1 =
    [[1], [2, 3, 4, 5, 6], []] := by decide

/-! ## Derived sets -/

theorem drain_closed (ss : List (Stage α)) (l : List α) (h : ss.any Stage.closed = true) : (drain ss l).1 = [] := by
  cases l with
  | nil => rfl
  | cons x xs => unfold drain; rw [if_pos h]

theorem drain_step (ss : List (Stage α)) (x : α) (xs : List α) (h : ¬ ss.any Stage.closed = true) :
    (drain ss (x :: xs)).1 = (feed ss x).2.toList ++ (drain (feed ss x).1 xs).1 := by
  rw [drain, if_neg h]

theorem drain_cons (l : List α) : ∀ (s : Stage α) (ss : List (Stage α)),
    (drain (s :: ss) l).1 = (drain ss (drain [s] l).1).1 := by
  induction l with
  | nil => intro s ss; rfl
  | cons x xs ih =>
    intro s ss
    by_cases hs : s.closed = true
    · rw [drain_closed (s :: ss) _ (by simp [hs]), drain_closed [s] _ (by simp [hs])]; rfl
    by_cases hss : ss.any Stage.closed = true
    · rw [drain_closed (s :: ss) _ (by rw [List.any_cons, hss, Bool.or_true]), drain_closed ss _ hss]
    have h1 : ¬ (s :: ss).any Stage.closed = true := by rw [List.any_cons]; simp [hs, hss]
    have h2 : ¬ [s].any Stage.closed = true := by simp [hs]
    rw [drain_step _ _ _ h1, drain_step _ _ _ h2]
    simp only [feed]
    rcases hst : s.step x with ⟨s', o⟩
    cases o with
    | none => simp only [Option.toList, List.nil_append]; rw [ih]
    | some y =>
      simp only [Option.toList, List.cons_append, List.nil_append]
      rw [drain_step _ _ _ hss, ih]
      cases (feed ss y).2 <;> rfl

theorem drain_single (s : Stage α) (x : α) (xs : List α) (h : s.closed = false) :
    (drain [s] (x :: xs)).1 = (s.step x).2.toList ++ (drain [(s.step x).1] xs).1 := by
  rw [drain_step _ _ _ (by simp [h])]
  simp only [feed]
  rcases hst : s.step x with ⟨s', o⟩
  cases o <;> rfl

theorem drain_filter (keep : α → Bool) (l : List α) : (drain [.filter keep] l).1 = l.filter keep := by
  induction l with
  | nil => rfl
  | cons x xs ih =>
    rw [drain_single _ _ _ rfl]
    simp only [Stage.step, ih, List.filter_cons]
    split <;> simp

theorem drain_select (columns : α → α) (l : List α) : (drain [.select columns] l).1 = l.map columns := by
  induction l with
  | nil => rfl
  | cons x xs ih => rw [drain_single _ _ _ rfl]; simp [Stage.step, ih]

theorem drain_take_all (items : Int) (h : items ≤ 0) (l : List α) : ∀ count,
    (drain [.take items count] l).1 = l := by
  induction l with
  | nil => intro _; rfl
  | cons x xs ih =>
    intro count
    rw [drain_single _ _ _ (by simp only [Stage.closed]; simp; omega)]
    simp [Stage.step, ih]

theorem drain_take (n : Nat) (l : List α) : ∀ count, count ≤ n → 0 < n →
    (drain [.take (n : Int) count] l).1 = l.take (n - count) := by
  induction l with
  | nil => intro _ _ _; simp [drain]
  | cons x xs ih =>
    intro count hc hn
    by_cases hcn : count = n
    · rw [drain_closed _ _ (by simp only [List.any_cons, Stage.closed, List.any_nil, Bool.or_false]; simp; omega)]
      simp [hcn]
    · rw [drain_single _ _ _ (by simp only [Stage.closed]; simp; omega)]
      simp only [Stage.step]
      rw [ih _ (by omega) hn, show n - count = (n - (count + 1)) + 1 by omega]
      rfl

theorem zipIdx_filter_cons (p : α × Nat → Bool) (x : α) (xs : List α) :
    ((x :: xs).zipIdx.filter p).map (·.1) =
      (if p (x, 0) then [x] else []) ++ (xs.zipIdx.filter fun yi => p (yi.1, yi.2 + 1)).map (·.1) := by
  rw [List.zipIdx_cons, List.filter_cons]
  have : (xs.zipIdx (0 + 1)) = xs.zipIdx.map fun yi => (yi.1, yi.2 + 1) := by
    exact List.zipIdx_succ
  rw [this, List.filter_map]
  split <;> simp [Function.comp_def]

theorem drain_distinct (fp : α → BitVec 64) (l : List α) : ∀ seen,
    (drain [.distinct fp seen] l).1 =
      (l.zipIdx.filter fun xi => decide (fp xi.1 ∉ seen ∧ ∀ j < xi.2, (l[j]?).map fp ≠ some (fp xi.1))).map (·.1) := by
  induction l with
  | nil => intro _; rfl
  | cons x xs ih =>
    intro seen
    rw [drain_single _ _ _ rfl, zipIdx_filter_cons]
    by_cases h : fp x ∈ seen
    · simp only [Stage.step, List.contains_eq_mem, h, decide_true, if_true, Option.toList, List.nil_append, ih]
      simp only [not_true_eq_false, false_and, decide_false, Bool.false_eq_true, if_false, List.nil_append]
      congr 1
      apply List.filter_congr
      intro yi _
      rw [decide_eq_decide]
      constructor
      · rintro ⟨h1, h2⟩
        refine ⟨h1, fun j hj => ?_⟩
        cases j with
        | zero => intro he; simp at he; exact h1 (he ▸ h)
        | succ j => exact h2 j (by omega)
      · rintro ⟨h1, h2⟩
        exact ⟨h1, fun j hj => h2 (j + 1) (by omega)⟩
    · simp only [Stage.step, List.contains_eq_mem, h, decide_false, Bool.false_eq_true, if_false, Option.toList, ih]
      simp only [not_false_eq_true, true_and]
      have : decide (∀ j < 0, Option.map fp (x :: xs)[j]? ≠ some (fp x)) = true := by simp
      rw [if_pos this]
      congr 2
      apply List.filter_congr
      intro yi _
      rw [decide_eq_decide]
      constructor
      · rintro ⟨h1, h2⟩
        refine ⟨fun hm => h1 (List.mem_cons_of_mem _ hm), fun j hj => ?_⟩
        cases j with
        | zero => intro he; simp at he; exact h1 (by rw [he]; exact List.mem_cons_self)
        | succ j => exact h2 j (by omega)
      · rintro ⟨h1, h2⟩
        refine ⟨?_, fun j hj => h2 (j + 1) (by omega)⟩
        intro hm
        rcases List.mem_cons.1 hm with he | hm
        · exact h2 0 (by omega) (by simp [he])
        · exact h1 hm

theorem drain_sample (selector : Nat) (l : List α) : ∀ draws,
    (drain [.sample selector draws] l).1 =
      (l.zipIdx.filter fun xi => (draws[xi.2]?).getD 0 % selector == 0).map (·.1) := by
  induction l with
  | nil => intro _; rfl
  | cons x xs ih =>
    intro draws
    rw [drain_single _ _ _ rfl, zipIdx_filter_cons]
    simp only [Stage.step, ih]
    have : draws.headD 0 = (draws[0]?).getD 0 := by cases draws <;> rfl
    rw [this]
    congr 1
    · by_cases hc : (draws[0]?).getD 0 % selector = 0 <;> simp [hc]
    · congr 1
      apply List.filter_congr
      intro yi _
      rw [List.getElem?_tail]

theorem drain_meaning (s : Stage α) (h : s.Fresh) (l : List α) : (drain [s] l).1 = s.meaning l := by
  cases s with
  | filter keep => exact drain_filter keep l
  | select columns => exact drain_select columns l
  | take items count =>
    obtain rfl : count = 0 := h
    simp only [Stage.meaning]
    by_cases hi : items ≤ 0
    · rw [if_pos hi, drain_take_all items hi]
    · rw [if_neg hi]
      obtain ⟨n, rfl⟩ : ∃ n : Nat, items = n := ⟨items.toNat, by omega⟩
      rw [drain_take n l 0 (by omega) (by omega)]
      simp
  | distinct fp seen =>
    obtain rfl : seen = [] := h
    rw [drain_distinct]
    simp [Stage.meaning, firstOfEach]
  | sample selector draws => exact drain_sample selector l draws

theorem drain_stages (ss : List (Stage α)) : ∀ (l : List α), (∀ s ∈ ss, s.Fresh) →
    (drain ss l).1 = ss.foldl (fun l s => s.meaning l) l := by
  induction ss with
  | nil => intro l _; rw [drain_own]; rfl
  | cons s ss ih =>
    intro l h
    rw [drain_cons, drain_meaning s (h s List.mem_cons_self), ih _ fun t ht => h t (List.mem_cons_of_mem _ ht)]
    rfl

/-! ### Chains of derived sets -/

/-- The sets after a chain of derivations. -/
def chainNodes (ss : List (Stage α)) : List (Node α) :=
  ss.mapIdx fun i s => ⟨if i = 0 then none else some (i - 1), s⟩

theorem chain_run (ss : List (Stage α)) : ∀ (pre : List (Stage α)) (l : List α) (cs : List (Command α)),
    (⟨l, chainNodes pre⟩ : Session α).runAll (chain pre.length ss ++ cs) =
      ((List.replicate ss.length []) ++ ((⟨l, chainNodes (pre ++ ss)⟩ : Session α).runAll cs).1,
        ((⟨l, chainNodes (pre ++ ss)⟩ : Session α).runAll cs).2) := by
  induction ss with
  | nil => intro pre l cs; simp [chain]
  | cons s ss ih =>
    intro pre l cs
    have hn : chainNodes (pre ++ [s]) = chainNodes pre ++ [⟨if pre.length = 0 then none else some (pre.length - 1), s⟩] := by
      unfold chainNodes; rw [List.mapIdx_append]; simp
    have hr : (⟨l, chainNodes pre⟩ : Session α).run (.derive (if pre.length = 0 then none else some (pre.length - 1)) s) =
        ([], ⟨l, chainNodes (pre ++ [s])⟩) := by
      simp only [Session.run]
      rw [if_pos, hn]
      have : (chainNodes pre).length = pre.length := by simp [chainNodes]
      by_cases h0 : pre.length = 0
      · simp [h0]
      · simp only [h0, if_false, Option.all_some, this]; simp; omega
    have := ih (pre ++ [s]) l cs
    rw [List.length_append, List.length_singleton] at this
    simp only [chain, List.cons_append, Session.runAll, hr, this, List.append_assoc, List.singleton_append,
      List.length_cons, List.replicate_succ]
    rfl

theorem chain_path (ss : List (Stage α)) : ∀ (k fuel : Nat), k < ss.length → k < fuel →
    pathOf (chainNodes ss) fuel (some k) = (List.range (k + 1)).reverse := by
  intro k
  induction k with
  | zero =>
    intro fuel h hf
    obtain ⟨f, rfl⟩ : ∃ f, fuel = f + 1 := ⟨fuel - 1, by omega⟩
    have : (chainNodes ss)[0]? = some ⟨none, ss[0]⟩ := by simp [chainNodes, h]
    unfold pathOf; rw [this]
    cases f <;> simp [pathOf]
  | succ k ih =>
    intro fuel h hf
    obtain ⟨f, rfl⟩ : ∃ f, fuel = f + 1 := ⟨fuel - 1, by omega⟩
    have : (chainNodes ss)[k + 1]? = some ⟨some k, ss[k + 1]⟩ := by simp [chainNodes, h]
    unfold pathOf; rw [this]
    simp only
    rw [ih f (by omega) (by omega), List.range_succ (n := k + 1), List.reverse_append]
    rfl

theorem chain_stages (ss : List (Stage α)) (l : List α) (h : ss ≠ []) :
    stagesAt (chainNodes ss) ((⟨l, chainNodes ss⟩ : Session α).path (some (ss.length - 1))) = ss := by
  have hpos : 0 < ss.length := List.length_pos_iff.2 h
  have hlen : (chainNodes ss).length = ss.length := by simp [chainNodes]
  unfold Session.path
  simp only [hlen]
  rw [chain_path ss _ _ (by omega) (by omega), List.reverse_reverse]
  have : ss.length - 1 + 1 = ss.length := by omega
  rw [this]
  unfold stagesAt
  have hg : ∀ i : Nat, ((chainNodes ss)[i]?).map Node.stage = ss[i]? := by
    intro i; unfold chainNodes; rw [List.getElem?_mapIdx, Option.map_map]; simp [Function.comp_def]
  have hs : (fun i : Nat => ((chainNodes ss)[i]?).map fun x => x.stage) = fun i => ss[i]? := funext hg
  rw [hs]
  clear hs hg this hlen hpos h
  induction ss with
  | nil => rfl
  | cons s ss ih =>
    rw [List.length_cons, List.range_succ_eq_map, List.filterMap_cons]
    simp only [List.getElem?_cons_zero, List.filterMap_map, Function.comp_def, List.getElem?_cons_succ]
    rw [ih]

/-- C80: a set derived from an unread one by any chain of filters, selections, takes, distincts and samples,
read to its end, has exactly the records these mean, one after the other. -/
theorem C80_derived (l : List α) (ss : List (Stage α)) (hne : ss ≠ []) (h : ∀ s ∈ ss, s.Fresh) :
    ((⟨l, []⟩ : Session α).runAll (chain 0 ss ++ [.all (some (ss.length - 1))])).1 =
      List.replicate ss.length [] ++ [ss.foldl (fun l s => s.meaning l) l] := by
  have := chain_run ss [] l [.all (some (ss.length - 1))]
  rw [show chainNodes ([] : List (Stage α)) = [] from rfl, List.length_nil, List.nil_append] at this
  rw [this]
  simp only [Session.runAll, Session.run, chain_stages ss l hne, drain_stages ss l h]

example : ((⟨[1, 2, 3, 4, 5, 6, 7], []⟩ : Session Nat).runAll
    (chain 0 [.filter fun n => n % 2 == 1, .select (· + 10), .take 2 0] ++ [.all (some 2)])).1 = [[], [], [], [11, 13]] := by
  decide

theorem drain_take_rest (n : Nat) (l : List α) : ∀ count, count ≤ n → 0 < n →
    (drain [.take (n : Int) count] l).2.2 = l.drop (n - count) := by
  induction l with
  | nil => intro _ _ _; simp [drain]
  | cons x xs ih =>
    intro count hc hn
    by_cases hcn : count = n
    · unfold drain
      rw [if_pos (by simp only [List.any_cons, Stage.closed, List.any_nil, Bool.or_false]; simp; omega)]
      simp [hcn]
    · unfold drain
      rw [if_neg (by simp only [List.any_cons, Stage.closed, List.any_nil, Bool.or_false]; simp; omega)]
      simp only [feed, Stage.step]
      rw [ih _ (by omega) hn, show n - count = (n - (count + 1)) + 1 by omega]
      rfl

/-- C80: taking the first records and reading on continues after exactly those. -/
theorem C80_take_then_rest (l : List α) (n : Nat) (hn : 0 < n) :
    ((⟨l, []⟩ : Session α).runAll [.derive none (.take n 0), .all (some 0), .all none]).1 =
      [[], l.take n, l.drop n] := by
  have h1 := drain_take n l 0 (by omega) hn
  have h2 := drain_take_rest n l 0 (by omega) hn
  rw [Nat.sub_zero] at h1 h2
  simp only [Session.runAll, Session.run, Option.all_none, if_true, List.nil_append, Session.path, pathOf,
    List.length_singleton, List.getElem?_cons_zero, List.reverse_cons, List.reverse_nil, stagesAt,
    List.filterMap_cons, List.filterMap_nil, Option.map_some, h1, h2]
  generalize writeStages [(⟨none, .take (n : Int) 0⟩ : Node α)] [0] _ = nodes
  cases nodes.length <;> simp [pathOf, drain_own]

/-- C80: asking a filtered set for one record gives the first match and moves the set on to what follows it. -/
theorem C80_first_match (l : List α) (keep : α → Bool) :
    ((⟨l, []⟩ : Session α).runAll [.derive none (.filter keep), .next (some 0), .all none]).1 =
      [[], (l.find? keep).toList, (l.dropWhile fun x => !keep x).tail] := by
  have h : ∀ l : List α, pull [.filter keep] l =
      (l.find? keep, [.filter keep], (l.dropWhile fun x => !keep x).tail) := by
    intro l
    induction l with
    | nil => rfl
    | cons x xs ih =>
      unfold pull
      simp only [List.any_cons, Stage.closed, List.any_nil, Bool.or_false, Bool.false_eq_true, if_false, feed, Stage.step]
      cases hk : keep x <;> simp [hk, ih]
  simp only [Session.runAll, Session.run, Option.all_none, if_true, List.nil_append, Session.path, pathOf,
    List.length_singleton, List.getElem?_cons_zero, List.reverse_cons, List.reverse_nil, stagesAt,
    List.filterMap_cons, List.filterMap_nil, Option.map_some, h]
  generalize writeStages [(⟨none, .filter keep⟩ : Node α)] [0] _ = nodes
  cases nodes.length <;> simp [pathOf, drain_own]

/-! ## One record and then the rest -/

theorem feed_length (ss : List (Stage α)) : ∀ x, (feed ss x).1.length = ss.length := by
  induction ss with
  | nil => intro x; rfl
  | cons s ss ih =>
    intro x
    unfold feed
    cases h : s.step x with
    | mk s' o =>
      cases o with
      | none => simp
      | some y => simp [ih]

theorem pull_length (l : List α) : ∀ ss : List (Stage α), (pull ss l).2.1.length = ss.length := by
  induction l with
  | nil => intro ss; rfl
  | cons x xs ih =>
    intro ss
    unfold pull
    split
    · rfl
    · have := feed_length ss x
      cases h : feed ss x with
      | mk ss' o =>
        rw [h] at this
        cases o with
        | none => exact (ih ss').trans this
        | some y => exact this

theorem drain_length (l : List α) : ∀ ss : List (Stage α), (drain ss l).2.1.length = ss.length := by
  induction l with
  | nil => intro ss; rfl
  | cons x xs ih =>
    intro ss
    unfold drain
    split
    · rfl
    · exact (ih _).trans (feed_length ss x)

/-- Reading one and then the rest is reading all. -/
theorem pull_drain (l : List α) : ∀ ss : List (Stage α),
    drain ss l = ((pull ss l).1.toList ++ (drain (pull ss l).2.1 (pull ss l).2.2).1,
      (drain (pull ss l).2.1 (pull ss l).2.2).2) := by
  induction l with
  | nil => intro ss; rfl
  | cons x xs ih =>
    intro ss
    by_cases hc : ss.any Stage.closed = true
    · have h1 : pull ss (x :: xs) = (none, ss, x :: xs) := by unfold pull; rw [if_pos hc]
      rw [h1]
      simp
    · have hd : drain ss (x :: xs) = ((feed ss x).2.toList ++ (drain (feed ss x).1 xs).1,
          (drain (feed ss x).1 xs).2) := by
        conv => lhs; unfold drain
        rw [if_neg hc]
      have hp : pull ss (x :: xs) = match feed ss x with
          | (ss', some y) => (some y, ss', xs)
          | (ss', none) => pull ss' xs := by
        conv => lhs; unfold pull
        rw [if_neg hc]
        cases feed ss x with
        | mk ss' o => cases o <;> rfl
      rw [hd, hp]
      cases feed ss x with
      | mk ss' o =>
        cases o with
        | some y => rfl
        | none =>
          simp only [Option.toList_none, List.nil_append]
          exact ih ss'

theorem writeStages_length (p : List Nat) : ∀ (nodes : List (Node α)) (ss : List (Stage α)),
    (writeStages nodes p ss).length = nodes.length := by
  induction p with
  | nil => intro nodes ss; cases ss <;> rfl
  | cons i is ih =>
    intro nodes ss
    cases ss with
    | nil => rfl
    | cons s ss => rw [writeStages, ih]; simp

theorem writeStages_parent (p : List Nat) : ∀ (nodes : List (Node α)) (ss : List (Stage α)) (j : Nat),
    ((writeStages nodes p ss)[j]?).map (·.parent) = (nodes[j]?).map (·.parent) := by
  induction p with
  | nil => intro nodes ss j; cases ss <;> rfl
  | cons i is ih =>
    intro nodes ss j
    cases ss with
    | nil => rfl
    | cons s ss =>
      rw [writeStages, ih, List.getElem?_modify]
      cases nodes[j]? with
      | none => rfl
      | some n => simp only [Option.map_some]; split <;> rfl

theorem pathOf_write (p : List Nat) (nodes : List (Node α)) (ss : List (Stage α)) (fuel : Nat) : ∀ of,
    pathOf (writeStages nodes p ss) fuel of = pathOf nodes fuel of := by
  induction fuel with
  | zero => intro of; cases of <;> rfl
  | succ fuel ih =>
    intro of
    cases of with
    | none => rfl
    | some i =>
      have h := writeStages_parent p nodes ss i
      rw [pathOf, pathOf]
      cases h1 : nodes[i]? with
      | none =>
        rw [h1] at h
        cases h2 : (writeStages nodes p ss)[i]? with
        | none => rfl
        | some m => rw [h2] at h; cases h
      | some n =>
        rw [h1] at h
        cases h2 : (writeStages nodes p ss)[i]? with
        | none => rw [h2] at h; cases h
        | some m =>
          rw [h2] at h
          simp only [Option.map_some, Option.some.injEq] at h
          simp only
          rw [h, ih]

/-- Sets are derived from earlier ones. -/
def Ordered (nodes : List (Node α)) : Prop := ∀ (i : Nat) (n : Node α), nodes[i]? = some n → ∀ j, n.parent = some j → j < i

theorem ordered_write {nodes : List (Node α)} (h : Ordered nodes) (p : List Nat) (ss : List (Stage α)) :
    Ordered (writeStages nodes p ss) := by
  intro i n hn j hj
  have := writeStages_parent p nodes ss i
  rw [hn] at this
  cases h1 : nodes[i]? with
  | none => rw [h1] at this; cases this
  | some m =>
    rw [h1] at this
    simp only [Option.map_some, Option.some.injEq] at this
    exact h i m h1 j (this.symm.trans hj)

theorem pathOf_spec {nodes : List (Node α)} (h : Ordered nodes) (fuel : Nat) : ∀ of,
    (∀ i ∈ pathOf nodes fuel of, i < nodes.length ∧ ∀ j, of = some j → i ≤ j) ∧ (pathOf nodes fuel of).Nodup := by
  induction fuel with
  | zero => intro of; cases of <;> simp [pathOf]
  | succ fuel ih =>
    intro of
    cases of with
    | none => simp [pathOf]
    | some k =>
      rw [pathOf]
      cases h1 : nodes[k]? with
      | none => simp
      | some n =>
        have hk : k < nodes.length := (List.getElem?_eq_some_iff.1 h1).1
        obtain ⟨h2, h3⟩ := ih n.parent
        simp only
        refine ⟨?_, List.nodup_cons.2 ⟨?_, h3⟩⟩
        · intro i hi
          rcases List.mem_cons.1 hi with rfl | hi
          · exact ⟨hk, fun j hj => by cases hj; exact Nat.le_refl _⟩
          · refine ⟨(h2 i hi).1, ?_⟩
            intro j hj
            cases hj
            cases hp : n.parent with
            | none => rw [hp] at hi; cases fuel <;> simp [pathOf] at hi
            | some m =>
              have := (h2 i hi).2 m hp
              have := h k n h1 m hp
              omega
        · intro hi
          cases hp : n.parent with
          | none => rw [hp] at hi; cases fuel <;> simp [pathOf] at hi
          | some m =>
            have := (h2 k hi).2 m hp
            have := h k n h1 m hp
            omega

theorem stage_write_other (p : List Nat) : ∀ (nodes : List (Node α)) (ss : List (Stage α)) (j : Nat), j ∉ p →
    (writeStages nodes p ss)[j]? = nodes[j]? := by
  induction p with
  | nil => intro nodes ss j _; cases ss <;> rfl
  | cons i is ih =>
    intro nodes ss j hj
    cases ss with
    | nil => rfl
    | cons s ss =>
      simp only [List.mem_cons, not_or] at hj
      rw [writeStages, ih _ _ _ hj.2, List.getElem?_modify]
      have hij : ¬ i = j := fun e => hj.1 e.symm
      simp [hij]

theorem stagesAt_write (p : List Nat) : ∀ (nodes : List (Node α)) (ss : List (Stage α)), p.Nodup →
    (∀ i ∈ p, i < nodes.length) → ss.length = p.length → stagesAt (writeStages nodes p ss) p = ss := by
  induction p with
  | nil => intro nodes ss _ _ hl; cases ss <;> simp_all [stagesAt]
  | cons i is ih =>
    intro nodes ss hnd hlt hl
    cases ss with
    | nil => simp at hl
    | cons s ss =>
      have hnd := List.nodup_cons.1 hnd
      obtain ⟨n0, h0⟩ : ∃ n0, nodes[i]? = some n0 := ⟨_, List.getElem?_eq_getElem (hlt i (by simp))⟩
      have h1 : (writeStages nodes (i :: is) (s :: ss))[i]? = some { n0 with stage := s } := by
        rw [writeStages, stage_write_other _ _ _ _ hnd.1, List.getElem?_modify, h0]
        simp
      have h2 := ih (nodes.modify i fun n => { n with stage := s }) ss hnd.2
        (by intro j hj; simpa using hlt j (List.mem_cons_of_mem _ hj)) (by simpa using hl)
      unfold stagesAt at h2 ⊢
      rw [List.filterMap_cons, h1]
      simp only [Option.map_some]
      rw [writeStages, h2]

theorem modify_comm {β : Type} (l : List β) (f g : β → β) {i j : Nat} (h : i ≠ j) :
    (l.modify i f).modify j g = (l.modify j g).modify i f := by
  apply List.ext_getElem?
  intro k
  rw [List.getElem?_modify, List.getElem?_modify, List.getElem?_modify, List.getElem?_modify]
  cases l[k]? with
  | none => rfl
  | some x =>
    simp only [Option.map_eq_map, Option.map_some]
    split <;> split <;> first | rfl | (exfalso; omega)

theorem write_modify (p : List Nat) : ∀ (nodes : List (Node α)) (ss : List (Stage α)) (i : Nat) (f : Node α → Node α),
    i ∉ p → writeStages (nodes.modify i f) p ss = (writeStages nodes p ss).modify i f := by
  induction p with
  | nil => intro nodes ss i f _; cases ss <;> rfl
  | cons k is ih =>
    intro nodes ss i f hi
    simp only [List.mem_cons, not_or] at hi
    cases ss with
    | nil => rfl
    | cons s ss => rw [writeStages, writeStages, modify_comm _ _ _ hi.1, ih _ _ _ _ hi.2]

theorem write_write (p : List Nat) : ∀ (nodes : List (Node α)) (ss ss' : List (Stage α)), p.Nodup →
    ss.length = p.length → ss'.length = p.length →
    writeStages (writeStages nodes p ss) p ss' = writeStages nodes p ss' := by
  induction p with
  | nil => intro nodes ss ss' _ _ _; cases ss <;> cases ss' <;> rfl
  | cons i is ih =>
    intro nodes ss ss' hnd h1 h2
    have hnd := List.nodup_cons.1 hnd
    cases ss with
    | nil => simp at h1
    | cons s ss =>
      cases ss' with
      | nil => simp at h2
      | cons s' ss' =>
        rw [writeStages, writeStages, writeStages, ← write_modify _ _ _ _ _ hnd.1,
          ih _ _ _ hnd.2 (by simpa using h1) (by simpa using h2)]
        congr 1
        apply List.ext_getElem?
        intro k
        rw [List.getElem?_modify, List.getElem?_modify, List.getElem?_modify]
        cases nodes[k]? with
        | none => rfl
        | some x =>
          simp only [Option.map_eq_map, Option.map_some]
          split <;> rfl

theorem run_ordered {s : Session α} (h : Ordered s.nodes) (c : Command α) : Ordered (s.run c).2.nodes := by
  cases c with
  | derive parent stage =>
    unfold Session.run
    simp only
    split
    · rename_i hp
      intro i n hn j hj
      simp only at hn
      rw [List.getElem?_append] at hn
      split at hn
      · exact h i n hn j hj
      · rename_i hi
        obtain ⟨h1, rfl⟩ := List.getElem?_eq_some_iff.1 hn
        simp only [List.getElem_singleton] at hj
        rw [hj] at hp
        simp only [Option.all_some, decide_eq_true_eq] at hp
        omega
    · exact h
  | next of => exact ordered_write h _ _
  | all of => exact ordered_write h _ _

theorem runAll_ordered (cs : List (Command α)) : ∀ {s : Session α}, Ordered s.nodes →
    Ordered (s.runAll cs).2.nodes := by
  induction cs with
  | nil => intro s h; exact h
  | cons c cs ih => intro s h; exact ih (run_ordered h c)

/-- C80: whatever was done before, asking any set for one record and then reading it to its end hands out
what reading it to its end hands out, and leaves everything as that leaves it. -/
theorem C80_one_then_rest (l : List α) (history : List (Command α)) (of : Option Nat) :
    let s := ((⟨l, []⟩ : Session α).runAll history).2
    (s.run (.next of)).1 ++ ((s.run (.next of)).2.run (.all of)).1 = (s.run (.all of)).1 ∧
      ((s.run (.next of)).2.run (.all of)).2 = (s.run (.all of)).2 := by
  intro s
  have ho : Ordered s.nodes := runAll_ordered history (by intro i n hn; simp at hn)
  obtain ⟨h1, h2⟩ := pathOf_spec ho s.nodes.length of
  have hnd : (s.path of).Nodup := by
    unfold Session.path; exact List.nodup_reverse.2 h2
  have hlt : ∀ i ∈ s.path of, i < s.nodes.length := by
    intro i hi
    unfold Session.path at hi
    exact (h1 i (List.mem_reverse.1 hi)).1
  have hst : (stagesAt s.nodes (s.path of)).length = (s.path of).length := by
    unfold stagesAt
    generalize s.path of = p at hlt
    induction p with
    | nil => rfl
    | cons i is ih =>
      rw [List.filterMap_cons, List.getElem?_eq_getElem (hlt i (by simp))]
      simp [ih (fun j hj => hlt j (List.mem_cons_of_mem _ hj))]
  have hpl := (pull_length s.source (stagesAt s.nodes (s.path of))).trans hst
  have hpath : (s.run (.next of)).2.path of = s.path of := by
    unfold Session.path Session.run
    simp only [writeStages_length, pathOf_write]
  have hstg : stagesAt (s.run (.next of)).2.nodes (s.path of) = (pull (stagesAt s.nodes (s.path of)) s.source).2.1 :=
    stagesAt_write _ _ _ hnd hlt hpl
  have hpd := pull_drain s.source (stagesAt s.nodes (s.path of))
  have hall : (s.run (.next of)).2.run (.all of) =
      ((drain (pull (stagesAt s.nodes (s.path of)) s.source).2.1 (pull (stagesAt s.nodes (s.path of)) s.source).2.2).1,
        ⟨(drain (pull (stagesAt s.nodes (s.path of)) s.source).2.1
            (pull (stagesAt s.nodes (s.path of)) s.source).2.2).2.2,
          writeStages s.nodes (s.path of) (drain (pull (stagesAt s.nodes (s.path of)) s.source).2.1
            (pull (stagesAt s.nodes (s.path of)) s.source).2.2).2.1⟩) := by
    have hrun : ∀ t : Session α, t.run (.all of) = ((drain (stagesAt t.nodes (t.path of)) t.source).1,
        ⟨(drain (stagesAt t.nodes (t.path of)) t.source).2.2, writeStages t.nodes (t.path of)
          (drain (stagesAt t.nodes (t.path of)) t.source).2.1⟩) := fun _ => rfl
    have e : (s.run (.next of)).2.source = (pull (stagesAt s.nodes (s.path of)) s.source).2.2 := rfl
    have e2 : (s.run (.next of)).2.nodes
        = writeStages s.nodes (s.path of) (pull (stagesAt s.nodes (s.path of)) s.source).2.1 := rfl
    rw [hrun, hpath, hstg, e, e2, write_write _ _ _ _ hnd hpl ((drain_length _ _).trans hpl)]
  rw [hall]
  refine ⟨?_, ?_⟩
  · show (pull (stagesAt s.nodes (s.path of)) s.source).1.toList ++ _
      = (drain (stagesAt s.nodes (s.path of)) s.source).1
    rw [hpd]
  · show _ = (⟨(drain (stagesAt s.nodes (s.path of)) s.source).2.2, writeStages s.nodes (s.path of)
      (drain (stagesAt s.nodes (s.path of)) s.source).2.1⟩ : Session α)
    rw [hpd]

example : ((⟨[1, 2, 3, 4, 5, 6, 7], []⟩ : Session Nat).runAll
    (chain 0 [.filter fun n => n % 2 == 1, .take 2 0] ++ [.next (some 1), .all (some 1), .all none])).1
      = [[], [], [1], [3], [4, 5, 6, 7]] := by
  decide

/-! ## C81: sampling -/

/-- The number of random values of two bytes. -/
def DRAWS : Nat := 65536

/-- All sequences of `n` random values. -/
def allDraws : Nat → List (List Nat)
  | 0 => [[]]
  | n + 1 => (List.range DRAWS).flatMap fun d => (allDraws n).map (d :: ·)

/-- The number of records kept, over all sequences of random values. -/
def keptInAll (fraction : Rat) (l : List α) : Nat :=
  ((allDraws l.length).map fun draws => ((sampleOf fraction draws l).toOption.getD []).length).sum

theorem selectorOf_pos (fraction : Rat) (h : 0 < fraction) : selectorOf fraction = .ok ⌊1 / fraction⌋ := by
  unfold selectorOf
  rw [if_neg (by intro h'; rw [h'] at h; exact absurd h (by decide))]
  have h1 : 0 ≤ (1 / fraction).num := Rat.num_nonneg.2 (by positivity)
  rw [Int.tdiv_eq_ediv_of_nonneg h1, ← Rat.floor_def]
  rfl

theorem selector_ge_one (fraction : Rat) (h : 0 < fraction) (h1 : fraction ≤ 1) : 1 ≤ ⌊1 / fraction⌋ := by
  rw [Int.le_floor]
  rw [le_div_iff₀ h]; simpa using h1

theorem sampleLoop_eq (k : Nat) (hk : 0 < k) (l : List α) : ∀ draws,
    sampleLoop (k : Int) draws l = .ok ((l.zipIdx.filter fun xi => (draws[xi.2]?).getD 0 % k == 0).map (·.1)) := by
  induction l with
  | nil => intro _; rfl
  | cons x xs ih =>
    intro draws
    rw [zipIdx_filter_cons]
    have h0 : ¬ (k : Int) = 0 := by omega
    have hd : draws.headD 0 = (draws[0]?).getD 0 := by cases draws <;> rfl
    have hi : ((draws.headD 0 : Nat) : Int) % (k : Int) = 0 ↔ (draws[0]?).getD 0 % k = 0 := by
      rw [hd, ← Int.natCast_mod]; omega
    unfold sampleLoop
    simp only [h0, if_false, ih, bind, Except.bind, pure, Except.pure, List.getElem?_tail]
    by_cases hc : (draws[0]?).getD 0 % k = 0
    · rw [if_pos (hi.2 hc)]; simp [hc]
    · rw [if_neg (fun h => hc (hi.1 h))]; simp [hc]

/-- C81: for a fraction from 0 to 1 a sample is made, and its records are the records of the set whose random
value is a multiple of the whole part of 1/fraction, in order. -/
theorem C81_sample (fraction : Rat) (h0 : 0 < fraction) (h1 : fraction ≤ 1) (draws : List Nat) (l : List α) :
    sampleOf fraction draws l =
      .ok ((l.zipIdx.filter fun xi => (draws[xi.2]?).getD 0 % ⌊1 / fraction⌋.toNat == 0).map (·.1)) := by
  have := selector_ge_one fraction h0 h1
  unfold sampleOf
  rw [selectorOf_pos fraction h0]
  simp only [bind, Except.bind]
  conv_lhs => rw [show ⌊1 / fraction⌋ = ((⌊1 / fraction⌋.toNat : Nat) : Int) by omega]
  rw [sampleLoop_eq _ (by omega)]

/-- C81: a sample has records of the set, in order and none twice. -/
theorem C81_sublist (fraction : Rat) (h0 : 0 < fraction) (h1 : fraction ≤ 1) (draws : List Nat) (l : List α) :
    ∃ s, sampleOf fraction draws l = .ok s ∧ s.Sublist l := by
  refine ⟨_, C81_sample fraction h0 h1 draws l, ?_⟩
  have := (List.filter_sublist (p := fun xi : α × Nat => (draws[xi.2]?).getD 0 % ⌊1 / fraction⌋.toNat == 0)
    (l := l.zipIdx)).map (·.1)
  simpa using this

/-- The same sample can be read as a derived set (C80). -/
theorem C81_derived (k : Nat) (hk : 0 < k) (draws : List Nat) (l : List α) :
    sampleLoop (k : Int) draws l = .ok (drain [.sample k draws] l).1 := by
  rw [sampleLoop_eq k hk, drain_sample]

/-- C81 fails: of a set, asking for any fraction above a half keeps everything. -/
theorem C81_more_than_half_fails (fraction : Rat) (h0 : 1 / 2 < fraction) (h1 : fraction ≤ 1) (draws : List Nat)
    (l : List α) : sampleOf fraction draws l = .ok l := by
  have hpos : 0 < fraction := lt_trans (by norm_num) h0
  rw [C81_sample fraction hpos h1]
  have : ⌊1 / fraction⌋ = 1 := by
    rw [Int.floor_eq_iff]
    constructor
    · rw [le_div_iff₀ hpos]; simpa using h1
    · rw [div_lt_iff₀ hpos]; push_cast; linarith
  rw [this]
  simp [Nat.mod_one]

/-- C81 fails: and a fraction above 1 divides by zero at the first record. -/
theorem C81_over_one_fails (fraction : Rat) (h : 1 < fraction) (draws : List Nat) (x : α) (l : List α) :
    sampleOf fraction draws (x :: l) = .error .zeroDivision := by
  have hpos : 0 < fraction := lt_trans (by norm_num) h
  unfold sampleOf
  rw [selectorOf_pos fraction hpos]
  have : ⌊1 / fraction⌋ = 0 := by
    rw [Int.floor_eq_iff]
    constructor
    · push_cast; positivity
    · rw [div_lt_iff₀ hpos]; push_cast; linarith
  rw [this]
  rfl

/-- C81 fails: of no set, not even an empty one, can a fraction of nought be asked for. -/
theorem C81_nought_fails (draws : List Nat) (l : List α) : sampleOf 0 draws l = .error .zeroDivision := rfl

/-- C81 fails: a negative fraction is taken as if it were positive: the records whose random value is a multiple of the
whole part of 1/fraction, whatever the sign, are given (or 0, which divides by zero, below -1). -/
theorem C81_negative_fails (draws : List Nat) (l : List α) : sampleOf (-1 / 2) draws l = sampleOf (1 / 2) draws l := by
  unfold sampleOf
  have h1 : selectorOf (-1 / 2) = .ok (-2) := by unfold selectorOf; norm_num
  have h2 : selectorOf (1 / 2) = .ok 2 := by unfold selectorOf; norm_num
  rw [h1, h2]
  simp only [bind, Except.bind]
  induction l generalizing draws with
  | nil => rfl
  | cons x xs ih =>
    have hz : ((draws.headD 0 : Nat) : Int) % (-2) = ((draws.headD 0 : Nat) : Int) % 2 := Int.emod_neg ..
    unfold sampleLoop
    simp only [hz, ih, bind, Except.bind, pure, Except.pure]
    rfl

theorem multiples (k : Nat) (hk : 0 < k) (n : Nat) :
    ((List.range n).filter fun d => d % k == 0).length = (n + k - 1) / k := by
  induction n with
  | zero => simp; rw [Nat.div_eq_of_lt]; omega
  | succ n ih =>
    rw [List.range_succ, List.filter_append, List.length_append, ih]
    by_cases hc : n % k = 0
    · obtain ⟨m, hm⟩ := Nat.dvd_of_mod_eq_zero hc
      subst hm
      have h1 : (k * m + k - 1) / k = m := by
        rw [show k * m + k - 1 = (k - 1) + k * m by omega, Nat.add_mul_div_left _ _ hk, Nat.div_eq_of_lt (by omega)]; simp
      have h2 : (k * m + 1 + k - 1) / k = m + 1 := by
        rw [show k * m + 1 + k - 1 = 0 + k * (m + 1) by rw [Nat.mul_add]; omega, Nat.add_mul_div_left _ _ hk]; simp
      rw [h1, h2]; simp
    · have h2 : (n + 1 + k - 1) / k = (n + k - 1) / k := by
        have := Nat.succ_div (a := n + k - 1) (b := k)
        rw [show n + k - 1 + 1 = n + 1 + k - 1 by omega] at this
        rw [this, if_neg]
        · rfl
        · intro hd
          rw [show n + 1 + k - 1 = n + k by omega] at hd
          have := Nat.mod_eq_zero_of_dvd hd
          rw [Nat.add_mod_right] at this
          exact hc this
      rw [h2]; simp [hc]

theorem allDraws_length (n : Nat) : (allDraws n).length = DRAWS ^ n := by
  induction n with
  | zero => rfl
  | succ n ih =>
    unfold allDraws
    rw [List.length_flatMap]
    simp [ih, Nat.pow_succ, Nat.mul_comm]

theorem sum_flatMap_map {β : Type} (ds : List Nat) (ls : List (List Nat)) (f : List Nat → Nat) (w : Nat → Nat)
    (g : List Nat → Nat) (h : ∀ d draws, f (d :: draws) = w d + g draws) :
    ((ds.flatMap fun d => ls.map (d :: ·)).map f).sum = ls.length * (ds.map w).sum + ds.length * (ls.map g).sum := by
  induction ds with
  | nil => simp
  | cons d ds ih =>
    rw [List.flatMap_cons, List.map_append, List.sum_append, ih, List.map_map]
    have : (ls.map (f ∘ (d :: ·))).sum = ls.length * w d + (ls.map g).sum := by
      clear ih
      induction ls with
      | nil => simp
      | cons a ls ih2 => simp only [List.map_cons, List.sum_cons, Function.comp, h, ih2, List.length_cons]; ring
    rw [this, List.map_cons, List.sum_cons, List.length_cons]
    ring

theorem kept_step (k : Nat) (x : α) (xs : List α) (d : Nat) (draws : List Nat) :
    (((x :: xs).zipIdx.filter fun xi => ((d :: draws)[xi.2]?).getD 0 % k == 0).map (·.1)).length =
      (if d % k = 0 then 1 else 0) + ((xs.zipIdx.filter fun xi => (draws[xi.2]?).getD 0 % k == 0).map (·.1)).length := by
  rw [zipIdx_filter_cons, List.length_append]
  congr 1
  by_cases hc : d % k = 0 <;> simp [hc]

theorem sum_indicator (k : Nat) (ds : List Nat) :
    (ds.map fun d => if d % k = 0 then 1 else 0).sum = (ds.filter fun d => d % k == 0).length := by
  induction ds with
  | nil => rfl
  | cons d ds ih => by_cases hc : d % k = 0 <;> simp [hc, ih]; omega

/-- C81: over all random values, a record is kept ⌈65536/k⌉ times in 65536, k being the whole part of
1/fraction. -/
theorem C81_kept (fraction : Rat) (h0 : 0 < fraction) (h1 : fraction ≤ 1) (l : List α) :
    keptInAll fraction l * DRAWS =
      l.length * ((DRAWS + ⌊1 / fraction⌋.toNat - 1) / ⌊1 / fraction⌋.toNat) * DRAWS ^ l.length := by
  have hk : 0 < ⌊1 / fraction⌋.toNat := by have := selector_ge_one fraction h0 h1; omega
  unfold keptInAll
  simp only [C81_sample fraction h0 h1, Except.toOption, Option.getD_some]
  generalize ⌊1 / fraction⌋.toNat = k at hk
  induction l with
  | nil => simp [allDraws]
  | cons x xs ih =>
    simp only [List.length_cons, allDraws]
    rw [sum_flatMap_map (β := α) _ _ _ (fun d => if d % k = 0 then 1 else 0)
      (fun draws => ((xs.zipIdx.filter fun xi => (draws[xi.2]?).getD 0 % k == 0).map (·.1)).length)
      (fun d draws => kept_step k x xs d draws), sum_indicator, multiples k hk, allDraws_length, List.length_range,
      Nat.add_mul, Nat.mul_assoc DRAWS, Nat.mul_comm DRAWS (_ * DRAWS), ih, Nat.pow_succ]
    ring

/-- C81, for the fractions 1/2, 1/4, … 1/65536: the share of the records kept is the fraction, on average
over all random values. -/
theorem C81_average_partial (j : Nat) (hj : j ≤ 16) (l : List α) :
    (keptInAll (1 / 2 ^ j : Rat) l : Rat) = (1 / 2 ^ j) * l.length * (DRAWS : Rat) ^ l.length := by
  have hp : (0 : Rat) < 2 ^ j := by positivity
  have h := C81_kept (1 / 2 ^ j : Rat) (by positivity) (by rw [div_le_one hp]; exact one_le_pow₀ (by norm_num)) l
  have hf : ⌊1 / (1 / 2 ^ j : Rat)⌋.toNat = 2 ^ j := by
    rw [one_div_one_div, show (2 : Rat) ^ j = ((2 ^ j : Nat) : Rat) by push_cast; rfl, Int.floor_natCast]
    rfl
  rw [hf] at h
  have hd : DRAWS = 2 ^ (16 - j) * 2 ^ j := by
    rw [← Nat.pow_add, show 16 - j + j = 16 by omega]; rfl
  have h2 : (DRAWS + 2 ^ j - 1) / 2 ^ j = 2 ^ (16 - j) := by
    rw [hd]
    have hpos : 0 < 2 ^ j := by positivity
    rw [show 2 ^ (16 - j) * 2 ^ j + 2 ^ j - 1 = (2 ^ j - 1) + 2 ^ j * 2 ^ (16 - j) by rw [Nat.mul_comm]; omega,
      Nat.add_mul_div_left _ _ hpos, Nat.div_eq_of_lt (by omega), Nat.zero_add]
  rw [h2] at h
  have hq : (keptInAll (1 / 2 ^ j : Rat) l : Rat) * DRAWS = l.length * 2 ^ (16 - j) * (DRAWS : Rat) ^ l.length := by
    exact_mod_cast h
  have hdq : (DRAWS : Rat) = 2 ^ (16 - j) * 2 ^ j := by exact_mod_cast hd
  have hne : (2 : Rat) ^ (16 - j) * 2 ^ j ≠ 0 := by positivity
  rw [show (keptInAll (1 / 2 ^ j : Rat) l : Rat) = l.length * 2 ^ (16 - j) * (DRAWS : Rat) ^ l.length / DRAWS by
    rw [eq_div_iff (by rw [hdq]; exact hne)]; exact hq]
  generalize (DRAWS : Rat) ^ l.length = P
  rw [hdq]
  field_simp

/-- C81 fails: two fifths keeps a half, whatever the set and the random values. -/
theorem C81_two_fifths_fails (draws : List Nat) (l : List α) :
    sampleOf (2 / 5) draws l = sampleOf (1 / 2) draws l ∧
      keptInAll (2 / 5) l * 2 = l.length * DRAWS ^ l.length := by
  have e1 : ⌊1 / (2 / 5 : Rat)⌋ = 2 := by rw [Int.floor_eq_iff]; norm_num
  have e2 : ⌊1 / (1 / 2 : Rat)⌋ = 2 := by rw [Int.floor_eq_iff]; norm_num
  constructor
  · rw [C81_sample _ (by norm_num) (by norm_num), C81_sample _ (by norm_num) (by norm_num), e1, e2]
  · have h := C81_kept (2 / 5) (by norm_num) (by norm_num) l
    rw [e1] at h
    have hd : (DRAWS + (2 : Int).toNat - 1) / (2 : Int).toNat = 32768 := by decide
    rw [hd] at h
    have : DRAWS = 65536 := rfl
    generalize DRAWS ^ l.length = P at *
    rw [this] at h
    have : l.length * 32768 * P = (l.length * P) * 32768 := by ring
    omega

/-- C81 fails: and a fraction of a thousandth of a thousandth keeps one in 65536. -/
theorem C81_smallest_fails (l : List α) : keptInAll (1 / 1000000) l * DRAWS = l.length * DRAWS ^ l.length := by
  have e1 : ⌊1 / (1 / 1000000 : Rat)⌋ = 1000000 := by rw [Int.floor_eq_iff]; norm_num
  have h := C81_kept (1 / 1000000) (by norm_num) (by norm_num) l
  rw [e1, show (DRAWS + (1000000 : Int).toNat - 1) / (1000000 : Int).toNat = 1 by decide] at h
  rw [h, Nat.mul_one]

example : sampleOf (1 / 3) [6, 7, 9] ["a", "b", "c", "d"] = .ok ["a", "c", "d"] := by
  rw [C81_sample _ (by norm_num) (by norm_num), show ⌊1 / (1 / 3 : Rat)⌋ = 3 by rw [Int.floor_eq_iff]; norm_num]
  decide

/-! ## C82: types of columns -/

/-- The types of the values of a column in the records `l`, None not counting: a type is in the list as often
as a value has it. -/
def typesIn {V : Type} (typeName : V → Option Str) (key : Str) (l : List (List (Str × V))) : List Str :=
  l.filterMap fun r => match r.lookup key with
    | some v => typeName v
    | none => none

theorem typesIn_eq {V : Type} (typeName : V → Option Str) (key : Str) (l : List (List (Str × V))) :
    (column key l).filterMap typeName = typesIn typeName key l := by
  unfold column typesIn
  rw [List.filterMap_filterMap]
  congr 1
  funext r
  have : (r.find? fun kv => kv.1 == key).map (·.2) = r.lookup key := by
    induction r with
    | nil => rfl
    | cons kv r ih =>
      obtain ⟨k, v⟩ := kv
      by_cases h : k = key
      · subst h; simp
      · have h1 : (k == key) = false := by simpa using h
        have h2 : (key == k) = false := by simpa using fun e => h e.symm
        rw [List.find?_cons, List.lookup_cons, h2]
        simp only [h1]
        exact ih
  rw [this]
  cases r.lookup key <;> rfl

/-- What a user expects to be told about a column whose values have the types `ts`. -/
inductive Describes : List Str → Str → Prop
  | none : Describes [] "empty".toList
  | same (t : Str) (ts : List Str) : ts ≠ [] → (∀ x ∈ ts, x = t) → Describes ts t
  | numbers (ts : List Str) : "int".toList ∈ ts → "float".toList ∈ ts →
      (∀ x ∈ ts, x = "int".toList ∨ x = "float".toList) → Describes ts "numeric".toList
  | other (ts : List Str) (a b : Str) : a ∈ ts → b ∈ ts → a ≠ b → (∃ x ∈ ts, x ≠ "int".toList ∧ x ≠ "float".toList) →
      Describes ts "mixed".toList

theorem distinctNames (names : List Str) : ∀ acc : List Str, acc.Nodup →
    (names.foldl (fun acc n => if acc.contains n then acc else acc ++ [n]) acc).Nodup ∧
    ∀ x, x ∈ names.foldl (fun acc n => if acc.contains n then acc else acc ++ [n]) acc ↔ x ∈ acc ∨ x ∈ names := by
  induction names with
  | nil => intro acc h; simpa using h
  | cons n ns ih =>
    intro acc h
    simp only [List.foldl_cons, List.contains_eq_mem, decide_eq_true_eq]
    by_cases hn : n ∈ acc
    · simp only [hn, if_true]
      simp only [List.contains_eq_mem, decide_eq_true_eq] at ih
      refine ⟨(ih acc h).1, fun x => ?_⟩
      rw [(ih acc h).2, List.mem_cons]
      constructor
      · rintro (h | h) <;> simp [h]
      · rintro (h | rfl | h)
        · exact .inl h
        · exact .inl hn
        · exact .inr h
    · simp only [hn, if_false]
      simp only [List.contains_eq_mem, decide_eq_true_eq] at ih
      have ha : (acc ++ [n]).Nodup := by
        rw [List.nodup_append]; refine ⟨h, by simp, ?_⟩
        intro a ha b hb hab
        simp at hb; exact hn (by rw [← hb, ← hab]; exact ha)
      refine ⟨(ih _ ha).1, fun x => ?_⟩
      rw [(ih _ ha).2, List.mem_cons, List.mem_append]
      simp only [List.mem_singleton, or_assoc]

theorem keysOf_mem {V : Type} (l : List (List (Str × V))) (k : Str) :
    k ∈ keysOf l ↔ ∃ r ∈ l, k ∈ r.map (·.1) := by
  have : ∀ (l : List (List (Str × V))) (acc : List Str),
      k ∈ l.foldl (fun x y => x ++ ((y.map (·.1)).filter fun a => !x.contains a)) acc ↔
        k ∈ acc ∨ ∃ r ∈ l, k ∈ r.map (·.1) := by
    intro l
    induction l with
    | nil => intro acc; simp
    | cons r rs ih =>
      intro acc
      rw [List.foldl_cons, ih]
      simp only [List.mem_append, List.mem_filter, List.mem_cons, exists_eq_or_imp]
      constructor
      · rintro ((h | h) | h)
        · exact .inl h
        · exact .inr (.inl h.1)
        · exact .inr (.inr h)
      · rintro (h | h | h)
        · exact .inl (.inl h)
        · by_cases ha : k ∈ acc
          · exact .inl (.inl ha)
          · exact .inl (.inr ⟨h, by simp [ha]⟩)
        · exact .inr h
  unfold keysOf
  rw [this]; simp

theorem describe_spec (types ts : List Str) (hn : types.Nodup) (hm : ∀ x, x ∈ types ↔ x ∈ ts) (hne : ts ≠ []) :
    Describes ts (describe types) := by
  have hne' : types ≠ [] := by
    intro h; rw [h] at hm
    cases ts with
    | nil => exact hne rfl
    | cons t ts => exact absurd ((hm t).2 List.mem_cons_self) (by simp)
  match types, hn, hm, hne' with
  | [t], _, hm, _ =>
    exact .same t ts hne fun x hx => by simpa using (hm x).2 hx
  | a :: b :: rest, hn, hm, _ =>
    have hab : a ≠ b := by
      intro h; rw [h] at hn; simp at hn
    have hlen : ¬ (a :: b :: rest).length = 1 := by simp
    have ha := (hm a).1 List.mem_cons_self
    have hb := (hm b).1 (by simp)
    simp only [describe, hlen, if_false]
    by_cases hs : sorted strLe (a :: b :: rest) = ["float".toList, "int".toList]
    · rw [if_pos hs]
      have hp : (a :: b :: rest).Perm ["float".toList, "int".toList] := hs ▸ (sorted_perm (le := strLe) _).symm
      refine .numbers ts ?_ ?_ ?_
      · exact (hm _).1 (hp.mem_iff.2 (by simp))
      · exact (hm _).1 (hp.mem_iff.2 (by simp))
      · intro x hx
        have := hp.mem_iff.1 ((hm x).2 hx)
        simp only [List.mem_cons, List.not_mem_nil, or_false] at this
        exact this.symm
    · rw [if_neg hs]
      refine .other ts a b ha hb hab ?_
      by_contra hcon
      push Not at hcon
      apply hs
      have hall : ∀ x ∈ a :: b :: rest, x = "int".toList ∨ x = "float".toList := by
        intro x hx
        by_cases hi : x = "int".toList
        · exact .inl hi
        · exact .inr (hcon x ((hm x).1 hx) hi)
      have hrest : rest = [] := by
        cases rest with
        | nil => rfl
        | cons c rest =>
          exfalso
          have h1 := hall a (by simp)
          have h2 := hall b (by simp)
          have h3 := hall c (by simp)
          have hac : a ≠ c := by intro h; rw [h] at hn; simp at hn
          have hbc : b ≠ c := by intro h; rw [h] at hn; simp at hn
          rcases h1 with h1 | h1 <;> rcases h2 with h2 | h2 <;> rcases h3 with h3 | h3 <;>
            first
            | exact hab (h1.trans h2.symm)
            | exact hac (h1.trans h3.symm)
            | exact hbc (h2.trans h3.symm)
      subst hrest
      rcases hall a (by simp) with h1 | h1 <;> rcases hall b (by simp) with h2 | h2
      · exact absurd (h1.trans h2.symm) hab
      · rw [h1, h2]; decide
      · rw [h1, h2]; decide
      · exact absurd (h1.trans h2.symm) hab

/-- C82, for a stored set: the columns described are exactly those of the first records, and a column with a value
which is not None is described by the types of its values in those records. -/
theorem C82_types_partial {V : Type} (typeName : V → Option Str) (sc : StorageClass) (hsc : sc ≠ .noPersistance)
    (rows : Nat) (hr : 0 < rows) (l : List (List (Str × V))) :
    (∀ k, (∃ d, (k, d) ∈ types typeName sc rows l) ↔ ∃ r ∈ l.take rows, k ∈ r.map (·.1)) ∧
    ∀ k d, (k, d) ∈ types typeName sc rows l → typesIn typeName k (l.take rows) ≠ [] →
      Describes (typesIn typeName k (l.take rows)) d := by
  have htake : itake (rows : Int) l = l.take rows := Mabel.Props.C29_take_first_partial l rows hr
  unfold types
  simp only [hsc, if_false, htake]
  constructor
  · intro k
    rw [← keysOf_mem]
    constructor
    · rintro ⟨d, hd⟩
      obtain ⟨k', hk', he⟩ := List.mem_map.1 hd
      obtain rfl := (Prod.mk.inj he).1
      exact hk'
    · intro hk; exact ⟨_, List.mem_map.2 ⟨k, hk, rfl⟩⟩
  · intro k d hd hne
    obtain ⟨k', _, he⟩ := List.mem_map.1 hd
    obtain ⟨rfl, rfl⟩ := Prod.mk.inj he
    have := distinctNames (typesIn typeName k' (l.take rows)) [] (by simp)
    rw [← typesIn_eq] at this hne ⊢
    exact describe_spec _ _ this.1 (fun x => (this.2 x).trans (by simp)) hne

/-- C82 fails: a column with nothing but None is described as mixed, not as empty. -/
theorem C82_empty_fails {V : Type} (typeName : V → Option Str) (sc : StorageClass) (rows : Nat) (hr : 0 < rows)
    (l : List (List (Str × V))) (k d : Str) (h : (k, d) ∈ types typeName sc rows l)
    (hnone : typesIn typeName k (l.take rows) = []) : d = "mixed".toList := by
  have htake : itake (rows : Int) l = l.take rows := Mabel.Props.C29_take_first_partial l rows hr
  unfold types at h
  simp only [htake] at h
  obtain ⟨k', _, he⟩ := List.mem_map.1 h
  obtain ⟨rfl, rfl⟩ := Prod.mk.inj he
  rw [← typesIn_eq] at hnone
  unfold keyTypes
  by_cases hsc : sc = .noPersistance
  · simp only [hsc, if_true]; exact (by decide : describe [] = "mixed".toList)
  · simp only [hsc, if_false, hnone]; decide

/-- C82 fails: every column of a set which is not stored is described as mixed, whatever its values. -/
theorem C82_unstored_fails {V : Type} (typeName : V → Option Str) (rows : Int) (l : List (List (Str × V)))
    (k d : Str) (h : (k, d) ∈ types typeName .noPersistance rows l) : d = "mixed".toList := by
  unfold types at h
  obtain ⟨k', _, he⟩ := List.mem_map.1 h
  obtain ⟨rfl, rfl⟩ := Prod.mk.inj he
  simp only [if_true]
  exact (by decide : describe [] = "mixed".toList)

/-- The names of the types of the values of this model. -/
def valueType : Value → Option Str
  | .none => none
  | .bool _ => some "bool".toList
  | .int _ => some "int".toList
  | .str _ => some "str".toList

example : let l : List Record := [[("a".toList, .int 1), ("b".toList, .none)], [("a".toList, .int 2), ("b".toList, .none)],
      [("c".toList, .str "x".toList)], [("c".toList, .int 0)], [("a".toList, .str "y".toList)]]
    types valueType .memory 4 l = [("a".toList, "int".toList), ("b".toList, "mixed".toList), ("c".toList, "mixed".toList)] ∧
    types valueType .noPersistance 4 l =
      [("a".toList, "mixed".toList), ("b".toList, "mixed".toList), ("c".toList, "mixed".toList)] := by
  decide

/-! ## C67: looping over a set made from a list -/

/-- C67 fails: a set made from a list, which is not stored, cannot be looped over at all. -/
theorem C67_list_loop_fails {β : Type} (parse : Str → α) (unpack : β → List α) (falsy : α → Bool) (l : List α) :
    loopOver parse unpack falsy (.list l) = .error .typeError ∧
    loopOver parse unpack falsy (.memory l : Held α β) = .ok l := ⟨rfl, rfl⟩

end Mabel.DictSet
