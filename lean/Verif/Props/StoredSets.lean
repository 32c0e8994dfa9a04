import Verif.Spec.StoredSets
import Verif.Props.DictSet
import Verif.Props.DictSetStream
import Verif.Model.Collected

/-!
# Programs with stored sets

C101.
-/

namespace Mabel.Props
open Mabel Mabel.Py Mabel.DictSet

variable {α β : Type}

/-- The libraries give back what they were given. -/
structure Codec.Faithful (c : Codec α β) : Prop where
  line : ∀ x, c.parse (c.dump x ++ ['\n']) = x
  one : ∀ x, '\n' ∉ c.dump x
  batch : ∀ b, c.unpack (c.pack b) = b

/-! ## Storing -/

theorem readAll_make (c : Codec α β) (hc : Codec.Faithful c) (sc : StoredClass) (l : List α) :
    (Storage.make c sc l).readAll c = Spec.readable sc c.falsy l := by
  cases sc with
  | memory => rfl
  | disk =>
    show readDisk c.parse (writeLines c.dump c.bufferSize [] [] l) = _
    by_cases h : l = []
    · subst h
      rw [C33_empty_set_fails]
      rfl
    · rw [(C33_storage_partial l h c.pack c.unpack hc.batch (fun _ => false) (fun _ _ => rfl) c.dump c.parse
        (fun x _ => hc.line x) (fun x _ => hc.one x) c.bufferSize).2]
      simp only [Spec.readable, if_neg h]
  | compressed =>
    show Except.ok (readBatches c.unpack c.falsy (compressBatches c.pack [] l)) = _
    obtain ⟨cs, h1, h2, h3, h4, h5⟩ := compressBatches_eq c.pack l [] (by simp [BATCH_SIZE])
    have h2' : cs.flatten = l := by simpa using h2
    show _ = Except.ok (l.filter fun r => !c.falsy r)
    rw [h1, ← h2']
    unfold readBatches
    rw [List.flatMap_map]
    congr 1
    clear h1 h2 h2' h3 h4 h5
    induction cs with
    | nil => rfl
    | cons b cs ih => rw [List.flatMap_cons, List.flatten_cons, List.filter_append, hc.batch, ih]

theorem lengthOf_eq (sc : StoredClass) (l : List α) : sc.lengthOf l = l.length := by
  cases sc with
  | memory => exact C36_count .memory (by decide) l
  | disk => exact C36_count .disk (by decide) l
  | compressed => exact C36_count .compressedMemory (by decide) l

/-! ## Operations -/

theorem dedupeFrom_firsts {κ : Type} [DecidableEq κ] (fp : α → κ) (l : List α) : ∀ (seen : List κ),
    dedupeFrom fp seen l =
      (l.zipIdx.filter fun xi => !(seen.contains (fp xi.1) || ((l.take xi.2).map fp).contains (fp xi.1))).map (·.1) := by
  induction l with
  | nil => intro _; rfl
  | cons x xs ih =>
    intro seen
    rw [zipIdx_filter_cons, dedupeFrom, ih, ih]
    simp only [List.take_zero, List.map_nil, List.contains_nil, Bool.or_false, List.take_succ_cons, List.map_cons]
    by_cases h : seen.contains (fp x)
    · rw [if_pos h, h]
      simp only [Bool.not_true, if_false, List.nil_append, Bool.false_eq_true]
      congr 2
      funext xi
      by_cases he : fp xi.1 = fp x
      · rw [he, h]; rfl
      · simp [he]
    · rw [if_neg h]
      rw [Bool.not_eq_true] at h
      rw [h]
      simp only [Bool.not_false, if_true, List.singleton_append]
      congr 3
      funext xi
      by_cases he : fp xi.1 = fp x
      · simp [he]
      · simp [he]

theorem sampleLoop_outcome (k : Int) (l : List α) (hk : k ≠ 0) : ∀ draws,
    sampleLoop k draws l =
      .ok ((l.zipIdx.filter fun xi => (((draws[xi.2]?).getD 0 : Nat) : Int) % k == 0).map (·.1)) := by
  induction l with
  | nil => intro _; rfl
  | cons x xs ih =>
    intro draws
    rw [zipIdx_filter_cons]
    have hd : draws.headD 0 = (draws[0]?).getD 0 := by cases draws <;> rfl
    unfold sampleLoop
    simp only [hk, if_false, ih, bind, Except.bind, pure, Except.pure, List.getElem?_tail, hd]
    by_cases hc : (((draws[0]?).getD 0 : Nat) : Int) % k = 0
    · rw [if_pos hc]; simp [hc]
    · rw [if_neg hc]; simp [hc]

/-- What the methods yield is what they should. -/
theorem apply_outcome (op : Op α) (l : List α) : op.apply l = Spec.outcome op l := by
  cases op with
  | filter keep => show Except.ok (filterBy keep l) = _; rw [filterBy_eq]; rfl
  | select f => rfl
  | take n =>
    show Except.ok (itake n l) = Except.ok _
    by_cases h : 0 < n
    · rw [if_pos h]
      have := C29_take_first_partial l n.toNat (by omega)
      rw [show ((n.toNat : Nat) : Int) = n by omega] at this
      rw [this]
    · rw [if_neg h, C29_take_negative l n (by omega)]
  | distinct fp =>
    show Except.ok (dedupeFrom fp [] l) = Except.ok (Spec.firsts fp l)
    rw [dedupeFrom_firsts]
    simp [Spec.firsts]
  | sample k draws =>
    show sampleLoop k draws l = _
    simp only [Spec.outcome]
    by_cases hk : k = 0
    · subst hk
      cases l with
      | nil => rfl
      | cons x xs => rfl
    · rw [sampleLoop_outcome k l hk, if_neg (fun h => hk h.1)]

/-! ## Programs -/

/-- A set holds what it was made from. -/
def Holds (c : Codec α β) (sc : StoredClass) (s : SetObj α β) (l : List α) : Prop :=
  s.storage = Storage.make c sc l ∧ s.length = l.length

theorem holds_make (c : Codec α β) (sc : StoredClass) (l : List α) : Holds c sc (SetObj.make c sc l) l :=
  ⟨rfl, lengthOf_eq sc l⟩

/-- The sets of a program are what they were made from. -/
def Agree (c : Codec α β) (sc : StoredClass) (sets : List (SetObj α β)) (lists : List (List α)) : Prop :=
  List.Forall₂ (Holds c sc) sets lists

theorem agree_get {c : Codec α β} {sc : StoredClass} {sets : List (SetObj α β)} {lists : List (List α)}
    (h : Agree c sc sets lists) (i : Nat) :
    (sets[i]? = none ∧ lists[i]? = none) ∨
      ∃ s l, sets[i]? = some s ∧ lists[i]? = some l ∧ Holds c sc s l := by
  induction h generalizing i with
  | nil => exact Or.inl ⟨rfl, rfl⟩
  | cons hs _ ih =>
    cases i with
    | zero => exact Or.inr ⟨_, _, rfl, rfl, hs⟩
    | succ i => simpa using ih i

theorem agree_set {c : Codec α β} {sc : StoredClass} {sets : List (SetObj α β)} {lists : List (List α)}
    (h : Agree c sc sets lists) (i : Nat) (s : SetObj α β) (hs : sets[i]? = some s)
    (it : Option (Except Err (List α))) : Agree c sc (sets.set i { s with iterator := it }) lists := by
  induction h generalizing i with
  | nil => exact .nil
  | cons hh _ ih =>
    cases i with
    | zero =>
      rw [List.getElem?_cons_zero, Option.some.injEq] at hs
      subst hs
      exact .cons hh (by assumption)
    | succ i => exact .cons hh (ih i (by simpa using hs))

theorem agree_append {c : Codec α β} {sc : StoredClass} {sets : List (SetObj α β)} {lists : List (List α)}
    (h : Agree c sc sets lists) (l : List α) : Agree c sc (sets ++ [SetObj.make c sc l]) (lists ++ [l]) := by
  induction h with
  | nil => exact .cons (holds_make c sc l) .nil
  | cons hh _ ih => exact .cons hh ih

/-- One command: the sets stay what they were made from, and what the program sees is what it should. -/
theorem step_agree (c : Codec α β) (hc : Codec.Faithful c) (sc : StoredClass) {sets : List (SetObj α β)}
    {lists : List (List α)} (h : Agree c sc sets lists) (command : StoredCommand α) :
    Agree c sc (runStored c sc sets command).2 (Spec.setsAfter sc c.falsy lists command) ∧
      ∀ a, Spec.answer sc c.falsy lists command = some a → (runStored c sc sets command).1 = a := by
  cases command with
  | derive i op =>
    simp only [runStored, Spec.setsAfter, Spec.answer]
    rcases agree_get h i with ⟨h1, h2⟩ | ⟨s, l, h1, h2, hs, _⟩
    · rw [h1, h2]
      exact ⟨h, fun a ha => Option.some.inj ha⟩
    · simp only [h1, h2]
      simp only [show s.storage.readAll c = Spec.readable sc c.falsy l by rw [hs]; exact readAll_make c hc sc l]
      cases hr : Spec.readable sc c.falsy l with
      | error e => exact ⟨agree_set h i s h1 _, fun a ha => Option.some.inj ha⟩
      | ok l' =>
        simp only [apply_outcome]
        cases ho : Spec.outcome op l' with
        | error e =>
          refine ⟨agree_set h i s h1 _, fun a ha => ?_⟩
          simp only [bind, Except.bind, ho] at ha
          exact Option.some.inj ha
        | ok l'' =>
          refine ⟨agree_append (agree_set h i s h1 _) l'', fun a ha => ?_⟩
          simp only [bind, Except.bind, ho] at ha
          exact Option.some.inj ha
  | scan i =>
    simp only [runStored, Spec.setsAfter, Spec.answer]
    rcases agree_get h i with ⟨h1, h2⟩ | ⟨s, l, h1, h2, hs, _⟩
    · rw [h1, h2]
      exact ⟨h, fun a ha => Option.some.inj ha⟩
    · simp only [h1, h2]
      simp only [show s.storage.readAll c = Spec.readable sc c.falsy l by rw [hs]; exact readAll_make c hc sc l]
      cases hr : Spec.readable sc c.falsy l with
      | error e => exact ⟨agree_set h i s h1 _, fun a ha => Option.some.inj ha⟩
      | ok l' => exact ⟨agree_set h i s h1 _, fun a ha => Option.some.inj ha⟩
  | first i =>
    simp only [runStored, Spec.setsAfter, Spec.answer]
    rcases agree_get h i with ⟨h1, h2⟩ | ⟨s, l, h1, h2, hs, _⟩
    · rw [h1, h2]
      exact ⟨h, fun a ha => Option.some.inj ha⟩
    · simp only [h1, h2]
      simp only [show s.storage.readAll c = Spec.readable sc c.falsy l by rw [hs]; exact readAll_make c hc sc l]
      cases hr : Spec.readable sc c.falsy l with
      | error e => exact ⟨agree_set h i s h1 _, fun a ha => Option.some.inj ha⟩
      | ok l' => exact ⟨agree_set h i s h1 _, fun a ha => Option.some.inj ha⟩
  | count i =>
    simp only [runStored, Spec.setsAfter, Spec.answer]
    rcases agree_get h i with ⟨h1, h2⟩ | ⟨s, l, h1, h2, _, hl⟩
    · rw [h1, h2]
      exact ⟨h, fun a ha => Option.some.inj ha⟩
    · simp only [h1, h2, hl]
      exact ⟨h, fun a ha => Option.some.inj ha⟩
  | next i =>
    refine ⟨?_, fun a ha => by cases ha⟩
    simp only [runStored, Spec.setsAfter]
    rcases agree_get h i with ⟨h1, h2⟩ | ⟨s, l, h1, h2, hs, _⟩
    · rw [h1]; exact h
    · rw [h1]
      simp only
      split
      · exact agree_set h i s h1 _
      · exact agree_set h i s h1 _
  | loop i =>
    refine ⟨?_, fun a ha => by cases ha⟩
    simp only [runStored, Spec.setsAfter]
    rcases agree_get h i with ⟨h1, h2⟩ | ⟨s, l, h1, h2, hs, _⟩
    · rw [h1]; exact h
    · rw [h1]
      simp only
      split
      · exact agree_set h i s h1 _
      · exact agree_set h i s h1 _

theorem program_agree (c : Codec α β) (hc : Codec.Faithful c) (sc : StoredClass) (program : List (StoredCommand α)) :
    ∀ {sets : List (SetObj α β)} {lists : List (List α)}, Agree c sc sets lists →
      Agree c sc (afterStored c sc sets program) (Spec.setsAfterAll sc c.falsy lists program) := by
  induction program with
  | nil => intro _ _ h; exact h
  | cons command program ih => intro sets lists h; exact ih (step_agree c hc sc h command).1

/-- **C101**: a set is what it was made from.  Whatever a program has done with a stored set and the sets derived
from it, in whatever order, reading them, looking at their first records, taking single records, looping over
them half way or to the end: a method that reads a set, asks for its first record, counts it or derives another
from it gives what the records of that set give, and these are fixed when the set is made. -/
theorem C101_stored_partial (c : Codec α β) (hc : Codec.Faithful c) (sc : StoredClass) (l : List α)
    (program : List (StoredCommand α)) (command : StoredCommand α) (a : Answer α)
    (h : Spec.answer sc c.falsy (Spec.setsAfterAll sc c.falsy [l] program) command = some a) :
    (runStored c sc (afterStored c sc [SetObj.make c sc l] program) command).1 = a :=
  (step_agree c hc sc (program_agree c hc sc program (.cons (holds_make c sc l) .nil)) command).2 a h

/-- Does a command derive a set? -/
def derives : StoredCommand α → Bool
  | .derive _ _ => true
  | _ => false

/-- Only deriving a set changes what the sets are. -/
theorem setsAfterAll_derives (sc : StoredClass) (falsy : α → Bool) (program : List (StoredCommand α)) :
    ∀ lists, Spec.setsAfterAll sc falsy lists program =
      Spec.setsAfterAll sc falsy lists (program.filter derives) := by
  induction program with
  | nil => intro _; rfl
  | cons command program ih =>
    intro lists
    cases command with
    | derive i op => exact ih _
    | scan i => exact ih lists
    | first i => exact ih lists
    | count i => exact ih lists
    | next i => exact ih lists
    | loop i => exact ih lists

/-- **C101**: reading does not change what is read.  Two programs that derive the same sets, whatever they read of
them and when, get the same from then on. -/
theorem C101_reading_changes_nothing (c : Codec α β) (hc : Codec.Faithful c) (sc : StoredClass) (l : List α)
    (p q : List (StoredCommand α)) (hpq : p.filter derives = q.filter derives) (command : StoredCommand α)
    (hn : ∀ i, command ≠ .next i) (hl : ∀ i, command ≠ .loop i) :
    (runStored c sc (afterStored c sc [SetObj.make c sc l] p) command).1 =
      (runStored c sc (afterStored c sc [SetObj.make c sc l] q) command).1 := by
  obtain ⟨a, ha⟩ : ∃ a, Spec.answer sc c.falsy (Spec.setsAfterAll sc c.falsy [l] p) command = some a := by
    cases command with
    | next i => exact absurd rfl (hn i)
    | loop i => exact absurd rfl (hl i)
    | derive i op => exact ⟨_, rfl⟩
    | scan i => exact ⟨_, rfl⟩
    | first i => exact ⟨_, rfl⟩
    | count i => exact ⟨_, rfl⟩
  rw [C101_stored_partial c hc sc l p command a ha]
  rw [setsAfterAll_derives, hpq, ← setsAfterAll_derives] at ha
  rw [C101_stored_partial c hc sc l q command a ha]

/-! ## The storage classes are interchangeable -/

/-- Records every storage class delivers: at least one, and none without fields. -/
def Deliverable (falsy : α → Bool) (l : List α) : Prop := l ≠ [] ∧ ∀ x ∈ l, falsy x = false

theorem readable_deliverable {falsy : α → Bool} {l : List α} (h : Deliverable falsy l) (sc : StoredClass) :
    Spec.readable sc falsy l = .ok l := by
  cases sc with
  | memory => rfl
  | disk => simp only [Spec.readable, if_neg h.1]
  | compressed =>
    simp only [Spec.readable]
    rw [List.filter_eq_self.2]
    intro x hx
    rw [h.2 x hx]; rfl

theorem setsAfter_prefix (sc : StoredClass) (falsy : α → Bool) (lists : List (List α)) (command : StoredCommand α) :
    lists <+: Spec.setsAfter sc falsy lists command := by
  cases command with
  | derive i op =>
    simp only [Spec.setsAfter]
    split
    · exact List.prefix_rfl
    · split
      · exact List.prefix_rfl
      · split
        · exact List.prefix_rfl
        · exact List.prefix_append _ _
  | scan i => exact List.prefix_rfl
  | first i => exact List.prefix_rfl
  | count i => exact List.prefix_rfl
  | next i => exact List.prefix_rfl
  | loop i => exact List.prefix_rfl

theorem setsAfterAll_prefix (sc : StoredClass) (falsy : α → Bool) (program : List (StoredCommand α)) :
    ∀ lists, lists <+: Spec.setsAfterAll sc falsy lists program := by
  induction program with
  | nil => intro _; exact List.prefix_rfl
  | cons command program ih => intro lists; exact (setsAfter_prefix sc falsy lists command).trans (ih _)

theorem setsAfter_classes {falsy : α → Bool} {lists : List (List α)} (h : ∀ m ∈ lists, Deliverable falsy m)
    (sc : StoredClass) (command : StoredCommand α) :
    Spec.setsAfter sc falsy lists command = Spec.setsAfter .memory falsy lists command := by
  cases command with
  | derive i op =>
    simp only [Spec.setsAfter]
    cases hi : lists[i]? with
    | none => rfl
    | some m =>
      have hm := h m (List.mem_of_getElem? hi)
      simp only [readable_deliverable hm]
  | scan i => rfl
  | first i => rfl
  | count i => rfl
  | next i => rfl
  | loop i => rfl

theorem setsAfterAll_classes {falsy : α → Bool} (sc : StoredClass) (program : List (StoredCommand α)) :
    ∀ {lists : List (List α)}, (∀ m ∈ Spec.setsAfterAll .memory falsy lists program, Deliverable falsy m) →
      Spec.setsAfterAll sc falsy lists program = Spec.setsAfterAll .memory falsy lists program := by
  induction program with
  | nil => intro _ _; rfl
  | cons command program ih =>
    intro lists h
    have h0 : ∀ m ∈ lists, Deliverable falsy m := fun m hm =>
      h m ((setsAfterAll_prefix .memory falsy (command :: program) lists).subset hm)
    show Spec.setsAfterAll sc falsy (Spec.setsAfter sc falsy lists command) program =
      Spec.setsAfterAll .memory falsy (Spec.setsAfter .memory falsy lists command) program
    rw [setsAfter_classes h0 sc command]
    exact ih h

/-- **C101**: a program sees the same whichever class its sets are stored in, as long as none of its sets is
without records and no record is without fields. -/
theorem C101_classes_partial (c : Codec α β) (hc : Codec.Faithful c) (sc sc' : StoredClass) (l : List α)
    (program : List (StoredCommand α))
    (hd : ∀ m ∈ Spec.setsAfterAll .memory c.falsy [l] program, Deliverable c.falsy m)
    (command : StoredCommand α) (hn : ∀ i, command ≠ .next i) (hl : ∀ i, command ≠ .loop i) :
    (runStored c sc (afterStored c sc [SetObj.make c sc l] program) command).1 =
      (runStored c sc' (afterStored c sc' [SetObj.make c sc' l] program) command).1 := by
  have key : ∀ sc, Spec.answer sc c.falsy (Spec.setsAfterAll sc c.falsy [l] program) command =
      Spec.answer .memory c.falsy (Spec.setsAfterAll .memory c.falsy [l] program) command := by
    intro sc
    rw [setsAfterAll_classes sc program hd]
    generalize Spec.setsAfterAll .memory c.falsy [l] program = lists at hd
    cases command with
    | derive i op =>
      simp only [Spec.answer]
      cases hi : lists[i]? with
      | none => rfl
      | some m => simp only [readable_deliverable (hd m (List.mem_of_getElem? hi))]
    | scan i =>
      simp only [Spec.answer]
      cases hi : lists[i]? with
      | none => rfl
      | some m => simp only [readable_deliverable (hd m (List.mem_of_getElem? hi))]
    | first i =>
      simp only [Spec.answer]
      cases hi : lists[i]? with
      | none => rfl
      | some m => simp only [readable_deliverable (hd m (List.mem_of_getElem? hi))]
    | count i => rfl
    | next i => rfl
    | loop i => rfl
  obtain ⟨a, ha⟩ : ∃ a, Spec.answer .memory c.falsy (Spec.setsAfterAll .memory c.falsy [l] program) command = some a := by
    cases command with
    | next i => exact absurd rfl (hn i)
    | loop i => exact absurd rfl (hl i)
    | derive i op => exact ⟨_, rfl⟩
    | scan i => exact ⟨_, rfl⟩
    | first i => exact ⟨_, rfl⟩
    | count i => exact ⟨_, rfl⟩
  rw [C101_stored_partial c hc sc l program command a ((key sc).trans ha),
    C101_stored_partial c hc sc' l program command a ((key sc').trans ha)]

/-! ## Loops -/

/-- The set a command is about. -/
def about : StoredCommand α → Nat
  | .derive i _ => i
  | .scan i => i
  | .first i => i
  | .count i => i
  | .next i => i
  | .loop i => i

theorem fresh_step (c : Codec α β) (sc : StoredClass) (sets : List (SetObj α β)) (i : Nat)
    (h : ∀ s, sets[i]? = some s → s.iterator = none) (command : StoredCommand α) (hi : about command ≠ i) :
    ∀ s, (runStored c sc sets command).2[i]? = some s → s.iterator = none := by
  have hset : ∀ (j : Nat) (x : SetObj α β), j ≠ i → ∀ s, (sets.set j x)[i]? = some s → s.iterator = none := by
    intro j x hj s hs
    rw [List.getElem?_set_ne hj] at hs
    exact h s hs
  cases command with
  | derive j op =>
    simp only [runStored]
    split
    · exact h
    · split
      · exact hset j _ hi
      · split
        · exact hset j _ hi
        · intro s hs
          rw [List.getElem?_append] at hs
          split at hs
          · exact hset j _ hi s hs
          · rw [List.getElem?_singleton] at hs
            split at hs
            · cases hs; rfl
            · cases hs
  | scan j =>
    simp only [runStored]
    split
    · exact h
    · split <;> exact hset j _ hi
  | first j =>
    simp only [runStored]
    split
    · exact h
    · split <;> exact hset j _ hi
  | count j =>
    simp only [runStored]
    split <;> exact h
  | next j =>
    simp only [runStored]
    split
    · exact h
    · split <;> exact hset j _ hi
  | loop j =>
    simp only [runStored]
    split
    · exact h
    · split <;> exact hset j _ hi

theorem fresh_program (c : Codec α β) (sc : StoredClass) (i : Nat) (program : List (StoredCommand α)) :
    ∀ (sets : List (SetObj α β)), (∀ s, sets[i]? = some s → s.iterator = none) →
      (∀ command ∈ program, about command ≠ i) →
      ∀ s, (afterStored c sc sets program)[i]? = some s → s.iterator = none := by
  induction program with
  | nil => intro sets h _; exact h
  | cons command program ih =>
    intro sets h hp
    exact ih _ (fresh_step c sc sets i h command (hp command List.mem_cons_self))
      (fun x hx => hp x (List.mem_cons_of_mem _ hx))

/-- **C101**: a for loop over a set that has not been used before goes through all its records, whatever was done
with the other sets. -/
theorem C101_loop_partial (c : Codec α β) (hc : Codec.Faithful c) (sc : StoredClass) (l : List α)
    (program : List (StoredCommand α)) (i : Nat) (hi : ∀ command ∈ program, about command ≠ i) (m : List α)
    (hm : (Spec.setsAfterAll sc c.falsy [l] program)[i]? = some m) :
    (runStored c sc (afterStored c sc [SetObj.make c sc l] program) (.loop i)).1 =
      match Spec.readable sc c.falsy m with
      | .error e => .raised e
      | .ok records => .records records := by
  have hf := fresh_program c sc i program [SetObj.make c sc l] (by
    intro s hs
    cases i with
    | zero => cases hs; rfl
    | succ i => cases hs) hi
  have ha := program_agree c hc sc program (sets := [SetObj.make c sc l]) (lists := [l]) (.cons (holds_make c sc l) .nil)
  rcases agree_get ha i with ⟨_, h2⟩ | ⟨s, m', h1, h2, hs, _⟩
  · rw [h2] at hm; cases hm
  · rw [h2] at hm
    cases hm
    simp only [runStored, h1, hf s h1, Option.getD_none,
      show s.storage.readAll c = Spec.readable sc c.falsy m by rw [hs]; exact readAll_make c hc sc m]
    cases Spec.readable sc c.falsy m <;> rfl

/-- **C101** fails for loops that are under way: any method that reads the set ends them, whatever records were
still to come.  (`for r in s: if r["x"] > s.max("x"): …` looks at one record.) -/
theorem C101_reading_ends_loops_fails (c : Codec α β) (sc : StoredClass) (sets : List (SetObj α β)) (i : Nat)
    (hi : i < sets.length) (command : StoredCommand α)
    (h : command = .scan i ∨ ∃ keep, command = .derive i (.filter keep)) :
    (runStored c sc (runStored c sc sets command).2 (.next i)).1 = .record none := by
  have hs : sets[i]? = some sets[i] := List.getElem?_eq_getElem hi
  have key : ∀ (x : SetObj α β), x.iterator = some (.ok []) → ∀ extra : List (SetObj α β),
      (runStored c sc (sets.set i x ++ extra) (.next i)).1 = .record none := by
    intro x hx extra
    have : (sets.set i x ++ extra)[i]? = some x := by
      rw [List.getElem?_append_left (by simpa using hi), List.getElem?_set_self hi]
    simp only [runStored, this, hx, Option.getD_some]
    rfl
  have key0 : ∀ (x : SetObj α β), x.iterator = some (.ok []) →
      (runStored c sc (sets.set i x) (.next i)).1 = .record none := by
    intro x hx
    have := key x hx []
    rwa [List.append_nil] at this
  rcases h with rfl | ⟨keep, rfl⟩
  · conv_lhs => enter [1, 3]; rw [runStored]
    simp only [hs]
    split
    · exact key0 _ rfl
    · exact key0 _ rfl
  · conv_lhs => enter [1, 3]; rw [runStored]
    simp only [hs]
    split
    · exact key0 _ rfl
    · exact key _ rfl _

/-- **C101** fails for loops that are under way when records are taken, too: after `take(n)` the loop goes on with the record
after the first `n`, whichever it had come to. -/
theorem C101_take_moves_loops_fails (c : Codec α β) (hc : Codec.Faithful c) (sc : StoredClass) (l : List α)
    (program : List (StoredCommand α)) (i : Nat) (m : List α)
    (hm : (Spec.setsAfterAll sc c.falsy [l] program)[i]? = some m) (records : List α)
    (hr : Spec.readable sc c.falsy m = .ok records) (n : Nat) (hn : 0 < n) :
    (runStored c sc (afterStored c sc [SetObj.make c sc l] (program ++ [.derive i (.take n)])) (.next i)).1 =
      .record records[n]? := by
  have ha := program_agree c hc sc program (sets := [SetObj.make c sc l]) (lists := [l]) (.cons (holds_make c sc l) .nil)
  rcases agree_get ha i with ⟨_, h2⟩ | ⟨s, m', h1, h2, hs, _⟩
  · rw [h2] at hm; cases hm
  · rw [h2] at hm
    cases hm
    have hread : s.storage.readAll c = .ok records := by rw [hs, ← hr]; exact readAll_make c hc sc m
    have hsplit : afterStored c sc [SetObj.make c sc l] (program ++ [.derive i (.take n)]) =
        (runStored c sc (afterStored c sc [SetObj.make c sc l] program) (.derive i (.take n))).2 := by
      simp only [afterStored, List.foldl_append, List.foldl_cons, List.foldl_nil]
    rw [hsplit]
    generalize afterStored c sc [SetObj.make c sc l] program = sets at h1
    have hlt := (List.getElem?_eq_some_iff.1 h1).1
    have hd : (runStored c sc sets (.derive i (.take n))).2 =
        sets.set i { s with iterator := some (.ok (records.drop n)) } ++ [SetObj.make c sc (itake n records)] := by
      simp only [runStored, h1, hread, Op.apply, Op.leaves]
      rw [if_pos (by omega)]
      simp
    rw [hd]
    have hget : (sets.set i { s with iterator := some (.ok (records.drop n)) } ++ [SetObj.make c sc (itake n records)])[i]? =
        some { s with iterator := some (.ok (records.drop n)) } := by
      rw [List.getElem?_append_left (by simpa using hlt), List.getElem?_set_self hlt]
    simp only [runStored, hget, Option.getD_some]
    simp

/-! ## Examples -/

/-- Records that are rows of flags, a letter each on disk; a batch is itself. -/
def flagCodec : Codec (List Bool) (List (List Bool)) :=
  { dump := fun r => r.map fun b => if b then 't' else 'f', parse := fun s => s.dropLast.map (· == 't'),
    pack := id, unpack := id, falsy := List.isEmpty, bufferSize := 3 }

theorem flagCodec_faithful : Codec.Faithful flagCodec where
  line x := by
    simp only [flagCodec, List.dropLast_concat, List.map_map]
    conv_rhs => rw [← List.map_id x]
    refine List.map_congr_left fun b _ => ?_
    cases b <;> rfl
  one x := by
    simp only [flagCodec, List.mem_map, not_exists, not_and]
    intro b _
    cases b <;> decide
  batch _ := rfl

/-- Filter, take of the filtered, and reading everything twice and in between: the sets are what they were made
from, on disk and in compressed memory. -/
example (sc : StoredClass) :
    answersStored flagCodec sc [SetObj.make flagCodec sc [[true], [false], [true, true], [false, true]]]
      [.next 0, .derive 0 (.filter fun r => r.head? == some true), .first 0, .derive 1 (.take 1), .loop 1, .scan 2,
       .scan 1, .scan 0, .scan 2, .count 1] =
    [.record (some [true]), .made, .record (some [true]), .made, .records [[true, true]], .records [[true]],
     .records [[true], [true, true]], .records [[true], [false], [true, true], [false, true]], .records [[true]],
     .number 2] := by
  cases sc <;> decide

/-- The sets of this program are deliverable, so that it sees the same whichever way they are stored. -/
example : ∀ m ∈ Spec.setsAfterAll .memory flagCodec.falsy [[[true], [false], [true, true], [false, true]]]
    [.next 0, .derive 0 (.filter fun r => r.head? == some true), .derive 1 (.take 1), .loop 1],
    Deliverable flagCodec.falsy m := by
  have h : Spec.setsAfterAll .memory flagCodec.falsy [[[true], [false], [true, true], [false, true]]]
      [.next 0, .derive 0 (.filter fun r => r.head? == some true), .derive 1 (.take 1), .loop 1] =
      [[[true], [false], [true, true], [false, true]], [[true], [true, true]], [[true]]] := by decide
  rw [h]
  intro m hm
  simp only [List.mem_cons, List.not_mem_nil, or_false] at hm
  rcases hm with rfl | rfl | rfl <;> exact ⟨by decide, by decide⟩

/-- **C101** fails on disk: a filter that keeps nothing makes a set that cannot be read and from which nothing can be
derived; in memory it is empty. -/
theorem C101_empty_on_disk_fails (c : Codec α β) (hc : Codec.Faithful c) (l : List α) (hl : l ≠ []) :
    answersStored c .disk [SetObj.make c .disk l] [.derive 0 (.filter fun _ => false), .scan 1, .derive 1 (.take 5)] =
      [.made, .raised .valueError, .raised .valueError] ∧
    answersStored c .memory [SetObj.make c .memory l] [.derive 0 (.filter fun _ => false), .scan 1, .derive 1 (.take 5)] =
      [.made, .records [], .made] := by
  have h0 : filterBy (fun _ : α => false) l = [] := by rw [filterBy_eq]; simp
  have hr : (SetObj.make c .disk l).storage.readAll c = .ok l := by
    rw [show (SetObj.make c .disk l).storage = Storage.make c .disk l from rfl, readAll_make c hc]
    simp only [Spec.readable, if_neg hl]
  have hr0 : (SetObj.make c .disk ([] : List α)).storage.readAll c = .error .valueError := by
    rw [show (SetObj.make c .disk ([] : List α)).storage = Storage.make c .disk [] from rfl, readAll_make c hc]
    rfl
  constructor
  · simp [answersStored, runStored, hr, hr0, Op.apply, h0]
  · simp [answersStored, runStored, SetObj.make, Storage.make, Storage.readAll, Op.apply, h0]

/-- **C101** fails in compressed memory: records without fields are counted and not delivered. -/
theorem C101_empty_records_fails :
    answersStored flagCodec .compressed [SetObj.make flagCodec .compressed [[], [true]]] [.count 0, .scan 0] =
      [.number 2, .records [[true]]] ∧
    answersStored flagCodec .memory [SetObj.make flagCodec .memory [[], [true]]] [.count 0, .scan 0] =
      [.number 2, .records [[], [true]]] := by decide

/-- **C101** fails for a loop within a loop over the same set: the inner one takes the records of the outer one. -/
theorem C101_nested_loops_fails (sc : StoredClass) :
    answersStored flagCodec sc [SetObj.make flagCodec sc [[true], [false], [true, true]]] [.next 0, .loop 0, .next 0] =
      [.record (some [true]), .records [[false], [true, true]], .record none] := by
  cases sc <;> decide

/-- **C59** fails for a stored set that has been read: `collect_set` loops over the set (collected_set.py:31), so after
any method that reads it, or a second time, there is nothing to collect. -/
theorem C59_after_reading_fails {δ : Type} (c : Codec Record δ) (sc : StoredClass) (sets : List (SetObj Record δ)) (i : Nat)
    (hi : i < sets.length) (hash : Str → BitVec 64) (column : Str) (command : StoredCommand Record)
    (h : command = .scan i ∨ command = .loop i) :
    ∃ records, (runStored c sc (runStored c sc sets command).2 (.loop i)).1 = .records records ∧
      Collected.collect hash column false records = [] := by
  have hs : sets[i]? = some sets[i] := List.getElem?_eq_getElem hi
  have key : ∀ (x : SetObj Record δ), x.iterator = some (.ok []) →
      (runStored c sc (sets.set i x) (.loop i)).1 = .records [] := by
    intro x hx
    have : (sets.set i x)[i]? = some x := List.getElem?_set_self hi
    simp only [runStored, this, hx, Option.getD_some]
  have : (runStored c sc (runStored c sc sets command).2 (.loop i)).1 = .records [] := by
    rcases h with rfl | rfl
    · conv_lhs => enter [1, 3]; rw [runStored]
      simp only [hs]
      split <;> exact key _ rfl
    · conv_lhs => enter [1, 3]; rw [runStored]
      simp only [hs]
      split <;> exact key _ rfl
  exact ⟨[], this, rfl⟩

end Mabel.Props
