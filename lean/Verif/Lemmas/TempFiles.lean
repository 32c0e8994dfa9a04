import Verif.Spec.TempFiles

namespace Mabel.TempFiles
open Mabel.Py Mabel.DictSet

variable {α β : Type}

theorem sets_append (p : Nat) : ∀ (a b : List (Event α)) (made : List (Option (List α))),
    Spec.sets p made (a ++ b) = Spec.sets p (Spec.sets p made a) b
  | [], _, _ => rfl
  | e :: a, b, made => by
    cases e <;> simp only [List.cons_append, Spec.sets] <;> exact sets_append p a b _

theorem foldl_remove : ∀ (names : List Str) (dir : Str → Option Str) (n : Str),
    names.foldl remove dir n = if n ∈ names then none else dir n
  | [], _, _ => by simp
  | m :: names, dir, n => by
    rw [List.foldl_cons, foldl_remove names]
    by_cases h : n ∈ names
    · simp [h]
    · by_cases hm : n = m <;> simp [h, hm, remove]

/-- The bytes of the file of a set. -/
def content (c : Codec α β) (l : List α) : Str := writeLines c.dump c.bufferSize [] [] l

/-- What is the case after every history. -/
structure Inv (c : Codec α β) (d : Str → Option Str) (es : List (Event α)) (s : State) : Prop where
  runs : ∀ p, (s.procs p).running = true ↔ Spec.Runs es p
  shape : ∀ p, (s.procs p).sets.map Option.isSome = (Spec.sets p [] es).map Option.isSome
  picked : ∀ p n, n ∈ (s.procs p).atexit ↔ Event.pick p n ∈ es
  known : ∀ p n, some n ∈ (s.procs p).sets → n ∈ (s.procs p).atexit
  asked : ∀ p n, (s.procs p).pending = some n → n ∈ (s.procs p).atexit
  kept : ∀ n, d n ≠ none → s.dir n = d n ∧ ∀ p, n ∉ (s.procs p).atexit
  live : ∀ n f, d n = none → s.dir n = some f → ∃ (p i : Nat) (l : List α), (s.procs p).sets[i]? = some (some n) ∧
    Spec.Has es p i l ∧ f = content c l ∧ Event.exit p ∉ es

/-- What is the case if no two processes have had the same name. -/
structure Own (c : Codec α β) (es : List (Event α)) (s : State) : Prop where
  pend : ∀ p n, (s.procs p).running = true → (s.procs p).pending = some n → s.dir n = none
  full : ∀ (p i : Nat) (n : Str) (l : List α), (s.procs p).running = true → (s.procs p).sets[i]? = some (some n) → Spec.Has es p i l →
    s.dir n = some (content c l)
  dist : ∀ (p i j : Nat) (n : Str), (s.procs p).running = true → (s.procs p).sets[i]? = some (some n) →
    (s.procs p).sets[j]? = some (some n) → i = j

theorem inv_start (c : Codec α β) (d : Str → Option Str) : Inv c d [] (start d) := by
  refine ⟨fun p => ?_, fun p => rfl, fun p n => ?_, fun p n h => ?_, fun p n h => ?_, fun n _ => ⟨rfl, fun p => ?_⟩, ?_⟩
  · simp [start, Spec.Runs]
  · simp [start]
  · simp [start] at h
  · simp [start] at h
  · simp [start]
  · intro n f h1 h2
    simp [start, h1] at h2

theorem own_start (c : Codec α β) (d : Str → Option Str) : Own (α := α) c [] (start d) := by
  refine ⟨?_, ?_, ?_⟩ <;> simp [start]

theorem with_self (s : State) (p : Nat) (q : Proc) : s.with p q p = q := by simp [State.with]
theorem with_ne (s : State) {p r : Nat} (q : Proc) (h : r ≠ p) : s.with p q r = s.procs r := by simp [State.with, h]

theorem inv_pick {c : Codec α β} {d : Str → Option Str} {es : List (Event α)} {s : State} (h : Inv c d es s) (p : Nat)
    (name : Str) (hrun : (s.procs p).running = true) (hfree : s.dir name = none) :
    Inv c d (es ++ [.pick p name])
      ⟨s.dir, s.with p { s.procs p with pending := some name, atexit := name :: (s.procs p).atexit }⟩ := by
  have hs : ∀ q, Spec.sets q [] (es ++ [.pick p name]) = Spec.sets q [] es := fun q => by
    rw [sets_append]; rfl
  refine ⟨fun q => ?_, fun q => ?_, fun q n => ?_, fun q n hq => ?_, fun q n hq => ?_, fun n hn => ⟨(h.kept n hn).1, fun q => ?_⟩, ?_⟩
  · have := h.runs q
    by_cases e : q = p
    · subst e; simpa [with_self, Spec.Runs] using this
    · simpa [with_ne s _ e, Spec.Runs] using this
  · have := h.shape q
    rw [hs]
    by_cases e : q = p
    · subst e; simpa [with_self] using this
    · simpa [with_ne s _ e] using this
  · have := h.picked q n
    by_cases e : q = p
    · subst e; simp [with_self, this, or_comm]
    · simp [with_ne s _ e, this, e]
  · by_cases e : q = p
    · subst e
      simp only [with_self] at hq ⊢
      exact List.mem_cons_of_mem _ (h.known q n hq)
    · simp only [with_ne s _ e] at hq ⊢
      exact h.known q n hq
  · by_cases e : q = p
    · subst e
      simp only [with_self, Option.some.injEq] at hq ⊢
      simp [hq]
    · simp only [with_ne s _ e] at hq ⊢
      exact h.asked q n hq
  · have := (h.kept n hn).2 q
    by_cases e : q = p
    · subst e
      simp only [with_self, List.mem_cons, not_or]
      refine ⟨fun e => ?_, this⟩
      subst e
      exact hn ((h.kept n hn).1 ▸ hfree)
    · simpa only [with_ne s _ e] using this
  · intro n f h1 h2
    obtain ⟨q, i, l, g1, g2, g3, g4⟩ := h.live n f h1 h2
    refine ⟨q, i, l, ?_, ?_, g3, by simpa using g4⟩
    · by_cases e : q = p
      · subst e; simpa only [with_self] using g1
      · simpa only [with_ne s _ e] using g1
    · show (Spec.sets q [] (es ++ [.pick p name]))[i]? = _
      rw [hs]; exact g2

theorem own_pick {c : Codec α β} {es : List (Event α)} {s : State} (h : Own c es s) (p : Nat)
    (name : Str) (hfree : s.dir name = none) :
    Own c (es ++ [.pick p name])
      ⟨s.dir, s.with p { s.procs p with pending := some name, atexit := name :: (s.procs p).atexit }⟩ := by
  have hs : ∀ q, Spec.sets q [] (es ++ [.pick p name]) = Spec.sets q [] es := fun q => by
    rw [sets_append]; rfl
  refine ⟨fun q n h1 h2 => ?_, fun q i n l h1 h2 h3 => ?_, fun q i j n h1 h2 h3 => ?_⟩
  · by_cases e : q = p
    · subst e
      simp only [with_self, Option.some.injEq] at h2
      subst h2; exact hfree
    · simp only [with_ne s _ e] at h1 h2
      exact h.pend q n h1 h2
  · have h3' : Spec.Has es q i l := by
      have : (Spec.sets q [] (es ++ [.pick p name]))[i]? = some (some l) := h3
      rwa [hs] at this
    by_cases e : q = p
    · subst e
      simp only [with_self] at h1 h2
      exact h.full q i n l h1 h2 h3'
    · simp only [with_ne s _ e] at h1 h2
      exact h.full q i n l h1 h2 h3'
  · by_cases e : q = p
    · subst e
      simp only [with_self] at h1 h2 h3
      exact h.dist q i j n h1 h2 h3
    · simp only [with_ne s _ e] at h1 h2 h3
      exact h.dist q i j n h1 h2 h3

theorem shape_get {s : List (Option Str)} {t : List (Option (List α))} (h : s.map Option.isSome = t.map Option.isSome) :
    s.length = t.length := by simpa using congrArg List.length h

theorem inv_store {c : Codec α β} {d : Str → Option Str} {es : List (Event α)} {s : State} (h : Inv c d es s) (p : Nat)
    (name : Str) (records : List α) (hrun : (s.procs p).running = true) (hp : (s.procs p).pending = some name) :
    Inv c d (es ++ [.store p records]) ⟨overwrite s.dir name (content c records),
      s.with p { s.procs p with pending := none, sets := (s.procs p).sets ++ [some name] }⟩ := by
  have hself : Spec.sets p [] (es ++ [.store p records]) = Spec.sets p [] es ++ [some records] := by
    rw [sets_append]; simp [Spec.sets]
  have hs : ∀ q, q ≠ p → Spec.sets q [] (es ++ [.store p records]) = Spec.sets q [] es := fun q hq => by
    rw [sets_append]; simp [Spec.sets, Ne.symm hq]
  have hlen := shape_get (h.shape p)
  have hname := h.asked p name hp
  have hgo : Event.exit p ∉ es := ((h.runs p).1 hrun).1
  refine ⟨fun q => ?_, fun q => ?_, fun q n => ?_, fun q n hq => ?_, fun q n hq => ?_, fun n hn => ⟨?_, fun q => ?_⟩, ?_⟩
  · have := h.runs q
    by_cases e : q = p
    · subst e; simpa [with_self, Spec.Runs] using this
    · simpa [with_ne s _ e, Spec.Runs] using this
  · have := h.shape q
    by_cases e : q = p
    · subst e; simp [with_self, hself, this]
    · simpa [with_ne s _ e, hs q e] using this
  · have := h.picked q n
    by_cases e : q = p
    · subst e; simp [with_self, this]
    · simp [with_ne s _ e, this]
  · by_cases e : q = p
    · subst e
      simp only [with_self, List.mem_append, List.mem_singleton, Option.some.injEq] at hq ⊢
      rcases hq with hq | hq
      · exact h.known q n hq
      · subst hq; exact hname
    · simp only [with_ne s _ e] at hq ⊢
      exact h.known q n hq
  · by_cases e : q = p
    · subst e
      simp [with_self] at hq
    · simp only [with_ne s _ e] at hq ⊢
      exact h.asked q n hq
  · have hne : n ≠ name := fun e => (h.kept n hn).2 p (e ▸ hname)
    simpa [overwrite, hne] using (h.kept n hn).1
  · have := (h.kept n hn).2 q
    by_cases e : q = p
    · subst e; simpa only [with_self] using this
    · simpa only [with_ne s _ e] using this
  · intro n f h1 h2
    by_cases hn : n = name
    · subst hn
      refine ⟨p, (s.procs p).sets.length, records, ?_, ?_, ?_, by simpa using hgo⟩
      · simp [with_self]
      · show (Spec.sets p [] (es ++ [.store p records]))[_]? = _
        rw [hself, hlen]; simp
      · simpa [overwrite] using h2.symm
    · obtain ⟨q, i, l, g1, g2, g3, g4⟩ := h.live n f h1 (by simpa [overwrite, hn] using h2)
      refine ⟨q, i, l, ?_, ?_, g3, by simpa using g4⟩
      · by_cases e : q = p
        · subst e
          simp only [with_self]
          rw [List.getElem?_append_left (List.getElem?_eq_some_iff.1 g1).1]; exact g1
        · simpa only [with_ne s _ e] using g1
      · show (Spec.sets q [] (es ++ [.store p records]))[i]? = _
        by_cases e : q = p
        · subst e
          rw [hself, List.getElem?_append_left (List.getElem?_eq_some_iff.1 g2).1]; exact g2
        · rw [hs q e]; exact g2

/-- Two processes have not both had a name. -/
def Apart (s : State) : Prop := ∀ p q n, n ∈ (s.procs p).atexit → n ∈ (s.procs q).atexit → p = q

theorem own_store {c : Codec α β} {d : Str → Option Str} {es : List (Event α)} {s : State} (hi : Inv c d es s)
    (h : Own c es s) (ha : Apart s) (p : Nat)
    (name : Str) (records : List α) (hrun : (s.procs p).running = true) (hp : (s.procs p).pending = some name) :
    Own c (es ++ [.store p records]) ⟨overwrite s.dir name (content c records),
      s.with p { s.procs p with pending := none, sets := (s.procs p).sets ++ [some name] }⟩ := by
  have hself : Spec.sets p [] (es ++ [.store p records]) = Spec.sets p [] es ++ [some records] := by
    rw [sets_append]; simp [Spec.sets]
  have hs : ∀ q, q ≠ p → Spec.sets q [] (es ++ [.store p records]) = Spec.sets q [] es := fun q hq => by
    rw [sets_append]; simp [Spec.sets, Ne.symm hq]
  have hlen := shape_get (hi.shape p)
  have hname := hi.asked p name hp
  have hfree := h.pend p name hrun hp
  have old : ∀ i, (s.procs p).sets[i]? ≠ some (some name) := fun i e => by
    have hlt := (List.getElem?_eq_some_iff.1 e).1
    have hb := congrArg (fun l => l[i]?) (hi.shape p)
    simp only [List.getElem?_map, e, Option.map_some, Option.isSome_some] at hb
    cases e2 : (Spec.sets p [] es)[i]? with
    | none => rw [e2] at hb; simp at hb
    | some o =>
      rw [e2] at hb
      cases o with
      | none => simp at hb
      | some l => have := h.full p i name l hrun e e2; rw [hfree] at this; cases this
  refine ⟨fun q n h1 h2 => ?_, fun q i n l h1 h2 h3 => ?_, fun q i j n h1 h2 h3 => ?_⟩
  · by_cases e : q = p
    · subst e; simp [with_self] at h2
    · simp only [with_ne s _ e] at h1 h2
      have hn : n ≠ name := fun en => e (ha q p n (hi.asked q n h2) (en ▸ hname))
      simpa [overwrite, hn] using h.pend q n h1 h2
  · have h3' : (Spec.sets q [] (es ++ [.store p records]))[i]? = some (some l) := h3
    by_cases e : q = p
    · subst e
      simp only [with_self] at h1 h2
      rw [hself] at h3'
      by_cases hi' : i < (s.procs q).sets.length
      · rw [List.getElem?_append_left hi'] at h2
        rw [List.getElem?_append_left (hlen ▸ hi')] at h3'
        have hn : n ≠ name := fun en => old i (en ▸ h2)
        simpa [overwrite, hn] using h.full q i n l h1 h2 h3'
      · rw [List.getElem?_append_right (by omega), List.getElem?_singleton] at h2 h3'
        split at h2
        · split at h3'
          · cases h2; cases h3'; simp [overwrite]
          · cases h3'
        · cases h2
    · simp only [with_ne s _ e] at h1 h2
      rw [hs q e] at h3'
      have hn : n ≠ name := fun en =>
        e (ha q p n (hi.known q n (List.mem_of_getElem? h2)) (en ▸ hname))
      simpa [overwrite, hn] using h.full q i n l h1 h2 h3'
  · by_cases e : q = p
    · subst e
      simp only [with_self] at h1 h2 h3
      have key : ∀ k, ((s.procs q).sets ++ [some name])[k]? = some (some n) →
          (k < (s.procs q).sets.length ∧ (s.procs q).sets[k]? = some (some n)) ∨ (k = (s.procs q).sets.length ∧ n = name) := by
        intro k hk
        by_cases hk' : k < (s.procs q).sets.length
        · rw [List.getElem?_append_left hk'] at hk; exact Or.inl ⟨hk', hk⟩
        · rw [List.getElem?_append_right (by omega), List.getElem?_singleton] at hk
          split at hk
          · cases hk; exact Or.inr ⟨by omega, rfl⟩
          · cases hk
      rcases key i h2 with ⟨_, g1⟩ | ⟨e1, e2⟩ <;> rcases key j h3 with ⟨_, g2⟩ | ⟨e3, e4⟩
      · exact h.dist q i j n h1 g1 g2
      · exact absurd (e4 ▸ g1) (old i)
      · exact absurd (e2 ▸ g2) (old j)
      · omega
    · simp only [with_ne s _ e] at h1 h2 h3
      exact h.dist q i j n h1 h2 h3

theorem inv_drop {c : Codec α β} {d : Str → Option Str} {es : List (Event α)} {s : State} (h : Inv c d es s) (p k : Nat)
    (name : Str) (hk : (s.procs p).sets[k]? = some (some name)) :
    Inv c d (es ++ [.drop p k]) ⟨remove s.dir name,
      s.with p { s.procs p with sets := (s.procs p).sets.set k none }⟩ := by
  have hself : Spec.sets p [] (es ++ [.drop p k]) = (Spec.sets p [] es).set k none := by
    rw [sets_append]; simp [Spec.sets]
  have hs : ∀ q, q ≠ p → Spec.sets q [] (es ++ [.drop p k]) = Spec.sets q [] es := fun q hq => by
    rw [sets_append]; simp [Spec.sets, Ne.symm hq]
  have hname := h.known p name (List.mem_of_getElem? hk)
  refine ⟨fun q => ?_, fun q => ?_, fun q n => ?_, fun q n hq => ?_, fun q n hq => ?_, fun n hn => ⟨?_, fun q => ?_⟩, ?_⟩
  · have := h.runs q
    by_cases e : q = p
    · subst e; simpa [with_self, Spec.Runs] using this
    · simpa [with_ne s _ e, Spec.Runs] using this
  · have := h.shape q
    by_cases e : q = p
    · subst e; simp [with_self, hself, List.map_set, this]
    · simpa [with_ne s _ e, hs q e] using this
  · have := h.picked q n
    by_cases e : q = p
    · subst e; simp [with_self, this]
    · simp [with_ne s _ e, this]
  · by_cases e : q = p
    · subst e
      simp only [with_self] at hq ⊢
      rcases List.mem_or_eq_of_mem_set hq with hq | hq
      · exact h.known q n hq
      · cases hq
    · simp only [with_ne s _ e] at hq ⊢
      exact h.known q n hq
  · by_cases e : q = p
    · subst e
      simp only [with_self] at hq ⊢
      exact h.asked q n hq
    · simp only [with_ne s _ e] at hq ⊢
      exact h.asked q n hq
  · have hne : n ≠ name := fun e => (h.kept n hn).2 p (e ▸ hname)
    simpa [remove, hne] using (h.kept n hn).1
  · have := (h.kept n hn).2 q
    by_cases e : q = p
    · subst e; simpa only [with_self] using this
    · simpa only [with_ne s _ e] using this
  · intro n f h1 h2
    have hn : n ≠ name := fun e => by simp [remove, e] at h2
    obtain ⟨q, i, l, g1, g2, g3, g4⟩ := h.live n f h1 (by simpa [remove, hn] using h2)
    have hik : q = p → k ≠ i := fun e ek => by
      subst e; subst ek
      rw [hk] at g1; cases g1; exact hn rfl
    refine ⟨q, i, l, ?_, ?_, g3, by simpa using g4⟩
    · by_cases e : q = p
      · subst e
        simp only [with_self]
        rw [List.getElem?_set_ne (hik rfl)]; exact g1
      · simpa only [with_ne s _ e] using g1
    · show (Spec.sets q [] (es ++ [.drop p k]))[i]? = _
      by_cases e : q = p
      · subst e
        rw [hself, List.getElem?_set_ne (hik rfl)]; exact g2
      · rw [hs q e]; exact g2

theorem own_drop {c : Codec α β} {d : Str → Option Str} {es : List (Event α)} {s : State} (hi : Inv c d es s)
    (h : Own c es s) (ha : Apart s) (p k : Nat) (name : Str) (hk : (s.procs p).sets[k]? = some (some name)) :
    Own c (es ++ [.drop p k]) ⟨remove s.dir name,
      s.with p { s.procs p with sets := (s.procs p).sets.set k none }⟩ := by
  have hself : Spec.sets p [] (es ++ [.drop p k]) = (Spec.sets p [] es).set k none := by
    rw [sets_append]; simp [Spec.sets]
  have hs : ∀ q, q ≠ p → Spec.sets q [] (es ++ [.drop p k]) = Spec.sets q [] es := fun q hq => by
    rw [sets_append]; simp [Spec.sets, Ne.symm hq]
  have hname := hi.known p name (List.mem_of_getElem? hk)
  have key : ∀ i n, ((s.procs p).sets.set k none)[i]? = some (some n) →
      i ≠ k ∧ (s.procs p).sets[i]? = some (some n) := by
    intro i n hin
    by_cases e : i = k
    · subst e
      rw [List.getElem?_set_self (List.getElem?_eq_some_iff.1 hk).1] at hin
      cases hin
    · rw [List.getElem?_set_ne (Ne.symm e)] at hin
      exact ⟨e, hin⟩
  refine ⟨fun q n h1 h2 => ?_, fun q i n l h1 h2 h3 => ?_, fun q i j n h1 h2 h3 => ?_⟩
  · have : s.dir n = none := by
      by_cases e : q = p
      · subst e
        simp only [with_self] at h1 h2
        exact h.pend q n h1 h2
      · simp only [with_ne s _ e] at h1 h2
        exact h.pend q n h1 h2
    simp [remove, this]
  · have h3' : (Spec.sets q [] (es ++ [.drop p k]))[i]? = some (some l) := h3
    by_cases e : q = p
    · subst e
      simp only [with_self] at h1 h2
      obtain ⟨g1, g2⟩ := key i n h2
      rw [hself, List.getElem?_set_ne (Ne.symm g1)] at h3'
      have hn : n ≠ name := fun en => g1 (h.dist q i k n h1 g2 (en ▸ hk))
      simpa [remove, hn] using h.full q i n l h1 g2 h3'
    · simp only [with_ne s _ e] at h1 h2
      rw [hs q e] at h3'
      have hn : n ≠ name := fun en =>
        e (ha q p n (hi.known q n (List.mem_of_getElem? h2)) (en ▸ hname))
      simpa [remove, hn] using h.full q i n l h1 h2 h3'
  · by_cases e : q = p
    · subst e
      simp only [with_self] at h1 h2 h3
      exact h.dist q i j n h1 (key i n h2).2 (key j n h3).2
    · simp only [with_ne s _ e] at h1 h2 h3
      exact h.dist q i j n h1 h2 h3

/-- A process ends, and some files are removed. -/
theorem inv_end {c : Codec α β} {d : Str → Option Str} {es : List (Event α)} {s : State} (h : Inv c d es s) (p : Nat)
    (e : Event α) (b : Bool) (he : (e = .exit p ∧ b = true) ∨ (e = .kill p ∧ b = false)) (dir : Str → Option Str)
    (hdir : ∀ n, dir n = if b = true ∧ n ∈ (s.procs p).atexit then none else s.dir n) :
    Inv c d (es ++ [e]) ⟨dir, s.with p { s.procs p with running := false }⟩ := by
  have hs : ∀ q, Spec.sets q [] (es ++ [e]) = Spec.sets q [] es := fun q => by
    rw [sets_append]; rcases he with ⟨he, _⟩ | ⟨he, _⟩ <;> subst he <;> rfl
  have same : ∀ q, (s.with p { s.procs p with running := false } q).sets = (s.procs q).sets ∧
      (s.with p { s.procs p with running := false } q).atexit = (s.procs q).atexit ∧
      (s.with p { s.procs p with running := false } q).pending = (s.procs q).pending := fun q => by
    by_cases e : q = p
    · subst e; simp [with_self]
    · simp [with_ne s _ e]
  refine ⟨fun q => ?_, fun q => ?_, fun q n => ?_, fun q n hq => ?_, fun q n hq => ?_, fun n hn => ⟨?_, fun q => ?_⟩, ?_⟩
  · have := h.runs q
    by_cases e : q = p
    · subst e; rcases he with ⟨he, _⟩ | ⟨he, _⟩ <;> subst he <;> simp [with_self, Spec.Runs]
    · rcases he with ⟨he, _⟩ | ⟨he, _⟩ <;> subst he <;> simpa [with_ne s _ e, Spec.Runs, e] using this
  · rw [hs, (same q).1]; exact h.shape q
  · rw [(same q).2.1, h.picked q n]; rcases he with ⟨he, _⟩ | ⟨he, _⟩ <;> subst he <;> simp
  · rw [(same q).1] at hq; rw [(same q).2.1]; exact h.known q n hq
  · rw [(same q).2.2] at hq; rw [(same q).2.1]; exact h.asked q n hq
  · show dir n = d n
    rw [hdir, if_neg (fun g => (h.kept n hn).2 p g.2)]; exact (h.kept n hn).1
  · rw [(same q).2.1]; exact (h.kept n hn).2 q
  · intro n f h1 h2
    have h2 : dir n = some f := h2
    rw [hdir] at h2
    split at h2
    · cases h2
    · rename_i hno
      obtain ⟨q, i, l, g1, g2, g3, g4⟩ := h.live n f h1 h2
      refine ⟨q, i, l, by rw [(same q).1]; exact g1, ?_, g3, ?_⟩
      · show (Spec.sets q [] (es ++ [e]))[i]? = _
        rw [hs]; exact g2
      · simp only [List.mem_append, List.mem_singleton, not_or]
        refine ⟨g4, fun eq => ?_⟩
        rcases he with ⟨he, hb⟩ | ⟨he, _⟩
        · rw [he] at eq; cases eq
          exact hno ⟨hb, h.known _ n (List.mem_of_getElem? g1)⟩
        · rw [he] at eq; cases eq

theorem own_end {c : Codec α β} {d : Str → Option Str} {es : List (Event α)} {s : State} (hi : Inv c d es s)
    (h : Own c es s) (ha : Apart s) (p : Nat)
    (e : Event α) (b : Bool) (he : (e = .exit p ∧ b = true) ∨ (e = .kill p ∧ b = false)) (dir : Str → Option Str)
    (hdir : ∀ n, dir n = if b = true ∧ n ∈ (s.procs p).atexit then none else s.dir n) :
    Own c (es ++ [e]) ⟨dir, s.with p { s.procs p with running := false }⟩ := by
  have hs : ∀ q, Spec.sets q [] (es ++ [e]) = Spec.sets q [] es := fun q => by
    rw [sets_append]; rcases he with ⟨he, _⟩ | ⟨he, _⟩ <;> subst he <;> rfl
  have ne : ∀ q, (s.with p { s.procs p with running := false } q).running = true → q ≠ p := fun q hq e => by
    subst e; simp [with_self] at hq
  refine ⟨fun q n h1 h2 => ?_, fun q i n l h1 h2 h3 => ?_, fun q i j n h1 h2 h3 => ?_⟩
  · have e := ne q h1
    simp only [with_ne s _ e] at h1 h2
    show dir n = none
    rw [hdir, h.pend q n h1 h2]; simp
  · have e' := ne q h1
    simp only [with_ne s _ e'] at h1 h2
    have h3' : (Spec.sets q [] (es ++ [e]))[i]? = some (some l) := h3
    rw [hs] at h3'
    show dir n = _
    rw [hdir, if_neg (fun g => e' (ha q p n (hi.known q n (List.mem_of_getElem? h2)) g.2))]
    exact h.full q i n l h1 h2 h3'
  · have e' := ne q h1
    simp only [with_ne s _ e'] at h1 h2 h3
    exact h.dist q i j n h1 h2 h3

/-- One step keeps both. -/
theorem step_keeps {c : Codec α β} {d : Str → Option Str} {es : List (Event α)} {s s' : State} {e : Event α}
    (h : Inv c d es s) (hstep : step c s e = some s') :
    Inv c d (es ++ [e]) s' ∧ (Apart s → Own c es s → Own c (es ++ [e]) s') := by
  cases e with
  | pick p name =>
    simp only [step] at hstep
    split at hstep
    · rename_i hc
      cases hstep
      exact ⟨inv_pick h p name hc.1 hc.2.2, fun _ ho => own_pick ho p name hc.2.2⟩
    · cases hstep
  | store p records =>
    simp only [step] at hstep
    split at hstep
    · rename_i hc
      split at hstep
      · cases hstep
      · rename_i name hp
        cases hstep
        exact ⟨inv_store h p name records hc hp, fun ha ho => own_store h ho ha p name records hc hp⟩
    · cases hstep
  | drop p k =>
    simp only [step] at hstep
    split at hstep
    · split at hstep
      · rename_i name hk
        cases hstep
        exact ⟨inv_drop h p k name hk, fun ha ho => own_drop h ho ha p k name hk⟩
      · cases hstep
    · cases hstep
  | exit p =>
    simp only [step] at hstep
    split at hstep
    · cases hstep
      have hdir : ∀ n, (s.procs p).atexit.foldl remove s.dir n =
          if true = true ∧ n ∈ (s.procs p).atexit then none else s.dir n := fun n => by
        rw [foldl_remove]; simp
      exact ⟨inv_end h p _ true (Or.inl ⟨rfl, rfl⟩) _ hdir, fun ha ho => own_end h ho ha p _ true (Or.inl ⟨rfl, rfl⟩) _ hdir⟩
    · cases hstep
  | kill p =>
    simp only [step] at hstep
    split at hstep
    · cases hstep
      have hdir : ∀ n, s.dir n =
          if false = true ∧ n ∈ (s.procs p).atexit then none else s.dir n := fun n => by
        simp
      exact ⟨inv_end h p _ false (Or.inr ⟨rfl, rfl⟩) _ hdir, fun ha ho => own_end h ho ha p _ false (Or.inr ⟨rfl, rfl⟩) _ hdir⟩
    · cases hstep

theorem run_keeps {c : Codec α β} {d : Str → Option Str} : ∀ (events es : List (Event α)) (s s' : State),
    Inv c d es s → run c s events = some s' →
      Inv c d (es ++ events) s' ∧ (Spec.OwnNames (es ++ events) → Own c es s → Own c (es ++ events) s')
  | [], es, s, s', h, hr => by
    simp only [run] at hr
    cases hr
    simp only [List.append_nil]
    exact ⟨h, fun _ ho => ho⟩
  | e :: events, es, s, s', h, hr => by
    simp only [run] at hr
    split at hr
    · cases hr
    · rename_i s1 h1
      obtain ⟨g1, g2⟩ := step_keeps h h1
      obtain ⟨g3, g4⟩ := run_keeps events (es ++ [e]) s1 s' g1 hr
      rw [List.append_assoc, List.singleton_append] at g3 g4
      refine ⟨g3, fun hown ho => g4 hown (g2 (fun p q n hp hq => ?_) ho)⟩
      exact hown p q n (List.mem_append_left _ ((h.picked p n).1 hp)) (List.mem_append_left _ ((h.picked q n).1 hq))

end Mabel.TempFiles
