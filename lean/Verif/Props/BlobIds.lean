import Verif.Model.BlobIds
import Verif.Props.ManyStorage
import Verif.Props.FollowStream

/-!
# Names of blobs (C104)

The theorems about histories of runs and streams (C86-C92, C97-C100) ask that the names of blobs are made of hexadecimal digits,
differ, and ascend.  Here this is shown of the names that are made from the clock.
-/

namespace Mabel.BlobIds
open Mabel.Py Mabel.Paths Mabel.Naming Mabel.Spec Mabel.Listing Mabel.EndToEnd Mabel.Dates Mabel.History
open Mabel.StreamStorage (Before Rooms Process handed)
open Mabel.Blobs (Lib Faithful delivered formatOf)
open Mabel.Stream (Machine)
open Mabel.Disk hiding Bytes
variable {ρ : Type} {β : Type}

/-! ## Hexadecimal numbers -/

theorem hexDigit_lt : ∀ a < 16, ∀ b < 16, a < b → hexDigit a < hexDigit b := by decide
theorem hexDigit_inj : ∀ a < 16, ∀ b < 16, hexDigit a = hexDigit b → a = b := by decide
theorem hexDigit_mem : ∀ a < 16, hexDigit a ∈ "0123456789abcdef".toList := by decide

theorem hex_small {n : Nat} (h : n < 16) : hex n = [hexDigit n] := by rw [hex, if_pos h]
theorem hex_large {n : Nat} (h : ¬ n < 16) : hex n = hex (n / 16) ++ [hexDigit (n % 16)] := by rw [hex, if_neg h]

theorem hex_ne_nil (n : Nat) : hex n ≠ [] := by
  by_cases h : n < 16
  · rw [hex_small h]; simp
  · rw [hex_large h]; simp

theorem hex_mem (n : Nat) : ∀ c ∈ hex n, c ∈ "0123456789abcdef".toList := by
  induction n using Nat.strongRecOn with
  | _ n ih =>
    intro c hc
    by_cases h : n < 16
    · rw [hex_small h, List.mem_singleton] at hc
      rw [hc]
      exact hexDigit_mem n h
    · rw [hex_large h] at hc
      rcases List.mem_append.1 hc with hc | hc
      · exact ih (n / 16) (by omega) c hc
      · rw [List.mem_singleton.1 hc]
        exact hexDigit_mem _ (Nat.mod_lt _ (by omega))

theorem hex_inj : ∀ {a b : Nat}, hex a = hex b → a = b := by
  intro a
  induction a using Nat.strongRecOn with
  | _ a ih =>
    intro b h
    by_cases ha : a < 16 <;> by_cases hb : b < 16
    · rw [hex_small ha, hex_small hb] at h
      exact hexDigit_inj a ha b hb (by simpa using h)
    · rw [hex_small ha, hex_large hb] at h
      have := congrArg List.length h
      have h2 := List.length_pos_iff.2 (hex_ne_nil (b / 16))
      simp at this
      exact absurd this (hex_ne_nil _)
    · rw [hex_large ha, hex_small hb] at h
      have := congrArg List.length h
      simp at this
      exact absurd this (hex_ne_nil _)
    · rw [hex_large ha, hex_large hb] at h
      obtain ⟨h1, h2⟩ := List.append_inj' h rfl
      have e1 := ih (a / 16) (by omega) h1
      have e2 := hexDigit_inj _ (Nat.mod_lt _ (by omega)) _ (Nat.mod_lt _ (by omega)) (by simpa using h2)
      omega

theorem hex_length : ∀ {k n : Nat}, 16 ^ k ≤ n → n < 16 ^ (k + 1) → (hex n).length = k + 1
  | 0, n, _, h => by rw [hex_small (by simpa using h)]; rfl
  | k + 1, n, h1, h2 => by
    have hk : 0 < 16 ^ k := Nat.pos_of_ne_zero (by simp)
    have e1 : 16 ^ (k + 1) = 16 * 16 ^ k := by rw [Nat.pow_succ, Nat.mul_comm]
    have e2 : 16 ^ (k + 2) = 16 * (16 * 16 ^ k) := by rw [Nat.pow_succ, e1, Nat.mul_comm]
    rw [hex_large (by omega), List.length_append, hex_length (k := k) (by omega) (by omega)]
    rfl

theorem hex_lt : ∀ {a b : Nat}, (hex a).length = (hex b).length → a < b → hex a < hex b := by
  intro a
  induction a using Nat.strongRecOn with
  | _ a ih =>
    intro b hl h
    by_cases ha : a < 16 <;> by_cases hb : b < 16
    · rw [hex_small ha, hex_small hb]
      exact List.cons_lt_cons_iff.2 (Or.inl (hexDigit_lt a ha b hb h))
    · rw [hex_small ha, hex_large hb] at hl
      simp at hl
      exact absurd hl (hex_ne_nil _)
    · omega
    · rw [hex_large ha, hex_large hb] at hl ⊢
      have hl' : (hex (a / 16)).length = (hex (b / 16)).length := by simpa using hl
      rw [append_lt_append hl']
      by_cases e : a / 16 = b / 16
      · refine Or.inr ⟨by rw [e], List.cons_lt_cons_iff.2 (Or.inl (hexDigit_lt _ (Nat.mod_lt _ (by omega)) _ (Nat.mod_lt _ (by omega)) ?_))⟩
        omega
      · exact Or.inl (ih _ (by omega) hl' (by omega))

/-! ## Identifiers -/

/-- The clock moves between calls, and shows nanoseconds of the years 2006 (2⁶⁰) to 2554 (2⁶⁴). -/
structure Moving (calls : List (Nat × Nat)) : Prop where
  moves : calls.Pairwise (fun a b => a.2 < b.2)
  range : ∀ c ∈ calls, 2 ^ 60 ≤ c.2 ∧ c.2 < 2 ^ 64

theorem time_length {t : Nat} (h : 2 ^ 60 ≤ t ∧ t < 2 ^ 64) : (hex t).length = 16 :=
  hex_length (k := 15) (by simpa using h.1) (by simpa using h.2)

/-- **C104**: a process that starts afresh names all its blobs after the machine, itself and the time. -/
theorem C104_own_names (machine process : Nat) (calls : List (Nat × Nat)) :
    idsOf machine process none calls = calls.map (fun c => hex c.2 ++ '-' :: (hex machine ++ '-' :: hex process)) := by
  have key : ∀ (calls : List (Nat × Nat)) (cache : Cache), (∀ x, cache = some x → x.2 = node machine process) →
      idsOf machine process cache calls = calls.map (fun c => hex c.2 ++ '-' :: (hex machine ++ '-' :: hex process)) := by
    intro calls
    induction calls with
    | nil => intro cache _; rfl
    | cons c calls ih =>
      intro cache hc
      obtain ⟨self, time⟩ := c
      have hg : (getNode cache self machine process).1 = node machine process ∧
          ∀ x, (getNode cache self machine process).2 = some x → x.2 = node machine process := by
        cases cache with
        | none => exact ⟨rfl, fun x hx => by simp only [getNode, Option.some.injEq] at hx; rw [← hx]⟩
        | some y =>
          obtain ⟨w, n⟩ := y
          have hn : n = node machine process := hc (w, n) rfl
          subst hn
          simp only [getNode]
          split
          · exact ⟨rfl, fun x hx => hc x hx⟩
          · exact ⟨rfl, fun x hx => by simp only [Option.some.injEq] at hx; rw [← hx]⟩
      rw [idsOf, List.map_cons]
      simp only [hg.1]
      rw [ih _ hg.2]
      rfl
  exact key calls none (fun x hx => by cases hx)

/-- **C104**: names that are made at different times, on different machines or by different processes are different. -/
theorem C104_distinct {t t' m m' p p' : Nat}
    (h : hex t ++ '-' :: (hex m ++ '-' :: hex p) = hex t' ++ '-' :: (hex m' ++ '-' :: hex p')) : t = t' ∧ m = m' ∧ p = p' := by
  have cut : ∀ {a b : Nat} {x y : Str}, hex a ++ '-' :: x = hex b ++ '-' :: y → a = b ∧ x = y := by
    intro a b x y h
    have hd : ∀ n, '-' ∉ hex n := fun n hn => absurd (hex_mem n _ hn) (by decide)
    have key : ∀ (u v : Str), '-' ∉ u → '-' ∉ v → u ++ '-' :: x = v ++ '-' :: y → u = v ∧ x = y := by
      intro u
      induction u with
      | nil =>
        intro v _ hv e
        cases v with
        | nil => exact ⟨rfl, by simpa using e⟩
        | cons d v =>
          injection e with e1 _
          exact absurd (e1 ▸ List.mem_cons_self) hv
      | cons c u ih =>
        intro v hu hv e
        cases v with
        | nil =>
          injection e with e1 _
          exact absurd (e1 ▸ List.mem_cons_self) hu
        | cons d v =>
          injection e with e1 e2
          obtain ⟨h1, h2⟩ := ih v (fun h => hu (List.mem_cons_of_mem _ h)) (fun h => hv (List.mem_cons_of_mem _ h)) e2
          exact ⟨by rw [e1, h1], h2⟩
    obtain ⟨h1, h2⟩ := key _ _ (hd a) (hd b) h
    exact ⟨hex_inj h1, h2⟩
  obtain ⟨h1, h2⟩ := cut h
  obtain ⟨h3, h4⟩ := cut h2
  exact ⟨h1, h3, hex_inj h4⟩

theorem id_hex (t : Nat) (n : Str) (hn : HexId n) : HexId (hex t ++ '-' :: n) ∧ hex t ++ '-' :: n ≠ [] := by
  refine ⟨fun c hc => ?_, by simp⟩
  rcases List.mem_append.1 hc with hc | hc
  · have h := hex_mem t c hc
    have : ∀ c ∈ "0123456789abcdef".toList, c ∈ "0123456789abcdef-".toList := by decide
    exact this c h
  · rcases List.mem_cons.1 hc with rfl | hc
    · decide
    · exact hn c hc

theorem node_hex (m p : Nat) : HexId (hex m ++ '-' :: hex p) :=
  (id_hex m (hex p) (fun c hc => by
    have h := hex_mem p c hc
    have : ∀ c ∈ "0123456789abcdef".toList, c ∈ "0123456789abcdef-".toList := by decide
    exact this c h)).1

theorem id_before {t t' : Nat} (n n' : Str) (h : 2 ^ 60 ≤ t ∧ t < 2 ^ 64) (h' : 2 ^ 60 ≤ t' ∧ t' < 2 ^ 64) (hlt : t < t') :
    Before (hex t ++ '-' :: n) (hex t' ++ '-' :: n') := by
  have hl : (hex t).length = (hex t').length := by rw [time_length h, time_length h']
  refine ⟨(append_lt_append hl).2 (Or.inl (hex_lt hl hlt)), fun hp => ?_⟩
  obtain ⟨r, hr⟩ := hp
  rw [List.append_assoc] at hr
  have := (List.append_inj hr hl).1
  exact absurd (hex_inj this) (by omega)

/-- **C104**: the names a process makes while its clock moves are made of hexadecimal digits and dashes, have the same length,
and come in the order of the alphabet. -/
theorem C104_ascending (machine process : Nat) {calls : List (Nat × Nat)} (h : Moving calls) :
    (∀ i ∈ idsOf machine process none calls, HexId i ∧ i ≠ []) ∧
    (idsOf machine process none calls).Pairwise (fun i j => i.length = j.length ∧ i < j) ∧
    (idsOf machine process none calls).Pairwise Before := by
  rw [C104_own_names]
  refine ⟨?_, ?_, ?_⟩
  · intro i hi
    obtain ⟨c, -, rfl⟩ := List.mem_map.1 hi
    exact id_hex _ _ (node_hex _ _)
  · rw [List.pairwise_map]
    refine (List.Pairwise.and_mem.1 h.moves).imp (fun {a b} hab => ?_)
    obtain ⟨ha, hb, hlt⟩ := hab
    have hl : (hex a.2).length = (hex b.2).length := by rw [time_length (h.range a ha), time_length (h.range b hb)]
    exact ⟨by simp [hl], (append_lt_append hl).2 (Or.inl (hex_lt hl hlt))⟩
  · rw [List.pairwise_map]
    refine (List.Pairwise.and_mem.1 h.moves).imp (fun {a b} hab => ?_)
    exact id_before _ _ (h.range a hab.1) (h.range b hab.2.1) hab.2.2

/-! ## Runs and streams whose names are made from the clock -/

/-- The names of the blobs of a run are made from a clock that moves. -/
def Clocked (r : Run ρ) : Prop := ∃ (machine process : Nat) (calls : List (Nat × Nat)), Moving calls ∧
  ∀ n < r.count, (idsOf machine process none calls)[n]? = some (r.ids n)

/-- **C104**: so what C86, C87, C88 and C97-C100 ask of a run holds if its clock moves. -/
theorem C104_run {w : Job} {r : Run ρ} (hnow : r.now.valid = true) (hfmt : r.config.format = formatOf w.format) (h : Clocked r) :
    r.OK w := by
  obtain ⟨machine, process, calls, hm, hids⟩ := h
  obtain ⟨h1, h2, -⟩ := C104_ascending machine process hm
  refine ⟨hnow, hfmt, fun n hn => h1 _ (List.mem_of_getElem? (hids n hn)), fun n m hnm hmc => ?_⟩
  obtain ⟨a1, a2⟩ := List.getElem?_eq_some_iff.1 (hids n (by omega))
  obtain ⟨b1, b2⟩ := List.getElem?_eq_some_iff.1 (hids m hmc)
  have := List.pairwise_iff_getElem.1 h2 n m a1 b1 hnm
  rwa [a2, b2] at this

/-- **C104**: … in particular, a reader is given the records of the last run that came to its end: nothing is asked of names any
more, only that clocks move. -/
theorem C104_last_finished_is_read
    (w : Job) (ls : List (List Piece)) (h : w.OK ls) (hb : PlainBase (w.base ls))
    (hfmt : w.format ≠ "text".toList) (rnd : Str)
    (hday : cyclePath (readerDataset w.dataset w.partitions) rnd (midnight w.date)
      = cyclePath (readerDataset w.dataset w.partitions) rnd w.date)
    (d : Disk) (hd : Fresh (ls.map (filled w.date)) d)
    (pre post : List (Run ρ)) (r : Run ρ)
    (hok : ∀ r' ∈ pre ++ r :: post, r'.now.valid = true ∧ r'.config.format = formatOf w.format ∧ Clocked r')
    (hord : (pre ++ r :: post).Pairwise (fun a b => a.now.seconds < b.now.seconds))
    (hfin : r.Finished w) (hne : r.records.filter r.config.valid ≠ []) (hpost : ∀ r' ∈ post, ¬ r'.Finished w)
    (lib : Lib ρ) (hl : Faithful r.config.codec lib r.records) (ht : ∀ x ∈ r.records, lib.truthy x = true)
    (now : DateTime) (freshness : Str) (prefixes : List Str) (hallow : Reader.allowed prefixes w.dataset = true)
    (hash : Str → Nat) :
    ∃ d' l, afterRuns w d (pre ++ r :: post) = .ok d' ∧
      Reader.openReader (dayReader w freshness prefixes) now rnd (diskBlobsAt d'.names) = .ok (0, l) ∧
      delivered hash lib {} (read d') l = (r.records.filter r.config.valid).map .row :=
  C86_last_finished_is_read w ls h hb hfmt rnd hday d hd pre post r (fun r' hr' => C104_run (hok r' hr').1 (hok r' hr').2.1 (hok r' hr').2.2)
    hord hfin hne hpost lib hl ht now freshness prefixes hallow hash

/-- **C104**: what C89, C90 and C92 ask of the names a stream writer gives. -/
theorem C104_stream {ls : List (List Piece)} {S : DateTime → Prop} {d : Disk} {n machine process : Nat} {calls : List (Nat × Nat)}
    (hfresh : ∀ t, S t → Fresh (folderOf ls t) d) (hnd : d.names.Nodup) (henough : n ≤ calls.length) (h : Moving calls) :
    StreamStorage.Room ls S d (idsOf machine process none calls) n := by
  obtain ⟨h1, -, h3⟩ := C104_ascending machine process h
  exact ⟨hfresh, hnd, by rw [C104_own_names, List.length_map]; exact henough, h1, h3⟩

/-- Two processes are told apart: by the machine or the process, whose numbers have as many digits. -/
def Apart (m p m' p' : Nat) : Prop :=
  (m ≠ m' ∨ p ≠ p') ∧ (hex m).length = (hex m').length ∧ (hex p).length = (hex p').length

/-- **C104**: what C91 asks of the names several processes give: their clocks need not agree, and may show the same time. -/
theorem C104_processes {ls : List (List Piece)} {S : DateTime → Prop} {d : Disk} {N : Nat} {ps : Nat → Process ρ β}
    {m : Nat → Machine ρ} {machine process : Nat → Nat} {calls : Nat → List (Nat × Nat)}
    (hfresh : ∀ t, S t → Fresh (folderOf ls t) d) (hnd : d.names.Nodup)
    (henough : ∀ i < N, (handed (m i).pool.store).length ≤ (calls i).length) (h : ∀ i < N, Moving (calls i))
    (hids : ∀ i < N, (ps i).ids = idsOf (machine i) (process i) none (calls i))
    (hap : ∀ i < N, ∀ j < N, i ≠ j → Apart (machine i) (process i) (machine j) (process j)) : Rooms ls S d N ps m := by
  refine ⟨hfresh, hnd, fun i hi => ?_, fun i hi => ?_, fun i hi => ?_, ?_⟩
  · rw [hids i hi, C104_own_names, List.length_map]; exact henough i hi
  · rw [hids i hi]; exact (C104_ascending _ _ (h i hi)).1
  · rw [hids i hi]; exact (C104_ascending _ _ (h i hi)).2.2
  · intro i hi j hj hij x hx y hy
    rw [hids i hi, C104_own_names] at hx
    rw [hids j hj, C104_own_names] at hy
    obtain ⟨a, ha, rfl⟩ := List.mem_map.1 hx
    obtain ⟨b, hb, rfl⟩ := List.mem_map.1 hy
    have ra := (h i hi).range a ha
    have rb := (h j hj).range b hb
    rcases Nat.lt_trichotomy a.2 b.2 with hlt | he | hlt
    · exact Or.inl (id_before _ _ ra rb hlt)
    · obtain ⟨hne, hlm, hlp⟩ := hap i hi j hj hij
      have hlen : (hex a.2 ++ '-' :: (hex (machine i) ++ '-' :: hex (process i))).length =
          (hex b.2 ++ '-' :: (hex (machine j) ++ '-' :: hex (process j))).length := by
        simp [he, hlm, hlp]
      have hdiff : hex a.2 ++ '-' :: (hex (machine i) ++ '-' :: hex (process i)) ≠
          hex b.2 ++ '-' :: (hex (machine j) ++ '-' :: hex (process j)) := by
        intro e
        obtain ⟨-, e1, e2⟩ := C104_distinct e
        rcases hne with hne | hne
        · exact hne e1
        · exact hne e2
      have hnp : ∀ {x y : Str}, x.length = y.length → x ≠ y → ¬ x <+: y := by
        intro x y hl hn hp
        exact hn (hp.eq_of_length hl)
      have hor : ∀ {x y : Str}, x ≠ y → x < y ∨ y < x := by
        intro x y hn
        by_cases h1 : x < y
        · exact Or.inl h1
        · by_cases h2 : y < x
          · exact Or.inr h2
          · exact absurd (List.le_antisymm (List.not_lt.1 h2) (List.not_lt.1 h1)) hn
      rcases hor hdiff with hlt | hlt
      · exact Or.inl ⟨hlt, hnp hlen hdiff⟩
      · exact Or.inr ⟨hlt, hnp hlen.symm hdiff.symm⟩
    · exact Or.inr (id_before _ _ rb ra hlt)

/-! ## What does not hold -/

/-- **C104** fails if the process is a copy of another that has used the writer (`fork`): the number of the process is
remembered, so that the copy names its blobs as the other would. -/
theorem C104_fork_fails (machine parent child self time time' : Nat) :
    idsOf machine child (cacheAfter machine parent none [(self, time)]) [(self, time')] =
      idsOf machine parent (cacheAfter machine parent none [(self, time)]) [(self, time')] := by
  simp [idsOf, cacheAfter, getNode]

/-- Three runs of the same job with the same records, whose clocks stand still, are set back, and move. -/
def clockRun (times : Nat → Nat) : Run (Fin 10) :=
  ⟨⟨2024, 3, 1, 11, 30, 0⟩, zConfig, [1, 2, 3, 4, 5], fun n => hex (2 ^ 60 + times n) ++ "-a-1".toList, 1000, .finalized⟩

/-- What is read after a run. -/
def readAfter (r : Run (Fin 10)) : Option (List (Blobs.Item (Fin 10))) :=
  (afterRuns zJob demoStart [r]).toOption.bind fun d' =>
    (Reader.openReader (dayReader zJob [] ["tests/".toList]) ⟨2024, 5, 5, 0, 0, 0⟩ [] (diskBlobsAt d'.names)).toOption.map fun l =>
      delivered (fun _ => 0) Blobs.demoLib' {} (read d') l.2

/-- **C104** fails if the clock stands still between two blobs: the later replaces the earlier, whose records are lost; and if
it is set back: the records come in another order.  With a clock that moves they come as they were appended. -/
theorem C104_clock_fails :
    readAfter (clockRun fun _ => 0) = some [.row 5] ∧
    readAfter (clockRun fun n => 9 - n) = some [.row 5, .row 3, .row 4, .row 1, .row 2] ∧
    readAfter (clockRun id) = some [.row 1, .row 2, .row 3, .row 4, .row 5] := by
  decide +kernel

/-- Non-vacuity of `C104_run`: the last of them is named after a clock that moves. -/
example : (clockRun id).OK zJob := by
  refine C104_run (by decide) rfl ⟨10, 1, [(0, 2 ^ 60), (0, 2 ^ 60 + 1), (0, 2 ^ 60 + 2)], ⟨by decide +kernel, by decide +kernel⟩, ?_⟩
  have hc : (clockRun id).count = 3 := by decide +kernel
  rw [hc, C104_own_names]
  decide +kernel

/-- Non-vacuity of `C104_processes`: two processes of a machine whose clocks show the same. -/
example : Apart 10 1 10 2 ∧ Moving [(0, 2 ^ 60), (1, 2 ^ 60 + 5)] :=
  ⟨by unfold Apart; decide +kernel, by decide +kernel, by decide +kernel⟩

end Mabel.BlobIds
