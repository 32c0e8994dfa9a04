import Verif.Lemmas.TempFiles
import Verif.Props.StoredSets

/-!
# The files of sets that are stored on disk

C122.
-/

namespace Mabel.TempFiles
open Mabel.Py Mabel.DictSet Mabel.Props

variable {α β : Type}

/-- C122: whatever processes make, drop and end, in any order, a set that a running process has made and not dropped gives
its own records; if no two processes ever had the same name for a file, and the set is not empty. -/
theorem C122_own_records_partial (c : Codec α β) (hc : Codec.Faithful c) (dir : Str → Option Str) (events : List (Event α))
    (s : State) (hrun : run c (start dir) events = some s) (hown : Spec.OwnNames events) (p i : Nat) (records : List α)
    (hruns : Spec.Runs events p) (hhas : Spec.Has events p i records) (hne : records ≠ []) :
    read c s p i = .records records := by
  obtain ⟨hi, ho⟩ := run_keeps events [] _ _ (inv_start c dir) hrun
  rw [List.nil_append] at hi ho
  have ho := ho hown (own_start c dir)
  have hr := (hi.runs p).2 hruns
  have hb := congrArg (fun l => l[i]?) (hi.shape p)
  have hhas' : (Spec.sets p [] events)[i]? = some (some records) := hhas
  simp only [List.getElem?_map, hhas', Option.map_some, Option.isSome_some] at hb
  have hread : readDisk c.parse (content c records) = .ok records := by
    have := readAll_make c hc .disk records
    simpa [Storage.make, Storage.readAll, content, Mabel.Spec.readable, hne] using this
  cases e : (s.procs p).sets[i]? with
  | none => rw [e] at hb; simp at hb
  | some o =>
    rw [e] at hb
    cases o with
    | none => simp at hb
    | some name =>
      simp only [read, e, ho.full p i name records hr e hhas, hread]

/-- C122: after any history, a file that was not there at the start is that of a set that has not been dropped, by a
process that has not ended orderly. -/
theorem C122_only_live (c : Codec α β) (dir : Str → Option Str) (events : List (Event α))
    (s : State) (hrun : run c (start dir) events = some s) (name : Str) (hnew : dir name = none)
    (hthere : s.dir name ≠ none) :
    ∃ p i records, Spec.Has events p i records ∧ Event.pick p name ∈ events ∧ Event.exit p ∉ events := by
  obtain ⟨hi, -⟩ := run_keeps events [] _ _ (inv_start c dir) hrun
  rw [List.nil_append] at hi
  cases e : s.dir name with
  | none => exact absurd e hthere
  | some f =>
    obtain ⟨p, i, l, g1, g2, -, g4⟩ := hi.live name f hnew e
    exact ⟨p, i, l, g2, (hi.picked p name).1 (hi.known p name (List.mem_of_getElem? g1)), g4⟩

/-- C122: files that were there at the start are not touched, whatever happens. -/
theorem C122_others_kept (c : Codec α β) (dir : Str → Option Str) (events : List (Event α))
    (s : State) (hrun : run c (start dir) events = some s) (name file : Str) (hold : dir name = some file) :
    s.dir name = some file := by
  obtain ⟨hi, -⟩ := run_keeps events [] _ _ (inv_start c dir) hrun
  rw [(hi.kept name (by rw [hold]; simp)).1, hold]

/-- C122: when every process that made sets has ended orderly, the directory is as it was. -/
theorem C122_nothing_left (c : Codec α β) (dir : Str → Option Str) (events : List (Event α))
    (s : State) (hrun : run c (start dir) events = some s)
    (hend : ∀ p name, Event.pick p name ∈ events → Event.exit p ∈ events) : s.dir = dir := by
  funext name
  cases e : dir name with
  | some file => exact C122_others_kept c dir events s hrun name file e
  | none =>
    by_contra hthere
    obtain ⟨p, -, -, -, g1, g2⟩ := C122_only_live c dir events s hrun name e hthere
    exact g2 (hend p name g1)

/-- Records that are texts, one to a line. -/
def texts : Codec Str (List Str) := ⟨id, List.dropLast, id, id, List.isEmpty, 10⟩

/-- Two processes: the first makes two sets, drops one, makes another under the name that is free again, and ends; the
second has a set all the while. -/
def twoProcesses : List (Event Str) :=
  [.pick 0 "a".toList, .pick 1 "b".toList, .store 1 ["r".toList], .store 0 ["x".toList, "y".toList],
   .pick 0 "c".toList, .store 0 ["z".toList], .drop 0 0, .pick 0 "a".toList, .store 0 ["w".toList]]

example : ∃ s, run texts (start fun _ => none) twoProcesses = some s ∧
    read texts s 0 0 = .noSet ∧ read texts s 0 1 = .records ["z".toList] ∧ read texts s 0 2 = .records ["w".toList] ∧
    read texts s 1 0 = .records ["r".toList] := by
  refine ⟨_, rfl, ?_, ?_, ?_, ?_⟩ <;> decide

example : Spec.Has twoProcesses 0 2 ["w".toList] ∧ Spec.Runs twoProcesses 0 ∧ Spec.Has twoProcesses 1 0 ["r".toList] := by
  refine ⟨rfl, ⟨?_, ?_⟩, rfl⟩ <;> simp [twoProcesses]

example : Spec.OwnNames twoProcesses := by
  intro p q name h1 h2
  simp only [twoProcesses, List.mem_cons, Event.pick.injEq, reduceCtorEq, List.not_mem_nil, or_false, false_or] at h1 h2
  rcases h1 with ⟨rfl, rfl⟩ | ⟨rfl, rfl⟩ | ⟨rfl, rfl⟩ | ⟨rfl, rfl⟩ <;>
    rcases h2 with ⟨rfl, h⟩ | ⟨rfl, h⟩ | ⟨rfl, h⟩ | ⟨rfl, h⟩ <;> first | rfl | exact absurd h (by decide)

/-- The files while both run, and when both have ended. -/
example : ∃ s, run texts (start fun _ => none) (twoProcesses ++ [.exit 1, .exit 0]) = some s ∧
    s.dir "a".toList = none ∧ s.dir "b".toList = none ∧ s.dir "c".toList = none := by
  refine ⟨_, rfl, ?_, ?_, ?_⟩ <;> decide

/-- C122 fails if a name is used again by another process: the first process has dropped its set, the second gets the name
that is free, and loses its file when the first ends. -/
theorem C122_reused_name_fails :
    ∃ (events : List (Event Str)) (s : State), run texts (start fun _ => none) events = some s ∧
      Spec.Runs events 1 ∧ Spec.Has events 1 0 ["mine".toList] ∧ read texts s 1 0 = .noFile := by
  refine ⟨[.pick 0 "a".toList, .store 0 ["x".toList], .drop 0 0, .pick 1 "a".toList, .store 1 ["mine".toList], .exit 0],
    _, rfl, ⟨?_, ?_⟩, rfl, ?_⟩
  · simp
  · simp
  · decide

/-- C122 fails if two processes get one name: it is free from when it is given to when the file is opened, and the second
gets the records of the first. -/
theorem C122_same_name_fails :
    ∃ (events : List (Event Str)) (s : State), run texts (start fun _ => none) events = some s ∧
      Spec.Runs events 1 ∧ Spec.Has events 1 0 ["mine".toList] ∧ read texts s 1 0 = .records ["theirs".toList] := by
  refine ⟨[.pick 0 "a".toList, .pick 1 "a".toList, .store 1 ["mine".toList], .store 0 ["theirs".toList]],
    _, rfl, ⟨?_, ?_⟩, rfl, ?_⟩
  · simp
  · simp
  · decide

/-- C122 fails for a process that is killed: its files stay. -/
theorem C122_killed_fails :
    ∃ (events : List (Event Str)) (s : State), run texts (start fun _ => none) events = some s ∧
      (∀ p name, Event.pick p name ∈ events → Event.kill p ∈ events) ∧ s.dir "a".toList = some "x\n".toList := by
  refine ⟨[.pick 0 "a".toList, .store 0 ["x".toList], .kill 0], _, rfl, ?_, ?_⟩
  · intro p name h
    simp at h ⊢
    exact h.1
  · decide

end Mabel.TempFiles
