import Verif.Spec.Overlap
import Verif.Lemmas.DiskMerge

/-!
# Runs that overlap, and the same runs one after the other
-/

namespace Mabel.Overlap
open Mabel.Py Mabel.Paths Mabel.Naming Mabel.Disk
open Mabel.History (Run on Day Daily folderOf Fresh Kept afterDayRuns afterRun blobsOf)
open Mabel.StreamStorage (share)
variable {ρ : Type}

/-- Each run, stopped after the steps it has taken. -/
def stopped (runs : List (DateTime × Run ρ)) (steps : List (Nat × Op)) (n : Nat := 0) : List (DateTime × Run ρ) :=
  (runs.zipIdx n).map (fun x => (x.1.1, { x.1.2 with stop := (share steps x.2).length }))

/-- The steps, those of the first run first. -/
def inTurn (runs : List (DateTime × Run ρ)) (steps : List (Nat × Op)) (n : Nat := 0) : List (Nat × Op) :=
  (runs.zipIdx n).flatMap (fun x => (share steps x.2).map (fun o => (x.2, o)))

theorem share_append {α : Type} (a b : List (Nat × α)) (i : Nat) : share (a ++ b) i = share a i ++ share b i := by
  simp [share]

theorem share_map {α : Type} (l : List α) (i j : Nat) : share (l.map (fun o => (i, o))) j = if i = j then l else [] := by
  unfold share
  induction l with
  | nil => split <;> rfl
  | cons a l ih =>
    by_cases h : i = j
    · simp only [h, if_true] at ih ⊢
      simp [ih]
    · simp only [h, if_false] at ih ⊢
      simpa [h] using ih

theorem share_inTurn (runs : List (DateTime × Run ρ)) (steps : List (Nat × Op)) (n j : Nat) :
    share (inTurn runs steps n) j = if n ≤ j ∧ j < n + runs.length then share steps j else [] := by
  induction runs generalizing n with
  | nil =>
    rw [if_neg (by simp only [List.length_nil]; omega)]
    rfl
  | cons p runs ih =>
    have : inTurn (p :: runs) steps n = (share steps n).map (fun o => (n, o)) ++ inTurn runs steps (n + 1) := rfl
    rw [this, share_append, share_map, ih]
    by_cases h : n = j
    · subst h
      rw [if_pos rfl, if_neg (by omega), if_pos (by simp), List.append_nil]
    · rw [if_neg h, List.nil_append]
      by_cases h' : n + 1 ≤ j ∧ j < n + 1 + runs.length
      · rw [if_pos h', if_pos (by simp only [List.length_cons]; omega)]
      · rw [if_neg h', if_neg (by simp only [List.length_cons]; omega)]

/-- The runs one after the other take the steps in turn. -/
theorem inTurn_exec (w : Job) (steps : List (Nat × Op)) (runs : List (DateTime × Run ρ)) (n : Nat)
    (h : ∀ i p, runs[i]? = some p → ∃ ops, p.2.ops (on w p.1) = .ok ops ∧ share steps (n + i) <+: ops) (d : Disk) :
    afterDayRuns w d (stopped runs steps n) = exec d ((inTurn runs steps n).map (·.2)) := by
  induction runs generalizing n d with
  | nil => rfl
  | cons p runs ih =>
    have e1 : inTurn (p :: runs) steps n = (share steps n).map (fun o => (n, o)) ++ inTurn runs steps (n + 1) := rfl
    have e2 : stopped (p :: runs) steps n
        = (p.1, { p.2 with stop := (share steps n).length }) :: stopped runs steps (n + 1) := rfl
    obtain ⟨ops, h1, h2⟩ := h 0 p rfl
    have e3 : afterRun (on w p.1) d { p.2 with stop := (share steps n).length } = exec d (share steps n) := by
      unfold afterRun
      have : ({ p.2 with stop := (share steps n).length } : Run ρ).ops (on w p.1) = .ok ops := h1
      simp only [this]
      congr 1
      exact (List.prefix_iff_eq_take.1 h2).symm
    have e4 : ((share steps n).map (fun o => (n, o))).map (·.2) = share steps n := by
      rw [List.map_map]; exact List.map_id _
    rw [e1, e2, List.map_append, e4, exec_append]
    simp only [afterDayRuns]
    have e3 : afterRun { w with date := p.1 } d { p.2 with stop := (share steps n).length } = exec d (share steps n) := e3
    rw [e3]
    cases exec d (share steps n) with
    | error e => rfl
    | ok d' =>
      exact ih (n + 1) (fun i q hq => by
        have := h (i + 1) q (by simpa using hq)
        rwa [show n + (i + 1) = n + 1 + i by omega] at this) d'

theorem stopped_get (runs : List (DateTime × Run ρ)) (steps : List (Nat × Op)) (i : Nat) :
    (stopped runs steps)[i]? = (runs[i]?).map (fun p => (p.1, { p.2 with stop := (share steps i).length })) := by
  unfold stopped
  rw [List.getElem?_map, List.getElem?_zipIdx]
  cases runs[i]? <;> simp

theorem stopped_mem {runs : List (DateTime × Run ρ)} {steps : List (Nat × Op)} {q : DateTime × Run ρ} (hq : q ∈ stopped runs steps) :
    ∃ p ∈ runs, ∃ i, runs[i]? = some p ∧ q = (p.1, { p.2 with stop := (share steps i).length }) := by
  obtain ⟨i, hi⟩ := List.mem_iff_getElem?.1 hq
  rw [stopped_get] at hi
  cases hp : runs[i]? with
  | none => rw [hp] at hi; cases hi
  | some p =>
    rw [hp] at hi
    exact ⟨p, List.mem_of_getElem? hp, i, hp, (Option.some.inj hi).symm⟩

theorem stopped_ok {w : Job} {runs : List (DateTime × Run ρ)} {steps : List (Nat × Op)}
    (h : ∀ p ∈ runs, Day p.1 ∧ p.2.OK (on w p.1)) : ∀ p ∈ stopped runs steps, Day p.1 ∧ p.2.OK (on w p.1) := by
  intro q hq
  obtain ⟨p, hp, i, -, rfl⟩ := stopped_mem hq
  obtain ⟨h1, h2⟩ := h p hp
  exact ⟨h1, ⟨h2.now, h2.format, h2.hex, h2.order⟩⟩

theorem stopped_pairwise {runs : List (DateTime × Run ρ)} {steps : List (Nat × Op)}
    (h : runs.Pairwise (fun a b => a.1 = b.1 → a.2.now.seconds < b.2.now.seconds)) :
    (stopped runs steps).Pairwise (fun a b => a.1 = b.1 → a.2.now.seconds < b.2.now.seconds) := by
  rw [List.pairwise_iff_getElem] at h ⊢
  intro i j hi hj hij
  have hl : (stopped runs steps).length = runs.length := by simp [stopped]
  have := h i j (by omega) (by omega) hij
  have g : ∀ i (hi : i < (stopped runs steps).length), (stopped runs steps)[i]
      = ((runs[i]'(by omega)).1, { (runs[i]'(by omega)).2 with stop := (share steps i).length }) := by
    intro i hi
    have := stopped_get runs steps i
    rw [List.getElem?_eq_getElem hi, List.getElem?_eq_getElem (by omega)] at this
    exact Option.some.inj this
  rw [g i hi, g j hj]
  exact this

/-- A run is done when it is, stopped where it is, finished. -/
theorem stopped_finished {w : Job} {runs : List (DateTime × Run ρ)} {steps : List (Nat × Op)} (ht : Taken w runs steps)
    {i : Nat} {p : DateTime × Run ρ} (hp : runs[i]? = some p) :
    ({ p.2 with stop := (share steps i).length } : Run ρ).Finished (on w p.1) ↔ Done w runs steps i := by
  obtain ⟨ops, h1, h2⟩ := ht.1 i p hp
  constructor
  · rintro ⟨h3, ops', h4, h5⟩
    have h4 : p.2.ops (on w p.1) = .ok ops' := h4
    have : ops = ops' := Except.ok.inj (h1.symm.trans h4)
    subst this
    refine ⟨p, hp, h3, ?_⟩
    rw [h2.eq_of_length_le h5]
    exact h4
  · rintro ⟨p', h3, h4, h5⟩
    rw [hp] at h3
    cases h3
    exact ⟨h4, share steps i, h5, Nat.le_refl _⟩

/-- What the runs store. -/
noncomputable def puts (w : Job) (ls : List (List Piece)) (runs : List (DateTime × Run ρ)) (i : Nat) : List Put :=
  match runs[i]? with
  | none => []
  | some p => (History.filesOf (on w p.1) p.2).map (fun it => ⟨frameFolder (on w p.1) ls p.2.now, it.1, it.2⟩)

theorem mem_puts {w : Job} {ls : List (List Piece)} {runs : List (DateTime × Run ρ)} {i : Nat} {q : Put} (h : q ∈ puts w ls runs i) :
    ∃ p, runs[i]? = some p ∧
      q.folder = folderOf ls p.1 ++ [asAtName p.2.now] := by
  unfold puts at h
  cases hp : runs[i]? with
  | none => rw [hp] at h; cases h
  | some p =>
    rw [hp] at h
    obtain ⟨it, -, rfl⟩ := List.mem_map.1 h
    exact ⟨p, rfl, rfl⟩

/-- The steps of a run are those of what it stores. -/
theorem puts_ops {w : Job} {ls : List (List Piece)} (hw : Daily w ls) {runs : List (DateTime × Run ρ)}
    (hok : ∀ p ∈ runs, Day p.1 ∧ p.2.OK (on w p.1)) {i : Nat} {p : DateTime × Run ρ} (hp : runs[i]? = some p) :
    p.2.ops (on w p.1) = .ok ((puts w ls runs i).flatMap Put.ops) := by
  obtain ⟨h1, h2⟩ := hok p (List.mem_of_getElem? hp)
  unfold puts
  rw [hp]
  rw [History.ops_files (hw.ok p.1 h1.valid) h2, List.flatMap_map]

/-- The disk while the runs are under way is as if they had been one after the other, each to where it is. -/
theorem as_in_turn {w : Job} {ls : List (List Piece)} (hw : Daily w ls) {S : DateTime → Prop} (hS : ∀ t, S t → Day t)
    (runs : List (DateTime × Run ρ)) (hr : ∀ p ∈ runs, S p.1 ∧ p.2.OK (on w p.1))
    (hord : runs.Pairwise (fun a b => a.1 = b.1 → a.2.now.seconds < b.2.now.seconds))
    (d : Disk) (hd : ∀ t, S t → Fresh (folderOf ls t) d) (steps : List (Nat × Op)) (ht : Taken w runs steps) :
    ∃ d' d'', exec d (steps.map (·.2)) = .ok d' ∧ afterDayRuns w d (stopped runs steps) = .ok d'' ∧
      (∀ q, q ∈ d'.names ↔ q ∈ d''.names) ∧ ∀ x, read d' x = read d'' x := by
  have hok : ∀ p ∈ runs, Day p.1 ∧ p.2.OK (on w p.1) := fun p hp => ⟨hS _ (hr p hp).1, (hr p hp).2⟩
  have hk0 : Kept w ls S (fun _ => []) d :=
    ⟨by simp, by simp, fun t ht => (hd t ht).holds _, fun t ht => (hd t ht).tidy⟩
  have hpre : ∀ i, share steps i <+: (puts w ls runs i).flatMap Put.ops := by
    intro i
    cases hp : runs[i]? with
    | none =>
      have : share steps i = [] := by
        unfold share
        rw [List.map_eq_nil_iff, List.filter_eq_nil_iff]
        intro x hx
        have h1 := ht.2 x hx
        have h2 := List.getElem?_eq_none_iff.1 hp
        simp only [beq_iff_eq]
        omega
      rw [this]
      exact List.nil_prefix
    | some p =>
      obtain ⟨ops, h1, h2⟩ := ht.1 i p hp
      rw [puts_ops hw hok hp] at h1
      cases h1
      exact h2
  -- each run alone
  have hsolo : ∀ i, ∃ di, exec d (share steps i) = .ok di := by
    intro i
    cases hp : runs[i]? with
    | none =>
      have : share steps i = [] := by
        have := hpre i
        unfold puts at this
        rw [hp] at this
        exact List.prefix_nil.1 this
      rw [this]
      exact ⟨d, rfl⟩
    | some p =>
      obtain ⟨h1, h2⟩ := hr p (List.mem_of_getElem? hp)
      obtain ⟨H', d', he, -⟩ := History.all_day_runs hw hS [(p.1, { p.2 with stop := (share steps i).length })]
        (by
          intro q hq
          rw [List.mem_singleton.1 hq]
          exact ⟨h1, ⟨h2.now, h2.format, h2.hex, h2.order⟩⟩) (by simp) _ d hk0 (by simp)
      refine ⟨d', ?_⟩
      have hops : ({ p.2 with stop := (share steps i).length } : Run ρ).ops { w with date := p.1 } = .ok ((puts w ls runs i).flatMap Put.ops) :=
        puts_ops hw hok hp
      simp only [afterDayRuns, afterRun, hops] at he
      rw [← List.prefix_iff_eq_take.1 (hpre i)] at he
      cases he' : exec d (share steps i) with
      | error e => rw [he'] at he; cases he
      | ok x => rw [he'] at he; exact he
  choose solo hsolo using hsolo
  have hfile : ∀ i, ∀ p ∈ puts w ls runs i, ∀ n, (⟨[], p.folder.take n⟩ : Posix) ∉ d.names := by
    intro i q hq n hm
    obtain ⟨p, hp, hf⟩ := mem_puts hq
    have hfr := hd p.1 (hr p (List.mem_of_getElem? hp)).1
    obtain ⟨h1, h2⟩ := hfr.file _ hm rfl
    have h3 : q.folder.take n <+: folderOf ls p.1 ++ [asAtName p.2.now] := by rw [← hf]; exact List.take_prefix _ _
    rcases List.prefix_concat_iff.1 h3 with h3 | h3
    · exact h2 (by rw [h3]; exact List.prefix_append _ _)
    · exact h1 h3
  have hdir : ∀ i, ∀ p ∈ puts w ls runs i, p.path ∉ d.dirs := by
    intro i q hq hm
    obtain ⟨p, hp, hf⟩ := mem_puts hq
    have hfr := hd p.1 (hr p (List.mem_of_getElem? hp)).1
    have := hfr.dir _ hm rfl ⟨[asAtName p.2.now, q.name], by simp [hf]⟩
    have := congrArg List.length this
    simp only [hf] at this
    simp only [List.length_append, List.length_cons, List.length_nil] at this
    omega
  have hlen : ∀ i, ∀ p ∈ puts w ls runs i, p.folder.length = ls.length + 1 := by
    intro i q hq
    obtain ⟨p, hp, hf⟩ := mem_puts hq
    rw [hf]
    simp [folderOf]
  have hx : ∀ i, ∀ p ∈ puts w ls runs i, ∀ j, ∀ p' ∈ puts w ls runs j, ∀ n, p.path ≠ ⟨[], p'.folder.take n⟩ := by
    intro i q hq j q' hq' n e
    have e := congrArg (fun x : Posix => x.comps.length) e
    simp only [List.length_append, List.length_cons, List.length_nil, List.length_take, hlen i q hq, hlen j q' hq'] at e
    omega
  have hne : ∀ i j, i ≠ j → ∀ p ∈ puts w ls runs i, ∀ p' ∈ puts w ls runs j, p.path ≠ p'.path := by
    intro i j hij q hq q' hq' e
    obtain ⟨p, hp, hf⟩ := mem_puts hq
    obtain ⟨p', hp', hf'⟩ := mem_puts hq'
    have e1 : q.folder ++ [q.name] = q'.folder ++ [q'.name] := congrArg Posix.comps e
    have e2 := (List.append_inj e1 (by rw [hlen i q hq, hlen j q' hq'])).1
    rw [hf, hf'] at e2
    obtain ⟨e3, e4⟩ := List.append_inj e2 (by simp [folderOf])
    have hm := List.mem_of_getElem? hp
    have hm' := List.mem_of_getElem? hp'
    have et : p.1 = p'.1 := by
      by_contra hc
      exact hw.folder_ne (hok p hm).1 (hok p' hm').1 hc e3
    have en : p.2.now = p'.2.now := asAtName_inj (hok p hm).2.now (hok p' hm').2.now (List.cons.inj e4).1
    obtain ⟨hi, hi'⟩ := List.getElem?_eq_some_iff.1 hp
    obtain ⟨hj, hj'⟩ := List.getElem?_eq_some_iff.1 hp'
    rw [List.pairwise_iff_getElem] at hord
    rcases Nat.lt_or_gt_of_ne hij with hlt | hlt
    · have := hord i j hi hj hlt (by rw [hi', hj']; exact et)
      rw [hi', hj', en] at this
      omega
    · have := hord j i hj hi hlt (by rw [hi', hj']; exact et.symm)
      rw [hi', hj', en] at this
      omega
  have hsame : ∀ i, share (inTurn runs steps) i = share steps i := by
    intro i
    rw [share_inTurn]
    split
    · rfl
    · rename_i h
      cases hp : runs[i]? with
      | none =>
        have := hpre i
        unfold puts at this
        rw [hp] at this
        exact (List.prefix_nil.1 this).symm
      | some p =>
        obtain ⟨hi, -⟩ := List.getElem?_eq_some_iff.1 hp
        omega
  obtain ⟨d1, g1, g2, g3, -, -, -, g4⟩ := merge_solo (puts w ls runs) hfile hdir hx hne steps hpre solo hsolo
  obtain ⟨d2, k1, k2, k3, -, -, -, k4⟩ := merge_solo (puts w ls runs) hfile hdir hx hne (inTurn runs steps)
    (fun i => by rw [hsame]; exact hpre i) solo (fun i => by rw [hsame]; exact hsolo i)
  have hnames : ∀ q, q ∈ d1.names ↔ q ∈ d2.names := fun q => by rw [g2, k2]
  have hcont : ∀ q, d1.content q = d2.content q := by
    intro q
    by_cases h : ∃ i, ∃ p ∈ puts w ls runs i, q = p.path
    · obtain ⟨i, p, hp, rfl⟩ := h
      rw [g3 i p hp, k3 i p hp]
    · have h : ∀ i, ∀ p ∈ puts w ls runs i, q ≠ p.path := fun i p hp e => h ⟨i, p, hp, e⟩
      rw [g4 q h, k4 q h]
  refine ⟨d1, d2, g1, ?_, hnames, ?_⟩
  · rw [inTurn_exec w steps runs 0 (fun i p hp => by simpa using ht.1 i p hp)]
    exact k1
  · intro x
    unfold Disk.read
    have : d1.names.contains (Posix.parse x) = d2.names.contains (Posix.parse x) := by
      rw [Bool.eq_iff_iff, List.contains_iff_mem, List.contains_iff_mem, hnames]
    rw [this, hcont]

end Mabel.Overlap
