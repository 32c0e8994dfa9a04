import Verif.Lemmas.Overlap

/-!
# Writers that share a frame, on one disk
-/

namespace Mabel.Split
open Mabel.Py Mabel.Paths Mabel.Naming Mabel.Disk
open Mabel.History (Run on Day Daily folderOf Fresh Kept afterDayRuns afterRun blobsOf)
open Mabel.StreamStorage (share)
open Mabel.Overlap (Taken Done puts mem_puts puts_ops)
open Mabel.EndToEnd (nameOf)
variable {ρ : Type}

/-- The parts, as runs for the day. -/
abbrev runsOf (t : DateTime) (parts : List (Run ρ)) : List (DateTime × Run ρ) := parts.map (fun r => (t, r))

theorem runs_get {t : DateTime} {parts : List (Run ρ)} {i : Nat} {p : DateTime × Run ρ} (h : (runsOf t parts)[i]? = some p) :
    p.1 = t ∧ parts[i]? = some p.2 := by
  rw [List.getElem?_map] at h
  cases hp : parts[i]? with
  | none => rw [hp] at h; cases h
  | some r => rw [hp] at h; cases h; exact ⟨rfl, rfl⟩

/-- What each part does alone. -/
theorem solo_part {w : Job} {ls : List (List Piece)} (hw : Daily w ls) {S : DateTime → Prop} (hS : ∀ t, S t → Day t)
    {H : DateTime → List Batch} {d : Disk} (hk : Kept w ls S H d) {t : DateTime} (hSt : S t) {n0 : DateTime}
    (parts : List (Run ρ)) (hr : ∀ r ∈ parts, r.OK (on w t) ∧ r.now = n0) (hnew : ∀ b ∈ H t, b.now.seconds < n0.seconds)
    (steps : List (Nat × Op)) (ht : Taken w (runsOf t parts) steps) (i : Nat) :
    ∃ (bl : List Batch) (di : Disk), exec d (share steps i) = .ok di ∧
      (∀ b ∈ bl, b.now = n0 ∧ b.ignored = false ∧ n0.valid = true ∧ ∀ id ∈ b.ids, HexId id) ∧
      (∀ u, S u → Holds (on w u) (if u = t then H t ++ bl else H u) di.names ⟨[], folderOf ls u⟩) ∧
      (∀ x bytes, read d x = .ok bytes → read di x = .ok bytes) ∧
      ((∃ b ∈ bl, b.complete = true) ↔ Done w (runsOf t parts) steps i) ∧
      (∀ r, parts[i]? = some r → r.ending = .finalized → r.ops (on w t) = .ok (share steps i) →
        bl.flatMap Batch.ids = (blobsOf r).map Prod.fst ∧
        ∀ p ∈ blobsOf r, read di (nameOf (on w t) ls n0 p.1) = .ok p.2) ∧
      (parts[i]? = none → bl = []) := by
  cases hp : parts[i]? with
  | none =>
    have hs : share steps i = [] := by
      unfold share
      rw [List.map_eq_nil_iff, List.filter_eq_nil_iff]
      intro x hx
      have h1 := ht.2 x hx
      have h2 := List.getElem?_eq_none_iff.1 hp
      simp only [beq_iff_eq]
      rw [List.length_map] at h1
      omega
    refine ⟨[], d, by rw [hs]; rfl, by simp, ?_, fun _ _ h => h, ?_, by simp, fun _ => rfl⟩
    · intro u hu
      by_cases h : u = t
      · rw [if_pos h, List.append_nil, h]; exact hk.holds t hSt
      · rw [if_neg h]; exact hk.holds u hu
    · simp only [List.not_mem_nil, false_and, exists_false, false_iff]
      rintro ⟨p, hp', -⟩
      have := (runs_get hp').2
      rw [hp] at this
      cases this
  | some r =>
    have hrm := List.mem_of_getElem? hp
    obtain ⟨h2, hn⟩ := hr r hrm
    have hg : (runsOf t parts)[i]? = some (t, r) := by rw [List.getElem?_map, hp]; rfl
    obtain ⟨ops, h3, h4⟩ := ht.1 i (t, r) hg
    have h3 : r.ops (on w t) = .ok ops := h3
    by_cases hm : r.ending = .finalized → r.Marks
    · let r' : Run ρ := { r with stop := (share steps i).length }
      have hr' : r'.OK (on w t) := ⟨h2.now, h2.format, h2.hex, h2.order⟩
      obtain ⟨b, di, he, e1, e2, e3, hk', hold, hfull⟩ := History.one_day_run hw hS hk hSt r' hr'
        (fun b hb => by show _ < r.now.seconds; rw [hn]; exact hnew b hb)
      have e1 : b.now = n0 := e1.trans hn
      have hex : exec d (share steps i) = .ok di := by
        have h3' : r'.ops (on w t) = .ok ops := h3
        unfold afterRun at he
        simp only [h3'] at he
        rw [List.prefix_iff_eq_take.1 h4]
        exact he
      have hfin : r'.Finished (on w t) ↔ Done w (runsOf t parts) steps i := by
        have := Overlap.stopped_finished ht hg
        exact this
      refine ⟨[b], di, hex, ?_, fun u hu => ?_, hold, ?_, ?_, by simp⟩
      · intro b' hb'
        rw [List.mem_singleton.1 hb']
        refine ⟨e1, e2, ?_, ?_⟩
        · rw [← hn]; exact h2.now
        · intro id hid
          have := hk'.hex t hSt b (by simp) id hid
          exact this
      · exact hk'.holds u hu
      · rw [← hfin, ← e3]
        simp
      · intro r1 hr1 hend hops
        cases hr1
        obtain ⟨g1, g2⟩ := hfull (hfin.2 ⟨(t, r), hg, hm hend, hops⟩)
        refine ⟨by rw [List.flatMap_singleton]; exact g1, fun p hp => ?_⟩
        rw [← hn]
        exact g2 p hp
    · obtain ⟨hend, hm⟩ := Classical.not_imp.1 hm
      have hno : blobsOf r = [] := History.blobsOf_none hend (by
        by_contra hc
        exact hm ⟨hend, Or.inl hc⟩)
      have : ops = [] := by
        rw [History.ops_files (ls := ls) (hw.ok t (hS t hSt).valid) h2] at h3
        unfold History.filesOf at h3
        rw [hno, if_neg hm] at h3
        exact (Except.ok.inj h3).symm
      subst this
      rw [List.prefix_nil.1 h4]
      refine ⟨[], d, rfl, by simp, ?_, fun _ _ h => h, ?_, ?_, fun _ => rfl⟩
      · intro u hu
        by_cases h : u = t
        · rw [if_pos h, List.append_nil, h]; exact hk.holds t hSt
        · rw [if_neg h]; exact hk.holds u hu
      · simp only [List.not_mem_nil, false_and, exists_false, false_iff]
        rintro ⟨p, hp', hm', -⟩
        rw [hg] at hp'
        cases hp'
        exact hm hm'
      · intro r1 hr1 _ _
        cases hr1
        rw [hno]
        simp

/-- The name of a blob of a part, as a file. -/
theorem name_parse {w : Job} {ls : List (List Piece)} (h : w.OK ls) {r : Run ρ} (hr : r.OK w) {p : Str × Disk.Bytes} (hp : p ∈ blobsOf r) :
    Posix.parse (nameOf w ls r.now p.1) = ⟨[], frameFolder w ls r.now ++ [p.1 ++ extension w.format]⟩ := by
  have hm : (p.1 ++ extension w.format, p.2) ∈ runFiles w (blobsOf r) := by
    unfold runFiles
    exact List.mem_append_left _ (List.mem_map_of_mem (f := fun b : Str × Disk.Bytes => (b.1 ++ extension w.format, b.2)) hp)
  have := at_soFar h hr.now hr.id (mem_runFiles_soFar (ls := ls) (now := r.now) hm)
  rw [show nameOf w ls r.now p.1 = Spec.Framed.path ⟨w.base ls, asAtName r.now, p.1 ++ extension w.format⟩ from rfl]
  rw [← this]

/-- The parts, their steps in any order. -/
theorem parts_run {w : Job} {ls : List (List Piece)} (hw : Daily w ls) {S : DateTime → Prop} (hS : ∀ t, S t → Day t)
    {H : DateTime → List Batch} {d : Disk} (hk : Kept w ls S H d) {t : DateTime} (hSt : S t) {n0 : DateTime}
    (parts : List (Run ρ)) (hr : ∀ r ∈ parts, r.OK (on w t) ∧ r.now = n0) (hnew : ∀ b ∈ H t, b.now.seconds < n0.seconds)
    (hids : ∀ (i j : Nat) (r r' : Run ρ), i ≠ j → parts[i]? = some r → parts[j]? = some r' → ∀ p ∈ blobsOf r, ∀ p' ∈ blobsOf r', p.1 ≠ p'.1)
    (steps : List (Nat × Op)) (ht : Taken w (runsOf t parts) steps) :
    ∃ (bs : List Batch) (d' : Disk), exec d (steps.map (·.2)) = .ok d' ∧
      (∀ b ∈ bs, b.now = n0 ∧ b.ignored = false ∧ n0.valid = true ∧ ∀ id ∈ b.ids, HexId id) ∧
      (∀ u, S u → Holds (on w u) (if u = t then H t ++ bs else H u) d'.names ⟨[], folderOf ls u⟩) ∧
      (∀ x bytes, read d x = .ok bytes → read d' x = .ok bytes) ∧
      ((∃ b ∈ bs, b.complete = true) ↔ ∃ i, Done w (runsOf t parts) steps i) ∧
      ((∀ (i : Nat) (r : Run ρ), parts[i]? = some r → r.ending = .finalized ∧ r.ops (on w t) = .ok (share steps i)) →
        (∀ id, (∃ b ∈ bs, id ∈ b.ids) ↔ ∃ r ∈ parts, id ∈ (blobsOf r).map Prod.fst) ∧
        ∀ r ∈ parts, ∀ p ∈ blobsOf r, read d' (nameOf (on w t) ls n0 p.1) = .ok p.2) := by
  have hday := hS t hSt
  have hok := hw.ok t hday.valid
  have hsolo := solo_part hw hS hk hSt parts hr hnew steps ht
  choose bl solo hexec hbl hholds hold hdone hfull hnone using hsolo
  have hrunsok : ∀ p ∈ runsOf t parts, Day p.1 ∧ p.2.OK (on w p.1) := by
    intro p hp
    obtain ⟨r, hrm, rfl⟩ := List.mem_map.1 hp
    exact ⟨hday, (hr r hrm).1⟩
  have hpre : ∀ i, share steps i <+: (puts w ls (runsOf t parts) i).flatMap Put.ops := by
    intro i
    cases hp : (runsOf t parts)[i]? with
    | none =>
      have : share steps i = [] := by
        unfold share
        rw [List.map_eq_nil_iff, List.filter_eq_nil_iff]
        intro x hx
        have h1 := ht.2 x hx
        have h2 := List.getElem?_eq_none_iff.1 hp
        simp only [beq_iff_eq]
        omega
      rw [this]
      exact List.nil_prefix
    | some p =>
      obtain ⟨ops, h1, h2⟩ := ht.1 i p hp
      rw [puts_ops hw hrunsok hp] at h1
      cases h1
      exact h2
  have hfolder : ∀ i, ∀ q ∈ puts w ls (runsOf t parts) i, q.folder = folderOf ls t ++ [asAtName n0] := by
    intro i q hq
    obtain ⟨p, hp, hf⟩ := mem_puts hq
    obtain ⟨e1, e2⟩ := runs_get hp
    rw [hf, e1, (hr p.2 (List.mem_of_getElem? e2)).2]
  have htidy := hk.tidy t hSt
  have hfile : ∀ i, ∀ p ∈ puts w ls (runsOf t parts) i, ∀ n, (⟨[], p.folder.take n⟩ : Posix) ∉ d.names := by
    intro i q hq n hm
    have h3 : q.folder.take n <+: folderOf ls t ++ [asAtName n0] := by rw [← hfolder i q hq]; exact List.take_prefix _ _
    rcases List.prefix_concat_iff.1 h3 with h3 | h3
    · have h4 := htidy.files _ hm rfl (by rw [show (⟨[], q.folder.take n⟩ : Posix).comps = q.folder.take n from rfl, h3]; exact List.prefix_append _ _)
      have h4 : (q.folder.take n).length = (folderOf ls t).length + 2 := h4
      rw [h3] at h4
      simp only [List.length_append, List.length_cons, List.length_nil] at h4
      omega
    · exact htidy.above _ hm rfl h3
  have hdir : ∀ i, ∀ p ∈ puts w ls (runsOf t parts) i, p.path ∉ d.dirs := by
    intro i q hq hm
    have := htidy.dirs _ hm rfl ⟨[asAtName n0, q.name], by simp [hfolder i q hq]⟩
    simp only [hfolder i q hq] at this
    simp only [List.length_append, List.length_cons, List.length_nil] at this
    omega
  have hlen : ∀ i, ∀ p ∈ puts w ls (runsOf t parts) i, p.folder.length = ls.length + 1 := by
    intro i q hq
    rw [hfolder i q hq]
    simp [folderOf]
  have hx : ∀ i, ∀ p ∈ puts w ls (runsOf t parts) i, ∀ j, ∀ p' ∈ puts w ls (runsOf t parts) j, ∀ n, p.path ≠ ⟨[], p'.folder.take n⟩ := by
    intro i q hq j q' hq' n e
    have e := congrArg (fun x : Posix => x.comps.length) e
    simp only [List.length_append, List.length_cons, List.length_nil, List.length_take, hlen i q hq, hlen j q' hq'] at e
    omega
  obtain ⟨d', g1, g2, g3, -, -, -, g4⟩ := merge_shared (puts w ls (runsOf t parts)) hfile hdir hx steps hpre solo hexec
  -- what was there
  have hnot : ∀ q ∈ d.names, ∀ i, ∀ p ∈ puts w ls (runsOf t parts) i, q ≠ p.path := by
    intro q hq i p hp e
    subst e
    have hb : beneath ⟨[], folderOf ls t⟩ p.path = true := by
      simp [beneath, hfolder i p hp]
    obtain ⟨b, hbm, hrest⟩ := ((hk.holds t hSt).beneath_iff _).1 ⟨hq, hb⟩
    have hbv := hk.valid t hSt b hbm
    obtain ⟨y, hy, e⟩ := (paths_eq hok b hbv _).1 hrest
    rw [(framed_parse hok hbv (hk.hex t hSt b hbm) hy).1, (framed_base hy).2] at e
    have e1 := congrArg Posix.comps e
    simp only [hfolder i p hp] at e1
    have e1 : folderOf ls t ++ [asAtName n0, p.name] = folderOf ls t ++ [asAtName b.now, y.name] := by
      simp only [List.append_assoc, List.cons_append, List.nil_append] at e1
      exact e1
    have e2 := (List.cons.inj (List.append_cancel_left e1)).1
    obtain ⟨p', hp', -⟩ := mem_puts hp
    have hm := List.mem_of_getElem? (runs_get hp').2
    have hv : n0.valid = true := by rw [← (hr _ hm).2]; exact (hr _ hm).1.now
    have e3 := asAtName_inj hv hbv e2
    have := hnew b hbm
    rw [e3] at this
    exact Nat.lt_irrefl _ this
  refine ⟨(List.range parts.length).flatMap bl, d', g1, ?_, ?_, ?_, ?_, ?_⟩
  · intro b hb
    obtain ⟨i, -, hb⟩ := List.mem_flatMap.1 hb
    exact hbl i b hb
  · intro u hu
    have hmem : ∀ b, b ∈ (List.range parts.length).flatMap bl ↔ ∃ i, b ∈ bl i := by
      intro b
      rw [List.mem_flatMap]
      constructor
      · rintro ⟨i, -, h⟩; exact ⟨i, h⟩
      · rintro ⟨i, h⟩
        refine ⟨i, List.mem_range.2 ?_, h⟩
        by_contra hc
        rw [hnone i (List.getElem?_eq_none_iff.2 (by omega))] at h
        cases h
    constructor
    · intro q hq
      rcases (g2 q).1 hq with h | ⟨i, h⟩
      · exact (hk.holds u hu).normal q h
      · exact (hholds i u hu).normal q h
    · intro q
      constructor
      · rintro ⟨hq, hb⟩
        rcases (g2 q).1 hq with h | ⟨i, h⟩
        · obtain ⟨b, hbm, hrest⟩ := ((hk.holds u hu).beneath_iff q).1 ⟨h, hb⟩
          refine ⟨b, ?_, hrest⟩
          split
          · rename_i e; subst e; exact List.mem_append_left _ hbm
          · exact hbm
        · obtain ⟨b, hbm, hrest⟩ := ((hholds i u hu).beneath_iff q).1 ⟨h, hb⟩
          refine ⟨b, ?_, hrest⟩
          split at hbm
          · rename_i e
            rw [if_pos e]
            rcases List.mem_append.1 hbm with h | h
            · exact List.mem_append_left _ h
            · exact List.mem_append_right _ ((hmem b).2 ⟨i, h⟩)
          · rename_i e
            rw [if_neg e]
            exact hbm
      · rintro ⟨b, hbm, hrest⟩
        split at hbm
        · rename_i e
          subst e
          rcases List.mem_append.1 hbm with h | h
          · obtain ⟨h1, h2⟩ := ((hk.holds u hu).beneath_iff q).2 ⟨b, h, hrest⟩
            exact ⟨(g2 q).2 (Or.inl h1), h2⟩
          · obtain ⟨i, h⟩ := (hmem b).1 h
            obtain ⟨h1, h2⟩ := ((hholds i u hu).beneath_iff q).2 ⟨b, by rw [if_pos rfl]; exact List.mem_append_right _ h, hrest⟩
            exact ⟨(g2 q).2 (Or.inr ⟨i, h1⟩), h2⟩
        · obtain ⟨h1, h2⟩ := ((hk.holds u hu).beneath_iff q).2 ⟨b, hbm, hrest⟩
          exact ⟨(g2 q).2 (Or.inl h1), h2⟩
  · intro x bytes hx'
    unfold Disk.read at hx' ⊢
    split at hx'
    · rename_i hc
      have hm := List.contains_iff_mem.1 hc
      rw [if_pos (List.contains_iff_mem.2 ((g2 _).2 (Or.inl hm))), g4 _ (hnot _ hm)]
      exact hx'
    · cases hx'
  · constructor
    · rintro ⟨b, hb, hc⟩
      obtain ⟨i, -, hb⟩ := List.mem_flatMap.1 hb
      exact ⟨i, (hdone i).1 ⟨b, hb, hc⟩⟩
    · rintro ⟨i, hi⟩
      obtain ⟨b, hb, hc⟩ := (hdone i).2 hi
      obtain ⟨p, hp, -⟩ := hi
      have := (List.getElem?_eq_some_iff.1 (runs_get hp).2).1
      exact ⟨b, List.mem_flatMap.2 ⟨i, List.mem_range.2 this, hb⟩, hc⟩
  · intro hall
    constructor
    · intro id
      constructor
      · rintro ⟨b, hb, hid⟩
        obtain ⟨i, hi, hb⟩ := List.mem_flatMap.1 hb
        have hi := List.getElem?_eq_getElem (List.mem_range.1 hi)
        refine ⟨_, List.mem_of_getElem? hi, ?_⟩
        rw [← (hfull i _ hi (hall i _ hi).1 (hall i _ hi).2).1]
        exact List.mem_flatMap.2 ⟨b, hb, hid⟩
      · rintro ⟨r, hrm, hid⟩
        obtain ⟨i, hi⟩ := List.mem_iff_getElem?.1 hrm
        rw [← (hfull i _ hi (hall i _ hi).1 (hall i _ hi).2).1] at hid
        obtain ⟨b, hb, hid⟩ := List.mem_flatMap.1 hid
        exact ⟨b, List.mem_flatMap.2 ⟨i, List.mem_range.2 (List.getElem?_eq_some_iff.1 hi).1, hb⟩, hid⟩
    · intro r hrm p hp
      obtain ⟨i, hi⟩ := List.mem_iff_getElem?.1 hrm
      obtain ⟨hrok, hrn⟩ := hr r hrm
      have hread := (hfull i r hi (hall i r hi).1 (hall i r hi).2).2 p hp
      have hg : (runsOf t parts)[i]? = some (t, r) := by rw [List.getElem?_map, hi]; rfl
      have hput : (⟨frameFolder (on w t) ls n0, p.1 ++ extension w.format, p.2⟩ : Put) ∈ puts w ls (runsOf t parts) i := by
        unfold puts
        rw [hg]
        refine List.mem_map.2 ⟨(p.1 ++ extension w.format, p.2), ?_, by rw [hrn]⟩
        unfold History.filesOf
        exact List.mem_append_left _ (List.mem_map_of_mem (f := fun b : Str × Disk.Bytes => (b.1 ++ extension w.format, b.2)) hp)
      have hparse := name_parse hok hrok hp
      rw [hrn] at hparse
      unfold Disk.read at hread ⊢
      rw [hparse] at hread ⊢
      split at hread
      · rename_i hc
        have hm := List.contains_iff_mem.1 hc
        rw [if_pos (List.contains_iff_mem.2 ((g2 _).2 (Or.inr ⟨i, hm⟩)))]
        rw [← hread]
        congr 1
        refine g3 i _ hput ?_
        intro j hij q hq e
        unfold puts at hq
        cases hj : (runsOf t parts)[j]? with
        | none => rw [hj] at hq; cases hq
        | some p' =>
          rw [hj] at hq
          obtain ⟨e1, e2⟩ := runs_get hj
          obtain ⟨it, hit, rfl⟩ := List.mem_map.1 hq
          have hit := History.mem_filesOf hit
          have e3 := congrArg Posix.comps e
          have e3 := (List.append_inj' e3 rfl).2
          have e3 : p.1 ++ extension w.format = it.1 := (List.cons.inj e3).1
          unfold runFiles at hit
          rcases List.mem_append.1 hit with hit | hit
          · obtain ⟨b, hb, rfl⟩ := List.mem_map.1 hit
            exact hids i j r p'.2 hij hi e2 p hp b hb (List.append_cancel_right e3)
          · rw [List.mem_singleton.1 hit] at e3
            exact name_no_marker (format := w.format) (hrok.id p hp).1 (m := "frame.complete".toList) ⟨_, rfl⟩ (by
              rw [e3]
              exact List.prefix_refl _)
      · cases hread

end Mabel.Split
