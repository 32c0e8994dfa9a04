import Verif.Props.ReplacedRuns

/-!
# C119 Following, in sittings, a range of days that daily runs write
-/

namespace Mabel.History
open Mabel.Py Mabel.Paths Mabel.Naming Mabel.Spec Mabel.Listing Mabel.EndToEnd Mabel.Dates
open Mabel.Blobs (Lib Faithful delivered Item readBlob readSerial Names formatOf demoLib' demo_faithful)
open Mabel.Cursor (Doc handOut inOrder session readAll)
open Mabel.StreamStorage (Sitting sit sitAll sitOut Finds sitOut_finds sit_following)
open Mabel.Disk hiding Bytes
variable {ρ : Type}

/-- The days come in turn: a run that is made after those of `before` and comes to its end is for a later day than all that
came to their ends before it, of those that are for the days a caller reads. -/
def InTurn (w : Job) (days : List DateTime) (before runs : List (DateTime × Run ρ)) : Prop :=
  ∀ pre p post, runs = pre ++ p :: post → before.length ≤ pre.length → p.1 ∈ days → p.2.Finished (on w p.1) →
    ∀ q ∈ pre, q.1 ∈ days → q.2.Finished (on w q.1) → q.1.seconds < p.1.seconds

section
open Classical

/-- The runs for a day that came to their ends. -/
noncomputable def finishedOn (w : Job) (runs : List (DateTime × Run ρ)) (t : DateTime) : List (DateTime × Run ρ) :=
  runs.filter (fun p => decide (p.1 = t ∧ p.2.Finished (on w t)))

/-- The names of the blobs a reader is given for a day. -/
noncomputable def dayNames (w : Job) (ls : List (List Piece)) (runs : List (DateTime × Run ρ)) (t : DateTime) : List Str :=
  match (finishedOn w runs t).getLast? with
  | none => []
  | some p => namesOf (on w t) ls p.2

theorem mem_finishedOn {w : Job} {runs : List (DateTime × Run ρ)} {t : DateTime} {p : DateTime × Run ρ} :
    p ∈ finishedOn w runs t ↔ p ∈ runs ∧ p.1 = t ∧ p.2.Finished (on w t) := by
  unfold finishedOn
  rw [List.mem_filter, decide_eq_true_eq]

theorem finishedOn_append (w : Job) (a b : List (DateTime × Run ρ)) (t : DateTime) :
    finishedOn w (a ++ b) t = finishedOn w a t ++ finishedOn w b t := by
  unfold finishedOn
  exact List.filter_append _ _

theorem finishedOn_nil {w : Job} {runs : List (DateTime × Run ρ)} {t : DateTime}
    (h : ∀ p ∈ runs, p.1 = t → ¬ p.2.Finished (on w t)) : finishedOn w runs t = [] := by
  rw [List.eq_nil_iff_forall_not_mem]
  intro p hp
  obtain ⟨h1, h2, h3⟩ := mem_finishedOn.1 hp
  exact h p h1 h2 h3

/-- Where the last run that came to its end is. -/
theorem lastOf_cases {w : Job} {runs : List (DateTime × Run ρ)} {t : DateTime} {rows : List ρ} (h : LastOf w runs t rows)
    (ls : List (List Piece)) :
    (∃ pre r post, runs = pre ++ (t, r) :: post ∧ r.Finished (on w t) ∧ (∀ p ∈ post, p.1 = t → ¬ p.2.Finished (on w t)) ∧
      rows = r.records.filter r.config.valid ∧ dayNames w ls runs t = namesOf (on w t) ls r) ∨
    ((∀ p ∈ runs, p.1 = t → ¬ p.2.Finished (on w t)) ∧ rows = [] ∧ dayNames w ls runs t = []) := by
  rcases h with ⟨pre, r, post, h1, h2, h3, h4⟩ | ⟨h1, h2⟩
  · refine Or.inl ⟨pre, r, post, h1, h2, h3, h4, ?_⟩
    have e : finishedOn w runs t = finishedOn w pre t ++ [(t, r)] := by
      rw [h1, finishedOn_append, show (t, r) :: post = [(t, r)] ++ post from rfl, finishedOn_append, finishedOn_nil h3,
        List.append_nil]
      congr 1
      unfold finishedOn
      rw [List.filter_cons_of_pos (by simpa using h2)]
      rfl
    unfold dayNames
    rw [e, List.getLast?_concat]
  · refine Or.inr ⟨h1, h2, ?_⟩
    unfold dayNames
    rw [finishedOn_nil h1]
    rfl

/-- The records a reader is given for a day. -/
noncomputable def dayRows (w : Job) (runs : List (DateTime × Run ρ)) (t : DateTime) : List ρ :=
  match (finishedOn w runs t).getLast? with
  | none => []
  | some p => p.2.records.filter p.2.config.valid

theorem lastOf_rows {w : Job} {runs : List (DateTime × Run ρ)} {t : DateTime} {rows : List ρ} (h : LastOf w runs t rows) :
    rows = dayRows w runs t := by
  rcases h with ⟨pre, r, post, h1, h2, h3, h4⟩ | ⟨h1, h2⟩
  · have e : finishedOn w runs t = finishedOn w pre t ++ [(t, r)] := by
      rw [h1, finishedOn_append, show (t, r) :: post = [(t, r)] ++ post from rfl, finishedOn_append, finishedOn_nil h3,
        List.append_nil]
      congr 1
      unfold finishedOn
      rw [List.filter_cons_of_pos (by simpa using h2)]
      rfl
    unfold dayRows
    rw [e, List.getLast?_concat]
    exact h4
  · unfold dayRows
    rw [finishedOn_nil h1]
    exact h2

/-- One run more, in turn: its names come after those that are there. -/
theorem dayNames_step {w : Job} {ls : List (List Piece)} {first last : DateTime} {days : List DateTime} (hdays : DaysOf first last days)
    {runs : List (DateTime × Run ρ)} {p : DateTime × Run ρ}
    (hp : p.1 ∈ days → p.2.Finished (on w p.1) → ∀ q ∈ runs, q.1 ∈ days → q.2.Finished (on w q.1) → q.1.seconds < p.1.seconds) :
    days.flatMap (dayNames w ls runs) <+: days.flatMap (dayNames w ls (runs ++ [p])) := by
  have hsame : ∀ t, ¬ (p.1 = t ∧ p.2.Finished (on w t)) → dayNames w ls (runs ++ [p]) t = dayNames w ls runs t := by
    intro t ht
    unfold dayNames
    rw [finishedOn_append, finishedOn_nil (runs := [p]) (by
      intro q hq e
      rw [List.mem_singleton.1 hq] at e ⊢
      exact fun hf => ht ⟨e, hf⟩), List.append_nil]
  by_cases hc : p.1 ∈ days ∧ p.2.Finished (on w p.1)
  · obtain ⟨hin, hfin⟩ := hc
    have hnil : ∀ t ∈ days, ¬ t.seconds < p.1.seconds → dayNames w ls runs t = [] := by
      intro t ht hlt
      unfold dayNames
      rw [finishedOn_nil]
      · rfl
      · rintro q hq rfl hqf
        exact hlt (hp hin hfin q hq ht hqf)
    obtain ⟨A, B, hAB⟩ := List.append_of_mem hin
    have ho := hdays.order
    rw [hAB, List.pairwise_append, List.pairwise_cons] at ho
    obtain ⟨-, ⟨hB, -⟩, hA⟩ := ho
    have e1 : (p.1 :: B).flatMap (dayNames w ls runs) = [] := by
      rw [List.flatMap_eq_nil_iff]
      intro t ht
      refine hnil t (by rw [hAB]; exact List.mem_append_right _ ht) ?_
      rcases List.mem_cons.1 ht with rfl | ht
      · omega
      · have := hB t ht
        omega
    have e2 : A.flatMap (dayNames w ls (runs ++ [p])) = A.flatMap (dayNames w ls runs) := by
      apply List.flatMap_congr
      intro t ht
      apply hsame
      rintro ⟨rfl, -⟩
      have := hA p.1 ht p.1 (by simp)
      omega
    rw [hAB, List.flatMap_append, List.flatMap_append, e1, e2, List.append_nil]
    exact List.prefix_append _ _
  · have : days.flatMap (dayNames w ls (runs ++ [p])) = days.flatMap (dayNames w ls runs) := by
      apply List.flatMap_congr
      intro t ht
      apply hsame
      rintro ⟨rfl, h⟩
      exact hc ⟨ht, h⟩
    rw [this]

theorem dayNames_grow {w : Job} {ls : List (List Piece)} {first last : DateTime} {days : List DateTime} (hdays : DaysOf first last days)
    (more : List (DateTime × Run ρ)) : ∀ {before all runs rest : List (DateTime × Run ρ)}, all = runs ++ more ++ rest → before <+: runs →
      InTurn w days before all → days.flatMap (dayNames w ls runs) <+: days.flatMap (dayNames w ls (runs ++ more)) := by
  induction more with
  | nil => intro before all runs rest _ _ _; rw [List.append_nil]
  | cons p more ih =>
    intro before all runs rest hall hb hturn
    have h1 := dayNames_step (ls := ls) (runs := runs) (p := p) hdays
      (fun h1 h2 q hq => hturn runs p (more ++ rest) (by rw [hall]; simp) hb.length_le h1 h2 q hq)
    have h2 := ih (before := before) (all := all) (runs := runs ++ [p]) (rest := rest) (by rw [hall]; simp)
      (hb.trans (List.prefix_append _ _)) hturn
    rw [List.append_assoc] at h2
    exact h1.trans h2

end

/-- **C119 (days in turn).**  Runs of batch writers are made one after the other, each for a day; each may be stopped at any
step or told to fail.  A caller reads a range of days in any number of sittings: in each it makes a reader of the range with
the cursor it saved the time before (if it is told that there is no data it comes back later), takes some records and
saves the cursor.  Between sittings any runs are made; those that come to their ends after the caller began do so in turn,
each for a later day of the range than those before.  Then each sitting gives the next of the records that are there by then, and what
all sittings give, with a last one that reads to the end, is, day after day, what was valid for the last run of each
day that came to its end, each record once.

Partial: the range does not get a blob too many for a saved cursor (`C92_ninth_blob_fails`), the hashes of the names of the blobs differ,
and days do not come out of turn or again (`C92_earlier_blob_fails`, `C117_run_again_fails`). -/
theorem C119_days_in_turn_partial
    -- the dataset, and the format
    (w : Job) (ls : List (List Piece)) (hw : Daily w ls) (hfmt : w.format ≠ "text".toList)
    -- the reader
    (first final : DateTime) (hf : Day first) (hl : Day final) (hle : first.seconds ≤ final.seconds)
    (days : List DateTime) (hdays : DaysOf first final days)
    (prefixes : List Str) (hallow : Reader.allowed prefixes w.dataset = true)
    -- the sittings, each with the runs made by then and the disk, and the last
    (sits : List (List (DateTime × Run ρ) × Disk × Sitting)) (last : List (DateTime × Run ρ)) (dlast : Disk)
    (hgrow : (sits.map (·.1) ++ [last]).Pairwise (fun a b => a <+: b))
    (hturn : ∀ s ∈ sits, InTurn w days s.1 last)
    -- the runs
    (hok : ∀ p ∈ last, Day p.1 ∧ p.2.OK (on w p.1))
    (hord : last.Pairwise (fun a b => a.1 = b.1 → a.2.now.seconds < b.2.now.seconds))
    -- the disk before: nothing in the folders of these days
    (d : Disk) (hd : ∀ t, (t ∈ days ∨ ∃ p ∈ last, p.1 = t) → Fresh (folderOf ls t) d)
    (hdisks : ∀ s ∈ sits, afterDayRuns w d s.1 = .ok s.2.1) (hdlast : afterDayRuns w d last = .ok dlast)
    -- the libraries; no record is empty (see C70)
    (lib : Lib ρ) (hlib : ∀ p ∈ last, Faithful p.2.config.codec lib p.2.records) (htr : ∀ p ∈ last, ∀ x ∈ p.2.records, lib.truthy x = true)
    -- the records of each day at each sitting
    (rows : List (DateTime × Run ρ) → DateTime → List ρ)
    (hrows : ∀ runs ∈ sits.map (·.1) ++ [last], ∀ t ∈ days, LastOf w runs t (rows runs t))
    -- the last reader; the blobs it lists are not too many, and their hashes differ
    (now : DateTime) (rnd : Str)
    (hnot : ∀ s ∈ sits, ∀ l l', Reader.openReader (rangeReader w first final prefixes) now rnd (diskBlobsAt s.2.1.names) = .ok (0, l) →
      Reader.openReader (rangeReader w first final prefixes) now rnd (diskBlobsAt dlast.names) = .ok (0, l') →
      l'.length ≤ 8 * ((l.length + 7) / 8))
    (hash : Str → Nat)
    (hhash : ∀ l, Reader.openReader (rangeReader w first final prefixes) now rnd (diskBlobsAt dlast.names) = .ok (0, l) →
      ∀ x ∈ l, ∀ y ∈ l, hash x = hash y → x = y) :
    ∃ got doc rest, sitAll hash lib (rangeReader w first final prefixes) (sits.map (·.2)) none = .ok (got, doc) ∧
      sitOut hash lib (rangeReader w first final prefixes) now rnd dlast doc = .ok rest ∧
      got.flatten ++ rest = (days.flatMap (rows last)).map .row ∧
      got = handOut 0 (sits.map fun s => ((days.flatMap (rows s.1)).map .row, s.2.2.take)) := by
  let S : DateTime → Prop := fun t => t ∈ days ∨ ∃ p ∈ last, p.1 = t
  have hS : ∀ t, S t → Day t := by
    rintro t (h | ⟨p, hp, rfl⟩)
    · exact ((hdays.mem t).1 h).1
    · exact (hok p hp).1
  have hr : ∀ p ∈ last, S p.1 ∧ p.2.OK (on w p.1) := fun p hp => ⟨Or.inr ⟨p, hp, rfl⟩, (hok p hp).2⟩
  have hpre : ∀ runs ∈ sits.map (·.1) ++ [last], runs <+: last := by
    intro runs hruns
    rcases List.mem_append.1 hruns with h | h
    · exact (List.pairwise_append.1 hgrow).2.2 runs h last (by simp)
    · rw [List.mem_singleton.1 h]
  have hl' : last ∈ sits.map (·.1) ++ [last] := by simp
  let names : List (DateTime × Run ρ) → List Str := fun runs => days.flatMap (dayNames w ls runs)
  let content : Str → List (Item ρ) := fun b => readBlob lib {} b (read dlast b)
  -- what is found for a day, and that it is there until the end
  have hday : ∀ runs ∈ sits.map (·.1) ++ [last], ∀ dr, afterDayRuns w d runs = .ok dr → ∀ t ∈ days,
      DayRead w ls lib dr t (rows runs t) (dayNames w ls runs t) ∧ ∀ b ∈ dayNames w ls runs t, read dr b = read dlast b := by
    intro runs hruns dr hdr t ht
    obtain ⟨more, hmore⟩ := hpre runs hruns
    have hsub : ∀ p ∈ runs, p ∈ last := fun p hp => (hpre runs hruns).subset hp
    have hord' := List.Pairwise.sublist (hpre runs hruns).sublist hord
    rcases lastOf_cases (hrows runs hruns t ht) ls with ⟨pre, r, post, h1, h2, h3, h4, h5⟩ | ⟨h1, h2, h3⟩
    · rw [h4, h5]
      subst h1
      obtain ⟨k1, k2⟩ := day_read_of hw hfmt hS pre post t r (fun p hp => hr p (hsub p hp)) hord' d hd lib
        (fun p hp => hlib p (hsub p hp)) (fun p hp => htr p (hsub p hp)) hdr h2
      have hlast : last = pre ++ (t, r) :: (post ++ more) := by rw [← hmore]; simp
      subst hlast
      obtain ⟨k3, -⟩ := day_read_of hw hfmt hS pre (post ++ more) t r hr hord d hd lib hlib htr hdlast h2
      refine ⟨by rw [namesOf_map]; exact k2 h3, ?_⟩
      intro b hb
      obtain ⟨p, hp, rfl⟩ := List.mem_map.1 hb
      rw [k1 p hp, k3 p hp]
    · rw [h2, h3]
      exact ⟨day_none hw hS runs (fun p hp => hr p (hsub p hp)) hord' d hd lib hdr (Or.inl ht) h1, by simp⟩
  have hfound : ∀ runs ∈ sits.map (·.1) ++ [last], ∀ dr, afterDayRuns w d runs = .ok dr →
      Finds lib (rangeReader w first final prefixes) content dr (names runs) ∧ Names (names runs) ∧
      sorted strLe (names runs) = names runs ∧ (names runs).flatMap content = (days.flatMap (rows runs)).map .row := by
    intro runs hruns dr hdr
    have key := fun now rnd => range_open (ρ := ρ) hw hf hl hle hdays dr (dayNames w ls runs)
      (fun t ht => ⟨(hday runs hruns dr hdr t ht).1.listed, (hday runs hruns dr hdr t ht).1.order,
        (hday runs hruns dr hdr t ht).1.beneath, (hday runs hruns dr hdr t ht).1.readable⟩)
      now rnd prefixes hallow
    refine ⟨⟨fun now rnd => (key now rnd).1, ?_⟩, (key now rnd).2.1, ?_, ?_⟩
    · intro b hb
      obtain ⟨t, ht, hb⟩ := List.mem_flatMap.1 hb
      show _ = readBlob lib {} b (read dlast b)
      rw [(hday runs hruns dr hdr t ht).2 b hb]
    · apply sorted_of_lt
      show (days.flatMap (dayNames w ls runs)).Pairwise _
      rw [List.pairwise_flatMap]
      refine ⟨fun t ht => (hday runs hruns dr hdr t ht).1.order, ?_⟩
      refine List.Pairwise.imp_of_mem ?_ hdays.order
      intro s t hs ht hst x hx y hy
      obtain ⟨a, rfl⟩ := (hday runs hruns dr hdr s hs).1.beneath x hx
      obtain ⟨b, rfl⟩ := (hday runs hruns dr hdr t ht).1.beneath y hy
      obtain ⟨h1, h2⟩ := hw.order s t ((hdays.mem s).1 hs).1 ((hdays.mem t).1 ht).1 hst
      exact (append_lt_append h1).2 (Or.inl h2)
    · show (days.flatMap (dayNames w ls runs)).flatMap content = _
      rw [List.flatMap_assoc, List.map_flatMap]
      apply List.flatMap_congr
      intro t ht
      rw [← (hday runs hruns dr hdr t ht).1.delivers]
      apply List.flatMap_congr
      intro b hb
      show readBlob lib {} b (read dlast b) = _
      rw [(hday runs hruns dr hdr t ht).2 b hb]
  have hmem : ∀ s ∈ sits, s.1 ∈ sits.map (·.1) ++ [last] := fun s hs => List.mem_append_left _ (List.mem_map_of_mem hs)
  obtain ⟨f1, f2, f3, f4⟩ := hfound last hl' dlast hdlast
  obtain ⟨got, doc, rest, g1, g2, g3, g4⟩ := sit_following hash (sits.map (fun s => (s.2.1, names s.1, s.2.2))) dlast (names last)
    (by
      intro s' hs'
      obtain ⟨s, hs, rfl⟩ := List.mem_map.1 hs'
      exact (hfound s.1 (hmem s hs) _ (hdisks s hs)).1) f1
    (by
      have e : (sits.map (fun s => (s.2.1, names s.1, s.2.2))).map (·.2.1) ++ [names last] = (sits.map (·.1) ++ [last]).map names := by
        rw [List.map_append, List.map_map, List.map_map]; rfl
      have hsorted : ∀ runs ∈ sits.map (·.1) ++ [last], sorted strLe (names runs) = names runs := by
        intro runs hruns
        rcases List.mem_append.1 hruns with h | h
        · obtain ⟨s, hs, rfl⟩ := List.mem_map.1 h
          exact (hfound s.1 hruns _ (hdisks s hs)).2.2.1
        · rw [List.mem_singleton.1 h]; exact f3
      have hinturn : ∀ runs ∈ sits.map (·.1), InTurn w days runs last := by
        intro runs hruns
        obtain ⟨s, hs, rfl⟩ := List.mem_map.1 hruns
        exact hturn s hs
      rw [e, List.pairwise_map]
      have hbase : ∀ x ∈ sits.map (·.1), ∀ y, x <+: y → y <+: last → names x <+: names y := by
        intro x hx y hxy hy
        obtain ⟨m, hm⟩ := hxy
        obtain ⟨q, hq⟩ := hy
        rw [← hm]
        exact dayNames_grow hdays m (before := x) (all := last) (rest := q) (by rw [hm, hq]) List.prefix_rfl (hinturn x hx)
      obtain ⟨o1, -, o3⟩ := List.pairwise_append.1 hgrow
      rw [List.pairwise_append]
      refine ⟨List.Pairwise.imp_of_mem ?_ o1, List.pairwise_singleton _ _, ?_⟩
      · intro x y hx hy hxy
        rw [hsorted x (List.mem_append_left _ hx), hsorted y (List.mem_append_left _ hy)]
        exact hbase x hx y hxy (hpre y (List.mem_append_left _ hy))
      · intro x hx y hy
        rw [List.mem_singleton.1 hy, hsorted x (List.mem_append_left _ hx), hsorted last hl']
        exact hbase x hx last (hpre x (List.mem_append_left _ hx)) List.prefix_rfl)
    (by
      intro s' hs'
      obtain ⟨s, hs, rfl⟩ := List.mem_map.1 hs'
      show names s.1 = [] ∨ _
      by_cases h0 : names s.1 = []
      · exact Or.inl h0
      · right
        by_cases h1 : names last = []
        · rw [h1]; simp
        · refine hnot s hs (names s.1) (names last) ?_ ?_
          · rw [(hfound s.1 (hmem s hs) _ (hdisks s hs)).1.opened, if_neg h0]
          · rw [f1.opened, if_neg h1])
    f2.nodup f2.nonempty
    (by
      intro x hx
      exact hhash (names last) (by rw [f1.opened, if_neg (List.ne_nil_of_mem hx)]) x hx) now rnd
  refine ⟨got, doc, rest, ?_, g2, ?_, ?_⟩
  · rw [List.map_map] at g1
    exact g1
  · rw [g4, inOrder, f3, f4]
  · rw [g3, List.map_map]
    congr 1
    apply List.map_congr_left
    intro s hs
    obtain ⟨-, -, k3, k4⟩ := hfound s.1 (hmem s hs) _ (hdisks s hs)
    show (inOrder content (names s.1), _) = _
    rw [inOrder, k3, k4]

/-! ## Concrete cases -/

/-- If all days are in turn, those after any run are. -/
theorem inTurn_all {w : Job} {days : List DateTime} {runs : List (DateTime × Run ρ)}
    (h : runs.Pairwise (fun q p => q.1.seconds < p.1.seconds)) (before : List (DateTime × Run ρ)) : InTurn w days before runs := by
  intro pre p post e _ _ _ q hq _ _
  rw [e] at h
  exact (List.pairwise_append.1 h).2.2 q hq p (by simp)

theorem textNumber_concat (l : Str) (c : Char) : textNumber (l ++ [c]) = 1114113 * textNumber l + c.toNat + 1 := by
  unfold textNumber
  rw [List.foldl_append]
  rfl

theorem textNumber_inj : ∀ a b : Str, textNumber a = textNumber b → a = b := by
  intro a
  induction a using List.reverseRecOn with
  | nil =>
    intro b h
    cases b using List.reverseRecOn with
    | nil => rfl
    | append_singleton m d =>
      rw [textNumber_concat] at h
      have : textNumber [] = 0 := rfl
      omega
  | append_singleton l c ih =>
    intro b h
    cases b using List.reverseRecOn with
    | nil =>
      rw [textNumber_concat] at h
      have : textNumber [] = 0 := rfl
      omega
    | append_singleton m d =>
      rw [textNumber_concat, textNumber_concat] at h
      have hc : c.toNat < 1114112 := by
        have := c.valid
        rcases this with h | ⟨_, h⟩ <;> (show c.val.toNat < _; omega)
      have hd : d.toNat < 1114112 := by
        have := d.valid
        rcases this with h | ⟨_, h⟩ <;> (show d.val.toNat < _; omega)
      rw [ih m (by omega), Char.toNat_inj.1 (show c.toNat = d.toNat by omega)]

/-- The disk after some runs. -/
def daysDisk (runs : List (DateTime × Run (Fin 10))) : Disk := (afterDayRuns zJob demoStart runs).toOption.getD demoStart

theorem daysDisk_eq {runs : List (DateTime × Run (Fin 10))} (h : (afterDayRuns zJob demoStart runs).toOption.isSome = true) :
    afterDayRuns zJob demoStart runs = .ok (daysDisk runs) := by
  unfold daysDisk
  cases e : afterDayRuns zJob demoStart runs with
  | error e' => rw [e] at h; cases h
  | ok d => rfl

/-- A reader of the three days. -/
def threeDays : Reader.Config := rangeReader zJob feb28 mar1 ["tests/".toList]

def oneDone : List (DateTime × Run (Fin 10)) := [(feb28, run1)]
def oneStopped : List (DateTime × Run (Fin 10)) := [(feb28, run1), (feb29, run2)]
def allDone : List (DateTime × Run (Fin 10)) := [(feb28, run1), (feb29, run2), (mar1, run3)]

/-- The sittings: before anything is there, after the run of the first day, while the second day has only a run that was stopped. -/
def demoSits : List (List (DateTime × Run (Fin 10)) × Disk × Sitting) :=
  [([], daysDisk [], ⟨mar1, [], 2⟩), (oneDone, daysDisk oneDone, ⟨mar1, [], 1⟩), (oneStopped, daysDisk oneStopped, ⟨mar1, [], 5⟩)]

/-- What a caller gets who has read February 29th when February 28th is written: before, on going on, and with a new reader. -/
def outOfTurn : Option (List (List (Item (Fin 10))) × List (Item (Fin 10)) × List (Item (Fin 10))) :=
    (do
      let (got, doc) ← sitAll textNumber demoLib' threeDays [(daysDisk [(feb29, run1)], ⟨mar1, [], 9⟩)] none
      let rest ← sitOut textNumber demoLib' threeDays mar1 [] (daysDisk [(feb29, run1), (feb28, run3)]) doc
      let all ← sitOut textNumber demoLib' threeDays mar1 [] (daysDisk [(feb29, run1), (feb28, run3)]) none
      return (got, rest, all)).toOption

/-- **C119, the property does not hold of days out of turn.**  A caller has read all there was, of February 29th.  Then February 28th is
written.  Going on, the caller gets February 29th once more, and of February 28th only the second blob. -/
theorem C119_out_of_turn_fails : outOfTurn = some ([[.row 4]], [.row 3, .row 4], [.row 1, .row 2, .row 3, .row 4]) := by
  decide +kernel

theorem demo_run_day {p : DateTime × Run (Fin 10)} (hp : p ∈ allDone) : Day p.1 ∧ p.2.OK (on zJob p.1) ∧ p.1 ∈ [feb28, feb29, mar1] := by
  simp only [allDone, List.mem_cons, List.not_mem_nil, or_false] at hp
  rcases hp with rfl | rfl | rfl
  · exact ⟨feb28_day, demo_on _ <| demo_run_ok run1 (by simp), by simp⟩
  · exact ⟨feb29_day, demo_on _ <| demo_run_ok run2 (by simp), by simp⟩
  · exact ⟨mar1_day, demo_on _ <| demo_run_ok run3 (by simp), by simp⟩

/-- The records of a day after some of the runs. -/
def demoRowsOf (runs : List (DateTime × Run (Fin 10))) (t : DateTime) : List (Fin 10) :=
  if t = feb28 ∧ 1 ≤ runs.length then [4] else if t = mar1 ∧ 3 ≤ runs.length then [1, 2, 3] else []

theorem demo_rows_of : ∀ runs ∈ demoSits.map (·.1) ++ [allDone], ∀ t ∈ [feb28, feb29, mar1], LastOf zJob runs t (demoRowsOf runs t) := by
  have f1 : run1.Finished (on zJob feb28) := (ended_iff ⟨rfl, Or.inl (by decide)⟩).2 (by decide +kernel)
  have f2 : ¬ run2.Finished (on zJob feb29) := by rw [ended_iff ⟨rfl, Or.inl (by decide)⟩]; decide +kernel
  have f3 : run3.Finished (on zJob mar1) := (ended_iff ⟨rfl, Or.inl (by decide)⟩).2 (by decide +kernel)
  intro runs hruns t ht
  simp only [demoSits, List.map_cons, List.map_nil, List.cons_append, List.nil_append, List.mem_cons, List.not_mem_nil, or_false] at hruns
  simp only [List.mem_cons, List.not_mem_nil, or_false] at ht
  rcases ht with rfl | rfl | rfl
  · rcases hruns with rfl | rfl | rfl | rfl
    · exact Or.inr ⟨by simp, by decide⟩
    · exact Or.inl ⟨[], run1, [], rfl, f1, by simp, by decide⟩
    · exact Or.inl ⟨[], run1, [(feb29, run2)], rfl, f1, by
        intro p hp e
        rw [List.mem_singleton.1 hp] at e
        exact absurd e (by decide), by decide⟩
    · exact Or.inl ⟨[], run1, [(feb29, run2), (mar1, run3)], rfl, f1, by
        intro p hp e
        simp only [List.mem_cons, List.not_mem_nil, or_false] at hp
        rcases hp with rfl | rfl <;> exact absurd e (by decide), by decide⟩
  · rcases hruns with rfl | rfl | rfl | rfl <;> refine Or.inr ⟨?_, by decide⟩ <;> intro p hp e <;>
      simp only [oneDone, oneStopped, allDone, List.mem_cons, List.not_mem_nil, or_false] at hp
    · rw [hp] at e; exact absurd e (by decide)
    · rcases hp with rfl | rfl
      · exact absurd e (by decide)
      · exact f2
    · rcases hp with rfl | rfl | rfl
      · exact absurd e (by decide)
      · exact f2
      · exact absurd e (by decide)
  · rcases hruns with rfl | rfl | rfl | rfl
    · exact Or.inr ⟨by simp, by decide⟩
    · refine Or.inr ⟨?_, by decide⟩
      intro p hp e
      rw [List.mem_singleton.1 hp] at e
      exact absurd e (by decide)
    · refine Or.inr ⟨?_, by decide⟩
      intro p hp e
      simp only [oneStopped, List.mem_cons, List.not_mem_nil, or_false] at hp
      rcases hp with rfl | rfl <;> exact absurd e (by decide)
    · exact Or.inl ⟨[(feb28, run1), (feb29, run2)], run3, [], rfl, f3, by simp, by decide⟩

theorem demo_sits_ok {s : List (DateTime × Run (Fin 10)) × Disk × Sitting} (hs : s ∈ demoSits) :
    afterDayRuns zJob demoStart s.1 = .ok s.2.1 := by
  simp only [demoSits, List.mem_cons, List.not_mem_nil, or_false] at hs
  have h1 : (afterDayRuns zJob demoStart ([] : List (DateTime × Run (Fin 10)))).toOption.isSome = true := rfl
  have h2 : (afterDayRuns zJob demoStart oneDone).toOption.isSome = true := by decide +kernel
  have h3 : (afterDayRuns zJob demoStart oneStopped).toOption.isSome = true := by decide +kernel
  have k1 := daysDisk_eq h1
  have k2 := daysDisk_eq h2
  have k3 := daysDisk_eq h3
  clear h1 h2 h3
  rcases hs with rfl | rfl | rfl
  · dsimp only; exact k1
  · dsimp only; exact k2
  · dsimp only; exact k3

/-- How many blobs are listed. -/
def listedNow (d : Disk) : Option Nat := (Reader.openReader threeDays mar1 [] (diskBlobsAt d.names)).toOption.map (·.2.length)

/-- Non-vacuity: every hypothesis of `C119_days_in_turn_partial` holds of these runs and sittings. -/
example : ∃ got doc rest, sitAll textNumber demoLib' threeDays (demoSits.map (·.2)) none = .ok (got, doc) ∧
    sitOut textNumber demoLib' threeDays mar1 [] (daysDisk allDone) doc = .ok rest ∧
    got.flatten ++ rest = [.row 4, .row 1, .row 2, .row 3] ∧ got = [[], [.row 4], []] := by
  have hall : afterDayRuns zJob demoStart allDone = .ok (daysDisk allDone) := daysDisk_eq (by decide +kernel)
  have hord : allDone.Pairwise (fun a b => a.1 = b.1 → a.2.now.seconds < b.2.now.seconds) := by decide +kernel
  have hlast : ∀ n ∈ listedNow (daysDisk allDone), n ≤ 8 := by decide +kernel
  have hsome : ∀ s ∈ demoSits, ∀ n ∈ listedNow s.2.1, 1 ≤ n := by decide +kernel
  obtain ⟨got, doc, rest, h1, h2, h3, h4⟩ := C119_days_in_turn_partial zJob demoFolders daily (by decide) feb28 mar1 feb28_day mar1_day
    (by decide +kernel) [feb28, feb29, mar1] three_days ["tests/".toList] (by decide) demoSits allDone (daysDisk allDone)
    (by
      simp only [demoSits, List.map_cons, List.map_nil, List.cons_append, List.nil_append]
      have a : oneDone <+: oneStopped := ⟨[(feb29, run2)], rfl⟩
      have b : oneStopped <+: allDone := ⟨[(mar1, run3)], rfl⟩
      simp [a, b, a.trans b])
    (fun s _ => inTurn_all (by decide +kernel) s.1)
    (fun p hp => ⟨(demo_run_day hp).1, (demo_run_day hp).2.1⟩) hord demoStart
    (by
      rintro t (ht | ⟨p, hp, rfl⟩)
      · exact demo_day_fresh ht
      · exact demo_day_fresh (demo_run_day hp).2.2)
    (fun s hs => demo_sits_ok hs) hall demoLib'
    (by
      intro p hp
      simp only [allDone, List.mem_cons, List.not_mem_nil, or_false] at hp
      rcases hp with rfl | rfl | rfl <;> exact demo_faithful _)
    (fun _ _ _ _ => rfl) demoRowsOf demo_rows_of
    mar1 []
    (by
      intro s hs l l' k1 k2
      have h1 := hlast l'.length (by unfold listedNow threeDays; rw [k2]; rfl)
      have h2 := hsome s hs l.length (by unfold listedNow threeDays; rw [k1]; rfl)
      omega)
    textNumber (fun _ _ x _ y _ h => textNumber_inj x y h)
  exact ⟨got, doc, rest, h1, h2, by rw [h3]; decide +kernel, by rw [h4]; decide +kernel⟩

end Mabel.History
