import Verif.Model.Reader
import Verif.Props.Listing
import Verif.Props.Dates

/-!
# Properties of opening a reader: C23 (freshness), C27 (access)
-/

namespace Mabel.Listing
open Mabel.Py

/-! ## C23: looking back -/

/-- The loop looks at days in turn and stops at the first that has blobs, or beyond the limit. -/
theorem lookBack_spec {limit : Int} {list : Nat → Except Err (List Str)} (fuel k : Nat)
    (r : Except Err (List Str)) (hr : r = list k) (hf : limit < 86400 * ((k + fuel : Nat) : Int)) :
    (∃ j ≥ k, ∃ e, list j = .error e ∧ (∀ i, k ≤ i → i < j → list i = .ok [] ∧ 86400 * (i : Int) ≤ limit) ∧
      lookBack limit list fuel k r = .error e) ∨
    (∃ j ≥ k, ∃ l, list j = .ok l ∧ (l ≠ [] ∨ limit < 86400 * (j : Int)) ∧
      (∀ i, k ≤ i → i < j → list i = .ok [] ∧ 86400 * (i : Int) ≤ limit) ∧
      lookBack limit list fuel k r = .ok (j, l)) := by
  induction fuel generalizing k r with
  | zero =>
    cases r with
    | error e => exact Or.inl ⟨k, le_refl _, e, hr.symm, fun i h1 h2 => absurd h2 (by omega), rfl⟩
    | ok l =>
      exact Or.inr ⟨k, le_refl _, l, hr.symm, Or.inr (by simpa using hf), fun i h1 h2 => absurd h2 (by omega),
        rfl⟩
  | succ fuel ih =>
    cases r with
    | error e => exact Or.inl ⟨k, le_refl _, e, hr.symm, fun i h1 h2 => absurd h2 (by omega), rfl⟩
    | ok l =>
      rw [lookBack]
      split
      · rename_i hc
        obtain ⟨rfl, hlim⟩ := hc
        have step : ∀ j, k + 1 ≤ j → (∀ i, k + 1 ≤ i → i < j → list i = .ok [] ∧ 86400 * (i : Int) ≤ limit) →
            ∀ i, k ≤ i → i < j → list i = .ok [] ∧ 86400 * (i : Int) ≤ limit := by
          intro j hj h i h1 h2
          by_cases he : i = k
          · subst he; exact ⟨hr.symm, hlim⟩
          · exact h i (by omega) h2
        rcases ih (k + 1) (list (k + 1)) rfl (by
            have : k + 1 + fuel = k + (fuel + 1) := by omega
            rw [this]; exact hf) with ⟨j, hj, e, h1, h2, h3⟩ | ⟨j, hj, l, h1, h2, h3, h4⟩
        · exact Or.inl ⟨j, by omega, e, h1, step j hj h2, h3⟩
        · exact Or.inr ⟨j, by omega, l, h1, h2, step j hj h3, h4⟩
      · rename_i hc
        refine Or.inr ⟨k, le_refl _, l, hr.symm, ?_, fun i h1 h2 => absurd h2 (by omega), rfl⟩
        by_cases hl : l = []
        · right
          have : ¬ limit ≥ 86400 * (k : Int) := fun h => hc ⟨hl, h⟩
          omega
        · exact Or.inl hl

/-- **C23 (bounded).**  The loop needs no more steps than the limit has days, and two: more would not
change its result. -/
theorem C23_bounded (limit : Int) (list : Nat → Except Err (List Str)) (fuel extra : Nat)
    (hf : limit < 86400 * (fuel : Int)) :
    lookBack limit list (fuel + extra) 0 (list 0) = lookBack limit list fuel 0 (list 0) := by
  rcases lookBack_spec fuel 0 (list 0) rfl (by simpa using hf) with
    ⟨j, _, e, h1, h2, h3⟩ | ⟨j, _, l, h1, h2, h3, h4⟩
  · rcases lookBack_spec (limit := limit) (fuel + extra) 0 (list 0) rfl (by push_cast; omega) with
      ⟨j', _, e', h1', h2', h3'⟩ | ⟨j', _, l', h1', h2', h3', h4'⟩
    · rw [h3, h3']
      rcases Nat.lt_trichotomy j j' with h | h | h
      · have := (h2' j (by omega) h).1; rw [h1] at this; cases this
      · subst h; rw [h1] at h1'; cases h1'; rfl
      · have := (h2 j' (by omega) h).1; rw [h1'] at this; cases this
    · exfalso
      rcases Nat.lt_trichotomy j j' with h | h | h
      · have := (h3' j (by omega) h).1; rw [h1] at this; cases this
      · subst h; rw [h1] at h1'; cases h1'
      · have := (h2 j' (by omega) h)
        rw [h1'] at this
        rcases h2' with h2' | h2'
        · exact h2' (Except.ok.inj this.1)
        · omega
  · rcases lookBack_spec (limit := limit) (fuel + extra) 0 (list 0) rfl (by push_cast; omega) with
      ⟨j', _, e', h1', h2', h3'⟩ | ⟨j', _, l', h1', h2', h3', h4'⟩
    · exfalso
      rcases Nat.lt_trichotomy j j' with h | h | h
      · have := (h2' j (by omega) h)
        rw [h1] at this
        rcases h2 with h2 | h2
        · exact h2 (Except.ok.inj this.1)
        · omega
      · subst h; rw [h1] at h1'; cases h1'
      · have := (h3 j' (by omega) h).1; rw [h1'] at this; cases this
    · rw [h4, h4']
      rcases Nat.lt_trichotomy j j' with h | h | h
      · have := (h3' j (by omega) h)
        rw [h1] at this
        rcases h2 with h2 | h2
        · exact absurd (Except.ok.inj this.1) h2
        · omega
      · subst h; rw [h1] at h1'; cases h1'; rfl
      · have := (h3 j' (by omega) h)
        rw [h1'] at this
        rcases h2' with h2' | h2'
        · exact absurd (Except.ok.inj this.1) h2'
        · omega

theorem fuel_enough (limit : Int) (h : 1 < limit) :
    limit < 86400 * ((limit.toNat / 86400 + 2 : Nat) : Int) := by
  have := Int.toNat_of_nonneg (a := limit) (by omega)
  omega

/-- **C23 (the most recent day that has any).**  With a limit, if the days before day `k` back hold
nothing, and day `k` is within the limit and holds something the reader can read, then exactly what is
readable of that day is read. -/
theorem C23_finds_most_recent (limit : Int) (list : Nat → Except Err (List Str)) (hlim : 1 < limit)
    (k : Nat) (hk : 86400 * (k : Int) ≤ limit) (l : List Str) (hl : list k = .ok l)
    (hbefore : ∀ j, j < k → list j = .ok []) (hread : l.filter isReadable ≠ []) :
    chooseBlobs limit list = .ok (k, l.filter isReadable) := by
  have hlne : l ≠ [] := by rintro rfl; exact hread rfl
  unfold chooseBlobs
  have h0 : ∃ l0, list 0 = .ok l0 := by
    by_cases hk0 : k = 0
    · exact ⟨l, hk0 ▸ hl⟩
    · exact ⟨[], hbefore 0 (by omega)⟩
  obtain ⟨l0, h0⟩ := h0
  have hs := lookBack_spec (limit := limit) (list := list) (limit.toNat / 86400 + 2) 0 (list 0) rfl
    (by simpa using fuel_enough limit hlim)
  rw [h0] at hs ⊢
  simp only [if_pos hlim]
  rcases hs with ⟨j, _, e, h1, h2, h3⟩ | ⟨j, _, l', h1, h2, h3, h4⟩
  · exfalso
    rcases Nat.lt_trichotomy j k with h | h | h
    · rw [hbefore j h] at h1; cases h1
    · subst h; rw [hl] at h1; cases h1
    · have := (h2 k (by omega) h).1; rw [hl] at this; exact hlne (Except.ok.inj this)
  · have hjk : j = k := by
      rcases Nat.lt_trichotomy j k with h | h | h
      · rw [hbefore j h] at h1
        rcases h2 with h2 | h2
        · exact absurd (Except.ok.inj h1).symm h2
        · omega
      · exact h
      · have := (h3 k (by omega) h).1; rw [hl] at this; exact absurd (Except.ok.inj this) hlne
    subst hjk
    rw [hl] at h1
    cases h1
    rw [h4]
    simp only
    rw [if_neg (by omega)]
    simp only
    rw [if_neg hread]

/-- **C23 (never before the limit).**  What is read is what is readable of a single day within the
limit, later days held nothing; without a limit it is the day itself. -/
theorem C23_within_limit (limit : Int) (list : Nat → Except Err (List Str)) (k : Nat) (r : List Str)
    (h : chooseBlobs limit list = .ok (k, r)) :
    (k = 0 ∨ (1 < limit ∧ 86400 * (k : Int) ≤ limit)) ∧ (∀ j, j < k → list j = .ok []) ∧ r ≠ [] ∧
      ∃ l, list k = .ok l ∧ r = l.filter isReadable := by
  unfold chooseBlobs at h
  cases h0 : list 0 with
  | error e => rw [h0] at h; cases h
  | ok l0 =>
    have hs := fun hlim => lookBack_spec (limit := limit) (list := list) (limit.toNat / 86400 + 2) 0 (list 0) rfl
      (by simpa using fuel_enough limit hlim)
    rw [h0] at hs h
    simp only at h
    by_cases hlim : 1 < limit
    · simp only [if_pos hlim] at h
      rcases hs hlim with ⟨j, _, e, h1, h2, h3⟩ | ⟨j, _, l', h1, h2, h3, h4⟩
      · rw [h3] at h; cases h
      · rw [h4] at h
        simp only at h
        by_cases hlt : limit < 86400 * (j : Int)
        · simp only [if_pos hlt] at h; cases h
        · simp only [if_neg hlt] at h
          by_cases hr : l'.filter isReadable = []
          · rw [if_pos hr] at h; cases h
          · rw [if_neg hr] at h
            cases h
            exact ⟨Or.inr ⟨hlim, by omega⟩, fun i hi => (h3 i (by omega) hi).1, hr, l', h1, rfl⟩
    · simp only [if_neg hlim] at h
      by_cases hr : l0.filter isReadable = []
      · rw [if_pos hr] at h; cases h
      · rw [if_neg hr] at h
        cases h
        exact ⟨Or.inl rfl, fun j hj => absurd hj (by omega), hr, l0, h0, rfl⟩

/-- **C23 (nothing found).**  If no day within the limit holds anything, the reader says so. -/
theorem C23_nothing_found (limit : Int) (list : Nat → Except Err (List Str))
    (hempty : ∀ k : Nat, 86400 * (k : Int) ≤ limit ∨ k = 0 → list k = .ok [])
    (hnext : ∀ k e, list k ≠ .error e) :
    chooseBlobs limit list = .error .dataNotFound := by
  unfold chooseBlobs
  have h0 := hempty 0 (Or.inr rfl)
  by_cases hlim : 1 < limit
  · have hs := lookBack_spec (limit := limit) (list := list) (limit.toNat / 86400 + 2) 0 (list 0) rfl
      (by simpa using fuel_enough limit hlim)
    rw [h0] at hs ⊢
    simp only [if_pos hlim]
    rcases hs with ⟨j, _, e, h1, h2, h3⟩ | ⟨j, _, l', h1, h2, h3, h4⟩
    · exact absurd h1 (hnext j e)
    · rw [h4]
      simp only
      by_cases hlt : limit < 86400 * (j : Int)
      · rw [if_pos hlt]
      · exfalso
        rcases h2 with h2 | h2
        · rw [hempty j (Or.inl (by omega))] at h1
          exact h2 (Except.ok.inj h1).symm
        · exact hlt h2
  · rw [h0]
    simp only [if_neg hlim]
    rfl

/-- **C23 (what counts as data).**  Of what is listed, a reader reads exactly the blobs whose name ends
in a dot and one of the kinds of data (or is nothing but the name of a kind): in particular neither
markers nor indexes. -/
theorem C23_readable_iff (b : Str) :
    isReadable b = true ↔ ∃ kind ∈ Spec.dataKinds, b = kind ∨ ∃ stem, b = stem ++ '.' :: kind := by
  have hmem : ∀ e : Str, dataExtensions.contains ('.' :: e) = true ↔ e ∈ Spec.dataKinds := by
    intro e
    have h1 : ∀ x ∈ dataExtensions, x ∈ Spec.dataKinds.map (fun k => '.' :: k) := by decide
    have h2 : ∀ x ∈ Spec.dataKinds.map (fun k => '.' :: k), x ∈ dataExtensions := by decide
    rw [List.contains_iff_mem]
    constructor
    · intro h
      obtain ⟨k, hk, he⟩ := List.mem_map.1 (h1 _ h)
      rw [← (List.cons.inj he).2]; exact hk
    · exact fun h => h2 _ (List.mem_map.2 ⟨e, h, rfl⟩)
  have hdot : ∀ e ∈ Spec.dataKinds, '.' ∉ e := by decide
  have hlast : ∀ (s e : Str), '.' ∉ e → (split '.' (s ++ '.' :: e)).getLast? = some e := by
    intro s e he
    rw [split_slash, split_of_not_mem he, List.getLast?_append]
    rfl
  constructor
  · intro h
    by_cases hd : '.' ∈ b
    · obtain ⟨l, r, hl, hr⟩ : ∃ l r, b = l ++ '.' :: r ∧ '.' ∉ r := by
        clear h
        induction b with
        | nil => cases hd
        | cons c cs ih =>
          by_cases hc : '.' ∈ cs
          · obtain ⟨l, r, h1, h2⟩ := ih hc
            exact ⟨c :: l, r, by rw [h1]; rfl, h2⟩
          · rcases List.mem_cons.1 hd with rfl | h
            · exact ⟨[], cs, rfl, hc⟩
            · exact absurd h hc
      subst hl
      unfold isReadable at h
      rw [hlast _ _ hr] at h
      exact ⟨r, (hmem r).1 h, Or.inr ⟨l, rfl⟩⟩
    · unfold isReadable at h
      rw [split_of_not_mem hd] at h
      exact ⟨b, (hmem b).1 h, Or.inl rfl⟩
  · rintro ⟨k, hk, rfl | ⟨s, rfl⟩⟩
    · unfold isReadable
      rw [split_of_not_mem (hdot _ hk)]
      exact (hmem _).2 hk
    · unfold isReadable
      rw [hlast _ _ (hdot _ hk)]
      exact (hmem _).2 hk

example : isReadable "d/x.csv".toList = true ∧ isReadable "d/frame.complete".toList = false ∧
    isReadable "d/frame.ignore".toList = false ∧ isReadable "d/x.parquet.idx".toList = false := by decide

/-- Days 0 and 1 are empty; day 2 has a blob and a control file. -/
example : let list : Nat → Except Err (List Str) := fun k =>
      if k = 2 then .ok ["d/x.jsonl".toList, "d/frame.complete".toList] else .ok []
    chooseBlobs 172800 list = .ok (2, ["d/x.jsonl".toList]) ∧
    chooseBlobs 172799 list = .error .dataNotFound ∧ chooseBlobs 0 list = .error .dataNotFound := by
  decide +kernel

/-- **A day with nothing readable ends the search**: data of the day before, within the limit, is not
found. -/
theorem C23_unreadable_day_fails (limit : Int) (hlim : 86400 ≤ limit) :
    ∃ list : Nat → Except Err (List Str), list 1 = .ok ["d/x.jsonl".toList] ∧
      (∃ l, list 0 = .ok l ∧ l.filter isReadable = []) ∧
      chooseBlobs limit list = .error .dataNotFound := by
  let list : Nat → Except Err (List Str) := fun k =>
    if k = 0 then .ok ["d/readme.md".toList] else .ok ["d/x.jsonl".toList]
  refine ⟨list, rfl, ⟨_, rfl, by decide⟩, ?_⟩
  unfold chooseBlobs
  have h0 : list 0 = .ok ["d/readme.md".toList] := rfl
  have hs := lookBack_spec (limit := limit) (list := list) (limit.toNat / 86400 + 2) 0 (list 0) rfl
      (by simpa using fuel_enough limit (by omega))
  rw [h0] at hs ⊢
  simp only [if_pos (show 1 < limit by omega)]
  rcases hs with ⟨j, _, e, h1, h2, h3⟩ | ⟨j, _, l', h1, h2, h3, h4⟩
  · exfalso
    by_cases hj : j = 0
    · subst hj; rw [h0] at h1; cases h1
    · have := (h2 0 (by omega) (by omega)).1; rw [h0] at this; cases this
  · have hj : j = 0 := by
      by_contra hj
      have := (h3 0 (by omega) (by omega)).1; rw [h0] at this; cases this
    subst hj
    rw [h0] at h1; cases h1
    rw [h4]
    simp only
    rw [if_neg (by omega)]
    simp only
    rw [if_pos (by decide)]

end Mabel.Listing

namespace Mabel.Py.DateTime

theorem daysInMonth_pos {y m : Nat} (h1 : 1 ≤ m) (h2 : m ≤ 12) : 1 ≤ daysInMonth y m := by
  interval_cases m <;> simp only [daysInMonth] <;> (try split) <;> omega

theorem nextDay_prevDay {d : DateTime} (hd : d.valid) (ho : 1 < d.ordinal) :
    d.prevDay.nextDay = d ∧ d.prevDay.valid := by
  have h := (valid_iff d).1 hd
  obtain ⟨⟨y1, y2⟩, ⟨m1, m2⟩, ⟨d1, d2⟩, h1, h2, h3⟩ := h
  unfold prevDay
  split
  · rename_i hday
    constructor
    · unfold nextDay
      rw [if_pos (by simp only; omega)]
      cases d; simp only [mk.injEq, and_true, true_and] at *; omega
    · rw [valid_iff]; simp only; omega
  · split
    · rename_i hday hmon
      have hdm := daysInMonth_pos (y := d.year) (m := d.month - 1) (by omega) (by omega)
      constructor
      · unfold nextDay
        rw [if_neg (by simp only; omega), if_pos (by simp only; omega)]
        cases d; simp only [mk.injEq, and_true, true_and] at *; omega
      · rw [valid_iff]; simp only; omega
    · rename_i hday hmon
      have hm : d.month = 1 := by omega
      have hdd : d.day = 1 := by omega
      have hy : 1 < d.year := by
        rcases Nat.lt_or_ge 1 d.year with h | h
        · exact h
        · exfalso
          have : d.year = 1 := by omega
          simp only [ordinal, this, hm, hdd, daysBeforeYear, daysBeforeMonth] at ho
          omega
      constructor
      · unfold nextDay
        rw [if_neg (by simp only [daysInMonth]; omega), if_neg (by simp only; omega)]
        cases d; simp only [mk.injEq, and_true, true_and] at *; omega
      · rw [valid_iff]; simp only [daysInMonth]; omega

theorem prevDay_time (d : DateTime) : d.prevDay.hour = d.hour ∧ d.prevDay.minute = d.minute ∧
    d.prevDay.second = d.second := by
  unfold prevDay; split <;> (try split) <;> exact ⟨rfl, rfl, rfl⟩

theorem prevDay_seconds {d : DateTime} (hd : d.valid) (ho : 1 < d.ordinal) :
    d.prevDay.seconds + 86400 = d.seconds := by
  obtain ⟨e, hv⟩ := nextDay_prevDay hd ho
  have h1 := nextDay_ordinal hv
  rw [e] at h1
  obtain ⟨a, b, c⟩ := prevDay_time d
  unfold seconds
  rw [h1, a, b, c]
  omega

end Mabel.Py.DateTime

namespace Mabel.Reader
open Mabel.Py Mabel.Listing Mabel.Dates

/-- Stepping back `k` days is going back `k` times 24 hours; it fails only before year 1. -/
theorem stepBack_spec (k : Nat) {d : DateTime} (hd : d.valid) :
    (∀ t, stepBack k d = .ok t → t.valid ∧ t.seconds + 86400 * k = d.seconds) ∧
    (∀ e, stepBack k d = .error e → d.ordinal ≤ k) := by
  induction k with
  | zero =>
    refine ⟨?_, ?_⟩
    · intro t h; cases h; exact ⟨hd, by omega⟩
    · intro e h; cases h
  | succ k ih =>
    obtain ⟨h1, h2⟩ := ih
    rw [stepBack]
    cases hs : stepBack k d with
    | error e =>
      refine ⟨fun t h => (by cases h), fun e' h => ?_⟩
      have := h2 e hs; omega
    | ok t =>
      obtain ⟨hv, hsec⟩ := h1 t hs
      simp only
      split
      · rename_i ho
        refine ⟨fun t h => (by cases h), fun e' h => ?_⟩
        have ht := (DateTime.valid_iff t).1 hv
        have hd' := (DateTime.valid_iff d).1 hd
        unfold DateTime.seconds at hsec
        generalize t.ordinal = a at *
        generalize d.ordinal = b at *
        omega
      · rename_i ho
        refine ⟨fun t' h => ?_, fun e' h => (by cases h)⟩
        cases h
        have hp := DateTime.prevDay_seconds hv (by omega)
        refine ⟨(DateTime.nextDay_prevDay hv (by omega)).2, ?_⟩
        have key : ∀ x y z k : Nat, x + 86400 = y → y + 86400 * k = z → x + 86400 * (k + 1) = z := by
          omega
        exact key _ _ _ _ hp hsec

/-- **C23 (end to end).**  When a reader for one date opens, every blob it will read is listed beneath
the dataset's path for a time that is a whole number of days, no more than the freshness limit, before
that date (with no limit: for that date). -/
theorem C23_reader_never_before_limit (c : Config) (now d : DateTime) (hd : d.valid)
    (hs : readerDates now c.start c.stop = (d, d)) (rnd : Str) (blobsAt : Paths.Posix → List Str)
    (k : Nat) (r : List Str) (h : openReader c now rnd blobsAt = .ok (k, r)) :
    (86400 * (k : Int) ≤ parseDelta c.freshness ∨ k = 0) ∧
    ∃ t : DateTime, t.valid ∧ t.seconds + 86400 * k = d.floorHour.seconds ∧
      ∀ b ∈ r, b ∈ blobsAt (cyclePath (readerDataset c.dataset c.partitions) rnd t) := by
  unfold openReader at h
  split at h
  · cases h
  · unfold freshnessLimit at h
    rw [hs] at h
    simp only [ne_eq, not_true_eq_false, and_false, if_false] at h
    obtain ⟨h1, -, -, l, hl, rfl⟩ := C23_within_limit _ _ _ _ h
    refine ⟨?_, ?_⟩
    · rcases h1 with h1 | h1
      · exact Or.inr h1
      · exact Or.inl h1.2
    · unfold listing at hl
      rw [hs] at hl
      simp only at hl
      obtain ⟨hb1, hb2⟩ := stepBack_spec k hd
      cases ht : stepBack k d with
      | error e => rw [ht] at hl; cases hl
      | ok t =>
        rw [ht] at hl
        simp only at hl
        obtain ⟨hv, hsec⟩ := hb1 t ht
        obtain ⟨dates, hdr, hmem, -⟩ := dateRange_spec (now := now) hv hv (le_refl _)
        rw [hdr] at hl
        refine ⟨t.floorHour, DateTime.floorHour_valid hv, ?_, ?_⟩
        · have ht := (DateTime.valid_iff t).1 hv
          have hd' := (DateTime.valid_iff d).1 hd
          simp only [DateTime.seconds, DateTime.floorHour] at hsec ⊢
          have e1 : ({ t with minute := 0, second := 0 } : DateTime).ordinal = t.ordinal := rfl
          have e2 : ({ d with minute := 0, second := 0 } : DateTime).ordinal = d.ordinal := rfl
          rw [e1, e2]
          generalize t.ordinal = a at *
          generalize d.ordinal = b at *
          omega
        · intro b hb
          obtain ⟨hbl, -⟩ := List.mem_filter.1 hb
          obtain ⟨d', hd', hbd⟩ := (C18_sound _ _ _ _ _ _ hl).1 b hbl
          obtain ⟨hv', hm', hs', hlo, hhi⟩ := (hmem d').1 hd'
          have : d' = t.floorHour := by
            apply DateTime.seconds_inj hv' (DateTime.floorHour_valid hv)
            have h3 := DateTime.lt_floorHour hv
            have m1 : t.floorHour.seconds = 3600 * (t.ordinal * 24 + t.hour) := by
              simp only [DateTime.floorHour, DateTime.seconds, DateTime.ordinal]; omega
            have m2 : d'.seconds = 3600 * (d'.ordinal * 24 + d'.hour) := by
              simp only [DateTime.seconds, hm', hs']; omega
            generalize t.floorHour.seconds = x at *
            generalize d'.seconds = y at *
            generalize t.seconds = z at *
            omega
          exact this ▸ hbd

/-- A freshness limit with two different dates is refused. -/
theorem C23_two_dates_refused (c : Config) (now : DateTime) (rnd : Str) (blobsAt : Paths.Posix → List Str)
    (hp : allowed c.prefixes c.dataset = true) (hl : parseDelta c.freshness ≠ 0)
    (hs : (readerDates now c.start c.stop).1 ≠ (readerDates now c.start c.stop).2) :
    openReader c now rnd blobsAt = .error .invalidCombination := by
  unfold openReader freshnessLimit
  simp only [hp, Bool.not_true, Bool.false_eq_true, if_false]
  rw [if_pos ⟨hl, hs⟩]

/-! ## C27: access -/

/-- **C27.**  A dataset may be opened exactly when no prefixes are configured or one of them begins its
name. -/
theorem C27_allowed_iff (prefixes : List Str) (dataset : Str) :
    allowed prefixes dataset = true ↔ prefixes = [] ∨ ∃ p ∈ prefixes, ∃ rest, dataset = p ++ rest := by
  unfold allowed startsWith
  simp only [Bool.or_eq_true, List.isEmpty_iff, List.any_eq_true, List.isPrefixOf_iff_prefix]
  constructor
  · rintro (h | ⟨p, hp, t, ht⟩)
    · exact Or.inl h
    · exact Or.inr ⟨p, hp, t, ht.symm⟩
  · rintro (h | ⟨p, hp, t, ht⟩)
    · exact Or.inl h
    · exact Or.inr ⟨p, hp, t, ht.symm⟩

theorem mapM_error {α β : Type} {f : α → Except Err β} {l : List α} {e : Err} (h : l.mapM f = .error e) :
    ∃ a ∈ l, f a = .error e := by
  induction l with
  | nil => cases h
  | cons a l ih =>
    rw [List.mapM_cons] at h
    cases ha : f a with
    | error e' => rw [ha] at h; cases h; exact ⟨a, by simp, ha⟩
    | ok b =>
      rw [ha] at h
      cases hl : l.mapM f with
      | error e' =>
        rw [hl] at h; cases h
        obtain ⟨x, hx, hf⟩ := ih hl
        exact ⟨x, by simp [hx], hf⟩
      | ok bs => rw [hl] at h; cases h

theorem listBlobs_error {dataset rnd : Str} {pf : Option PartitionFilter} {blobsAt : Paths.Posix → List Str}
    {dates : List DateTime} {e : Err} (h : listBlobs dataset rnd pf blobsAt dates = .error e) :
    e = .notImplemented := by
  unfold listBlobs at h
  split at h
  · rename_i e' he
    cases h
    obtain ⟨p, _, hp⟩ := mapM_error he
    unfold cycleBlobs at hp
    simp only at hp
    split at hp
    · rename_i e'' he''
      cases hp
      unfold applyFilter at he''
      simp only at he''
      split at he''
      · cases he''
      · split at he''
        · cases he''; rfl
        · split at he'' <;> cases he''
    · split at hp <;> cases hp
  · cases h

theorem stepBack_error {k : Nat} {d : DateTime} {e : Err} (h : stepBack k d = .error e) : e = .overflow := by
  induction k with
  | zero => cases h
  | succ k ih =>
    rw [stepBack] at h
    split at h
    · rename_i e' he; cases h; exact ih he
    · split at h
      · cases h; rfl
      · cases h

theorem listing_error {c : Config} {now : DateTime} {rnd : Str} {blobsAt : Paths.Posix → List Str} {k : Nat}
    {e : Err} (h : listing c now rnd blobsAt k = .error e) : e ≠ .accessDenied := by
  unfold listing at h
  simp only at h
  split at h
  · rename_i he; cases h; rw [stepBack_error he]; decide
  · rename_i he _; cases h; rw [stepBack_error he]; decide
  · split at h
    · rename_i he
      cases h
      unfold dateRange at he
      simp only at he
      split at he
      · cases he; decide
      · cases he
    · rw [listBlobs_error h]; decide

theorem lookBack_error {limit : Int} {list : Nat → Except Err (List Str)} (fuel k : Nat)
    (r : Except Err (List Str)) (hr : r = list k) {e : Err} (h : lookBack limit list fuel k r = .error e) :
    ∃ j, list j = .error e := by
  induction fuel generalizing k r with
  | zero =>
    cases r with
    | error e' => cases h; exact ⟨k, hr.symm⟩
    | ok l => cases h
  | succ fuel ih =>
    cases r with
    | error e' => cases h; exact ⟨k, hr.symm⟩
    | ok l =>
      rw [lookBack] at h
      split at h
      · exact ih (k + 1) _ rfl h
      · cases h

theorem chooseBlobs_error {limit : Int} {list : Nat → Except Err (List Str)} {e : Err}
    (h : chooseBlobs limit list = .error e) : e = .dataNotFound ∨ ∃ k, list k = .error e := by
  unfold chooseBlobs at h
  split at h
  · rename_i e' he; cases h; exact Or.inr ⟨0, he⟩
  · rename_i l hl
    simp only at h
    split at h
    · rename_i e' he
      cases h
      split at he
      · split at he
        · rename_i e'' he''
          cases he
          exact Or.inr (lookBack_error _ 0 _ hl.symm he'')
        · split at he
          · cases he; exact Or.inl rfl
          · cases he
      · cases he
    · split at h
      · cases h; exact Or.inl rfl
      · cases h

/-- **C27.**  Opening a dataset that begins with none of the configured prefixes is refused, whatever
the other parameters and whatever storage holds; any other is never refused for that reason (in
particular when none are configured). -/
theorem C27_access (c : Config) (now : DateTime) (rnd : Str) (blobsAt : Paths.Posix → List Str) :
    openReader c now rnd blobsAt = .error .accessDenied ↔
      (c.prefixes ≠ [] ∧ ∀ p ∈ c.prefixes, ¬ ∃ rest, c.dataset = p ++ rest) := by
  have hiff := C27_allowed_iff c.prefixes c.dataset
  unfold openReader
  cases ha : allowed c.prefixes c.dataset with
  | false =>
    simp only [Bool.not_false, if_true, true_iff]
    rw [ha] at hiff
    have := mt hiff.2 (by simp)
    refine ⟨fun h => this (Or.inl h), ?_⟩
    intro p hp hr
    exact this (Or.inr ⟨p, hp, hr⟩)
  | true =>
    simp only [Bool.not_true, Bool.false_eq_true, if_false]
    constructor
    · intro h
      exfalso
      split at h
      · rename_i he
        cases h
        unfold freshnessLimit at he
        simp only at he
        split at he <;> cases he
      · rcases chooseBlobs_error h with h | ⟨k, hk⟩
        · cases h
        · exact listing_error hk rfl
    · rintro ⟨h1, h2⟩
      rcases hiff.1 ha with h | ⟨p, hp, hr⟩
      · exact absurd h h1
      · exact absurd hr (h2 p hp)

/-- A reader for a partitioned dataset. -/
def demoConfig : Config where
  dataset := "tests/data".toList
  partitions := ["year_{yyyy}".toList, "day_{dd}".toList]
  filter := none
  start := .str "2024-03-01".toList
  stop := .str "2024-03-01".toList
  freshness := "2d".toList
  prefixes := ["prod/".toList, "tests/".toList]

set_option maxRecDepth 4000 in
example : openReader demoConfig ⟨2024, 5, 5, 0, 0, 0⟩ []
      (fun p => if p.str = "tests/data/year_2024/day_28".toList
        then ["tests/data/year_2024/day_28/x.jsonl".toList] else [])
    = .ok (2, ["tests/data/year_2024/day_28/x.jsonl".toList]) ∧
    openReader { demoConfig with dataset := "test".toList } ⟨2024, 5, 5, 0, 0, 0⟩ [] (fun _ => [])
    = .error .accessDenied ∧
    openReader { demoConfig with stop := .str "2024-03-02".toList } ⟨2024, 5, 5, 0, 0, 0⟩ [] (fun _ => [])
    = .error .invalidCombination := by
  decide +kernel

end Mabel.Reader
