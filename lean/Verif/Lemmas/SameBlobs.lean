import Verif.Props.Cloud

/-!
# Listings with the same blobs, however often
-/

namespace Mabel.Listing
open Mabel.Py Mabel.Paths

/-- Lists of the same things, in whatever order and however often. -/
def Same {α : Type} (a b : List α) : Prop := ∀ x, x ∈ a ↔ x ∈ b

theorem Same.symm {α : Type} {a b : List α} (h : Same a b) : Same b a := fun x => (h x).symm

theorem Same.filter {α : Type} {a b : List α} (h : Same a b) (p : α → Bool) : Same (a.filter p) (b.filter p) := by
  intro x
  simp only [List.mem_filter, h x]

theorem Same.map {α γ : Type} {a b : List α} (h : Same a b) (f : α → γ) : Same (a.map f) (b.map f) := by
  intro x
  simp only [List.mem_map, h _]

theorem Same.filterMap {α γ : Type} {a b : List α} (h : Same a b) (f : α → Option γ) : Same (a.filterMap f) (b.filterMap f) := by
  intro x
  simp only [List.mem_filterMap, h _]

theorem Same.any {α : Type} {a b : List α} (h : Same a b) (p : α → Bool) : a.any p = b.any p := by
  rw [Bool.eq_iff_iff, List.any_eq_true, List.any_eq_true]
  simp only [h _]

theorem Same.nil {α : Type} {a b : List α} (h : Same a b) : a = [] ↔ b = [] := by
  rw [List.eq_nil_iff_forall_not_mem, List.eq_nil_iff_forall_not_mem]
  simp only [h _]

theorem Same.sorted_dedup {a b : List Str} (h : Same a b) : sorted strLe (dedup a) = sorted strLe (dedup b) := by
  apply sorted_eq_of_perm strLe_preorder
  · rw [List.perm_ext_iff_of_nodup (dedup_nodup _) (dedup_nodup _)]
    intro x
    rw [dedup_mem, dedup_mem, h x]
  · exact fun a _ b _ => strLe_antisymm

theorem Same.dedup {a b : List Str} (h : Same a b) : Same (Py.dedup a) (Py.dedup b) := by
  intro x
  rw [dedup_mem, dedup_mem, h x]

theorem pickFrame_same {a b : List Str} (h : Same a b) (fs : List Str) : pickFrame a fs = pickFrame b fs := by
  induction fs with
  | nil => rfl
  | cons f fs ih =>
    unfold pickFrame isComplete isInvalid
    rw [h.any, h.any, ih]

theorem frameBlobs_same {a b : List Str} (h : Same a b) : Same (frameBlobs a) (frameBlobs b) := by
  have h1 := ((h.filter (fun b => contains "as_at_".toList b)).map extractAsAt)
  unfold frameBlobs
  simp only [h1.sorted_dedup, pickFrame_same h]
  by_cases h0 : Py.dedup ((a.filter (fun b => contains "as_at_".toList b)).map extractAsAt) = []
  · rw [if_pos h0, if_pos (h1.dedup.nil.1 h0)]
    exact h
  · rw [if_neg h0, if_neg (fun e => h0 (h1.dedup.nil.2 e))]
    split
    · exact fun _ => Iff.rfl
    · exact h.filter _

theorem segmentBlobs_same (chosen : Str) {a b : List Str} (h : Same a b) : Same (segmentBlobs chosen a) (segmentBlobs chosen b) := by
  intro x
  unfold segmentBlobs
  simp only [List.mem_flatMap]
  have hf : ∀ fo, fo ∈ (if chosen = [] then [[]] else Py.dedup (a.map (fun b => optStr (safeGetNext (split '/' b) chosen)))) ↔
      fo ∈ (if chosen = [] then [[]] else Py.dedup (b.map (fun b => optStr (safeGetNext (split '/' b) chosen)))) := by
    intro fo
    split
    · exact Iff.rfl
    · exact (h.map _).dedup fo
  constructor
  · rintro ⟨fo, h1, h2⟩
    exact ⟨fo, (hf fo).1 h1, (frameBlobs_same (h.filter _) x).1 h2⟩
  · rintro ⟨fo, h1, h2⟩
    exact ⟨fo, (hf fo).2 h1, (frameBlobs_same (h.filter _) x).2 h2⟩

/-- The same error, or lists of the same blobs. -/
def SameResult : Except Err (List Str) → Except Err (List Str) → Prop
  | .error e, .error e' => e = e'
  | .ok a, .ok b => Same a b
  | _, _ => False

theorem finish_same {a b : List Str} (h : Same a b) {p q : List Str} (hp : sorted strLe p = sorted strLe q) :
    SameResult
      (match (sorted strLe p).getLast? with
        | none => .ok (segmentBlobs [] a)
        | some chosen => .ok (segmentBlobs chosen (a.filter (fun b => contains (['/'] ++ chosen ++ ['/']) b))))
      (match (sorted strLe q).getLast? with
        | none => .ok (segmentBlobs [] b)
        | some chosen => .ok (segmentBlobs chosen (b.filter (fun b => contains (['/'] ++ chosen ++ ['/']) b)))) := by
  rw [hp]
  split
  · exact segmentBlobs_same _ h
  · exact segmentBlobs_same _ (h.filter _)

/-- The blobs chosen of what is listed depend only on which blobs are listed. -/
theorem cycleBlobs_same (pf : Option PartitionFilter) {a b : List Str} (h : Same a b) :
    SameResult (cycleBlobs pf a) (cycleBlobs pf b) := by
  have h0 := h.filter (fun b => !contains "BACKOUT".toList b)
  have h1 : Same ((a.filter (fun b => !contains "BACKOUT".toList b)).filter (fun b => contains "/by_".toList b) |>.filterMap extractBy)
      ((b.filter (fun b => !contains "BACKOUT".toList b)).filter (fun b => contains "/by_".toList b) |>.filterMap extractBy) :=
    (h0.filter _).filterMap _
  unfold cycleBlobs applyFilter partitionings
  cases pf with
  | none => exact finish_same h0 h1.sorted_dedup
  | some f =>
    simp only [h1.dedup.any]
    by_cases ho : f.op ≠ "=".toList ∧ f.op ≠ "==".toList
    · simp only [if_pos ho]
      rfl
    · simp only [if_neg ho]
      by_cases hany : (Py.dedup ((b.filter (fun b => !contains "BACKOUT".toList b)).filter
          (fun b => contains "/by_".toList b) |>.filterMap extractBy)).any (fun p => contains ("by_".toList ++ Text.sanitize f.field) p) = true
      · simp only [hany, if_true]
        exact finish_same (p := ["by_".toList ++ Text.sanitize f.field]) (h0.filter _) rfl
      · simp only [hany, if_false, Bool.false_eq_true]
        exact finish_same h0 h1.sorted_dedup

theorem mapM_same {α : Type} {f g : α → Except Err (List Str)} (l : List α) (h : ∀ x ∈ l, SameResult (f x) (g x)) :
    SameResult ((l.mapM f).map List.flatten) ((l.mapM g).map List.flatten) := by
  induction l with
  | nil => exact fun _ => Iff.rfl
  | cons x l ih =>
    have hx := h x (by simp)
    have hl := ih (fun y hy => h y (by simp [hy]))
    rw [List.mapM_cons, List.mapM_cons]
    cases e1 : f x with
    | error e =>
      cases e2 : g x with
      | error e' => rw [e1, e2] at hx; exact hx
      | ok b => rw [e1, e2] at hx; exact hx.elim
    | ok a =>
      cases e2 : g x with
      | error e' => rw [e1, e2] at hx; exact hx.elim
      | ok b =>
        rw [e1, e2] at hx
        cases e3 : l.mapM f with
        | error e =>
          cases e4 : l.mapM g with
          | error e' => rw [e3, e4] at hl; exact hl
          | ok b => rw [e3, e4] at hl; exact hl.elim
        | ok as =>
          cases e4 : l.mapM g with
          | error e' => rw [e3, e4] at hl; exact hl.elim
          | ok bs =>
            rw [e3, e4] at hl
            intro y
            show y ∈ (a :: as).flatten ↔ y ∈ (b :: bs).flatten
            rw [List.flatten_cons, List.flatten_cons, List.mem_append, List.mem_append, hx y, hl y]

/-- The listing of a reader depends only on which blobs are listed in each of the folders it visits. -/
theorem listBlobs_same (dataset rnd : Str) (pf : Option PartitionFilter) {f g : Posix → List Str} {dates : List DateTime}
    (h : ∀ p ∈ visited dataset rnd dates, Same (f p) (g p)) :
    SameResult (listBlobs dataset rnd pf f dates) (listBlobs dataset rnd pf g dates) := by
  have hm := mapM_same (f := fun p => cycleBlobs pf (f p)) (g := fun p => cycleBlobs pf (g p)) _
    (fun p hp => cycleBlobs_same pf (h p hp))
  unfold listBlobs
  cases e1 : (visited dataset rnd dates).mapM (fun p => cycleBlobs pf (f p)) with
  | error e =>
    cases e2 : (visited dataset rnd dates).mapM (fun p => cycleBlobs pf (g p)) with
    | error e' => rw [e1, e2] at hm; exact hm
    | ok b => rw [e1, e2] at hm; exact hm.elim
  | ok a =>
    cases e2 : (visited dataset rnd dates).mapM (fun p => cycleBlobs pf (g p)) with
    | error e' => rw [e1, e2] at hm; exact hm.elim
    | ok b =>
      rw [e1, e2] at hm
      intro x
      rw [mem_sorted, mem_sorted]
      exact hm x

end Mabel.Listing

namespace Mabel.Cloud
open Mabel.Py Mabel.Paths Mabel.Naming Mabel.Spec Mabel.Listing
open Mabel.History (Day Daily folderOf DaysOf rangeReader)
open Mabel.Blobs (Lib delivered Item readBlob)
variable {ρ : Type}

/-- A reader of a range of days finds the same blobs, if the same are listed for each of the days. -/
theorem open_same {w : Job} {ls : List (List Piece)} (hw : Daily w ls)
    {first last : DateTime} (hf : Day first) (hl : Day last) (hle : first.seconds ≤ last.seconds) {days : List DateTime}
    (hdays : DaysOf first last days) {f g : Posix → List Str} (h : ∀ t ∈ days, Same (f ⟨[], folderOf ls t⟩) (g ⟨[], folderOf ls t⟩))
    (now : DateTime) (rnd : Str) (prefixes : List Str) (flt : Option PartitionFilter) :
    (∀ e, Reader.openReader (rangeReader w first last prefixes flt) now rnd f = .error e →
      Reader.openReader (rangeReader w first last prefixes flt) now rnd g = .error e) ∧
    ∀ n l, Reader.openReader (rangeReader w first last prefixes flt) now rnd f = .ok (n, l) →
      ∃ l', Reader.openReader (rangeReader w first last prefixes flt) now rnd g = .ok (n, l') ∧ Same l l' ∧ ∀ x ∈ l, ∃ p, x ∈ f p := by
  obtain ⟨hours, h1, h2, -⟩ := Dates.dateRange_spec (now := now) hf.valid hl.valid hle
  have hrd : Dates.readerDates now (rangeReader w first last prefixes flt).start (rangeReader w first last prefixes flt).stop
      = (first, last) := by
    show (if (EndToEnd.midnight first).le (EndToEnd.midnight last) then (EndToEnd.midnight first, EndToEnd.midnight last) else _) = _
    rw [hf.midnight_eq, hl.midnight_eq, if_pos (by simp [DateTime.le, hle])]
  have hlst : ∀ bl, Reader.listing (rangeReader w first last prefixes flt) now rnd bl 0
      = listBlobs (readerDataset w.dataset w.partitions) rnd flt bl hours := by
    intro bl
    unfold Reader.listing
    rw [hrd]
    simp only [Reader.stepBack, h1]
    rfl
  have hvis := History.visited_days hw hf hl hdays h2 rnd
  have hsame : SameResult (Reader.listing (rangeReader w first last prefixes flt) now rnd f 0)
      (Reader.listing (rangeReader w first last prefixes flt) now rnd g 0) := by
    rw [hlst, hlst]
    apply listBlobs_same
    intro p hp
    obtain ⟨t, ht, rfl⟩ := List.mem_map.1 (hvis.mem_iff.1 hp)
    exact h t ht
  have hfl : Reader.freshnessLimit (rangeReader w first last prefixes flt) now = .ok 0 := by
    unfold Reader.freshnessLimit
    have : Dates.parseDelta (rangeReader w first last prefixes flt).freshness = 0 :=
      show Dates.parseDelta [] = 0 by decide
    simp [this]
  unfold Reader.openReader
  rw [hfl]
  by_cases ha : (!Reader.allowed (rangeReader w first last prefixes flt).prefixes (rangeReader w first last prefixes flt).dataset) = true
  · simp only [if_pos ha]
    exact ⟨fun e h => h, nofun⟩
  · simp only [if_neg ha]
    unfold chooseBlobs
    cases e1 : Reader.listing (rangeReader w first last prefixes flt) now rnd f 0 with
    | error e =>
      cases e2 : Reader.listing (rangeReader w first last prefixes flt) now rnd g 0 with
      | error e' => rw [e1, e2] at hsame; rw [show e = e' from hsame]; exact ⟨fun e h => h, nofun⟩
      | ok b => rw [e1, e2] at hsame; exact hsame.elim
    | ok a =>
      cases e2 : Reader.listing (rangeReader w first last prefixes flt) now rnd g 0 with
      | error e' => rw [e1, e2] at hsame; exact hsame.elim
      | ok b =>
        rw [e1, e2] at hsame
        have hs : Same (a.filter isReadable) (b.filter isReadable) := Same.filter hsame _
        simp only [if_neg (show ¬ (0 : Int) > 1 by omega)]
        by_cases h0 : a.filter isReadable = []
        · rw [if_pos h0, if_pos (hs.nil.1 h0)]
          exact ⟨fun e h => h, nofun⟩
        · rw [if_neg h0, if_neg (fun e => h0 (hs.nil.2 e))]
          refine ⟨nofun, ?_⟩
          intro n l hnl
          cases hnl
          refine ⟨_, rfl, hs, ?_⟩
          intro x hx
          rw [hlst] at e1
          obtain ⟨t, -, ht⟩ := (C18_sound _ _ _ _ _ _ e1).1 x (List.mem_filter.1 hx).1
          exact ⟨_, ht⟩

/-- What is delivered depends only on which blobs are listed and what they hold. -/
theorem delivered_same (hash : Str → Nat) (lib : Lib ρ) (o : Blobs.Options ρ) (st st' : Str → Except Err Blobs.Bytes)
    {a b : List Str} (hne : [] ∉ a) (h : Same a b) (hst : ∀ x ∈ a, st x = st' x) :
    delivered hash lib o st a = delivered hash lib o st' b := by
  obtain ⟨s1, n1⟩ := Blobs.eraseDups_facts _ (sorted strLe a) (Nat.le_refl _)
  obtain ⟨s2, n2⟩ := Blobs.eraseDups_facts _ (sorted strLe b) (Nat.le_refl _)
  have hlt : ((sorted strLe a).eraseDups).Pairwise (fun x y => x < y) := by
    have hle := (sorted_pairwise strLe_preorder a).sublist s1
    refine (hle.and n1).imp ?_
    rintro x y ⟨h1, h2⟩
    have h1 : x ≤ y := by simpa [strLe] using h1
    exact List.not_le.1 (fun h3 => h2 (List.le_antisymm h1 h3))
  have hm : ∀ x, x ∈ a ↔ x ∈ (sorted strLe a).eraseDups := fun x => by rw [List.mem_eraseDups, mem_sorted]
  rw [Blobs.delivered_repeats hash lib o st a _ (fun hx => hne ((hm _).2 hx)) hlt hm,
    Blobs.delivered_repeats hash lib o st' b _ (fun hx => hne ((hm _).2 hx)) hlt (fun x => by rw [← h x]; exact hm x)]
  apply List.flatMap_congr
  intro x hx
  rw [hst x ((hm x).2 hx)]

end Mabel.Cloud
