import Verif.Lemmas.SameBlobs

/-!
# In which order the blobs of a folder are listed does not matter to a reader
-/

namespace Mabel.Listing
open Mabel.Py Mabel.Paths Mabel.Naming Mabel.Spec

theorem _root_.List.Perm.same {α : Type} {a b : List α} (h : a.Perm b) : Same a b := fun _ => h.mem_iff

theorem frameBlobs_perm {a b : List Str} (h : a.Perm b) : (frameBlobs a).Perm (frameBlobs b) := by
  have h1 := ((h.same.filter (fun b => contains "as_at_".toList b)).map extractAsAt)
  unfold frameBlobs
  simp only [h1.sorted_dedup, pickFrame_same h.same]
  by_cases h0 : Py.dedup ((a.filter (fun b => contains "as_at_".toList b)).map extractAsAt) = []
  · rw [if_pos h0, if_pos (h1.dedup.nil.1 h0)]
    exact h
  · rw [if_neg h0, if_neg (fun e => h0 (h1.dedup.nil.2 e))]
    split
    · exact .refl _
    · exact h.filter _

theorem segmentBlobs_perm (chosen : Str) {a b : List Str} (h : a.Perm b) :
    (segmentBlobs chosen a).Perm (segmentBlobs chosen b) := by
  unfold segmentBlobs
  refine List.Perm.flatMap ?_ (fun fo _ => frameBlobs_perm (h.filter _))
  split
  · exact .refl _
  · exact (List.perm_ext_iff_of_nodup (dedup_nodup _) (dedup_nodup _)).2 ((h.same.map _).dedup)

/-- The same error, or the same blobs in some order. -/
def PermResult : Except Err (List Str) → Except Err (List Str) → Prop
  | .error e, .error e' => e = e'
  | .ok a, .ok b => a.Perm b
  | _, _ => False

theorem finish_perm {a b : List Str} (h : a.Perm b) {p q : List Str} (hp : sorted strLe p = sorted strLe q) :
    PermResult
      (match (sorted strLe p).getLast? with
        | none => .ok (segmentBlobs [] a)
        | some chosen => .ok (segmentBlobs chosen (a.filter (fun b => contains (['/'] ++ chosen ++ ['/']) b))))
      (match (sorted strLe q).getLast? with
        | none => .ok (segmentBlobs [] b)
        | some chosen => .ok (segmentBlobs chosen (b.filter (fun b => contains (['/'] ++ chosen ++ ['/']) b)))) := by
  rw [hp]
  split
  · exact segmentBlobs_perm _ h
  · exact segmentBlobs_perm _ (h.filter _)

theorem cycleBlobs_perm (pf : Option PartitionFilter) {a b : List Str} (h : a.Perm b) :
    PermResult (cycleBlobs pf a) (cycleBlobs pf b) := by
  have h0 := h.filter (fun b => !contains "BACKOUT".toList b)
  have h1 : Same ((a.filter (fun b => !contains "BACKOUT".toList b)).filter (fun b => contains "/by_".toList b) |>.filterMap extractBy)
      ((b.filter (fun b => !contains "BACKOUT".toList b)).filter (fun b => contains "/by_".toList b) |>.filterMap extractBy) :=
    (h0.same.filter _).filterMap _
  unfold cycleBlobs applyFilter partitionings
  cases pf with
  | none => exact finish_perm h0 h1.sorted_dedup
  | some f =>
    simp only [h1.dedup.any]
    by_cases ho : f.op ≠ "=".toList ∧ f.op ≠ "==".toList
    · simp only [if_pos ho]
      rfl
    · simp only [if_neg ho]
      by_cases hany : (Py.dedup ((b.filter (fun b => !contains "BACKOUT".toList b)).filter
          (fun b => contains "/by_".toList b) |>.filterMap extractBy)).any (fun p => contains ("by_".toList ++ Text.sanitize f.field) p) = true
      · simp only [hany, if_true]
        exact finish_perm (p := ["by_".toList ++ Text.sanitize f.field]) (h0.filter _) rfl
      · simp only [hany, if_false, Bool.false_eq_true]
        exact finish_perm h0 h1.sorted_dedup

theorem mapM_perm {α : Type} {f g : α → Except Err (List Str)} (l : List α) (h : ∀ x ∈ l, PermResult (f x) (g x)) :
    PermResult ((l.mapM f).map List.flatten) ((l.mapM g).map List.flatten) := by
  induction l with
  | nil => exact List.Perm.refl _
  | cons x l ih =>
    have hx := h x (by simp)
    have hl := ih (fun y hy => h y (by simp [hy]))
    rw [List.mapM_cons, List.mapM_cons]
    cases e1 : f x with
    | error e =>
      cases e2 : g x with
      | error e' => rw [e1, e2] at hx; exact hx
      | ok b => rw [e1, e2] at hx; exact hx.elim
    | ok a =>
      cases e2 : g x with
      | error e' => rw [e1, e2] at hx; exact hx.elim
      | ok b =>
        rw [e1, e2] at hx
        cases e3 : l.mapM f with
        | error e =>
          cases e4 : l.mapM g with
          | error e' => rw [e3, e4] at hl; exact hl
          | ok b => rw [e3, e4] at hl; exact hl.elim
        | ok as =>
          cases e4 : l.mapM g with
          | error e' => rw [e3, e4] at hl; exact hl.elim
          | ok bs =>
            rw [e3, e4] at hl
            show ((a :: as).flatten).Perm ((b :: bs).flatten)
            rw [List.flatten_cons, List.flatten_cons]
            exact List.Perm.append hx hl

/-- The listing of a reader is the same in whatever order the blobs in the folders are listed. -/
theorem listBlobs_perm (dataset rnd : Str) (pf : Option PartitionFilter) {f g : Posix → List Str} {dates : List DateTime}
    (h : ∀ p ∈ visited dataset rnd dates, (f p).Perm (g p)) :
    listBlobs dataset rnd pf f dates = listBlobs dataset rnd pf g dates := by
  have hm := mapM_perm (f := fun p => cycleBlobs pf (f p)) (g := fun p => cycleBlobs pf (g p)) _
    (fun p hp => cycleBlobs_perm pf (h p hp))
  unfold listBlobs
  cases e1 : (visited dataset rnd dates).mapM (fun p => cycleBlobs pf (f p)) with
  | error e =>
    cases e2 : (visited dataset rnd dates).mapM (fun p => cycleBlobs pf (g p)) with
    | error e' => rw [e1, e2] at hm; rw [show e = e' from hm]
    | ok b => rw [e1, e2] at hm; exact hm.elim
  | ok a =>
    cases e2 : (visited dataset rnd dates).mapM (fun p => cycleBlobs pf (g p)) with
    | error e' => rw [e1, e2] at hm; exact hm.elim
    | ok b =>
      rw [e1, e2] at hm
      simp only
      rw [sorted_eq_of_perm strLe_preorder (show a.flatten.Perm b.flatten from hm) (fun a _ b _ => strLe_antisymm)]

end Mabel.Listing

namespace Mabel.Cloud
open Mabel.Py Mabel.Paths Mabel.Naming Mabel.Spec Mabel.Listing
open Mabel.History (Day Daily folderOf DaysOf rangeReader)

/-- A reader of a range of days finds the same blobs in the same order, if the same are listed, once each, for each of the days. -/
theorem open_perm {w : Job} {ls : List (List Piece)} (hw : Daily w ls)
    {first last : DateTime} (hf : Day first) (hl : Day last) (hle : first.seconds ≤ last.seconds) {days : List DateTime}
    (hdays : DaysOf first last days) {f g : Posix → List Str} (h : ∀ t ∈ days, (f ⟨[], folderOf ls t⟩).Perm (g ⟨[], folderOf ls t⟩))
    (now : DateTime) (rnd : Str) (prefixes : List Str) (flt : Option PartitionFilter) :
    Reader.openReader (rangeReader w first last prefixes flt) now rnd f
      = Reader.openReader (rangeReader w first last prefixes flt) now rnd g := by
  obtain ⟨hours, h1, h2, -⟩ := Dates.dateRange_spec (now := now) hf.valid hl.valid hle
  have hrd : Dates.readerDates now (rangeReader w first last prefixes flt).start (rangeReader w first last prefixes flt).stop
      = (first, last) := by
    show (if (EndToEnd.midnight first).le (EndToEnd.midnight last) then (EndToEnd.midnight first, EndToEnd.midnight last) else _) = _
    rw [hf.midnight_eq, hl.midnight_eq, if_pos (by simp [DateTime.le, hle])]
  have hlst : ∀ bl, Reader.listing (rangeReader w first last prefixes flt) now rnd bl 0
      = listBlobs (readerDataset w.dataset w.partitions) rnd flt bl hours := by
    intro bl
    unfold Reader.listing
    rw [hrd]
    simp only [Reader.stepBack, h1]
    rfl
  have hvis := History.visited_days hw hf hl hdays h2 rnd
  have hsame : Reader.listing (rangeReader w first last prefixes flt) now rnd f 0
      = Reader.listing (rangeReader w first last prefixes flt) now rnd g 0 := by
    rw [hlst, hlst]
    apply listBlobs_perm
    intro p hp
    obtain ⟨t, ht, rfl⟩ := List.mem_map.1 (hvis.mem_iff.1 hp)
    exact h t ht
  have hfl : Reader.freshnessLimit (rangeReader w first last prefixes flt) now = .ok 0 := by
    unfold Reader.freshnessLimit
    have : Dates.parseDelta (rangeReader w first last prefixes flt).freshness = 0 :=
      show Dates.parseDelta [] = 0 by decide
    simp [this]
  unfold Reader.openReader
  rw [hfl]
  by_cases ha : (!Reader.allowed (rangeReader w first last prefixes flt).prefixes (rangeReader w first last prefixes flt).dataset) = true
  · simp only [if_pos ha]
  · simp only [if_neg ha]
    unfold chooseBlobs
    rw [hsame]
    cases e1 : Reader.listing (rangeReader w first last prefixes flt) now rnd g 0 with
    | error e => rfl
    | ok a => simp only [if_neg (show ¬ (0 : Int) > 1 by omega)]

end Mabel.Cloud
