import Verif.Props.EndToEnd
import Verif.Lemmas.StrOrder

/-!
# A serial reader of blobs of which some are listed more than once
-/

namespace Mabel.Cursor
open Mabel.Py
variable {ρ : Type}

theorem deliver_fst (c : Cursor) (n : Nat) (rs : List ρ) : (deliver c n rs).map (·.1) = rs := by
  induction rs generalizing n with
  | nil => rfl
  | cons r rs ih => simp [deliver, ih]

theorem deliver_same {c : Cursor} {n : Nat} {rs : List ρ} {y : ρ × Cursor} (h : y ∈ deliver c n rs) :
    y.2.readable = c.readable ∧ y.2.read = c.read := by
  induction rs generalizing n with
  | nil => cases h
  | cons r rs ih =>
    rcases List.mem_cons.1 h with rfl | h
    · exact ⟨rfl, rfl⟩
    · exact ih h

theorem rounds_repeats (content : Str → List ρ) (n : Nat) (c : Cursor) (previous : Option Str)
    (hp : (finished c previous).partition = []) (hne : [] ∉ c.readable)
    (hn : ((finished c previous).readable.filter (fun b => !(finished c previous).read.contains b)).length < n) :
    (rounds content n c previous).yields.map (·.1)
      = ((finished c previous).readable.filter (fun b => !(finished c previous).read.contains b)).eraseDups.flatMap content := by
  induction n generalizing c previous with
  | zero => omega
  | succ n ih =>
    have hre : (finished c previous).readable = c.readable := by
      unfold finished; split <;> rfl
    rw [rounds]
    unfold nextBlob
    simp only [hp, ne_eq, not_true_eq_false, false_and, if_false]
    cases hu : (finished c previous).readable.filter (fun b => !(finished c previous).read.contains b) with
    | nil => rfl
    | cons u us =>
      have hmem : u ∈ c.readable := by
        have : u ∈ (finished c previous).readable.filter (fun b => !(finished c previous).read.contains b) := by
          rw [hu]; simp
        rw [hre] at this
        exact (List.mem_filter.1 this).1
      obtain ⟨b, bs, rfl⟩ : ∃ b bs, u = b :: bs := by
        cases u with
        | nil => exact absurd hmem hne
        | cons b bs => exact ⟨b, bs, rfl⟩
      simp only
      generalize hc1 : ({ finished c previous with partition := b :: bs, location := -1 } : Cursor) = c1
      have hs : skip c1 = 0 := by rw [← hc1]; rfl
      rw [hs, List.drop_zero, List.map_append, deliver_fst, List.eraseDups_cons, List.flatMap_cons]
      congr 1
      generalize hafter : ((deliver c1 0 (content (b :: bs))).getLast?.map (·.2)).getD c1 = after
      have hsame : after.readable = c1.readable ∧ after.read = c1.read := by
        rw [← hafter]
        cases hl : (deliver c1 0 (content (b :: bs))).getLast? with
        | none => exact ⟨rfl, rfl⟩
        | some y => exact deliver_same (List.mem_of_getLast? hl)
      have h1 : c1.readable = (finished c previous).readable ∧ c1.read = (finished c previous).read := by
        rw [← hc1]; exact ⟨rfl, rfl⟩
      have hf : (finished after (some (b :: bs))).readable = (finished c previous).readable ∧
          (finished after (some (b :: bs))).read = (finished c previous).read ++ [b :: bs] := by
        unfold finished
        simp only [hsame, h1]
        exact ⟨rfl, rfl⟩
      have hunread : (finished after (some (b :: bs))).readable.filter
            (fun x => !(finished after (some (b :: bs))).read.contains x)
          = us.filter (fun x => !x == (b :: bs)) := by
        rw [hf.1, hf.2]
        have : (finished c previous).readable.filter (fun x => !((finished c previous).read ++ [b :: bs]).contains x)
            = ((finished c previous).readable.filter (fun x => !(finished c previous).read.contains x)).filter
              (fun x => !x == (b :: bs)) := by
          rw [List.filter_filter]
          apply List.filter_congr
          intro x _
          simp only [List.contains_append, List.contains_cons, List.contains_nil, Bool.or_false, Bool.not_or]
          exact Bool.and_comm _ _
        rw [this, hu, List.filter_cons]
        simp
      rw [ih after (some (b :: bs)) rfl (by rw [hsame.1, h1.1, hre]; exact hne) ?_, hunread]
      rw [hunread]
      have := List.length_filter_le (fun x => !x == (b :: bs)) us
      rw [hu] at hn
      simp only [List.length_cons] at hn
      omega

/-- Without a saved cursor every blob is read once, in the order of the names, however often it is listed. -/
theorem readAll_repeats (hash : Str → Nat) (content : Str → List ρ) (blobs : List Str) (hne : [] ∉ blobs) :
    (readAll hash content blobs none).yields.map (·.1) = (sorted strLe blobs).eraseDups.flatMap content := by
  unfold readAll init
  simp only
  rw [rounds_repeats _ _ _ _ rfl (by
    intro h
    exact hne ((sorted_perm strLe blobs).mem_iff.1 h))]
  · congr 2
    exact List.filter_eq_self.2 (fun x _ => rfl)
  · refine Nat.lt_succ_of_le ?_
    exact List.length_filter_le _ _

end Mabel.Cursor

namespace Mabel.Blobs
open Mabel.Py
variable {ρ : Type}

theorem eraseDups_facts {α : Type} [BEq α] [LawfulBEq α] (n : Nat) (l : List α) (hl : l.length ≤ n) :
    l.eraseDups.Sublist l ∧ l.eraseDups.Nodup := by
  induction n generalizing l with
  | zero =>
    cases l with
    | nil => exact ⟨List.Sublist.refl _, List.nodup_nil⟩
    | cons a l => simp at hl
  | succ n ih =>
    cases l with
    | nil => exact ⟨List.Sublist.refl _, List.nodup_nil⟩
    | cons a l =>
      have hlen := List.length_filter_le (fun b => !b == a) l
      simp only [List.length_cons] at hl
      obtain ⟨h1, h2⟩ := ih (l.filter (fun b => !b == a)) (by omega)
      rw [List.eraseDups_cons]
      refine ⟨(h1.trans List.filter_sublist).cons_cons a, List.nodup_cons.2 ⟨?_, h2⟩⟩
      intro hm
      have := (List.mem_filter.1 (List.mem_eraseDups.1 hm)).2
      simp at this

/-- The records delivered depend only on which blobs are listed, and not on how often. -/
theorem delivered_repeats (hash : Str → Nat) (lib : Lib ρ) (o : Options ρ) (storage : Str → Except Err Bytes)
    (blobs names : List Str) (hne : [] ∉ names) (hlt : names.Pairwise (fun x y => x < y))
    (hmem : ∀ x, x ∈ blobs ↔ x ∈ names) :
    delivered hash lib o storage blobs = names.flatMap (fun b => readBlob lib o b (storage b)) := by
  unfold delivered readSerial
  rw [Cursor.readAll_repeats _ _ _ (fun h => hne ((hmem _).1 h))]
  congr 1
  obtain ⟨h1, h2⟩ := eraseDups_facts _ (sorted strLe blobs) (Nat.le_refl _)
  have hp : (sorted strLe blobs).eraseDups.Perm names := by
    rw [List.perm_ext_iff_of_nodup h2 (EndToEnd.nodup_of_lt hlt)]
    intro x
    rw [List.mem_eraseDups, mem_sorted, hmem]
  rw [← sorted_of_pairwise _ ((sorted_pairwise strLe_preorder blobs).sublist h1),
    sorted_eq_of_perm strLe_preorder hp (fun a _ b _ => strLe_antisymm), EndToEnd.sorted_of_lt hlt]

end Mabel.Blobs
