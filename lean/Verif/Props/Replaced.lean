import Verif.Props.Follow

/-!
# Going on from a cursor when the data has been replaced: C117
-/

namespace Mabel.Cursor
open Mabel.Py
variable {ρ : Type}

/-! ## Specification -/

/-- How many blobs, in this order, a caller has left behind that has asked for `k` records, one after the other: those before the
one with the `k`-th record, and all if there are fewer records. -/
def passed (content : Str → List ρ) : List Str → Nat → Nat
  | [], _ => 0
  | b :: bs, k => if k ≤ (content b).length then 0 else passed content bs (k - (content b).length) + 1

/-! ## A reader that has gone through some blobs -/

/-- What a reader yields that has gone through the blobs `done` of `R` and has these to go. -/
def trace (content : Str → List ρ) (R : List Str) : List Str → List Str → List (ρ × Cursor)
  | _, [] => []
  | done, b :: bs => deliver ⟨R, done, b, -1⟩ 0 (content b) ++ trace content R (done ++ [b]) bs

theorem unread_drop {R done todo : List Str} (hn : R.Nodup) (h : R = done ++ todo) :
    R.filter (fun b => !done.contains b) = todo := by
  subst h
  have hd := List.nodup_append.1 hn
  rw [List.filter_append, List.filter_eq_nil_iff.2, List.nil_append, List.filter_eq_self]
  · intro x hx
    rw [Bool.not_eq_true', ← Bool.not_eq_true, List.contains_iff_mem]
    exact fun h => hd.2.2 x h x hx rfl
  · intro x hx
    rw [List.contains_iff_mem.2 hx]
    decide

theorem rounds_trace (content : Str → List ρ) {R : List Str} (hn : R.Nodup) (he : [] ∉ R) : ∀ (todo done : List Str) (n : Nat) (c : Cursor)
    (previous : Option Str) (l : Int), R = done ++ todo → finished c previous = ⟨R, done, [], l⟩ → todo.length < n →
    (rounds content n c previous).yields = trace content R done todo ∧
      ∃ l', (rounds content n c previous).finish = .ok ⟨R, R, [], l'⟩ := by
  intro todo
  induction todo with
  | nil =>
    intro done n c previous l hR hc hlen
    obtain ⟨n, rfl⟩ : ∃ m, n = m + 1 := ⟨n - 1, by simp at hlen; omega⟩
    have hnx : nextBlob c previous = .ok (none, ⟨R, done, [], l⟩) := by
      simp only [nextBlob, hc]
      rw [if_neg (by simp), unread_drop hn hR]
    rw [List.append_nil] at hR
    rw [rounds, hnx]
    exact ⟨rfl, l, by rw [← hR]⟩
  | cons b bs ih =>
    intro done n c previous l hR hc hlen
    obtain ⟨n, rfl⟩ : ∃ m, n = m + 1 := ⟨n - 1, by simp at hlen; omega⟩
    have hb : b ≠ [] := by
      rintro rfl
      exact he (by rw [hR]; simp)
    have hnx : nextBlob c previous = .ok (some b, ⟨R, done, b, -1⟩) := by
      simp only [nextBlob, hc]
      rw [if_neg (by simp), unread_drop hn hR]
    rw [rounds_succ content n c _ previous b hb hnx]
    have hskip : skip ⟨R, done, b, -1⟩ = 0 := rfl
    simp only [hskip, List.drop_zero]
    have hfin : finished (((deliver ⟨R, done, b, -1⟩ 0 (content b)).getLast?.map (·.2)).getD ⟨R, done, b, -1⟩) (some b)
        = ⟨R, done ++ [b], [], -1⟩ := by
      have : ∃ l, ((deliver (⟨R, done, b, -1⟩ : Cursor) 0 (content b)).getLast?.map (·.2)).getD ⟨R, done, b, -1⟩ = ⟨R, done, b, l⟩ := by
        cases hl : (deliver (⟨R, done, b, -1⟩ : Cursor) 0 (content b)).getLast? with
        | none => exact ⟨-1, rfl⟩
        | some y =>
          obtain ⟨i, hi, rfl⟩ := List.getElem_of_mem (List.mem_of_getLast? hl)
          exact ⟨_, by rw [Option.map_some, Option.getD_some, deliver_get]⟩
      obtain ⟨l, hl⟩ := this
      rw [hl]
      cases b with
      | nil => exact absurd rfl hb
      | cons p ps => rfl
    obtain ⟨h1, l', h2⟩ := ih (done ++ [b]) n _ (some b) (-1) (by rw [hR]; simp) hfin (by simp at hlen; omega)
    exact ⟨by rw [h1]; rfl, l', h2⟩

theorem trace_map (content : Str → List ρ) (R : List Str) : ∀ todo done, (trace content R done todo).map (·.1) = todo.flatMap content := by
  intro todo
  induction todo with
  | nil => intro done; rfl
  | cons b bs ih => intro done; rw [trace, List.map_append, deliver_map, ih, List.flatMap_cons]

theorem passed_le (content : Str → List ρ) : ∀ (bs : List Str) k, passed content bs k ≤ bs.length := by
  intro bs
  induction bs with
  | nil => intro k; exact Nat.le_refl _
  | cons b bs ih =>
    intro k
    rw [passed]
    split
    · exact Nat.zero_le _
    · exact Nat.succ_le_succ (ih _)

theorem passed_all (content : Str → List ρ) : ∀ (bs : List Str) k, (bs.flatMap content).length < k → passed content bs k = bs.length := by
  intro bs
  induction bs with
  | nil => intro k _; rfl
  | cons b bs ih =>
    intro k hk
    rw [List.flatMap_cons, List.length_append] at hk
    rw [passed, if_neg (by omega), ih _ (by omega)]
    rfl

/-- The cursor at the `k`-th record. -/
theorem trace_get (content : Str → List ρ) (R : List Str) : ∀ (todo done : List Str) (k : Nat), k + 1 ≤ (todo.flatMap content).length →
    ∃ r b l, (trace content R done todo)[k]? = some (r, ⟨R, done ++ todo.take (passed content todo (k + 1)), b, l⟩) ∧ b ∈ todo := by
  intro todo
  induction todo with
  | nil => intro done k h; simp at h
  | cons b bs ih =>
    intro done k h
    rw [List.flatMap_cons, List.length_append] at h
    rw [trace, passed]
    by_cases hk : k + 1 ≤ (content b).length
    · rw [if_pos hk, List.getElem?_append_left (by rw [deliver_length]; omega)]
      have hlt : k < (deliver (⟨R, done, b, -1⟩ : Cursor) 0 (content b)).length := by rw [deliver_length]; omega
      rw [List.getElem?_eq_getElem hlt]
      refine ⟨((deliver (⟨R, done, b, -1⟩ : Cursor) 0 (content b))[k]).1, b, ((0 + k : Nat) : Int), ?_, by simp⟩
      rw [List.take_zero, List.append_nil]
      exact congrArg some (Prod.ext rfl (deliver_get _ _ _ _ hlt))
    · rw [if_neg hk, List.getElem?_append_right (by rw [deliver_length]; omega), deliver_length]
      obtain ⟨r, p, l, h1, h2⟩ := ih (done ++ [b]) (k - (content b).length) (by omega)
      refine ⟨r, p, l, ?_, by simp [h2]⟩
      rw [h1, show k - (content b).length + 1 = k + 1 - (content b).length by omega]
      simp

/-- What is saved after `k` records. -/
theorem session_saved (hash : Str → Nat) (content : Str → List ρ) (blobs : List Str) (hn : blobs.Nodup) (he : [] ∉ blobs) (k : Nat) (hk : 0 < k) :
    ∃ c : Cursor, session hash content blobs none k = .ok ((inOrder content blobs).take k, some (save hash c)) ∧
      c.readable = sorted strLe blobs ∧ c.read = (sorted strLe blobs).take (passed content (sorted strLe blobs) k) ∧
      (c.partition = [] ∨ c.partition ∈ blobs) := by
  have hn' : (sorted strLe blobs).Nodup := (sorted_perm strLe blobs).nodup_iff.2 hn
  have he' : [] ∉ sorted strLe blobs := by rw [mem_sorted]; exact he
  obtain ⟨h1, l', h2⟩ := rounds_trace content hn' he' (sorted strLe blobs) [] ((sorted strLe blobs).length + 1)
    ⟨sorted strLe blobs, [], [], -1⟩ none (-1) rfl rfl (Nat.lt_succ_self _)
  have hrun : readAll hash content blobs none = rounds content ((sorted strLe blobs).length + 1) ⟨sorted strLe blobs, [], [], -1⟩ none := rfl
  obtain ⟨k, rfl⟩ : ∃ m, k = m + 1 := ⟨k - 1, by omega⟩
  simp only [session, Nat.succ_ne_zero, if_false, Nat.add_sub_cancel, hrun, h1, h2]
  by_cases hle : k + 1 ≤ ((sorted strLe blobs).flatMap content).length
  · obtain ⟨r, b, l, g1, g2⟩ := trace_get content (sorted strLe blobs) (sorted strLe blobs) [] k hle
    rw [g1]
    refine ⟨⟨sorted strLe blobs, (sorted strLe blobs).take (passed content (sorted strLe blobs) (k + 1)), b, l⟩, ?_, rfl, rfl,
      Or.inr (mem_sorted.1 g2)⟩
    simp only [List.nil_append]
    simp only [List.map_take, trace_map, inOrder]
  · have hlen : (trace content (sorted strLe blobs) [] (sorted strLe blobs)).length ≤ k := by
      rw [← List.length_map (f := (·.1)), trace_map]; omega
    rw [List.getElem?_eq_none hlen]
    refine ⟨⟨sorted strLe blobs, sorted strLe blobs, [], l'⟩, ?_, rfl, ?_, Or.inl rfl⟩
    · simp only [trace_map, inOrder]
      rw [List.take_of_length_le (by omega)]
    · rw [passed_all _ _ _ (by omega), List.take_length]

theorem filter_zip_take (r : Nat) : ∀ (l : List Str) (bits : List Bool), l.length ≤ bits.length → (∀ i < bits.length, bits.getD i false = decide (i < r)) →
    ((l.zip bits).filter (·.2)).map (·.1) = l.take r := by
  induction r with
  | zero =>
    intro l bits _ h
    rw [List.take_zero, List.map_eq_nil_iff, List.filter_eq_nil_iff]
    intro x hx
    obtain ⟨i, hi, hx⟩ := List.getElem_of_mem (List.of_mem_zip hx).2
    have := h i hi
    rw [List.getD_eq_getElem?_getD, List.getElem?_eq_getElem hi, hx] at this
    simpa using this
  | succ r ih =>
    intro l bits hl h
    cases l with
    | nil => rfl
    | cons a l =>
      cases bits with
      | nil => simp at hl
      | cons b bits =>
        have hb : b = true := by simpa using h 0 (by simp)
        subst hb
        simp only [List.zip_cons_cons, List.filter_cons_of_pos, List.map_cons, List.take_succ_cons]
        rw [ih l bits (by simpa using hl)]
        intro i hi
        have := h (i + 1) (by simpa using hi)
        simpa using this

/-! ## C117 -/

/-- **C117 (what is delivered).**  A caller has taken `k` records (at least one) of a dataset and saved the cursor; before it goes on,
the blobs are replaced by others, as when a newer run has been finished.  Then the reader goes on with the new blobs, in order, but
leaves out as many of the first as it had left behind of the old ones; except if there are more than the old ones, counted up to
the next multiple of eight: then it raises IndexError.

The names are distinct, not empty, and no new one has the hash of an old one or of the empty text. -/
theorem C117_what_is_delivered (hash : Str → Nat) (content : Str → List ρ) (old new : List Str) (hold : old.Nodup) (heold : [] ∉ old)
    (hnew : new.Nodup) (henew : [] ∉ new) (hi : ∀ b ∈ new, hash b ≠ hash [] ∧ ∀ a ∈ old, hash b ≠ hash a) (k : Nat) (hk : 0 < k) :
    ∃ doc, session hash content old none k = .ok ((inOrder content old).take k, some doc) ∧
      let run := readAll hash content new (some doc)
      if new.length ≤ 8 * ((old.length + 7) / 8) then
        run.yields.map (·.1) = ((sorted strLe new).drop (passed content (sorted strLe old) k)).flatMap content ∧ ∃ c, run.finish = .ok c
      else run.yields = [] ∧ run.finish = .error .indexError := by
  obtain ⟨c, h1, h2, h3, h4⟩ := session_saved hash content old hold heold k hk
  refine ⟨_, h1, ?_⟩
  have hn' : (sorted strLe old).Nodup := (sorted_perm strLe old).nodup_iff.2 hold
  have hn2 : (sorted strLe new).Nodup := (sorted_perm strLe new).nodup_iff.2 hnew
  have hl1 : (sorted strLe old).length = old.length := (sorted_perm strLe old).length_eq
  have hl2 : (sorted strLe new).length = new.length := (sorted_perm strLe new).length_eq
  generalize hr : passed content (sorted strLe old) k = r at h3
  have hrle : r ≤ (sorted strLe old).length := hr ▸ passed_le _ _ _
  -- the map
  have hbits : c.readable.map (fun b => c.read.contains b)
      = List.replicate r true ++ List.replicate ((sorted strLe old).length - r) false := by
    rw [h2, h3]
    conv => lhs; arg 2; rw [← List.take_append_drop r (sorted strLe old)]
    rw [List.map_append]
    have hd := List.nodup_append.1 (by rw [List.take_append_drop r (sorted strLe old)]; exact hn' : (List.take r (sorted strLe old) ++ List.drop r (sorted strLe old)).Nodup)
    congr 1
    · rw [List.map_congr_left (g := fun _ => true) (fun x hx => List.contains_iff_mem.2 hx), List.map_const', List.length_take,
        Nat.min_eq_left hrle]
    · rw [List.map_congr_left (g := fun _ => false), List.map_const', List.length_drop]
      intro x hx
      rw [← Bool.not_eq_true, List.contains_iff_mem]
      exact fun h => hd.2.2 x h x hx rfl
  have hfull : fromBytes (toBytes (c.readable.map (fun b => c.read.contains b)))
      = List.replicate r true ++ List.replicate (8 * ((old.length + 7) / 8) - r) false := by
    rw [hbits]
    have hpad := toBytes_pad (List.replicate r true ++ List.replicate ((sorted strLe old).length - r) false)
      (8 * ((old.length + 7) / 8) - old.length) (by
        simp only [List.length_append, List.length_replicate]; omega)
    have hall := take_fromBytes_toBytes ((List.replicate r true ++ List.replicate ((sorted strLe old).length - r) false) ++
      List.replicate (8 * ((old.length + 7) / 8) - old.length) false)
    rw [hpad, List.take_of_length_le] at hall
    · rw [hall, List.append_assoc, List.replicate_append_replicate]
      congr 2; omega
    · rw [fromBytes_length, toBytes_length]
      simp only [List.length_append, List.length_replicate]; omega
  have hfound : (sorted strLe new).filter (fun b => hash b == hash c.partition) = [] := by
    rw [List.filter_eq_nil_iff]
    intro b hb
    rw [beq_iff_eq]
    rcases h4 with h | h
    · rw [h]; exact (hi b (mem_sorted.1 hb)).1
    · exact (hi b (mem_sorted.1 hb)).2 _ h
  have hload : init hash new (some (save hash c)) = if new.length ≤ 8 * ((old.length + 7) / 8) then
      .ok ⟨sorted strLe new, (sorted strLe new).take r, [], c.location⟩ else .error .indexError := by
    simp only [init, load, save, hfound, fromHex_toHex _ (toBytes_lt _), hfull]
    simp only [List.length_append, List.length_replicate, hl2, List.length_nil, Nat.zero_ne_one, if_false]
    by_cases hle : new.length ≤ 8 * ((old.length + 7) / 8)
    · rw [if_pos hle, if_neg (by omega), filter_zip_take r]
      · simp only [List.length_append, List.length_replicate]; omega
      · intro i hi
        rw [List.getD_eq_getElem?_getD]
        by_cases hir : i < r
        · rw [List.getElem?_append_left (by simpa using hir), List.getElem?_replicate, if_pos hir]; simp [hir]
        · rw [List.getElem?_append_right (by simp; omega), List.getElem?_replicate]
          simp only [hir, decide_false]
          split <;> rfl
    · rw [if_neg hle, if_pos (by omega)]
  simp only
  rw [readAll, hload]
  by_cases hle : new.length ≤ 8 * ((old.length + 7) / 8)
  · rw [if_pos hle, if_pos hle]
    obtain ⟨g1, l', g2⟩ := rounds_trace content hn2 (by rw [mem_sorted]; exact henew) ((sorted strLe new).drop r) ((sorted strLe new).take r)
      ((sorted strLe new).length + 1) ⟨sorted strLe new, (sorted strLe new).take r, [], c.location⟩ none c.location
      (List.take_append_drop _ _).symm rfl (by rw [List.length_drop]; omega)
    exact ⟨by simp only [g1, trace_map], _, g2⟩
  · rw [if_neg hle, if_neg hle]
    exact ⟨rfl, rfl⟩

/-- Non-vacuity: three old blobs and four new ones; after three records one blob has been left behind. -/
example :
    let content : Str → List Nat := fun b => if b = "1a".toList then [1, 2] else if b = "1b".toList then [3, 4] else
      if b = "1c".toList then [5] else if b = "2a".toList then [6, 7] else if b = "2b".toList then [8] else [9]
    let hash : Str → Nat := fun b => 100 * (b.headD 'x').toNat + (b.getD 1 'x').toNat
    let old := ["1b".toList, "1a".toList, "1c".toList]
    let new := ["2a".toList, "2b".toList, "2c".toList, "2d".toList]
    (old.Nodup ∧ [] ∉ old ∧ new.Nodup ∧ [] ∉ new ∧ ∀ b ∈ new, hash b ≠ hash [] ∧ ∀ a ∈ old, hash b ≠ hash a) ∧
    passed content (sorted strLe old) 3 = 1 ∧
    (follow hash content [(old, 3), (new, 9)] none).toOption.map (·.1) = some [[1, 2, 3], [8, 9, 9]] := by
  decide

/-- **C117 (partial: in the first blob).**  A caller that was in the first of the old blobs is given all records of the new ones, if
there are not too many of them.

Missing for the full property: everyone else, who is given a part of the new records without an error (`C117_replaced_fails`). -/
theorem C117_first_blob_partial (hash : Str → Nat) (content : Str → List ρ) (old new : List Str) (hold : old.Nodup) (heold : [] ∉ old)
    (hnew : new.Nodup) (henew : [] ∉ new) (hi : ∀ b ∈ new, hash b ≠ hash [] ∧ ∀ a ∈ old, hash b ≠ hash a)
    (hle : new.length ≤ 8 * ((old.length + 7) / 8)) (first : Str) (rest : List Str) (hf : sorted strLe old = first :: rest)
    (k : Nat) (hk : 0 < k) (hin : k ≤ (content first).length) :
    ∃ doc c, session hash content old none k = .ok ((inOrder content old).take k, some doc) ∧
      (readAll hash content new (some doc)).yields.map (·.1) = inOrder content new ∧
      (readAll hash content new (some doc)).finish = .ok c := by
  obtain ⟨doc, h1, h2⟩ := C117_what_is_delivered hash content old new hold heold hnew henew hi k hk
  simp only [if_pos hle] at h2
  obtain ⟨h2, c, h3⟩ := h2
  refine ⟨doc, c, h1, ?_, h3⟩
  rw [h2, hf, passed, if_pos hin]
  rfl

/-- **C117 (all read).**  A caller that had read the old blobs to their end, and is given no more of the new ones than there were of the
old, is given nothing of the new, as if there were nothing new. -/
theorem C117_all_read_fails (hash : Str → Nat) (content : Str → List ρ) (old new : List Str) (hold : old.Nodup) (heold : [] ∉ old)
    (hnew : new.Nodup) (henew : [] ∉ new) (hi : ∀ b ∈ new, hash b ≠ hash [] ∧ ∀ a ∈ old, hash b ≠ hash a)
    (hle : new.length ≤ old.length) (k : Nat) (hk : (inOrder content old).length < k) :
    ∃ doc c, session hash content old none k = .ok (inOrder content old, some doc) ∧
      (readAll hash content new (some doc)).yields = [] ∧ (readAll hash content new (some doc)).finish = .ok c := by
  obtain ⟨doc, h1, h2⟩ := C117_what_is_delivered hash content old new hold heold hnew henew hi k (by omega)
  simp only [if_pos (show new.length ≤ 8 * ((old.length + 7) / 8) by omega)] at h2
  obtain ⟨h2, c, h3⟩ := h2
  refine ⟨doc, c, by rw [h1, List.take_of_length_le (by omega)], ?_, h3⟩
  rw [passed_all _ _ _ hk, List.drop_of_length_le, List.flatMap_nil, List.map_eq_nil_iff] at h2
  · exact h2
  · rw [(sorted_perm strLe new).length_eq, (sorted_perm strLe old).length_eq]
    exact hle

end Mabel.Cursor
