import Verif.Props.Cursor
import Verif.Spec.Follow

/-!
# Reading a dataset, in sittings, while it grows: C92
-/

namespace Mabel.Cursor
open Mabel.Py
variable {ρ : Type}

theorem getD_pad (l : List Bool) (m n : Nat) : (l ++ List.replicate m false).getD n false = l.getD n false := by
  rw [List.getD_eq_getElem?_getD, List.getD_eq_getElem?_getD]
  by_cases h : n < l.length
  · rw [List.getElem?_append_left h]
  · rw [List.getElem?_append_right (by omega), List.getElem?_eq_none (l := l) (by omega), List.getElem?_replicate]
    split <;> rfl

theorem packByte_congr {a b : List Bool} (h : ∀ n < 8, a.getD n false = b.getD n false) : packByte a = packByte b := by
  simp only [packByte, List.foldl_cons, List.foldl_nil]
  rw [h 0 (by decide), h 1 (by decide), h 2 (by decide), h 3 (by decide), h 4 (by decide), h 5 (by decide), h 6 (by decide),
    h 7 (by decide)]

/-- Bits that are not set do not show, up to the next multiple of eight. -/
theorem toBytes_pad (l : List Bool) (m : Nat) (h : l.length + m ≤ 8 * ((l.length + 7) / 8)) :
    toBytes (l ++ List.replicate m false) = toBytes l := by
  unfold toBytes
  have e : ((l ++ List.replicate m false).length + 7) / 8 = (l.length + 7) / 8 := by
    rw [List.length_append, List.length_replicate]
    omega
  rw [e]
  apply List.map_congr_left
  intro i _
  apply packByte_congr
  intro n hn
  have key : ∀ x : List Bool, ((x.drop (8 * i)).take 8).getD n false = x.getD (8 * i + n) false := by
    intro x
    rw [List.getD_eq_getElem?_getD, List.getD_eq_getElem?_getD, List.getElem?_take_of_lt hn, List.getElem?_drop]
  rw [key, key, getD_pad]

/-- A saved cursor goes on over more blobs. -/
theorem resumes_grows {hash : Str → Nat} {content : Str → List ρ} {a b : List Str} (hab : Grows a b) (hn : b.Nodup)
    {doc : Option Doc} {rest : List ρ} (h : Resumes hash content a doc rest) :
    ∃ new, sorted strLe b = sorted strLe a ++ new ∧ Resumes hash content b doc (rest ++ new.flatMap content) := by
  obtain ⟨⟨new, hnew⟩, hlen⟩ := hab
  refine ⟨new, hnew.symm, ?_⟩
  have hn' : (sorted strLe b).Nodup := (sorted_perm strLe b).nodup_iff.2 hn
  rcases h with ⟨rfl, rfl⟩ | ⟨c, rfl, hR, hg, hp⟩
  · exact Or.inl ⟨rfl, by rw [← hnew, List.flatMap_append]⟩
  · right
    rw [← hnew] at hn'
    have hdis := List.nodup_append.1 hn'
    let c' : Cursor := { c with readable := sorted strLe b, read := c.read.filter (fun x => (sorted strLe a).contains x) }
    have hold : ∀ x ∈ sorted strLe a, (c.read.filter (fun x => (sorted strLe a).contains x)).contains x = c.read.contains x := by
      intro x hx
      rw [Bool.eq_iff_iff, List.contains_iff_mem, List.contains_iff_mem, List.mem_filter, List.contains_iff_mem]
      exact ⟨fun h => h.1, fun h => ⟨h, hx⟩⟩
    have hfresh : ∀ x ∈ new, (c.read.filter (fun x => (sorted strLe a).contains x)).contains x = false := by
      intro x hx
      rw [← Bool.not_eq_true, List.contains_iff_mem, List.mem_filter, List.contains_iff_mem]
      rintro ⟨-, h⟩
      exact hdis.2.2 x h x hx rfl
    have hun : unread c' = unread c ++ new := by
      show (sorted strLe b).filter (fun x => !(c.read.filter (fun x => (sorted strLe a).contains x)).contains x) = _
      rw [← hnew, List.filter_append]
      congr 1
      · show _ = c.readable.filter _
        rw [hR]
        exact List.filter_congr fun x hx => by rw [hold x hx]
      · exact List.filter_eq_self.2 fun x hx => by rw [hfresh x hx]; rfl
    have hskip : skip c ≤ ((unread c).flatMap content).length := by
      rcases hg with h | ⟨h1, h2, r, hu, hs⟩
      · rw [skip, h]; exact Nat.zero_le _
      · rw [hu, List.flatMap_cons, List.length_append]; omega
    refine ⟨c', ?_, rfl, ?_, ?_⟩
    · unfold save
      congr 2
      congr 1
      show toHex _ = toHex (toBytes ((sorted strLe b).map fun x =>
        (c.read.filter (fun x => (sorted strLe a).contains x)).contains x))
      rw [← hnew, List.map_append, List.map_congr_left (g := fun _ => false) hfresh, List.map_const',
        List.map_congr_left hold, hR, toBytes_pad]
      rw [List.length_map]
      have h1 := congrArg List.length hnew
      rw [List.length_append, (sorted_perm strLe b).length_eq] at h1
      rw [h1, (sorted_perm strLe a).length_eq]
      exact hlen
    · rcases hg with h | ⟨h1, h2, r, hu, hs⟩
      · exact Or.inl h
      · exact Or.inr ⟨h1, h2, r ++ new, by rw [hun, hu]; rfl, hs⟩
    · rw [← hp]
      show ((unread c').flatMap content).drop (skip c) = ((unread c).flatMap content).drop (skip c) ++ _
      rw [hun, List.flatMap_append, List.drop_append_of_le_length hskip]

theorem grows_refl (a : List Str) : Grows a a := ⟨List.prefix_rfl, by omega⟩

theorem grows_nodup {a b : List Str} (h : Grows a b) (hn : b.Nodup) : a.Nodup := by
  rw [← (sorted_perm strLe a).nodup_iff]
  exact ((sorted_perm strLe b).nodup_iff.2 hn).sublist h.1.sublist

theorem grows_mem {a b : List Str} (h : Grows a b) {x : Str} (hx : x ∈ a) : x ∈ b :=
  mem_sorted.1 (h.1.subset (mem_sorted.2 hx))

theorem grows_inOrder {a b : List Str} (h : Grows a b) (content : Str → List ρ) : inOrder content a <+: inOrder content b := by
  obtain ⟨new, hnew⟩ := h.1
  unfold inOrder
  rw [← hnew, List.flatMap_append]
  exact List.prefix_append _ _

theorem grows_trans {a b c : List Str} (h : Grows a b) (k : Grows b c) : Grows a c := by
  refine ⟨h.1.trans k.1, ?_⟩
  have h1 := h.2
  have h2 := k.2
  omega

/-- **C92 (following).**  The blobs are listed anew at each sitting; new ones come after the old ones, as those of a
folder to which one process streams do, and their number does not go beyond the next multiple of eight.  Then each
sitting goes on where the one before left off, and a last sitting read to its end delivers what is left: nothing
is skipped or repeated.  The names are distinct, not empty, and no two have the same hash. -/
theorem C92_following_partial (hash : Str → Nat) (content : Str → List ρ) (sits : List (List Str × Nat)) (last : List Str)
    (hgrow : (sits.map (·.1) ++ [last]).Pairwise Grows) (hn : last.Nodup) (he : [] ∉ last)
    (hi : ∀ a ∈ last, ∀ b ∈ last, hash a = hash b → a = b) :
    ∃ got doc c, follow hash content sits none = .ok (got, doc) ∧
      got = handOut 0 (sits.map fun s => (inOrder content s.1, s.2)) ∧
      got.flatten ++ (readAll hash content last doc).yields.map (·.1) = inOrder content last ∧
      (readAll hash content last doc).finish = .ok c := by
  have gen : ∀ (sits : List (List Str × Nat)), (sits.map (·.1) ++ [last]).Pairwise Grows →
      ∀ (blobs : List Str) (doc : Option Doc) (p : Nat), (∀ s ∈ sits, Grows blobs s.1) → Grows blobs last →
        p ≤ (inOrder content blobs).length → Resumes hash content blobs doc ((inOrder content blobs).drop p) →
      ∃ got doc' c, follow hash content sits doc = .ok (got, doc') ∧
        got = handOut p (sits.map fun s => (inOrder content s.1, s.2)) ∧
        (inOrder content last).take p ++ got.flatten ++ (readAll hash content last doc').yields.map (·.1)
          = inOrder content last ∧
        (readAll hash content last doc').finish = .ok c := by
    intro sits
    induction sits with
    | nil =>
      intro _ blobs doc p _ hl hp hres
      obtain ⟨new, hnew, hres⟩ := resumes_grows hl hn hres
      obtain ⟨r1, -, f, r3, -⟩ := resumes_run hash content last hn he hi doc _ hres
      refine ⟨[], doc, f, rfl, rfl, ?_, r3⟩
      rw [r1]
      have : inOrder content last = inOrder content blobs ++ new.flatMap content := by
        unfold inOrder; rw [hnew, List.flatMap_append]
      rw [this, List.take_append_of_le_length hp, List.flatten_nil, List.append_nil, ← List.append_assoc, List.take_append_drop]
    | cons s sits ih =>
      obtain ⟨now, k⟩ := s
      intro hg blobs doc p hall hl hp hres
      rw [List.map_cons, List.cons_append, List.pairwise_cons] at hg
      have hnl : Grows now last := hg.1 last (by simp)
      have hbn : Grows blobs now := hall (now, k) (by simp)
      obtain ⟨new, hnew, hres⟩ := resumes_grows hbn (grows_nodup hnl hn) hres
      have hin : inOrder content now = inOrder content blobs ++ new.flatMap content := by
        unfold inOrder; rw [hnew, List.flatMap_append]
      rw [show (inOrder content blobs).drop p ++ new.flatMap content = (inOrder content now).drop p by
        rw [hin, List.drop_append_of_le_length hp]] at hres
      have hp' : p ≤ (inOrder content now).length := by rw [hin, List.length_append]; omega
      obtain ⟨doc1, h1, h2⟩ := resumes_session hash content now (grows_nodup hnl hn) (fun h => he (grows_mem hnl h))
        (fun a ha b hb => hi a (grows_mem hnl ha) b (grows_mem hnl hb)) doc _ hres k
      rw [List.drop_drop] at h2
      have h2' : Resumes hash content now doc1 ((inOrder content now).drop (min (p + k) (inOrder content now).length)) := by
        by_cases hc : p + k ≤ (inOrder content now).length
        · rw [Nat.min_eq_left hc]; exact h2
        · rw [Nat.min_eq_right (by omega), List.drop_length]
          rw [List.drop_of_length_le (by omega)] at h2
          exact h2
      obtain ⟨got, doc2, c, g1, g2, g3, g4⟩ := ih hg.2 now doc1 _
        (fun s hs => hg.1 s.1 (List.mem_append_left _ (List.mem_map_of_mem hs))) hnl (Nat.min_le_right _ _) h2'
      refine ⟨((inOrder content now).drop p).take k :: got, doc2, c, ?_, ?_, ?_, g4⟩
      · rw [follow, h1]
        show (follow hash content sits doc1).map _ = _
        rw [g1]; rfl
      · rw [List.map_cons, handOut, g2]
      · rw [List.flatten_cons, ← List.append_assoc]
        refine Eq.trans ?_ g3
        congr 2
        obtain ⟨more, hmore⟩ := grows_inOrder hnl content
        rw [← hmore, List.take_append_of_le_length hp', List.take_append_of_le_length (Nat.min_le_right _ _)]
        rw [← List.take_add]
        by_cases hc : p + k ≤ (inOrder content now).length
        · rw [Nat.min_eq_left hc]
        · rw [Nat.min_eq_right (by omega), List.take_length, List.take_of_length_le (by omega)]
  have h0 : Grows [] [] := grows_refl []
  cases sits with
  | nil =>
    obtain ⟨r1, -, f, r3, -⟩ := resumes_run hash content last hn he hi none _ (Or.inl ⟨rfl, rfl⟩)
    exact ⟨[], none, f, rfl, rfl, by rw [r1]; rfl, r3⟩
  | cons s sits =>
    rw [List.map_cons, List.cons_append] at hgrow
    have hg := List.pairwise_cons.1 hgrow
    obtain ⟨got, doc, c, g1, g2, g3, g4⟩ := gen (s :: sits) hgrow s.1 none 0
      (by
        intro t ht
        rcases List.mem_cons.1 ht with rfl | ht
        · exact grows_refl _
        · exact hg.1 t.1 (List.mem_append_left _ (List.mem_map_of_mem ht)))
      (hg.1 last (by simp)) (Nat.zero_le _) (Or.inl ⟨rfl, rfl⟩)
    exact ⟨got, doc, c, g1, g2, by simpa using g3, g4⟩

/-- Non-vacuity: one blob, then three, then four; sittings of 1 and 9 and 2. -/
example :
    let content : Str → List Nat := fun b => if b = "1a".toList then [1, 2] else if b = "1b".toList then [3] else [4, 5]
    let hash : Str → Nat := fun b => (b.getD 1 'x').toNat
    let sits := [(["1a".toList], 1), (["1b".toList, "1a".toList, "1c".toList], 9), (["1a".toList, "1b".toList, "1c".toList], 2)]
    let last := ["1c".toList, "1d".toList, "1a".toList, "1b".toList]
    (follow hash content sits none).toOption.map (·.1) = some [[1], [2, 3, 4, 5], []] ∧
    last.Nodup ∧ [] ∉ last ∧ (∀ a ∈ last, ∀ b ∈ last, hash a = hash b → a = b) ∧
    (sits.map (·.1) ++ [last]).Pairwise Grows := by
  unfold Grows
  decide

/-! ## Where it fails -/

/-- **A blob that comes before those read**: all of `b` has been read when `a` is stored, as a process does that has a
writer open for an earlier day.  On going on, `b` is read again and `a` never. -/
theorem C92_earlier_blob_fails :
    let content : Str → List Nat := fun b => if b = "a".toList then [1, 2] else [3, 4]
    let hash : Str → Nat := fun b => (b.headD 'x').toNat
    (follow hash content [(["b".toList], 9), (["a".toList, "b".toList], 9), (["a".toList, "b".toList], 9)] none).toOption.map
      (·.1) = some [[3, 4], [3, 4], []] := by decide

/-- **A ninth blob**: a cursor saved when there were eight blobs is refused when there are nine. -/
theorem C92_ninth_blob_fails :
    let content : Str → List Nat := fun _ => [1]
    let hash : Str → Nat := fun b => (b.headD 'x').toNat
    let eight := ["a", "b", "c", "d", "e", "f", "g", "h"].map String.toList
    (follow hash content [(eight, 9)] none).toOption.map (·.1) = some [[1, 1, 1, 1, 1, 1, 1, 1]] ∧
    (∃ e, follow hash content [(eight, 9), (eight ++ ["i".toList], 9)] none = .error e) := by
  refine ⟨by decide, .indexError, ?_⟩
  rfl

end Mabel.Cursor
