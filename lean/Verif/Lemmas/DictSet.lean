import Verif.Model.DictSet
import Verif.Lemmas.StrOrder
import Mathlib.Data.List.Nodup

/-! Facts about the DictSet model. -/

namespace Mabel
open Mabel.Py

namespace Record

theorem lookup_append_of_not_mem {r : Record} {k : Str} (h : k ∉ r.keys) (rest : Record) :
    lookup (r ++ rest) k = lookup rest k := by
  unfold lookup
  rw [List.find?_append]
  have : r.find? (fun kv => kv.1 == k) = none := by
    rw [List.find?_eq_none]
    intro kv hkv hc
    simp only [beq_iff_eq] at hc
    exact h (List.mem_map.2 ⟨kv, hkv, hc⟩)
  simp [this]

theorem lookup_isSome {r : Record} {k : Str} : (r.lookup k).isSome ↔ k ∈ r.keys := by
  unfold lookup keys
  rw [Option.isSome_map, List.find?_isSome, List.mem_map]
  simp

theorem set_of_not_mem {r : Record} {k : Str} (h : k ∉ r.keys) (v : Value) : r.set k v = r ++ [(k, v)] := by
  unfold set
  rw [if_neg]
  simp only [List.any_eq_true, beq_iff_eq, not_exists, not_and]
  intro kv hkv hc
  exact h (List.mem_map.2 ⟨kv, hkv, hc⟩)

theorem set_keys_of_mem {r : Record} {k : Str} (h : k ∈ r.keys) (v : Value) : (r.set k v).keys = r.keys := by
  unfold set
  rw [if_pos]
  · unfold keys
    rw [List.map_map]
    apply List.map_congr_left
    intro kv _
    simp only [Function.comp_apply]
    split
    · rename_i hc; simp only [beq_iff_eq] at hc; exact hc.symm
    · rfl
  · obtain ⟨kv, h1, h2⟩ := List.mem_map.1 h
    simp only [List.any_eq_true, beq_iff_eq]
    exact ⟨kv, h1, h2⟩

theorem lookup_cons (kv : Str × Value) (r : Record) (k : Str) :
    lookup (kv :: r) k = if kv.1 = k then some kv.2 else r.lookup k := by
  unfold lookup
  rw [List.find?_cons]
  by_cases h : kv.1 = k
  · simp [h]
  · have : (kv.1 == k) = false := by simpa using h
    simp [this, h]

theorem lookup_set (r : Record) (k k' : Str) (v : Value) :
    (r.set k v).lookup k' = if k' = k then some v else r.lookup k' := by
  by_cases h : k ∈ r.keys
  · have hany : r.any (fun kv => kv.1 == k) = true := by
      obtain ⟨kv, h1, h2⟩ := List.mem_map.1 h
      simp only [List.any_eq_true, beq_iff_eq]; exact ⟨kv, h1, h2⟩
    unfold set
    rw [if_pos hany]
    clear hany
    induction r with
    | nil => simp [keys] at h
    | cons kv r ih =>
      rw [List.map_cons, lookup_cons, lookup_cons]
      by_cases hk : kv.1 = k
      · by_cases hk' : k' = k
        · simp [hk, hk']
        · have : ¬ k = k' := fun hc => hk' hc.symm
          simp only [hk, BEq.rfl, if_true, this, if_false, hk']
          by_cases hm : k ∈ Record.keys r
          · rw [ih hm, if_neg hk']
          · have : r.map (fun kv => if (kv.1 == k) = true then (k, v) else kv) = r := by
              conv => rhs; rw [← List.map_id r]
              apply List.map_congr_left
              intro a ha
              have : ¬ a.1 = k := fun hc => hm (List.mem_map.2 ⟨a, ha, hc⟩)
              simp [this]
            rw [this]
      · have hb : (kv.1 == k) = false := by simpa using hk
        have hm : k ∈ Record.keys r := by
          simp only [keys, List.map_cons, List.mem_cons] at h
          rcases h with h | h
          · exact absurd h.symm hk
          · exact h
        simp only [hb, Bool.false_eq_true, if_false]
        rw [ih hm]
        by_cases hk' : k' = k
        · subst hk'; simp [hk]
        · simp [hk']
  · rw [set_of_not_mem h]
    by_cases hk' : k' = k
    · subst hk'
      rw [lookup_append_of_not_mem h]; simp [lookup]
    · rw [if_neg hk']
      unfold lookup
      rw [List.find?_append]
      have : ([(k, v)] : Record).find? (fun kv => kv.1 == k') = none := by
        have : ¬ k = k' := fun hc => hk' hc.symm
        simp [this]
      rw [this]; simp

end Record

namespace DictSet

variable {α : Type}

/-! ### take -/

theorem itakeFrom_eq (items : Int) : ∀ (l : List α) (count : Nat),
    itakeFrom items count l = if (count : Int) < items then l.take (items - count).toNat else l := by
  intro l
  induction l with
  | nil => intro c; simp [itakeFrom]
  | cons x xs ih =>
    intro c
    unfold itakeFrom
    by_cases h1 : (c : Int) + 1 = items
    · rw [if_pos h1, if_pos (by omega)]
      have : (items - c).toNat = 1 := by omega
      simp [this]
    · rw [if_neg h1, ih]
      by_cases h2 : (c : Int) < items
      · rw [if_pos h2, if_pos (by omega)]
        have : (items - c).toNat = (items - ((c + 1 : Nat) : Int)).toNat + 1 := by omega
        rw [this, List.take_succ_cons]
      · rw [if_neg h2, if_neg (by omega)]

/-! ### filter -/

theorem filterBy_eq (f : α → Bool) (l : List α) : filterBy f l = l.filter f := by
  induction l with
  | nil => rfl
  | cons x xs ih => unfold filterBy; rw [List.filter_cons, ih]

/-! ### distinct -/

section dedupe
variable {κ : Type} [BEq κ] [LawfulBEq κ] (fp : α → κ)

omit [LawfulBEq κ] in
theorem dedupeFrom_sublist : ∀ (l : List α) (seen : List κ), (dedupeFrom fp seen l).Sublist l := by
  intro l
  induction l with
  | nil => intro s; simp [dedupeFrom]
  | cons x xs ih =>
    intro s
    unfold dedupeFrom
    split
    · exact (ih s).cons _
    · exact (ih _).cons_cons _

theorem dedupeFrom_not_seen : ∀ (l : List α) (seen : List κ), ∀ x ∈ dedupeFrom fp seen l, fp x ∉ seen := by
  intro l
  induction l with
  | nil => intro s; simp [dedupeFrom]
  | cons x xs ih =>
    intro s y hy
    unfold dedupeFrom at hy
    split at hy
    · exact ih s y hy
    · rename_i h
      rcases List.mem_cons.1 hy with rfl | hy
      · simpa using h
      · exact fun hc => ih _ y hy (List.mem_cons_of_mem _ hc)

theorem dedupeFrom_nodup : ∀ (l : List α) (seen : List κ), ((dedupeFrom fp seen l).map fp).Nodup := by
  intro l
  induction l with
  | nil => intro s; simp [dedupeFrom]
  | cons x xs ih =>
    intro s
    unfold dedupeFrom
    split
    · exact ih s
    · rw [List.map_cons, List.nodup_cons]
      refine ⟨?_, ih _⟩
      intro hc
      obtain ⟨y, hy, he⟩ := List.mem_map.1 hc
      exact dedupeFrom_not_seen fp xs _ y hy (by rw [he]; exact List.mem_cons_self)

theorem dedupeFrom_first : ∀ (l : List α) (seen : List κ) (a b : List α) (x : α), l = a ++ x :: b →
    fp x ∉ seen → (∀ y ∈ a, fp y ≠ fp x) → x ∈ dedupeFrom fp seen l := by
  intro l
  induction l with
  | nil => intro s a b x h; simp at h
  | cons z zs ih =>
    intro s a b x h hs ha
    unfold dedupeFrom
    cases a with
    | nil =>
      simp only [List.nil_append, List.cons.injEq] at h
      obtain ⟨rfl, rfl⟩ := h
      have : s.contains (fp z) = false := by simpa using hs
      rw [this]; simp
    | cons w ws =>
      simp only [List.cons_append, List.cons.injEq] at h
      obtain ⟨rfl, rfl⟩ := h
      have hz := ha z List.mem_cons_self
      split
      · exact ih s ws b x rfl hs (fun y hy => ha y (List.mem_cons_of_mem _ hy))
      · refine List.mem_cons_of_mem _ (ih _ ws b x rfl ?_ (fun y hy => ha y (List.mem_cons_of_mem _ hy)))
        simp only [List.mem_cons, not_or]
        exact ⟨fun hc => hz hc.symm, hs⟩

theorem dedupeFrom_of_nodup : ∀ (l : List α) (seen : List κ), (l.map fp).Nodup →
    (∀ x ∈ l, fp x ∉ seen) → dedupeFrom fp seen l = l := by
  intro l
  induction l with
  | nil => intro s _ _; rfl
  | cons x xs ih =>
    intro s hn hs
    rw [List.map_cons, List.nodup_cons] at hn
    unfold dedupeFrom
    have : s.contains (fp x) = false := by simpa using hs x List.mem_cons_self
    rw [this]
    simp only [Bool.false_eq_true, if_false]
    rw [ih _ hn.2]
    intro y hy hc
    rcases List.mem_cons.1 hc with hc | hc
    · exact hn.1 (List.mem_map.2 ⟨y, hy, hc⟩)
    · exact hs y (List.mem_cons_of_mem _ hy) hc

end dedupe

/-! ### sort and take -/

theorem keyLe_preorder {κ : Type} {le : κ → κ → Bool} (h : TotalPreorder le) (key : α → Option κ) :
    TotalPreorder (keyLe le key) where
  total a b := by
    unfold keyLe
    cases key a <;> cases key b <;> simp
    exact h.total _ _
  trans a b c h1 h2 := by
    unfold keyLe at *
    cases ha : key a <;> cases hb : key b <;> cases hc : key c <;> simp_all
    exact h.trans _ _ _ h1 h2

theorem directed_preorder {le : α → α → Bool} (h : TotalPreorder le) (d : Bool) :
    TotalPreorder (directed le d) := by
  unfold directed
  cases d
  · exact h
  · exact h.flip

theorem cacheStep_inv {le : α → α → Bool} (h : TotalPreorder le) (n : Nat) (l : List α) :
    ∀ (cache before : List α), (sorted le cache).take n = (sorted le before).take n →
      (∀ rest, (sorted le (cache ++ rest)).take n = (sorted le (before ++ rest)).take n) →
      ∀ rest, (sorted le (l.foldl (cacheStep le n) cache ++ rest)).take n = (sorted le (before ++ l ++ rest)).take n := by
  induction l with
  | nil => intro c b _ h2 rest; simpa using h2 rest
  | cons x xs ih =>
    intro c b h1 h2 rest
    rw [List.foldl_cons]
    have key : ∀ rest, (sorted le (cacheStep le n c x ++ rest)).take n = (sorted le (b ++ [x] ++ rest)).take n := by
      intro rest
      unfold cacheStep
      simp only []
      split
      · rw [take_sorted_take h, List.append_assoc, h2, List.append_assoc]
      · rw [List.append_assoc, h2, List.append_assoc]
    have := ih (cacheStep le n c x) (b ++ [x]) (by simpa using key []) key rest
    simpa using this

/-! ### keys -/

theorem keys_foldl (l : List Record) : ∀ (acc : List Str) (k : Str),
    k ∈ l.foldl (fun x y => x ++ (y.keys.filter fun a => !x.contains a)) acc ↔
      k ∈ acc ∨ ∃ r ∈ l, k ∈ r.keys := by
  induction l with
  | nil => intro acc k; simp
  | cons r rs ih =>
    intro acc k
    rw [List.foldl_cons, ih]
    simp only [List.mem_append, List.mem_filter, List.mem_cons, exists_eq_or_imp]
    by_cases hk : k ∈ acc <;> simp [hk]

theorem keys_foldl_nodup (l : List Record) (hl : ∀ r ∈ l, r.WF) : ∀ (acc : List Str), acc.Nodup →
    (l.foldl (fun x y => x ++ (y.keys.filter fun a => !x.contains a)) acc).Nodup := by
  induction l with
  | nil => intro acc h; exact h
  | cons r rs ih =>
    intro acc h
    rw [List.foldl_cons]
    apply ih (fun r hr => hl r (List.mem_cons_of_mem _ hr))
    rw [List.nodup_append]
    refine ⟨h, (hl r List.mem_cons_self).sublist List.filter_sublist, ?_⟩
    intro a ha b hb hc
    subst hc
    simp only [List.mem_filter] at hb
    simp [ha] at hb

/-! ### storage -/

/-- Cut a list into pieces of 250, the last one possibly shorter. -/
theorem compressBatches_eq {β : Type} (pack : List α → β) : ∀ (l batch : List α), batch.length < BATCH_SIZE →
    ∃ chunks : List (List α), compressBatches pack batch l = chunks.map pack ∧
      chunks.flatten = batch ++ l ∧ (∀ c ∈ chunks, c ≠ []) ∧ (∀ c ∈ chunks, c.length ≤ BATCH_SIZE) ∧
      (∀ i, i + 1 < chunks.length → (chunks[i]?).map List.length = some BATCH_SIZE) := by
  intro l
  induction l with
  | nil =>
    intro batch hb
    unfold compressBatches
    cases batch with
    | nil => exact ⟨[], by simp, by simp, by simp, by simp, by simp⟩
    | cons x xs =>
      refine ⟨[x :: xs], by simp, by simp, by simp, ?_, by simp⟩
      intro c hc
      simp only [List.mem_singleton] at hc
      subst hc; omega
  | cons x xs ih =>
    intro batch hb
    unfold compressBatches
    simp only []
    split
    · rename_i hge
      obtain ⟨cs, h1, h2, h3, h4, h5⟩ := ih [] (by simp [BATCH_SIZE])
      have hlen : (batch ++ [x]).length = BATCH_SIZE := by
        simp only [List.length_append, List.length_cons, List.length_nil] at hge ⊢; omega
      refine ⟨(batch ++ [x]) :: cs, by rw [h1]; rfl, by simp [h2], ?_, ?_, ?_⟩
      · intro c hc
        rcases List.mem_cons.1 hc with rfl | hc
        · simp
        · exact h3 c hc
      · intro c hc
        rcases List.mem_cons.1 hc with rfl | hc
        · omega
        · exact h4 c hc
      · intro i hi
        cases i with
        | zero => simpa using hlen
        | succ i =>
          simp only [List.length_cons] at hi
          simpa using h5 i (by omega)
    · rename_i hlt
      obtain ⟨cs, h1, h2, h3, h4, h5⟩ := ih (batch ++ [x]) (by omega)
      exact ⟨cs, h1, by simpa using h2, h3, h4, h5⟩

theorem writeLines_eq (dump : α → Str) (B : Nat) : ∀ (l : List α) (file buffer : Str),
    writeLines dump B file buffer l = file ++ buffer ++ l.flatMap (fun x => dump x ++ ['\n']) := by
  intro l
  induction l with
  | nil =>
    intro f b
    unfold writeLines
    split
    · simp
    · rename_i h
      have : b = [] := List.eq_nil_of_length_eq_zero (by omega)
      simp [this]
  | cons x xs ih =>
    intro f b
    unfold writeLines
    simp only []
    split <;> rw [ih] <;> simp

theorem fileLines_line (s rest : Str) (h : '\n' ∉ s) :
    fileLines (s ++ '\n' :: rest) = (s ++ ['\n']) :: fileLines rest := by
  induction s with
  | nil => simp [fileLines]
  | cons c cs ih =>
    simp only [List.mem_cons, not_or] at h
    simp only [List.cons_append, fileLines]
    rw [if_neg (fun hc => h.1 hc.symm), ih h.2]

theorem fileLines_dump (dump : α → Str) (l : List α) (h : ∀ x ∈ l, '\n' ∉ dump x) :
    fileLines (l.flatMap (fun x => dump x ++ ['\n'])) = l.map (fun x => dump x ++ ['\n']) := by
  induction l with
  | nil => rfl
  | cons x xs ih =>
    rw [List.flatMap_cons, List.append_assoc, List.singleton_append,
      fileLines_line _ _ (h x List.mem_cons_self), ih (fun y hy => h y (List.mem_cons_of_mem _ hy))]
    rfl

/-! ### positions -/

theorem index_nat (l : List α) (i : Nat) (h : i < l.length) : index l (i : Int) = .ok l[i] := by
  unfold index
  have h0 : ¬ (i : Int) < 0 := by omega
  simp only [h0, if_false]
  simp [h]

theorem index_error (l : List α) (i : Nat) (h : l.length ≤ i) : index l (i : Int) = .error .indexError := by
  unfold index
  have : l[i]? = none := by simpa using h
  have h0 : ¬ (i : Int) < 0 := by omega
  simp only [h0, if_false]
  simp [this]

/-- The piece and the place in it of a position, when all pieces but the last have `B` elements. -/
theorem flatten_getElem {B : Nat} (hB : 0 < B) : ∀ (cs : List (List α)),
    (∀ i, i + 1 < cs.length → (cs[i]?).map List.length = some B) → (∀ c ∈ cs, c.length ≤ B) →
    ∀ (i : Nat) (h : i < cs.flatten.length),
      ∃ c, cs[i / B]? = some c ∧ c[i % B]? = some (cs.flatten[i]) := by
  intro cs
  induction cs with
  | nil => intro _ _ i h; simp at h
  | cons c cs ih =>
    intro hfull hle i h
    by_cases hi : i < B
    · rw [Nat.div_eq_of_lt hi, Nat.mod_eq_of_lt hi]
      refine ⟨c, rfl, ?_⟩
      have hc : i < c.length := by
        cases cs with
        | nil => simpa using h
        | cons d ds =>
          have := hfull 0 (by simp)
          simp at this; omega
      rw [List.getElem?_eq_getElem hc]
      congr 1
      simp only [List.flatten_cons]
      rw [List.getElem_append_left hc]
    · have hlen : c.length = B ∧ cs ≠ [] := by
        cases cs with
        | nil =>
          have := hle c List.mem_cons_self
          simp at h; omega
        | cons d ds =>
          have := hfull 0 (by simp)
          simp at this; exact ⟨this, by simp⟩
      have hlt : i - B < cs.flatten.length := by
        rw [List.flatten_cons, List.length_append] at h; omega
      obtain ⟨d, h1, h2⟩ := ih (fun j hj => by
          have := hfull (j + 1) (by simp; omega)
          simpa using this) (fun c hc => hle c (List.mem_cons_of_mem _ hc)) (i - B) hlt
      have hd : i / B = (i - B) / B + 1 := by
        rw [show i = (i - B) + B by omega, Nat.add_div_right _ hB]; simp
      have hm : i % B = (i - B) % B := by
        conv => lhs; rw [show i = (i - B) + B by omega]
        rw [Nat.add_mod_right]
      refine ⟨d, by rw [hd]; simpa using h1, ?_⟩
      rw [hm, h2]
      congr 1
      simp only [List.flatten_cons]
      rw [List.getElem_append_right (by omega)]
      simp [hlen.1]

theorem readLocations_ok {β : Type} (unpack : β → List α) (batches : List β) (l : List α)
    (h : ∀ i : Nat, (hi : i < l.length) → ∃ b, batches[i / BATCH_SIZE]? = some b ∧
      (unpack b)[i % BATCH_SIZE]? = some l[i]) :
    ∀ (is : List Nat) (batch : List α), (∀ i ∈ is, i < l.length) →
      readLocations unpack batches batch (is.map fun (i : Nat) => (i : Int)) = .ok (is.filterMap fun i => l[i]?) := by
  intro is
  induction is with
  | nil => intro _ _; rfl
  | cons i is ih =>
    intro batch his
    have hi := his i List.mem_cons_self
    obtain ⟨b, h1, h2⟩ := h i hi
    have hd : (i : Int).fdiv BATCH_SIZE = ((i / BATCH_SIZE : Nat) : Int) := by
      rw [Int.fdiv_eq_ediv_of_nonneg _ (by simp [BATCH_SIZE])]; rfl
    have hm : (i : Int).fmod BATCH_SIZE = ((i % BATCH_SIZE : Nat) : Int) := by
      rw [Int.fmod_eq_emod_of_nonneg _ (by simp [BATCH_SIZE])]; rfl
    rw [List.map_cons]
    unfold readLocations
    simp only [hd, hm]
    have hne : ((i / BATCH_SIZE : Nat) : Int) ≠ -1 := by
      generalize i / BATCH_SIZE = k; omega
    obtain ⟨hb1, hb2⟩ := List.getElem?_eq_some_iff.1 h1
    obtain ⟨hx1, hx2⟩ := List.getElem?_eq_some_iff.1 h2
    rw [if_pos hne, index_nat _ _ hb1, hb2]
    simp only [bind, Except.bind, pure, Except.pure, Except.map]
    rw [index_nat _ _ hx1]
    simp only [hx2]
    rw [ih _ (fun j hj => his j (List.mem_cons_of_mem _ hj))]
    simp [List.getElem?_eq_getElem hi]

theorem diskScan_eq (parse : Str → α) (locations : List Int) (hi : Int) :
    ∀ (lines : List Str) (i : Int), (∀ j ∈ locations, j ≤ hi) →
      diskScan parse locations hi i lines =
        ((lines.mapIdx fun k s => (i + (k : Int), s)).filter fun p => locations.contains p.1).map fun p => parse p.2 := by
  intro lines
  induction lines with
  | nil => intro i _; rfl
  | cons s ss ih =>
    intro i h
    have hrec := ih (i + 1) h
    have hshift : (ss.mapIdx fun k s => ((i + 1) + (k : Int), s)) = ss.mapIdx fun k s => (i + ((k + 1 : Nat) : Int), s) := by
      apply List.ext_getElem?
      intro n
      simp only [List.getElem?_mapIdx]
      congr 1; funext s; simp; omega
    rw [hshift] at hrec
    unfold diskScan
    rw [List.mapIdx_cons, List.filter_cons]
    simp only [Int.ofNat_zero, Int.add_zero]
    split
    · split
      · rename_i hmax
        rw [List.map_cons]
        congr 1
        symm
        rw [List.map_eq_nil_iff, List.filter_eq_nil_iff]
        intro p hp hc
        obtain ⟨k, hk, hp⟩ := List.mem_iff_getElem.1 hp
        have : p.1 = i + ((k + 1 : Nat) : Int) := by rw [← hp]; simp
        have hj := h p.1 (by simpa using hc)
        omega
      · rw [List.map_cons, hrec]
    · exact hrec

end DictSet
end Mabel
