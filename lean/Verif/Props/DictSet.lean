import Verif.Lemmas.DictSet
import Verif.Lemmas.Hashes

/-!
# Properties of sets of records

C29–C37 and C67.
-/

namespace Mabel.Props
open Mabel Mabel.Py Mabel.DictSet

variable {α : Type}

/-! ## C29: take -/

/-- C29, for n ≥ 1: the first n records, all if there are fewer. -/
theorem C29_take_first_partial (l : List α) (n : Nat) (h : 1 ≤ n) : itake n l = l.take n := by
  unfold itake
  rw [itakeFrom_eq, if_pos (by simp; omega)]
  simp

/-- C29 fails for zero: everything is returned instead of nothing. -/
theorem C29_take_zero_fails (l : List α) : itake 0 l = l := by
  unfold itake
  rw [itakeFrom_eq, if_neg (by simp)]

/-- … as for every negative number. -/
theorem C29_take_negative (l : List α) (n : Int) (h : n ≤ 0) : itake n l = l := by
  unfold itake
  rw [itakeFrom_eq, if_neg (by simpa using h)]

example : itake 2 [1, 2, 3] = [1, 2] ∧ itake 5 [1, 2, 3] = [1, 2, 3] ∧ itake 0 [1, 2, 3] = [1, 2, 3] := by decide

/-! ## C30: filter -/

/-- C30: exactly the matching records, in their order: a sublist with the same multiplicities. -/
theorem C30_filter_exact (f : α → Bool) (l : List α) :
    (filterBy f l).Sublist l ∧ (∀ x, x ∈ filterBy f l ↔ x ∈ l ∧ f x = true) ∧
      (filterBy f l).length = l.countP f := by
  rw [filterBy_eq]
  exact ⟨List.filter_sublist, by simp, by rw [List.countP_eq_length_filter]⟩

/-- C30: filtering twice is filtering by both conditions, in either order. -/
theorem C30_filter_twice (f g : α → Bool) (l : List α) :
    filterBy f (filterBy g l) = filterBy (fun x => g x && f x) l ∧
      filterBy f (filterBy g l) = filterBy g (filterBy f l) := by
  simp only [filterBy_eq, List.filter_filter]
  constructor
  · congr 1; funext x; rw [Bool.and_comm]
  · congr 1; funext x; rw [Bool.and_comm]

/-- C30: filtering respects concatenation, so no record influences another. -/
theorem C30_filter_append (f : α → Bool) (a b : List α) : filterBy f (a ++ b) = filterBy f a ++ filterBy f b := by
  simp [filterBy_eq]

example : filterBy (fun x : Nat => x % 2 == 0) [1, 2, 3, 4, 2] = [2, 4, 2] := by decide

/-! ## C31: distinct -/

section distinct
variable (hash : Str → BitVec 64)

/-- What `distinct` compares: the hash of a string made from the selected columns or from all values. -/
def distinctKey (columns : List Str) : Record → BitVec 64 :=
  if columns = [] then recordFingerprint hash else columnsFingerprint hash columns

theorem distinct_eq (columns : List Str) (l : List Record) :
    distinct hash columns l = dedupeFrom (distinctKey hash columns) [] l := by
  unfold distinct distinctKey; split <;> rfl

/-- C31: order is kept, no record is invented, records that agree are not kept twice and of those that
agree the first is kept. -/
theorem C31_distinct_partial (columns : List Str) (l : List Record) :
    (distinct hash columns l).Sublist l ∧
    ((distinct hash columns l).Pairwise fun a b => distinctKey hash columns a ≠ distinctKey hash columns b) ∧
    (∀ a x b, l = a ++ x :: b → (∀ y ∈ a, distinctKey hash columns y ≠ distinctKey hash columns x) →
      x ∈ distinct hash columns l) := by
  rw [distinct_eq]
  refine ⟨dedupeFrom_sublist _ _ _, ?_, fun a x b h ha => dedupeFrom_first _ l [] a b x h (by simp) ha⟩
  exact List.pairwise_map.1 (dedupeFrom_nodup (distinctKey hash columns) l [])

/-- C31: applying it twice changes nothing. -/
theorem C31_distinct_idempotent (columns : List Str) (l : List Record) :
    distinct hash columns (distinct hash columns l) = distinct hash columns l := by
  rw [distinct_eq, distinct_eq]
  exact dedupeFrom_of_nodup _ _ _ (dedupeFrom_nodup _ _ _) (by simp)

/-- Records that are equal (in the selected columns) always have equal keys, so equal records are never
kept twice. -/
theorem C31_equal_records_merge (columns : List Str) (a b : Record)
    (h : if columns = [] then a = b else ∀ c ∈ columns, a.lookup c = b.lookup c) :
    distinctKey hash columns a = distinctKey hash columns b := by
  unfold distinctKey
  split
  · rename_i hc; rw [if_pos hc] at h; rw [h]
  · rename_i hc
    rw [if_neg hc] at h
    unfold columnsFingerprint
    congr 1
    have : ∀ cs : List Str, (∀ c ∈ cs, a.lookup c = b.lookup c) →
        (cs.flatMap fun c => ((a.lookup c).map Value.toStr).getD "$$".toList) =
        (cs.flatMap fun c => ((b.lookup c).map Value.toStr).getD "$$".toList) := by
      intro cs
      induction cs with
      | nil => intro _; rfl
      | cons c cs ih =>
        intro h
        rw [List.flatMap_cons, List.flatMap_cons, h c List.mem_cons_self,
          ih (fun c hc => h c (List.mem_cons_of_mem _ hc))]
    exact this columns h

/-- C31 in full when the hash separates the records of the set: exactly one of every different record. -/
theorem C31_distinct_of_separated (columns : List Str) (l : List Record)
    (hsep : ∀ a ∈ l, ∀ b ∈ l, distinctKey hash columns a = distinctKey hash columns b → a = b) :
    (distinct hash columns l).Nodup ∧ ∀ x, x ∈ distinct hash columns l ↔ x ∈ l := by
  obtain ⟨h1, h2, h3⟩ := C31_distinct_partial hash columns l
  refine ⟨h2.imp (fun h hc => h (by rw [hc])), fun x => ⟨fun h => h1.subset h, fun hx => ?_⟩⟩
  -- the first occurrence of x
  obtain ⟨a, b, hab, hna⟩ : ∃ a b, l = a ++ x :: b ∧ x ∉ a := by
    clear h1 h2 h3 hsep
    induction l with
    | nil => simp at hx
    | cons y ys ih =>
      by_cases hy : y = x
      · subst hy; exact ⟨[], ys, rfl, by simp⟩
      · obtain ⟨a, b, h1, h2⟩ := ih (by rcases List.mem_cons.1 hx with h | h; exact absurd h.symm hy; exact h)
        exact ⟨y :: a, b, by rw [h1]; rfl, by
          simp only [List.mem_cons, not_or]; exact ⟨fun h => hy h.symm, h2⟩⟩
  refine h3 a x b hab ?_
  intro y hy hc
  have : y = x := hsep y (by rw [hab]; simp [hy]) x (by rw [hab]; simp) hc
  exact hna (this ▸ hy)

theorem recordFingerprint_eq (r : Record) :
    recordFingerprint hash r = Hashes.xorOf hash (Hashes.entries (r.map (fun kv => Value.toStr kv.2))) := by
  have h : (r.mapIdx fun i kv => hash (natStr i ++ [','] ++ Value.toStr kv.2)) =
      (Hashes.entries (r.map (fun kv => Value.toStr kv.2))).map hash := by
    unfold Hashes.entries
    apply List.ext_getElem?
    intro i
    simp only [List.getElem?_map, List.getElem?_mapIdx, Option.map_map]
    congr 1
    funext kv
    simp
  unfold recordFingerprint
  rw [h, Hashes.foldl_xor]
  simp

/-- C31 for whole records, said without the way fingerprints are made: if the records have the same names, values with the same
text are the same, and the hashes of the texts with their places are independent, then exactly one of every different record is
left, in the order of the set. -/
theorem C31_distinct_records (l : List Record)
    (names : ∀ a ∈ l, ∀ b ∈ l, a.map Prod.fst = b.map Prod.fst)
    (values : ∀ a ∈ l, ∀ b ∈ l, a.map (fun kv => Value.toStr kv.2) = b.map (fun kv => Value.toStr kv.2) → a.map Prod.snd = b.map Prod.snd)
    (hashes : ∀ a ∈ l, ∀ b ∈ l, Hashes.Independent hash
      (Hashes.entries (a.map (fun kv => Value.toStr kv.2)) ++ Hashes.entries (b.map (fun kv => Value.toStr kv.2)))) :
    (distinct hash [] l).Sublist l ∧ (distinct hash [] l).Nodup ∧ ∀ x, x ∈ distinct hash [] l ↔ x ∈ l := by
  refine ⟨(C31_distinct_partial hash [] l).1, C31_distinct_of_separated hash [] l ?_⟩
  intro a ha b hb h
  have h : recordFingerprint hash a = recordFingerprint hash b := h
  rw [recordFingerprint_eq, recordFingerprint_eq] at h
  exact Hashes.pairs_eq (names a ha b hb) (values a ha b hb (Hashes.texts_eq (hashes a ha b hb) h))

/-- C31 for one column: if hashes tell the texts of its values apart, and texts the values, every value of the column is left once,
with the first record that has it. -/
theorem C31_distinct_column (column : Str) (l : List Record)
    (present : ∀ a ∈ l, (a.lookup column).isSome)
    (told : ∀ a ∈ l, ∀ b ∈ l, ∀ v w, a.lookup column = some v → b.lookup column = some w → hash (Value.toStr v) = hash (Value.toStr w) → v = w) :
    (distinct hash [column] l).Sublist l ∧
    (distinct hash [column] l).Pairwise (fun a b => a.lookup column ≠ b.lookup column) ∧
    ∀ a x b, l = a ++ x :: b → (x ∈ distinct hash [column] l ∨ ∃ y ∈ a, y.lookup column = x.lookup column) := by
  obtain ⟨h1, h2, h3⟩ := C31_distinct_partial hash [column] l
  have key : ∀ a ∈ l, ∀ b ∈ l, distinctKey hash [column] a = distinctKey hash [column] b → a.lookup column = b.lookup column := by
    intro a ha b hb h
    obtain ⟨v, hv⟩ := Option.isSome_iff_exists.1 (present a ha)
    obtain ⟨w, hw⟩ := Option.isSome_iff_exists.1 (present b hb)
    have : hash (Value.toStr v) = hash (Value.toStr w) := by
      simpa [distinctKey, columnsFingerprint, hv, hw] using h
    rw [hv, hw, told a ha b hb v w hv hw this]
  refine ⟨h1, h2.imp ?_, ?_⟩
  · intro a b h hc
    refine h (C31_equal_records_merge hash [column] a b ?_)
    rw [if_neg (by simp)]
    intro c hc'
    rw [List.mem_singleton.1 hc']
    exact hc
  · intro a x b hab
    by_cases hy : ∃ y ∈ a, y.lookup column = x.lookup column
    · exact .inr hy
    · refine .inl (h3 a x b hab ?_)
      intro y hya hc
      exact hy ⟨y, hya, key y (by rw [hab]; simp [hya]) x (by rw [hab]; simp) hc⟩

/-- C31 fails whatever the hash function: records with different values in the selected columns are merged,
because the values are concatenated before hashing. -/
theorem C31_columns_collide_fails :
    let a : Record := [("a".toList, .str "x".toList), ("b".toList, .str "yz".toList)]
    let b : Record := [("a".toList, .str "xy".toList), ("b".toList, .str "z".toList)]
    ∀ hash, a ≠ b ∧ distinct hash ["a".toList, "b".toList] [a, b] = [a] := by
  intro a b hash
  refine ⟨by decide, ?_⟩
  have h : distinctKey hash ["a".toList, "b".toList] a = distinctKey hash ["a".toList, "b".toList] b := rfl
  rw [distinct_eq]
  simp only [dedupeFrom, h, List.contains_nil, List.contains_cons, BEq.rfl, Bool.true_or, if_true,
    Bool.false_eq_true, if_false]

/-- … a missing value is the same as the text "$$" … -/
theorem C31_missing_collides_fails :
    let a : Record := [("a".toList, .str "$$".toList)]
    ∀ hash, distinct hash ["a".toList] [a, []] = [a] := by
  intro a hash
  have h : distinctKey hash ["a".toList] a = distinctKey hash ["a".toList] [] := rfl
  rw [distinct_eq]
  simp only [dedupeFrom, h, List.contains_nil, List.contains_cons, BEq.rfl, Bool.true_or, if_true,
    Bool.false_eq_true, if_false]

/-- … and without a selection the names of the columns are not looked at. -/
theorem C31_names_ignored_fails :
    let a : Record := [("a".toList, .int 1)]
    let b : Record := [("b".toList, .int 1)]
    ∀ hash, a ≠ b ∧ distinct hash [] [a, b] = [a] := by
  intro a b hash
  refine ⟨by decide, ?_⟩
  have h : distinctKey hash [] a = distinctKey hash [] b := rfl
  rw [distinct_eq]
  simp only [dedupeFrom, h, List.contains_nil, List.contains_cons, BEq.rfl, Bool.true_or, if_true,
    Bool.false_eq_true, if_false]

end distinct

/-- A hash for the examples: read the text as a number in base 256. -/
def sumHash (s : Str) : BitVec 64 := BitVec.ofNat 64 (s.foldl (fun n c => n * 256 + c.toNat) 7)

example : distinct sumHash ["a".toList]
    [[("a".toList, .int 1)], [("a".toList, .int 2)], [("a".toList, .int 1), ("b".toList, .int 5)]] =
    [[("a".toList, .int 1)], [("a".toList, .int 2)]] := by decide

/-- Independent hashes for the example: a bit for each of four texts. -/
def bitHash (s : Str) : BitVec 64 :=
  if s = "0,1".toList then 1 else if s = "0,2".toList then 2 else if s = "1,x".toList then 4 else if s = "1,1".toList then 8 else 0

def distinctSample : List Record :=
  [[("a".toList, .int 1), ("b".toList, .str "x".toList)], [("a".toList, .int 2), ("b".toList, .str "x".toList)],
   [("a".toList, .int 1), ("b".toList, .str "x".toList)], [("a".toList, .int 2), ("b".toList, .int 1)]]

example : (distinct bitHash [] distinctSample).Nodup ∧ ∀ x, x ∈ distinct bitHash [] distinctSample ↔ x ∈ distinctSample := by
  refine (C31_distinct_records bitHash distinctSample (by decide) (by decide) ?_).2
  intro a ha b hb
  have hi : Hashes.Independent bitHash ["0,1".toList, "0,2".toList, "1,x".toList, "1,1".toList] :=
    Hashes.independent_of (by decide) (by decide +kernel)
  refine hi.mono ?_
  revert a b
  decide

example : (distinct sumHash ["a".toList] distinctSample).Pairwise (fun a b => a.lookup "a".toList ≠ b.lookup "a".toList) :=
  (C31_distinct_column sumHash "a".toList distinctSample (by decide) (by
    have hv : ∀ a ∈ distinctSample, a.lookup "a".toList = some (.int 1) ∨ a.lookup "a".toList = some (.int 2) := by decide
    intro a ha b hb v w h1 h2 h
    rcases hv a ha with e | e <;> rcases hv b hb with e' | e' <;> rw [e] at h1 <;> rw [e'] at h2 <;>
      injection h1 with h1 <;> injection h2 with h2 <;> subst h1 <;> subst h2
    · rfl
    · revert h; decide
    · revert h; decide
    · rfl)).2.1

/-! ## C32: sort_and_take -/

/-- `a` may come before `b` in ascending order of the column: records without a value first. -/
def Ascending (le : Value → Value → Bool) (column : Str) (a b : Record) : Bool :=
  a.get column == .none || (b.get column != .none && le (a.get column) (b.get column))

theorem ascending_eq (le : Value → Value → Bool) (column : Str) :
    keyLe le (columnKey column) = Ascending le column := by
  funext a b
  unfold keyLe columnKey Ascending
  by_cases ha : a.get column = .none <;> by_cases hb : b.get column = .none <;>
    simp [ha, hb, beq_eq_false_iff_ne.2, bne]

/-- C32: for every storage class, the first n of a stable sort of the whole set. -/
theorem C32_sort_and_take (sc : StorageClass) (le : Value → Value → Bool) (hle : TotalPreorder le)
    (column : Str) (n : Nat) (descending : Bool) (l : List Record) :
    ∃ s : List Record, s.Perm l ∧
      s.Pairwise (fun a b => (if descending then Ascending le column b a else Ascending le column a b) = true) ∧
      (∀ x, s.filter (fun y => Ascending le column x y && Ascending le column y x) =
        l.filter (fun y => Ascending le column x y && Ascending le column y x)) ∧
      sortAndTake sc (keyLe le (columnKey column)) n descending l = s.take n := by
  have hk := keyLe_preorder hle (columnKey column)
  have hd := directed_preorder hk descending
  refine ⟨sorted (directed (keyLe le (columnKey column)) descending) l, sorted_perm _ _, ?_, ?_, ?_⟩
  · refine (sorted_pairwise hd l).imp ?_
    intro a b h
    unfold directed at h
    rw [ascending_eq] at h
    cases descending <;> simpa using h
  · intro x
    apply sorted_stable
    intro a b ha hb
    simp only [Bool.and_eq_true] at ha hb
    rw [← ascending_eq] at ha hb
    unfold directed
    cases descending
    · exact hk.trans _ _ _ ha.2 hb.1
    · exact hk.trans _ _ _ hb.2 ha.1
  · unfold sortAndTake
    split
    · rfl
    · unfold sortAndTakeStreaming
      have := cacheStep_inv hd n l [] [] rfl (fun _ => rfl) []
      simpa using this

/-- C32: how the set is stored makes no difference. -/
theorem C32_storage_irrelevant (sc sc' : StorageClass) (le : Value → Value → Bool) (hle : TotalPreorder le)
    (column : Str) (n : Nat) (descending : Bool) (l : List Record) :
    sortAndTake sc (keyLe le (columnKey column)) n descending l =
      sortAndTake sc' (keyLe le (columnKey column)) n descending l := by
  have key : ∀ sc, sortAndTake sc (keyLe le (columnKey column)) n descending l =
      (sorted (directed (keyLe le (columnKey column)) descending) l).take n := by
    intro sc
    unfold sortAndTake
    split
    · rfl
    · unfold sortAndTakeStreaming
      have := cacheStep_inv (directed_preorder (keyLe_preorder hle (columnKey column)) descending) n l [] [] rfl
        (fun _ => rfl) []
      simpa using this
  rw [key, key]

/-- A comparison of whole numbers for the examples. -/
def intLe : Value → Value → Bool
  | .int a, .int b => decide (a ≤ b)
  | .int _, _ => true
  | _, .int _ => false
  | _, _ => true

theorem intLe_preorder : TotalPreorder intLe where
  total a b := by cases a <;> cases b <;> simp [intLe]; omega
  trans a b c := by cases a <;> cases b <;> cases c <;> simp [intLe]; omega

example : sortAndTake .disk (keyLe intLe (columnKey ['k'])) 1 true
    ([3, 1, 4, 1, 5, 9, 2, 6].map fun i => [(['k'], Value.int i)]) = [[(['k'], .int 9)]] := by decide

/-! ## C33: storage classes -/

/-- C33: memory, compressed memory and disk give back the same records, for every length; for non-empty
sets of non-empty records and libraries that round trip. -/
theorem C33_storage_partial {β : Type} (l : List α) (hne : l ≠ [])
    (pack : List α → β) (unpack : β → List α) (hpack : ∀ b, unpack (pack b) = b)
    (falsy : α → Bool) (hfalsy : ∀ x ∈ l, falsy x = false)
    (dump : α → Str) (parse : Str → α) (hdump : ∀ x ∈ l, parse (dump x ++ ['\n']) = x)
    (hline : ∀ x ∈ l, '\n' ∉ dump x) (bufferSize : Nat) :
    readBatches unpack falsy (compressBatches pack [] l) = l ∧
    readDisk parse (writeLines dump bufferSize [] [] l) = .ok l := by
  constructor
  · obtain ⟨cs, h1, h2, _, _, _⟩ := compressBatches_eq pack l [] (by simp [BATCH_SIZE])
    unfold readBatches
    rw [h1, List.flatMap_map]
    have h2' : cs.flatten = l := by simpa using h2
    have : ∀ cs : List (List α), (∀ x ∈ cs.flatten, falsy x = false) →
        cs.flatMap (fun a => (unpack (pack a)).filter fun r => !falsy r) = cs.flatten := by
      intro cs
      induction cs with
      | nil => intro _; rfl
      | cons c cs ih =>
        intro h
        rw [List.flatMap_cons, List.flatten_cons, hpack, ih (fun x hx => h x (by simp at hx ⊢; exact Or.inr hx)),
          List.filter_eq_self.2]
        intro x hx
        rw [h x (by simp [hx])]; rfl
    rw [this cs (by rw [h2']; exact hfalsy), h2']
  · unfold readDisk readFile
    rw [writeLines_eq]
    simp only [List.nil_append]
    rw [if_neg]
    · rw [fileLines_dump dump l hline]
      have : (l.map fun x => dump x ++ ['\n']).map parse = l := by
        rw [List.map_map]
        conv => rhs; rw [← List.map_id l]
        exact List.map_congr_left hdump
      simp [bind, Except.bind, pure, Except.pure]
      simpa using this
    · cases l with
      | nil => exact absurd rfl hne
      | cons x xs => simp

/-- The batches are full except the last, so their number is the length divided by 250, rounded up. -/
theorem C33_batches (l : List α) {β : Type} (pack : List α → β) :
    ∃ chunks : List (List α), compressBatches pack [] l = chunks.map pack ∧ chunks.flatten = l ∧
      (∀ c ∈ chunks, c ≠ []) ∧ (∀ i, i + 1 < chunks.length → (chunks[i]?).map List.length = some 250) := by
  obtain ⟨cs, h1, h2, h3, _, h5⟩ := compressBatches_eq pack l [] (by simp [BATCH_SIZE])
  exact ⟨cs, h1, by simpa using h2, h3, h5⟩

/-- C33 fails for empty records: compressed memory drops them. -/
theorem C33_empty_records_fails :
    readBatches id List.isEmpty (compressBatches id [] [([] : Record), [("a".toList, .int 1)]]) =
      [[("a".toList, .int 1)]] := by decide

/-- C33 fails for an empty set: on disk it cannot be read. -/
theorem C33_empty_set_fails (dump : α → Str) (parse : Str → α) (bufferSize : Nat) :
    readDisk parse (writeLines dump bufferSize [] [] []) = .error .valueError := by
  unfold readDisk readFile
  rw [writeLines_eq]
  rfl

example : readDisk (fun s => s.dropLast) (writeLines id 3 [] [] ["ab".toList, "c".toList]) =
    .ok ["ab".toList, "c".toList] := by decide

/-! ## C34: items by position -/

theorem mapM_index (l : List α) : ∀ is : List Nat, (∀ i ∈ is, i < l.length) →
    (is.map fun (i : Nat) => (i : Int)).mapM (index l) = .ok (is.filterMap fun i => l[i]?) := by
  intro is
  induction is with
  | nil => intro _; rfl
  | cons i is ih =>
    intro h
    have hi := h i List.mem_cons_self
    rw [List.map_cons, List.mapM_cons, index_nat _ _ hi, ih (fun j hj => h j (List.mem_cons_of_mem _ hj))]
    simp [List.getElem?_eq_getElem hi, bind, Except.bind, pure, Except.pure]

/-- C34, for a set made from a list: the records at the positions asked for, in that order, as often as
asked for. -/
theorem C34_get_items_list_partial {β : Type} (l : List α) (is : List Nat) (h : ∀ i ∈ is, i < l.length)
    (parse : Str → α) (unpack : β → List α) (falsy : α → Bool) :
    getItems parse unpack falsy (.list l) (is.map fun (i : Nat) => (i : Int)) =
      .ok (is.filterMap fun i => l[i]?) := mapM_index l is h

theorem sorted_map_cast (is : List Nat) :
    sorted (fun a b : Int => decide (a ≤ b)) (is.map fun (i : Nat) => (i : Int)) =
      (sorted (fun a b : Nat => decide (a ≤ b)) is).map fun (i : Nat) => (i : Int) := by
  have hins : ∀ (x : Nat) (l : List Nat), insertBy (fun a b : Int => decide (a ≤ b)) (x : Int) (l.map fun (i : Nat) => (i : Int)) =
      (insertBy (fun a b : Nat => decide (a ≤ b)) x l).map fun (i : Nat) => (i : Int) := by
    intro x l
    induction l with
    | nil => rfl
    | cons y ys ih =>
      simp only [List.map_cons, insertBy]
      rw [ih]
      by_cases hxy : x ≤ y
      · have : (x : Int) ≤ (y : Int) := by omega
        simp [hxy]
      · have : ¬ (x : Int) ≤ (y : Int) := by omega
        simp [hxy]
  induction is with
  | nil => rfl
  | cons i is ih => rw [List.map_cons, sorted, ih, hins, sorted]

theorem natLe_preorder : TotalPreorder (fun a b : Nat => decide (a ≤ b)) where
  total a b := by simp; omega
  trans a b c := by simp; omega

/-- C34, in compressed memory: the right records, but in ascending order of position. -/
theorem C34_get_items_compressed_partial {β : Type} (l : List α) (pack : List α → β) (unpack : β → List α)
    (hpack : ∀ b, unpack (pack b) = b) (is : List Nat) (hne : is ≠ []) (h : ∀ i ∈ is, i < l.length)
    (parse : Str → α) (falsy : α → Bool) :
    ∃ js : List Nat, js.Perm is ∧ js.Pairwise (· ≤ ·) ∧
      getItems parse unpack falsy (.compressed (compressBatches pack [] l)) (is.map fun (i : Nat) => (i : Int)) =
        .ok (js.filterMap fun i => l[i]?) := by
  refine ⟨sorted (fun a b : Nat => decide (a ≤ b)) is, sorted_perm _ _, ?_, ?_⟩
  · exact (sorted_pairwise natLe_preorder is).imp (by intro a b h; simpa using h)
  · unfold getItems
    have : (is.map fun (i : Nat) => (i : Int)) ≠ [] := by
      cases is with
      | nil => exact absurd rfl hne
      | cons i is => simp
    simp only []
    rw [if_neg this]
    unfold readBatchesAt
    rw [sorted_map_cast]
    obtain ⟨cs, h1, h2, _, h4, h5⟩ := compressBatches_eq pack l [] (by simp [BATCH_SIZE])
    have h2' : cs.flatten = l := by simpa using h2
    refine readLocations_ok unpack _ l ?_ _ _ (fun i hi => h i (mem_sorted.1 hi))
    intro i hi
    subst h2'
    obtain ⟨c, hc1, hc2⟩ := flatten_getElem (B := BATCH_SIZE) (by simp [BATCH_SIZE]) cs h5 h4 i hi
    refine ⟨pack c, ?_, ?_⟩
    · rw [h1, List.getElem?_map, hc1]; rfl
    · rw [hpack]; exact hc2

theorem foldl_min_le (l : List Int) : ∀ a : Int, l.foldl min a ≤ a ∧ (∀ x ∈ l, l.foldl min a ≤ x) ∧
    (l.foldl min a = a ∨ l.foldl min a ∈ l) := by
  induction l with
  | nil => intro a; simp
  | cons y ys ih =>
    intro a
    obtain ⟨h1, h2, h3⟩ := ih (min a y)
    rw [List.foldl_cons]
    refine ⟨by omega, ?_, ?_⟩
    · intro x hx
      rcases List.mem_cons.1 hx with rfl | hx
      · omega
      · exact h2 x hx
    · rcases h3 with h3 | h3
      · rcases Int.le_total a y with hc | hc
        · left; omega
        · right; rw [h3, Int.min_eq_right hc]; exact List.mem_cons_self
      · exact Or.inr (List.mem_cons_of_mem _ h3)

theorem foldl_max_le (l : List Int) : ∀ a : Int, a ≤ l.foldl max a ∧ (∀ x ∈ l, x ≤ l.foldl max a) := by
  induction l with
  | nil => intro a; simp
  | cons y ys ih =>
    intro a
    obtain ⟨h1, h2⟩ := ih (max a y)
    rw [List.foldl_cons]
    refine ⟨by omega, ?_⟩
    intro x hx
    rcases List.mem_cons.1 hx with rfl | hx
    · omega
    · exact h2 x hx

/-- C34, on disk: the right records, in the order of the set, each once. -/
theorem C34_get_items_disk_partial {β : Type} (l : List α) (dump : α → Str) (parse : Str → α)
    (hdump : ∀ x ∈ l, parse (dump x ++ ['\n']) = x) (hline : ∀ x ∈ l, '\n' ∉ dump x) (bufferSize : Nat)
    (is : List Nat) (hne : is ≠ []) (h : ∀ i ∈ is, i < l.length) (unpack : β → List α) (falsy : α → Bool) :
    getItems parse unpack falsy (.disk (writeLines dump bufferSize [] [] l)) (is.map fun (i : Nat) => (i : Int)) =
      .ok (((List.range l.length).filter fun i => is.contains i).filterMap fun i => l[i]?) := by
  obtain ⟨i0, is0, rfl⟩ : ∃ i0 is0, is = i0 :: is0 := by
    cases is with
    | nil => exact absurd rfl hne
    | cons i is => exact ⟨i, is, rfl⟩
  have hl : l ≠ [] := by
    intro hc
    have := h i0 List.mem_cons_self
    simp [hc] at this
  have hfile : writeLines dump bufferSize [] [] l ≠ [] := by
    rw [writeLines_eq]
    cases l with
    | nil => exact absurd rfl hl
    | cons x xs => simp
  have hlines : fileLines (writeLines dump bufferSize [] [] l) = l.map fun x => dump x ++ ['\n'] := by
    rw [writeLines_eq]; simp only [List.nil_append]; exact fileLines_dump dump l hline
  unfold getItems
  simp only []
  rw [if_neg (by simp)]
  unfold readDiskAt readFile
  rw [if_neg hfile, hlines]
  simp only [bind, Except.bind, pure, Except.pure]
  generalize hL : ((i0 :: is0).map fun (i : Nat) => (i : Int)) = L
  have hmem : ∀ x ∈ L, ∃ i ∈ i0 :: is0, x = ((i : Nat) : Int) := by
    intro x hx; rw [← hL] at hx
    obtain ⟨i, hi, he⟩ := List.mem_map.1 hx
    exact ⟨i, hi, he.symm⟩
  have hhead : L.headD 0 ∈ L := by rw [← hL]; simp
  obtain ⟨hmin1, hmin2, hmin3⟩ := foldl_min_le L (L.headD 0)
  obtain ⟨hmax1, hmax2⟩ := foldl_max_le L (L.headD 0)
  have hlo : ∃ lo : Nat, L.foldl min (L.headD 0) = (lo : Int) ∧ lo < l.length := by
    have : L.foldl min (L.headD 0) ∈ L := by
      rcases hmin3 with h3 | h3
      · rw [h3]; exact hhead
      · exact h3
    obtain ⟨i, hi, he⟩ := hmem _ this
    exact ⟨i, he, h i hi⟩
  obtain ⟨lo, hlo, hlo2⟩ := hlo
  rw [hlo] at hmin2 ⊢
  rw [if_neg (by simp; omega), diskScan_eq _ _ _ _ _ hmax2]
  congr 1
  -- both sides are the records of `l` from `lo` on whose position is asked for
  simp only [Int.toNat_natCast]
  have hcont : ∀ k : Nat, L.contains (k : Int) = (i0 :: is0).contains k := by
    intro k
    rw [Bool.eq_iff_iff]
    simp only [List.contains_iff_mem]
    rw [← hL, List.mem_map]
    constructor
    · rintro ⟨a, ha, he⟩
      have : a = k := by omega
      exact this ▸ ha
    · exact fun hk => ⟨k, hk, rfl⟩
  have hno : ∀ k : Nat, k < lo → (i0 :: is0).contains k = false := by
    intro k hk
    rw [← hcont]
    apply Bool.eq_false_iff.2
    intro hc
    have := hmin2 (k : Int) (by simpa using hc)
    omega
  have key : ∀ (l : List α) (n : Nat), (∀ x ∈ l, parse (dump x ++ ['\n']) = x) →
      (((l.map fun x => dump x ++ ['\n']).mapIdx fun k s => ((n : Int) + (k : Int), s)).filter
        fun p => L.contains p.1).map (fun p => parse p.2) =
      ((List.range' n l.length).filter fun i => (i0 :: is0).contains i).filterMap fun i => l[i - n]? := by
    intro l
    induction l with
    | nil => intro n _; rfl
    | cons x xs ih =>
      intro n hd
      have ih' := ih (n + 1) (fun y hy => hd y (List.mem_cons_of_mem _ hy))
      rw [List.map_cons, List.mapIdx_cons, List.filter_cons, List.length_cons, List.range'_succ, List.filter_cons]
      have hshift : ((xs.map fun x => dump x ++ ['\n']).mapIdx fun k s => ((n : Int) + ((k + 1 : Nat) : Int), s)) =
          (xs.map fun x => dump x ++ ['\n']).mapIdx fun k s => (((n + 1 : Nat) : Int) + (k : Int), s) := by
        apply List.ext_getElem?
        intro m
        simp only [List.getElem?_mapIdx]
        congr 1; funext s; simp; omega
      have htail : ((List.range' (n + 1) xs.length).filter fun i => (i0 :: is0).contains i).filterMap
            (fun i => (x :: xs)[i - n]?) =
          ((List.range' (n + 1) xs.length).filter fun i => (i0 :: is0).contains i).filterMap
            (fun i => xs[i - (n + 1)]?) := by
        apply List.filterMap_congr
        intro i hi
        have := (List.mem_range'_1.1 (List.mem_filter.1 hi).1).1
        rw [show i - n = (i - (n + 1)) + 1 by omega, List.getElem?_cons_succ]
      have hz : ((n : Int) + ((0 : Nat) : Int)) = (n : Int) := by simp
      simp only [hz, hcont, hshift]
      split
      · rw [List.map_cons, ih', List.filterMap_cons]
        simp only [Nat.sub_self, List.getElem?_cons_zero]
        rw [htail, hd x List.mem_cons_self]
      · rw [ih', htail]
  have hdrop : (l.map fun x => dump x ++ ['\n']).drop lo = (l.drop lo).map fun x => dump x ++ ['\n'] := by
    rw [List.map_drop]
  rw [hdrop, key (l.drop lo) lo (fun x hx => hdump x (List.mem_of_mem_drop hx))]
  have hrange : List.range l.length = List.range' 0 lo ++ List.range' lo (l.drop lo).length := by
    rw [List.range_eq_range', List.length_drop]
    have := List.range'_append_1 (s := 0) (m := lo) (n := l.length - lo)
    rw [Nat.zero_add] at this
    rw [this]; congr 1; omega
  rw [hrange, List.filter_append]
  have hnil : (List.range' 0 lo).filter (fun i => (i0 :: is0).contains i) = [] := by
    rw [List.filter_eq_nil_iff]
    intro k hk
    have := (List.mem_range'_1.1 hk).2
    rw [hno k (by omega)]; simp
  rw [hnil, List.nil_append]
  apply List.filterMap_congr
  intro i hi
  have := (List.mem_range'_1.1 (List.mem_filter.1 hi).1).1
  rw [List.getElem?_drop]
  congr 1; omega

/-- C34 fails for a set held in memory: nothing is returned. -/
theorem C34_get_items_memory_fails {β : Type} (l : List α) (locations : List Int) (parse : Str → α)
    (unpack : β → List α) (falsy : α → Bool) : getItems parse unpack falsy (.memory l) locations = .ok [] := rfl

/-- C34 fails for a set that is not stored and was not given as a list: no record is ever returned, and unless all its
records have two fields there is an error. -/
theorem C34_get_items_unstored_fails {β : Type} (l : List α) (two : α → Bool) (locations : List Int) (parse : Str → α)
    (unpack : β → List α) (falsy : α → Bool) :
    getItems parse unpack falsy (.iterator l two) locations =
      if ∀ x ∈ l, two x = true then .ok [] else .error .valueError := by
  simp only [getItems, List.all_eq_true]

/-- C34 fails in compressed memory and on disk for positions that are not in ascending order … -/
theorem C34_get_items_order_fails :
    let l : List Str := ["a".toList, "b".toList, "c".toList]
    getItems List.dropLast id List.isEmpty (.compressed (compressBatches id [] l)) [2, 0] = .ok ["a".toList, "c".toList] ∧
    getItems List.dropLast (id : List Str → _) List.isEmpty (.disk (writeLines id 10 [] [] l)) [2, 0] =
      .ok ["a".toList, "c".toList] ∧
    getItems List.dropLast (id : List Str → _) List.isEmpty (.list l) [2, 0] = .ok ["c".toList, "a".toList] := by
  decide

/-- … and positions counted from the end mean the last record for a list, the first record on disk and an
error in compressed memory. -/
theorem C34_get_items_negative_fails :
    let l : List Str := ["a".toList, "b".toList, "c".toList]
    getItems List.dropLast (id : List Str → _) List.isEmpty (.list l) [-1] = .ok ["c".toList] ∧
    getItems List.dropLast (id : List Str → _) List.isEmpty (.disk (writeLines id 10 [] [] l)) [-1] =
      .ok ["a".toList] ∧
    getItems List.dropLast id List.isEmpty (.compressed (compressBatches id [] l)) [-1] = .error .indexError := by
  decide

/-! ## C67: reading more than once -/

/-- C67: whatever was done with a stored set before, a method that reads it sees all records. -/
theorem C67_scan_complete_partial (l : List α) (history : List Use) :
    ((({ data := l } : Stored α).uses history).use .scan).1 = l := by
  have : ∀ (history : List Use) (s : Stored α), (s.uses history).data = s.data := by
    intro history
    induction history with
    | nil => intro s; rfl
    | cons u us ih =>
      intro s
      unfold Stored.uses
      rw [ih]
      cases u <;> rfl
  exact this history _

/-- A fresh stored set can be looped over once. -/
theorem C67_fresh_loop (l : List α) : (({ data := l } : Stored α).use .loop).1 = l := rfl

/-- C67 fails: looping after any complete read, or a second time, yields nothing … -/
theorem C67_second_loop_fails (l : List α) (history : List Use) (u : Use) (h : u = .scan ∨ u = .loop) :
    ((({ data := l } : Stored α).uses (history ++ [u])).use .loop).1 = [] := by
  have : ∀ (history : List Use) (s : Stored α), (s.uses (history ++ [u])).iterator = some [] := by
    intro history
    induction history with
    | nil => intro s; rcases h with rfl | rfl <;> rfl
    | cons v vs ih => intro s; exact ih _
  simp [Stored.use, this]

/-- … and looping after looking at the first record misses it. -/
theorem C67_loop_after_first_fails (l : List α) :
    ((({ data := l } : Stored α).uses [.first]).use .loop).1 = l.tail := rfl

/-! ## C35: fingerprint -/

/-- C35: reordering the records does not change the fingerprint. -/
theorem C35_record_order (dump : Record → Str) (h : Str → Nat) {l l' : List Record} (hp : l.Perm l') :
    fingerprint dump h l = fingerprint dump h l' := by
  unfold fingerprint
  refine (hp.map _).foldl_eq' ?_ _
  intro x _ y _ z
  rw [Nat.xor_assoc, Nat.xor_assoc, Nat.xor_comm x y]

/-- C35: nor does reordering the keys inside records. -/
theorem C35_key_order (dump : Record → Str) (h : Str → Nat) {l l' : List Record}
    (hp : List.Forall₂ (fun r r' : Record => r.WF ∧ r.Perm r') l l') :
    fingerprint dump h l = fingerprint dump h l' := by
  unfold fingerprint
  congr 1
  induction hp with
  | nil => rfl
  | cons hr _ ih =>
    rename_i r r' _ _ _
    rw [List.map_cons, List.map_cons, ih]
    have : sorted (fun a b : Str × Value => strLe a.1 b.1) r = sorted (fun a b => strLe a.1 b.1) r' := by
      refine sorted_eq_of_perm (le := fun a b : Str × Value => strLe a.1 b.1)
        ⟨fun a b => strLe_preorder.total _ _, fun a b c => strLe_preorder.trans _ _ _⟩
        hr.2 ?_
      intro a ha b hb h1 h2
      have hk := strLe_antisymm h1 h2
      exact List.inj_on_of_nodup_map hr.1 ha hb hk
    rw [this]

/-- Limit of the fingerprint: a record present twice cancels out, so it cannot tell `l` from `l` with
two more copies of a record. -/
theorem C35_duplicates_cancel (dump : Record → Str) (h : Str → Nat) (l : List Record) (r : Record) :
    fingerprint dump h (r :: r :: l) = fingerprint dump h l := by
  rw [C35_record_order dump h (l' := l ++ [r, r])]
  · unfold fingerprint
    rw [List.map_append, List.foldl_append]
    simp [Nat.xor_assoc]
  · exact (List.perm_append_comm (l₁ := [r, r]) (l₂ := l))

example : fingerprint (fun r => (r.map fun kv => kv.1).flatten) (fun s => s.length)
    [[("ab".toList, .int 1)], [("c".toList, .int 2)]] ≠
    fingerprint (fun r => (r.map fun kv => kv.1).flatten) (fun s => s.length) [[("ab".toList, .int 1)]] := by decide

/-! ## C36: column summaries -/

/-- C36: the keys are each listed once, and are exactly those some record has. -/
theorem C36_keys (l : List Record) (hl : ∀ r ∈ l, r.WF) :
    (DictSet.keys l).Nodup ∧ ∀ k, k ∈ DictSet.keys l ↔ ∃ r ∈ l, k ∈ r.map (·.1) := by
  unfold DictSet.keys
  refine ⟨keys_foldl_nodup l hl [] (by simp), fun k => ?_⟩
  rw [keys_foldl]; simp [Record.keys]

/-- C36: the collected column is the values of the records which have the column, in order. -/
theorem C36_collect_list (key : Str) (l : List Record) :
    (collectList key l).map some = (l.map fun r => r.lookup key).filter Option.isSome := by
  unfold collectList
  induction l with
  | nil => rfl
  | cons r rs ih =>
    rw [List.filterMap_cons, List.map_cons, List.filter_cons]
    cases h : r.lookup key with
    | none => simpa using ih
    | some v => simp [ih]

theorem sum_foldlM (xs : List Int) : ∀ a : Int, (xs.map Value.int).foldlM add (.int a) = .ok (.int (a + xs.sum)) := by
  induction xs with
  | nil => intro a; simp [pure, Except.pure]
  | cons x xs ih =>
    intro a
    rw [List.map_cons, List.foldlM_cons]
    simp only [add, bind, Except.bind]
    rw [ih]; simp [List.sum_cons]; omega

/-- C36: the sum of a column of whole numbers (0 if no record has it). -/
theorem C36_sum (key : Str) (l : List Record) (xs : List Int) (h : collectList key l = xs.map .int) :
    DictSet.sum key l = .ok (.int xs.sum) := by
  unfold DictSet.sum; rw [h, sum_foldlM]; simp

theorem pyMax_int (a b : Int) : pyMax (.int a) (.int b) = .ok (.int (max a b)) := by
  unfold pyMax
  simp only [lt, bind, Except.bind, pure, Except.pure]
  split <;> (rename_i h; simp at h; congr 2; omega)

theorem pyMin_int (a b : Int) : pyMin (.int a) (.int b) = .ok (.int (min a b)) := by
  unfold pyMin
  simp only [lt, bind, Except.bind, pure, Except.pure]
  split <;> (rename_i h; simp at h; congr 2; omega)

theorem max_foldlM (xs : List Int) : ∀ a : Int,
    ∃ m, (xs.map Value.int).foldlM pyMax (.int a) = .ok (.int m) ∧ m ∈ a :: xs ∧ ∀ x ∈ a :: xs, x ≤ m := by
  induction xs with
  | nil => intro a; exact ⟨a, rfl, by simp, by simp⟩
  | cons x xs ih =>
    intro a
    obtain ⟨m, h1, h2, h3⟩ := ih (max a x)
    refine ⟨m, ?_, ?_, ?_⟩
    · rw [List.map_cons, List.foldlM_cons, pyMax_int]; exact h1
    · rcases List.mem_cons.1 h2 with h | h
      · rcases Int.le_total a x with hc | hc
        · rw [h, Int.max_eq_right hc]; simp
        · rw [h, Int.max_eq_left hc]; simp
      · simp [h]
    · have h4 := h3 (max a x) List.mem_cons_self
      intro y hy
      rcases List.mem_cons.1 hy with rfl | hy
      · omega
      · rcases List.mem_cons.1 hy with rfl | hy
        · omega
        · exact h3 y (List.mem_cons_of_mem _ hy)

theorem min_foldlM (xs : List Int) : ∀ a : Int,
    ∃ m, (xs.map Value.int).foldlM pyMin (.int a) = .ok (.int m) ∧ m ∈ a :: xs ∧ ∀ x ∈ a :: xs, m ≤ x := by
  induction xs with
  | nil => intro a; exact ⟨a, rfl, by simp, by simp⟩
  | cons x xs ih =>
    intro a
    obtain ⟨m, h1, h2, h3⟩ := ih (min a x)
    refine ⟨m, ?_, ?_, ?_⟩
    · rw [List.map_cons, List.foldlM_cons, pyMin_int]; exact h1
    · rcases List.mem_cons.1 h2 with h | h
      · rcases Int.le_total a x with hc | hc
        · rw [h, Int.min_eq_left hc]; simp
        · rw [h, Int.min_eq_right hc]; simp
      · simp [h]
    · have h4 := h3 (min a x) List.mem_cons_self
      intro y hy
      rcases List.mem_cons.1 hy with rfl | hy
      · omega
      · rcases List.mem_cons.1 hy with rfl | hy
        · omega
        · exact h3 y (List.mem_cons_of_mem _ hy)

/-- C36: the maximum and minimum of a column of whole numbers are values of the column, and bounds. -/
theorem C36_max_min (key : Str) (l : List Record) (xs : List Int) (h : collectList key l = xs.map .int)
    (hne : xs ≠ []) :
    (∃ m, DictSet.max' key l = .ok (.int m) ∧ m ∈ xs ∧ ∀ x ∈ xs, x ≤ m) ∧
    (∃ m, DictSet.min' key l = .ok (.int m) ∧ m ∈ xs ∧ ∀ x ∈ xs, m ≤ x) := by
  unfold DictSet.max' DictSet.min'
  rw [h]
  cases xs with
  | nil => exact absurd rfl hne
  | cons x xs => exact ⟨max_foldlM xs x, min_foldlM xs x⟩

theorem minMax_foldlM (ys : List Value) : ∀ (a b x y : Value), ys.foldlM pyMin a = .ok x → ys.foldlM pyMax b = .ok y →
    (ys.map fun v => (v, v)).foldlM (fun a b => do return (← pyMin a.1 b.1, ← pyMax a.2 b.2)) (a, b) = .ok (x, y) := by
  induction ys with
  | nil =>
    intro a b x y h1 h2
    simp only [List.foldlM, pure, Except.pure, Except.ok.injEq] at h1 h2
    subst h1 h2; rfl
  | cons v vs ih =>
    intro a b x y h1 h2
    rw [List.foldlM_cons] at h1 h2
    rw [List.map_cons, List.foldlM_cons]
    simp only [bind, Except.bind] at h1 h2 ⊢
    cases h3 : pyMin a v with
    | error e => rw [h3] at h1; simp at h1
    | ok a' =>
      cases h4 : pyMax b v with
      | error e => rw [h4] at h2; simp at h2
      | ok b' =>
        rw [h3] at h1; rw [h4] at h2
        simp only [pure, Except.pure] at h1 h2 ⊢
        exact ih a' b' x y h1 h2

/-- C36: min_max is the pair of min and max. -/
theorem C36_min_max (key : Str) (l : List Record) (x y : Value) (h1 : DictSet.min' key l = .ok x)
    (h2 : DictSet.max' key l = .ok y) : minMax key l = .ok (x, y) := by
  unfold DictSet.min' at h1
  unfold DictSet.max' at h2
  unfold minMax
  cases h : collectList key l with
  | nil => rw [h] at h1; simp [reduce] at h1
  | cons v vs =>
    rw [h] at h1 h2
    exact minMax_foldlM vs v v x y h1 h2

theorem diskLengthFrom_eq (l : List α) : ∀ (i : Nat), diskLengthFrom ((i : Int) - 1) i l = i + l.length := by
  induction l with
  | nil => intro i; simp [diskLengthFrom]
  | cons x xs ih =>
    intro i
    have := ih (i + 1)
    simp only [diskLengthFrom, List.length_cons]
    rw [show (((i + 1 : Nat) : Int) - 1) = i by omega] at this
    rw [this]; omega

/-- C36: the count of a set in memory, in compressed memory or on disk is the number of its records. -/
theorem C36_count (sc : StorageClass) (hsc : sc ≠ .noPersistance) (l : List α) :
    countOf sc l = l.length := by
  cases sc with
  | noPersistance => exact absurd rfl hsc
  | memory => rfl
  | disk => have := diskLengthFrom_eq l 0; simpa [countOf, diskLength] using this
  | compressedMemory =>
    have : ∀ (l : List α) (n : Nat), l.foldl (fun n _ => n + 1) n = n + l.length := by
      intro l
      induction l with
      | nil => intro n; rfl
      | cons x xs ih => intro n; rw [List.foldl_cons, ih, List.length_cons]; omega
    simp [countOf, compressedLength, this]

/-- A null in the column makes the sum fail rather than be skipped … -/
theorem C36_null_fails (key : Str) : DictSet.sum key [[(key, .none)]] = .error .typeError := by
  unfold DictSet.sum collectList Record.lookup
  simp [add, bind, Except.bind]

/-- … and the maximum of a column nobody has is an error. -/
theorem C36_max_empty (key : Str) : DictSet.max' key [] = .error .typeError := rfl

example : DictSet.max' ['k'] ([3, 1, 4].map fun i => [(['k'], Value.int i)]) = .ok (.int 4) ∧
    DictSet.sum ['k'] ([3, 1, 4].map fun i => [(['k'], Value.int i)]) = .ok (.int 8) ∧
    DictSet.keys [[(['a'], .none)], [(['b'], .none), (['a'], .none)]] = [['a'], ['b']] := by decide

/-! ## C37: projection -/

theorem select_foldl (r : Record) : ∀ (columns : List Str) (acc : Record), acc.WF →
    let out := columns.foldl (fun acc k => acc.set k (r.get k)) acc
    out.WF ∧ (∀ k, k ∈ out.keys ↔ k ∈ acc.keys ∨ k ∈ columns) ∧
      (∀ k, out.lookup k = if k ∈ columns then some (r.get k) else acc.lookup k) := by
  intro columns
  induction columns with
  | nil => intro acc h; simp [h]
  | cons c cs ih =>
    intro acc h
    have hwf : (acc.set c (r.get c)).WF := by
      by_cases hc : c ∈ acc.keys
      · have := Record.set_keys_of_mem hc (r.get c)
        unfold Record.WF; unfold Record.keys at this; rw [this]; exact h
      · rw [Record.set_of_not_mem hc]
        unfold Record.WF
        rw [List.map_append, List.nodup_append]
        refine ⟨h, by simp, ?_⟩
        intro a ha b hb
        simp only [List.map_cons, List.map_nil, List.mem_singleton] at hb
        subst hb
        exact fun hcc => hc (hcc ▸ ha)
    obtain ⟨h1, h2, h3⟩ := ih (acc.set c (r.get c)) hwf
    refine ⟨h1, ?_, ?_⟩
    · intro k
      simp only [List.foldl_cons]
      rw [h2 k]
      have : k ∈ (acc.set c (r.get c)).keys ↔ k ∈ acc.keys ∨ k = c := by
        rw [← Record.lookup_isSome, ← Record.lookup_isSome, Record.lookup_set]
        by_cases hk : k = c <;> simp [hk]
      rw [this, List.mem_cons, or_assoc]
    · intro k
      simp only [List.foldl_cons]
      rw [h3 k, Record.lookup_set]
      by_cases hk : k ∈ cs
      · simp [hk]
      · by_cases hkc : k = c
        · subst hkc; simp [hk]
        · simp [hk, hkc]

/-- C37: one record per record, in order, with exactly the requested columns, the original value where
there is one and null where there is none. -/
theorem C37_select (columns : List Str) (hs : "*".toList ∉ columns) (l : List Record) :
    List.Forall₂ (fun r out : Record => out.WF ∧ (∀ k, k ∈ out.keys ↔ k ∈ columns) ∧
        ∀ k ∈ columns, out.lookup k = some ((r.lookup k).getD .none))
      l (select columns l) := by
  unfold select
  rw [if_neg (by rintro rfl; simp at hs), if_neg (by simpa using hs)]
  induction l with
  | nil => exact List.Forall₂.nil
  | cons r rs ih =>
    refine List.Forall₂.cons ?_ ih
    obtain ⟨h1, h2, h3⟩ := select_foldl r columns [] (by simp [Record.WF])
    refine ⟨h1, fun k => by rw [h2]; simp [Record.keys], fun k hk => by rw [h3, if_pos hk]; rfl⟩

/-- C37: selecting everything changes nothing. -/
theorem C37_select_star (l : List Record) : select ["*".toList] l = l := rfl

example : select [['b'], ['z']] [[(['a'], .int 1), (['b'], .int 2)]] = [[(['b'], .int 2), (['z'], .none)]] := by
  decide

end Mabel.Props
