import Verif.Model.Records
import Verif.Lemmas.Sort
import Verif.Lemmas.StrOrder
import Verif.Lemmas.Str
import Verif.Lemmas.Num
import Mathlib.Tactic.ByContra

/-! # Records (C56, C78) -/

namespace Mabel.Records
open Mabel.Py

/-! ## Specification -/

/- The leaves of a nested value, in order, each with the names on the way to it. -/
mutual
def leaves : Node → List (List Str × Value)
  | .leaf v => [([], v)]
  | .dict d => leavesOf d
  | .list l => leavesIn l

def leavesOf : List (Str × Node) → List (List Str × Value)
  | [] => []
  | (k, v) :: rest => (leaves v).map (fun pv => (k :: pv.1, pv.2)) ++ leavesOf rest

def leavesIn : List Node → List (List Str × Value)
  | [] => []
  | v :: rest => leaves v ++ leavesIn rest
end

/- No lists inside; the names in each dictionary are different, not empty and do not contain the character. -/
mutual
def Plain (c : Char) : Node → Prop
  | .leaf _ => True
  | .dict d => PlainOf c d
  | .list _ => False

def PlainOf (c : Char) : List (Str × Node) → Prop
  | [] => True
  | (k, v) :: rest => k ≠ [] ∧ c ∉ k ∧ k ∉ rest.map Prod.fst ∧ Plain c v ∧ PlainOf c rest
end

/-! ## Dictionaries -/

variable {β : Type}

theorem put_new (d : List (Str × β)) (k : Str) (v : β) (h : k ∉ d.map Prod.fst) : put d k v = d ++ [(k, v)] := by
  induction d with
  | nil => rfl
  | cons kv d ih =>
    have h1 : ¬ kv.1 = k := fun e => h (by simp [e])
    rw [put, if_neg h1, ih (fun e => h (by simp [e]))]
    rfl

theorem foldl_put (items : List (Str × β)) : ∀ d : List (Str × β), ((d ++ items).map Prod.fst).Nodup →
    items.foldl (fun d kv => put d kv.1 kv.2) d = d ++ items := by
  induction items with
  | nil => intro d _; simp
  | cons kv items ih =>
    intro d h
    rw [List.foldl_cons, put_new]
    · rw [ih]
      · simp
      · simpa using h
    · intro hk
      rw [List.map_append, List.nodup_append] at h
      exact h.2.2 _ hk _ (by simp) rfl

theorem toDict_of_nodup (items : List (Str × β)) (h : (items.map Prod.fst).Nodup) : toDict items = items :=
  foldl_put items [] h

/-! ## Paths -/

theorem join_cons (c : Char) (k : Str) (p : List Str) (hp : p ≠ []) : join [c] (k :: p) = k ++ c :: join [c] p := by
  cases p with
  | nil => exact absurd rfl hp
  | cons a p => simp [join]

theorem prefix_char (c : Char) (a b x y : Str) (ha : c ∉ a) (hb : c ∉ b) (h : a ++ c :: x = b ++ c :: y) : a = b ∧ x = y := by
  induction a generalizing b with
  | nil =>
    cases b with
    | nil => simpa using h
    | cons d b =>
      have : c = d := by simpa using congrArg List.head? h
      exact absurd (by simp [this]) hb
  | cons d a ih =>
    cases b with
    | nil =>
      have : d = c := by simpa using congrArg List.head? h
      exact absurd (by simp [this]) ha
    | cons e b =>
      simp only [List.cons_append, List.cons.injEq] at h
      obtain ⟨h1, h2⟩ := ih b (fun e => ha (by simp [e])) (fun e => hb (by simp [e])) h.2
      exact ⟨by rw [h.1, h1], h2⟩

/-- Names without the separator: different paths have different names. -/
theorem join_inj (c : Char) (p q : List Str) (hp : ∀ k ∈ p, c ∉ k ∧ k ≠ []) (hq : ∀ k ∈ q, c ∉ k ∧ k ≠ [])
    (h : join [c] p = join [c] q) : p = q := by
  induction p generalizing q with
  | nil =>
    cases q with
    | nil => rfl
    | cons b q =>
      have hb := (hq b (by simp)).2
      cases q with
      | nil => exact absurd h.symm hb
      | cons d q => rw [join_cons c b _ (by simp)] at h; simp [join] at h
  | cons a p ih =>
    cases q with
    | nil =>
      have ha := (hp a (by simp)).2
      cases p with
      | nil => exact absurd h ha
      | cons d p => rw [join_cons c a _ (by simp)] at h; simp [join] at h
    | cons b q =>
      have ha := (hp a (by simp)).1
      have hb := (hq b (by simp)).1
      cases p with
      | nil =>
        cases q with
        | nil => have : a = b := h
                 rw [this]
        | cons d q =>
          rw [join_cons c b _ (by simp)] at h
          have : a = b ++ c :: join [c] (d :: q) := h
          exact absurd (by rw [this]; simp) ha
      | cons x p =>
        rw [join_cons c a _ (by simp)] at h
        cases q with
        | nil =>
          have : a ++ c :: join [c] (x :: p) = b := h
          exact absurd (by rw [← this]; simp) hb
        | cons y q =>
          rw [join_cons c b _ (by simp)] at h
          obtain ⟨h1, h2⟩ := prefix_char c a b _ _ ha hb h
          rw [h1, ih (y :: q) (fun k hk => hp k (by simp [hk])) (fun k hk => hq k (by simp [hk])) h2]

/-- The names in a path are names of the record. -/
def PathOk (c : Char) (p : List Str) : Prop := ∀ k ∈ p, c ∉ k ∧ k ≠ []

mutual
theorem leaves_ok (c : Char) : ∀ n, Plain c n → ∀ pv ∈ leaves n, PathOk c pv.1
  | .leaf v, _, pv, hpv => by
    rw [leaves, List.mem_singleton] at hpv
    subst hpv
    intro k hk
    cases hk
  | .dict d, h, pv, hpv => by
    rw [leaves] at hpv
    rw [Plain] at h
    exact (leavesOf_ok c d h pv hpv).2.2
  | .list _, h, _, _ => by rw [Plain] at h; exact h.elim

theorem leavesOf_ok (c : Char) : ∀ d, PlainOf c d → ∀ pv ∈ leavesOf d,
    pv.1 ≠ [] ∧ pv.1.headD [] ∈ d.map Prod.fst ∧ PathOk c pv.1
  | [], _, _, hpv => by rw [leavesOf] at hpv; cases hpv
  | (k, v) :: rest, h, pv, hpv => by
    rw [PlainOf] at h
    rw [leavesOf, List.mem_append] at hpv
    rcases hpv with hpv | hpv
    · obtain ⟨qv, hq, rfl⟩ := List.mem_map.1 hpv
      have := leaves_ok c v h.2.2.2.1 qv hq
      refine ⟨by simp, by simp, ?_⟩
      intro x hx
      rcases List.mem_cons.1 hx with rfl | hx
      · exact ⟨h.2.1, h.1⟩
      · exact this x hx
    · obtain ⟨h1, h2, h3⟩ := leavesOf_ok c rest h.2.2.2.2 pv hpv
      exact ⟨h1, List.mem_cons_of_mem _ h2, h3⟩
end

mutual
theorem leaves_nodup (c : Char) : ∀ n, Plain c n → ((leaves n).map Prod.fst).Nodup
  | .leaf v, _ => by rw [leaves]; simp
  | .dict d, h => by
    rw [leaves]
    rw [Plain] at h
    exact leavesOf_nodup c d h
  | .list _, h => by rw [Plain] at h; exact h.elim

theorem leavesOf_nodup (c : Char) : ∀ d, PlainOf c d → ((leavesOf d).map Prod.fst).Nodup
  | [], _ => by rw [leavesOf]; simp
  | (k, v) :: rest, h => by
    rw [PlainOf] at h
    have hv := leaves_nodup c v h.2.2.2.1
    have hr := leavesOf_nodup c rest h.2.2.2.2
    rw [leavesOf, List.map_append, List.nodup_append]
    refine ⟨?_, hr, ?_⟩
    · rw [List.map_map]
      have : (Prod.fst ∘ fun (pv : List Str × Value) => (k :: pv.1, pv.2)) = (fun p => k :: p) ∘ Prod.fst := rfl
      rw [this, ← List.map_map]
      exact List.Pairwise.map _ (fun a b hab e => hab (by simpa using e)) hv
    · intro a ha b hb e
      subst e
      obtain ⟨pv, hpv, rfl⟩ := List.mem_map.1 ha
      obtain ⟨qv, -, rfl⟩ := List.mem_map.1 hpv
      obtain ⟨rv, hrv, he⟩ := List.mem_map.1 hb
      have := (leavesOf_ok c rest h.2.2.2.2 rv hrv).2.1
      rw [he] at this
      exact h.2.2.1 this
end

/-- The name of a leaf below `key`. -/
def below (c : Char) (key : Str) (p : List Str) : Str := if p = [] then key else key ++ c :: join [c] p

theorem below_cons (c : Char) (key k : Str) (p : List Str) : below c key (k :: p) = below c (key ++ c :: k) p := by
  unfold below
  rw [if_neg (by simp)]
  split
  · next h => subst h; rfl
  · next h => rw [join_cons c k p h]; simp

theorem below_cons_join (c : Char) (k : Str) (p : List Str) : join [c] (k :: p) = below c k p := by
  unfold below
  split
  · next h => subst h; rfl
  · next h => exact join_cons c k p h

theorem nodup_names (c : Char) (ls : List (List Str × Value)) (f : List Str → Str) (h : (ls.map Prod.fst).Nodup)
    (hf : ∀ a ∈ ls, ∀ b ∈ ls, f a.1 = f b.1 → a.1 = b.1) : ((ls.map (fun pv => (f pv.1, pv.2))).map Prod.fst).Nodup := by
  rw [List.map_map]
  have : (Prod.fst ∘ fun (pv : List Str × Value) => (f pv.1, pv.2)) = fun pv => f pv.1 := rfl
  rw [this]
  unfold List.Nodup at h ⊢
  rw [List.pairwise_map] at h ⊢
  refine List.Pairwise.imp_of_mem ?_ h
  intro a b ha hb hab e
  exact hab (hf a ha b hb e)

mutual
theorem flattenEntry_plain (c : Char) : ∀ (n : Node) (key : Str), Plain c n → key ≠ [] →
    flattenEntry [c] key n = (leaves n).map (fun pv => (below c key pv.1, pv.2))
  | .leaf v, key, _, _ => by rw [flattenEntry, leaves]; simp [below]
  | .dict d, key, h, hk => by
    rw [Plain] at h
    rw [flattenEntry, leaves, flattenItems_plain c d key h hk, toDict_of_nodup]
    refine nodup_names c _ _ (leavesOf_nodup c d h) ?_
    intro a ha b hb e
    obtain ⟨ha1, -, ha2⟩ := leavesOf_ok c d h a ha
    obtain ⟨hb1, -, hb2⟩ := leavesOf_ok c d h b hb
    unfold below at e
    rw [if_neg ha1, if_neg hb1] at e
    have e := List.append_cancel_left e
    injection e with _ e
    exact join_inj c _ _ ha2 hb2 e
  | .list _, _, h, _ => by rw [Plain] at h; exact h.elim

theorem flattenItems_plain (c : Char) : ∀ (d : List (Str × Node)) (parent : Str), PlainOf c d → parent ≠ [] →
    flattenItems [c] parent d = (leavesOf d).map (fun pv => (below c parent pv.1, pv.2))
  | [], _, _, _ => by rw [flattenItems, leavesOf]; rfl
  | (k, v) :: rest, parent, h, hp => by
    rw [PlainOf] at h
    rw [flattenItems, leavesOf, if_neg hp, flattenEntry_plain c v _ h.2.2.2.1 (by simp),
      flattenItems_plain c rest parent h.2.2.2.2 hp, List.map_append, List.map_map]
    congr 1
    refine List.map_congr_left ?_
    intro pv _
    show _ = (below c parent (k :: pv.1), pv.2)
    rw [below_cons, List.append_assoc]
    rfl
end

theorem flattenItems_top (c : Char) (d : List (Str × Node)) (h : PlainOf c d) :
    flattenItems [c] [] d = (leavesOf d).map (fun pv => (join [c] pv.1, pv.2)) := by
  induction d with
  | nil => rw [flattenItems, leavesOf]; rfl
  | cons kv rest ih =>
    obtain ⟨k, v⟩ := kv
    rw [PlainOf] at h
    rw [flattenItems, leavesOf, if_pos rfl, flattenEntry_plain c v k h.2.2.2.1 h.1, ih h.2.2.2.2, List.map_append,
      List.map_map]
    congr 1
    refine List.map_congr_left ?_
    intro pv _
    show _ = (join [c] (k :: pv.1), pv.2)
    rw [below_cons_join]

/-- **C56** for records without lists: flattening gives exactly one entry for each leaf, in order, named by the path to
it, and no two have the same name.  Missing: lists (see `C56_lists_fails`). -/
theorem C56_flatten_partial (c : Char) (d : List (Str × Node)) (h : PlainOf c d) :
    flatten [c] d = (leavesOf d).map (fun pv => (join [c] pv.1, pv.2)) ∧ ((flatten [c] d).map Prod.fst).Nodup := by
  have hn : (((leavesOf d).map (fun pv => (join [c] pv.1, pv.2))).map Prod.fst).Nodup := by
    refine nodup_names c _ _ (leavesOf_nodup c d h) ?_
    intro a ha b hb e
    exact join_inj c _ _ (leavesOf_ok c d h a ha).2.2 (leavesOf_ok c d h b hb).2.2 e
  have he : flatten [c] d = (leavesOf d).map (fun pv => (join [c] pv.1, pv.2)) := by
    unfold flatten
    rw [flattenItems_top c d h, toDict_of_nodup _ hn]
  exact ⟨he, by rw [he]; exact hn⟩

def demo : List (Str × Node) :=
  [("id".toList, .leaf (.int 1)), ("who".toList, .dict [("name".toList, .leaf (.str "x".toList)),
    ("home".toList, .dict [("city".toList, .leaf .none)])])]

example : PlainOf '.' demo := by simp [demo, PlainOf, Plain]

example : flatten ".".toList demo = [("id".toList, .int 1), ("who.name".toList, .str "x".toList),
    ("who.home.city".toList, .none)] := by decide +kernel

/-- **C56** fails for lists: the name of the list is not in the names of its members, so two lists with one member
each leave one entry. -/
theorem C56_lists_fails (sep a b : Str) (x y : Value) :
    flatten sep [(a, .list [.leaf x]), (b, .list [.leaf y])] = [("0".toList, y)] := by
  simp only [flatten, flattenItems, flattenEntry, flattenList, if_pos, List.append_nil]
  rfl

theorem flattenList_leaves (key : Str) (vs : List Value) (i : Nat) :
    flattenList key i (vs.map .leaf) = vs.mapIdx (fun j v => (natStr (i + j), v)) := by
  induction vs generalizing i with
  | nil => rw [List.map_nil, flattenList]; rfl
  | cons v vs ih =>
    rw [List.map_cons, flattenList, flattenEntry, ih (i + 1), List.mapIdx_cons]
    show (natStr i, v) :: _ = _
    rw [show i + 0 = i from rfl]
    refine congrArg _ ?_
    show vs.mapIdx _ = _
    congr 1
    funext j w
    rw [show i + 1 + j = i + (j + 1) by omega]

/-- A list of values, when it is all there is: each member is kept, in order, but under its position alone: the name of
the list is lost. -/
theorem C56_list_partial (sep a : Str) (vs : List Value) :
    flatten sep [(a, .list (vs.map .leaf))] = vs.mapIdx (fun j v => (natStr j, v)) := by
  have hn : ((vs.mapIdx (fun j v => (natStr j, v))).map Prod.fst).Nodup := by
    rw [List.Nodup, List.pairwise_iff_getElem]
    intro x y hx hy hxy e
    simp only [List.getElem_map, List.getElem_mapIdx] at e
    have := natStr_inj e
    omega
  simp only [flatten, flattenItems, flattenEntry, if_pos, List.append_nil]
  rw [flattenList_leaves]
  simp only [Nat.zero_add]
  rw [toDict_of_nodup _ hn]

example : flatten ".".toList [("tags".toList, .list [.leaf (.int 7), .leaf (.str "x".toList)])] =
    [("0".toList, .int 7), ("1".toList, .str "x".toList)] := C56_list_partial _ _ [.int 7, .str "x".toList]

/-- A dictionary inside a list: the name of the list stands where the separator should. -/
theorem C56_list_of_dicts_fails (sep a k : Str) (v : Value) :
    flatten sep [(a, .list [.dict [(k, .leaf v)]])] = [("0".toList ++ a ++ k, v)] := by
  have h0 : natStr 0 = "0".toList := rfl
  simp only [flatten, flattenItems, flattenEntry, flattenList, if_pos, List.append_nil, h0]
  rfl

/-- An empty dictionary or list has no leaves and leaves no trace. -/
theorem C56_empty (sep a : Str) : flatten sep [(a, .dict [])] = [] ∧ flatten sep [(a, .list [])] = [] := by
  constructor <;> simp [flatten, flattenItems, flattenEntry, flattenList, toDict]

/-- A name with the separator in it can collide with a path. -/
theorem C56_separator_fails (c : Char) (a b : Str) (ha : a ≠ []) (x y : Value) :
    flatten [c] [(a, .dict [(b, .leaf x)]), (a ++ c :: b, .leaf y)] = [(a ++ c :: b, y)] := by
  have e : a ++ [c] ++ b = a ++ c :: b := by simp
  simp only [flatten, flattenItems, flattenEntry, if_pos, if_neg ha, List.append_nil, e, toDict, List.foldl, put,
    List.nil_append, List.cons_append]

/-! ## Choosing, ordering and setting fields (C78) -/

theorem put_lookup (d : Record) (k k' : Str) (v : Value) :
    Record.lookup (put d k v) k' = if k' = k then some v else Record.lookup d k' := by
  unfold Record.lookup
  induction d with
  | nil =>
    rw [put, List.find?_cons, List.find?_nil]
    by_cases h : k' = k
    · subst h; simp
    · have : (k == k') = false := by simp; exact fun e => h e.symm
      simp [this, h]
  | cons kv d ih =>
    rw [put]
    by_cases hk : kv.1 = k
    · rw [if_pos hk, List.find?_cons, List.find?_cons]
      by_cases h : k' = k
      · subst h; simp
      · have h1 : (k == k') = false := by simp; exact fun e => h e.symm
        have h2 : (kv.1 == k') = false := by rw [hk]; exact h1
        simp [h1, h2, h]
    · rw [if_neg hk, List.find?_cons, List.find?_cons]
      by_cases h : kv.1 = k'
      · have h1 : (kv.1 == k') = true := by simp [h]
        have h2 : ¬ k' = k := fun e => hk (by rw [h, e])
        simp [h1, h2]
      · have h1 : (kv.1 == k') = false := by simp [h]
        simp only [h1]
        exact ih

theorem put_keys (d : List (Str × β)) (k : Str) (v : β) :
    (put d k v).map Prod.fst = if k ∈ d.map Prod.fst then d.map Prod.fst else d.map Prod.fst ++ [k] := by
  induction d with
  | nil => simp [put]
  | cons kv d ih =>
    rw [put]
    by_cases hk : kv.1 = k
    · rw [if_pos hk, if_pos (by simp [hk])]
      simp [hk]
    · have hk' : ¬ k = kv.1 := fun e => hk e.symm
      rw [if_neg hk, List.map_cons, ih]
      by_cases hm : k ∈ d.map Prod.fst
      · rw [if_pos hm, if_pos (by rw [List.map_cons]; exact List.mem_cons_of_mem _ hm)]
        rfl
      · rw [if_neg hm, if_neg (by rw [List.map_cons, List.mem_cons]; rintro (e | e); exacts [hk' e, hm e])]
        rfl

theorem foldl_lookup (f : Str → Value) (fields : List Str) (d : Record) (k : Str) :
    Record.lookup ((fields.map (fun k => (k, f k))).foldl (fun d kv => put d kv.1 kv.2) d) k =
      if k ∈ fields then some (f k) else Record.lookup d k := by
  induction fields generalizing d with
  | nil => simp
  | cons x fields ih =>
    rw [List.map_cons, List.foldl_cons, ih, put_lookup]
    by_cases h : k ∈ fields
    · simp [h]
    · by_cases hx : k = x
      · subst hx; simp [h]
      · simp [h, hx]

theorem foldl_nodup (items : List (Str × β)) (d : List (Str × β)) (h : (d.map Prod.fst).Nodup) :
    ((items.foldl (fun d kv => put d kv.1 kv.2) d).map Prod.fst).Nodup := by
  induction items generalizing d with
  | nil => exact h
  | cons kv items ih =>
    rw [List.foldl_cons]
    refine ih _ ?_
    rw [put_keys]
    split
    · exact h
    · next hk =>
      rw [List.nodup_append]
      refine ⟨h, by simp, ?_⟩
      intro a ha b hb e
      rw [List.mem_singleton] at hb
      exact hk (by rw [← hb, ← e]; exact ha)

/-- **C78**: choosing fields gives each chosen field with the record's value, or None when the record does not have it,
and no other field. -/
theorem C78_select (r : Record) (fields : List Str) (k : Str) :
    (selectFields r fields).lookup k = (if k ∈ fields then some ((r.lookup k).getD .none) else none) ∧
      (selectFields r fields).WF := by
  constructor
  · exact foldl_lookup r.get fields [] k
  · exact foldl_nodup _ [] (by simp)

/-- Fields named once stay in the order they are named in. -/
theorem C78_select_order (r : Record) (fields : List Str) (h : fields.Nodup) :
    selectFields r fields = fields.map (fun k => (k, (r.lookup k).getD .none)) := by
  refine toDict_of_nodup _ ?_
  rw [List.map_map]
  simpa [Function.comp_def] using h

example : selectFields [("a".toList, .int 1), ("b".toList, .int 2)] ["b".toList, "z".toList] =
    [("b".toList, .int 2), ("z".toList, .none)] := by decide

theorem itemLe_preorder : TotalPreorder itemLe where
  total a b := strLe_preorder.total a.1 b.1
  trans a b c h1 h2 := strLe_preorder.trans a.1 b.1 c.1 h1 h2

/-- **C78**: ordering a record keeps its fields and puts the names in ascending order. -/
theorem C78_order (r : Record) (h : r.WF) :
    (order r).Perm r ∧ ((order r).map Prod.fst).Pairwise (fun a b => a < b) := by
  have hp := sorted_perm itemLe r
  have hn : ((sorted itemLe r).map Prod.fst).Nodup := (hp.map Prod.fst).nodup_iff.2 h
  have he : order r = sorted itemLe r := toDict_of_nodup _ hn
  rw [he]
  refine ⟨hp, ?_⟩
  have hs := sorted_pairwise itemLe_preorder r
  unfold List.Nodup at hn
  rw [List.pairwise_map] at hn ⊢
  refine List.Pairwise.imp₂ ?_ hs hn
  intro a b h1 h2
  have h1 : a.1 ≤ b.1 := by simpa [itemLe, strLe] using h1
  by_contra hlt
  exact h2 (strLe_antisymm (by simpa [strLe] using h1) (by simpa [strLe] using hlt))

example : order [("b".toList, .int 2), ("a".toList, .int 1)] = [("a".toList, .int 1), ("b".toList, .int 2)] := by
  decide +kernel

/-- **C78**: setting a field sets that field to the result of the setter on the record and leaves every other field
as it was, in its place. -/
theorem C78_set (r : Record) (field : Str) (setter : Record → Value) :
    (setValue r field setter).lookup field = some (setter r) ∧
    (∀ k, k ≠ field → (setValue r field setter).lookup k = r.lookup k) ∧
    (setValue r field setter).keys = (if field ∈ r.keys then r.keys else r.keys ++ [field]) := by
  refine ⟨?_, ?_, put_keys r field (setter r)⟩
  · exact (put_lookup r field field _).trans (if_pos rfl)
  · intro k hk
    exact (put_lookup r field k _).trans (if_neg hk)

example : setValue [("a".toList, .int 1), ("b".toList, .int 2)] "a".toList (fun r => r.get "b".toList) =
    [("a".toList, .int 2), ("b".toList, .int 2)] := by decide

end Mabel.Records
