import Verif.Model.Collected
import Verif.Spec.Collected
import Verif.Lemmas.DictSet
import Verif.Lemmas.Listing
import Mathlib.Data.List.Induction

/-! # Collected sets (C59) -/

namespace Mabel.Collected
open Mabel.Py

/-! ## Specification -/

/-- The records whose value for the column is, to Python, that value; a record without the column has None. -/
def having (column : Str) (v : Value) (l : List Record) : List Record :=
  l.filter (fun r => norm (r.get column) == norm v)

/-- The collections there should be: one for each value, in order of first appearance; in each, the records with that
value, in order, without the column. -/
structure Grouped (column : Str) (l : List Record) (cs : Collections) : Prop where
  keys : cs.map (fun kv => norm kv.1) = dedup (l.map (fun r => norm (r.get column)))
  groups : ∀ kv ∈ cs, kv.2 = (having column kv.1 l).map (without column)

/-! ## Grouping -/

theorem dedup_append_mem {α : Type} [DecidableEq α] (l : List α) (x : α) (h : x ∈ l) : dedup (l ++ [x]) = dedup l := by
  induction l with
  | nil => cases h
  | cons y l ih =>
    rw [List.cons_append, dedup, dedup]
    by_cases hl : x ∈ l
    · rw [ih hl]
    · have hxy : x = y := by
        rcases List.mem_cons.1 h with h | h
        · exact h
        · exact absurd h hl
      subst hxy
      congr 1
      have : ∀ l : List α, x ∉ l → dedup (l ++ [x]) = dedup l ++ [x] := by
        intro l
        induction l with
        | nil => intro _; rfl
        | cons z l ih =>
          intro hz
          rw [List.cons_append, dedup, dedup, ih (fun e => hz (by simp [e])), List.filter_append]
          have : x ≠ z := fun e => hz (by simp [e])
          simp [this]
      rw [this l hl, List.filter_append]
      simp

theorem dedup_append_new {α : Type} [DecidableEq α] (x : α) : ∀ l : List α, x ∉ l → dedup (l ++ [x]) = dedup l ++ [x] := by
  intro l
  induction l with
  | nil => intro _; rfl
  | cons z l ih =>
    intro hz
    rw [List.cons_append, dedup, dedup, ih (fun e => hz (by simp [e])), List.filter_append]
    have : x ≠ z := fun e => hz (by simp [e])
    simp [this]

theorem append_keys (cs : Collections) (key : Value) (item : Record) :
    (append cs key item).map (fun kv => norm kv.1) =
      if norm key ∈ cs.map (fun kv => norm kv.1) then cs.map (fun kv => norm kv.1)
      else cs.map (fun kv => norm kv.1) ++ [norm key] := by
  induction cs with
  | nil => rfl
  | cons kv cs ih =>
    obtain ⟨k, its⟩ := kv
    rw [append]
    by_cases h : norm k = norm key
    · rw [if_pos h, if_pos (by simp [h])]
      rfl
    · have h' : ¬ norm key = norm k := fun e => h e.symm
      rw [if_neg h, List.map_cons, ih]
      by_cases hm : norm key ∈ cs.map (fun kv => norm kv.1)
      · rw [if_pos hm, if_pos (by rw [List.map_cons]; exact List.mem_cons_of_mem _ hm)]
        rfl
      · rw [if_neg hm, if_neg (by rw [List.map_cons, List.mem_cons]; rintro (e | e); exacts [h' e, hm e])]
        rfl

theorem append_groups (cs : Collections) (hn : (cs.map (fun kv => norm kv.1)).Nodup) (key : Value) (item : Record)
    (kv : Value × List Record) (h : kv ∈ append cs key item) :
    (norm kv.1 ≠ norm key ∧ kv ∈ cs) ∨
    (norm kv.1 = norm key ∧ ((∃ old, (kv.1, old) ∈ cs ∧ kv.2 = old ++ [item]) ∨
      (norm key ∉ cs.map (fun kv => norm kv.1) ∧ kv.2 = [item]))) := by
  induction cs with
  | nil =>
    rw [append, List.mem_singleton] at h
    subst h
    exact Or.inr ⟨rfl, Or.inr ⟨by simp, rfl⟩⟩
  | cons x cs ih =>
    obtain ⟨k, its⟩ := x
    rw [List.map_cons, List.nodup_cons] at hn
    rw [append] at h
    by_cases hk : norm k = norm key
    · rw [if_pos hk] at h
      rcases List.mem_cons.1 h with rfl | h
      · exact Or.inr ⟨hk, Or.inl ⟨its, by simp, rfl⟩⟩
      · refine Or.inl ⟨?_, by simp [h]⟩
        intro e
        exact hn.1 (by rw [hk, ← e]; exact List.mem_map.2 ⟨kv, h, rfl⟩)
    · rw [if_neg hk] at h
      rcases List.mem_cons.1 h with rfl | h
      · exact Or.inl ⟨hk, by simp⟩
      · rcases ih hn.2 h with ⟨h1, h2⟩ | ⟨h1, ⟨old, h2, h3⟩ | ⟨h2, h3⟩⟩
        · exact Or.inl ⟨h1, by simp [h2]⟩
        · exact Or.inr ⟨h1, Or.inl ⟨old, by simp [h2], h3⟩⟩
        · refine Or.inr ⟨h1, Or.inr ⟨?_, h3⟩⟩
          rw [List.map_cons, List.mem_cons]
          rintro (e | e)
          · exact hk e.symm
          · exact h2 e

theorem append_grouped (column : Str) (l : List Record) (cs : Collections) (h : Grouped column l cs) (r : Record) :
    Grouped column (l ++ [r]) (append cs (r.get column) (without column r)) := by
  have hn : (cs.map (fun kv => norm kv.1)).Nodup := by rw [h.keys]; exact dedup_nodup _
  have hmem : norm (r.get column) ∈ cs.map (fun kv => norm kv.1) ↔ norm (r.get column) ∈ l.map (fun r => norm (r.get column)) := by
    rw [h.keys, dedup_mem]
  constructor
  · rw [append_keys, List.map_append, h.keys, List.map_singleton]
    by_cases hm : norm (r.get column) ∈ l.map (fun r => norm (r.get column))
    · rw [if_pos (dedup_mem.2 hm), dedup_append_mem _ _ hm]
    · rw [if_neg (fun e => hm (dedup_mem.1 e)), dedup_append_new _ _ hm]
  · intro kv hkv
    have hhav : having column kv.1 (l ++ [r]) = having column kv.1 l ++
        (if norm (r.get column) = norm kv.1 then [r] else []) := by
      unfold having
      rw [List.filter_append]
      congr 1
      rw [List.filter_singleton]
      by_cases e : norm (r.get column) = norm kv.1
      · simp [e]
      · have : (norm (r.get column) == norm kv.1) = false := by simp [e]
        rw [this, if_neg e]
        rfl
    rw [hhav, List.map_append]
    rcases append_groups cs hn _ _ kv hkv with ⟨h1, h2⟩ | ⟨h1, ⟨old, h2, h3⟩ | ⟨h2, h3⟩⟩
    · rw [if_neg (fun e => h1 e.symm), h.groups kv h2]
      simp
    · have := h.groups _ h2
      simp only at this
      rw [if_pos h1.symm, h3, this]
      rfl
    · rw [if_pos h1.symm, h3]
      have : having column kv.1 l = [] := by
        unfold having
        rw [List.filter_eq_nil_iff]
        intro x hx e
        have e : norm (x.get column) = norm kv.1 := by simpa using e
        exact h2 (hmem.2 (List.mem_map.2 ⟨x, hx, by rw [e, h1]⟩))
      rw [this]
      rfl

theorem collectLoop_grouped (column : Str) (l : List Record) : ∀ (done : List Record) (cs : Collections),
    Grouped column done cs → Grouped column (done ++ l) (collectLoop column cs l) := by
  induction l with
  | nil => intro done cs h; simpa [collectLoop] using h
  | cons r l ih =>
    intro done cs h
    rw [collectLoop]
    have := ih (done ++ [r]) _ (append_grouped column done cs h r)
    simpa using this

theorem grouped (column : Str) (l : List Record) : Grouped column l (collectLoop column [] l) :=
  collectLoop_grouped column l [] [] ⟨rfl, by simp⟩

/-- **C59**: collecting by a column makes one collection for each value the column has, in order of first appearance,
and each has exactly the records with that value, in order, without the column.  (Values are compared as Python
compares them; a record without the column counts as having None.) -/
theorem C59_collect (hash : Str → BitVec 64) (column : Str) (l : List Record) :
    let cs := collect hash column false l
    cs.map (fun kv => norm kv.1) = dedup (l.map (fun r => norm (r.get column))) ∧
    (∀ kv ∈ cs, kv.2 = (having column kv.1 l).map (without column)) ∧
    (cs.map (fun kv => kv.2.length)).sum = l.length := by
  have h := grouped column l
  refine ⟨h.keys, h.groups, ?_⟩
  show ((collectLoop column [] l).map (fun kv => kv.2.length)).sum = l.length
  have : ∀ (l : List Record) (cs : Collections), ((collectLoop column cs l).map (fun kv => kv.2.length)).sum =
      (cs.map (fun kv => kv.2.length)).sum + l.length := by
    intro l
    induction l with
    | nil => intro cs; rfl
    | cons r l ih =>
      intro cs
      rw [collectLoop, ih]
      have : ∀ (cs : Collections) (k : Value) (i : Record), ((append cs k i).map (fun kv => kv.2.length)).sum =
          (cs.map (fun kv => kv.2.length)).sum + 1 := by
        intro cs k i
        induction cs with
        | nil => rfl
        | cons x cs ih =>
          rw [append]
          split
          · simp; omega
          · simp [ih]; omega
      rw [this]
      simp
      omega
  rw [this]
  simp

def demo : List Record :=
  [[("c".toList, .str "x".toList), ("n".toList, .int 1)], [("c".toList, .str "y".toList), ("n".toList, .int 2)],
   [("n".toList, .int 3), ("c".toList, .str "x".toList)], [("n".toList, .int 4)]]

example (hash : Str → BitVec 64) : collect hash "c".toList false demo =
    [(.str "x".toList, [[("n".toList, .int 1)], [("n".toList, .int 3)]]), (.str "y".toList, [[("n".toList, .int 2)]]),
     (.none, [[("n".toList, .int 4)]])] :=
  show collectLoop "c".toList [] demo = _ by decide +kernel

theorem same_iff {a b : Value} : Spec.Same a b ↔ norm a = norm b := by
  constructor
  · rintro (_ | _ | _ | _ | _) <;> rfl
  · intro h
    cases a with
    | bool x =>
      cases b with
      | bool y => cases x <;> cases y <;> first | exact .same _ | cases h
      | int j => cases x <;> cases h <;> constructor
      | none => cases h
      | str s => cases h
    | int i =>
      cases b with
      | bool y => cases y <;> cases h <;> constructor
      | int j => cases h; exact .same _
      | none => cases h
      | str s => cases h
    | none => cases b <;> first | exact .same _ | cases h
    | str s => cases b <;> cases h <;> exact .same _

theorem collectLoop_concat (column : Str) (r : Record) (l : List Record) : ∀ cs,
    collectLoop column cs (l ++ [r]) = append (collectLoop column cs l) (r.get column) (without column r) := by
  induction l with
  | nil => intro cs; rfl
  | cons x l ih => intro cs; exact ih _

theorem append_names (cs : Collections) (k : Value) (x : Record) :
    ((∃ c ∈ cs, norm c.1 = norm k) ∧ (append cs k x).map (·.1) = cs.map (·.1)) ∨
    ((∀ c ∈ cs, norm c.1 ≠ norm k) ∧ (append cs k x).map (·.1) = cs.map (·.1) ++ [k]) := by
  induction cs with
  | nil => exact .inr ⟨nofun, rfl⟩
  | cons c cs ih =>
    obtain ⟨c, items⟩ := c
    unfold append
    split
    · rename_i h
      exact .inl ⟨⟨_, List.mem_cons_self .., h⟩, rfl⟩
    · rename_i h
      rcases ih with ⟨⟨d, hd, h1⟩, h2⟩ | ⟨h1, h2⟩
      · exact .inl ⟨⟨d, List.mem_cons_of_mem _ hd, h1⟩, by simp [h2]⟩
      · refine .inr ⟨fun d hd => ?_, by simp [h2]⟩
        rcases List.mem_cons.1 hd with rfl | hd
        · exact h
        · exact h1 d hd

/-- **C59**: the collections of a set by a column, as the specification describes them. -/
theorem C59_groups (hash : Str → BitVec 64) (column : Str) (l : List Record) : Spec.Groups column l (collect hash column false l) := by
  have h := grouped column l
  have hcs : collect hash column false l = collectLoop column [] l := rfl
  rw [hcs]
  have keys : ((collectLoop column [] l).map (·.1)).Sublist (l.map (·.get column)) ∧
      ∀ k ∈ (collectLoop column [] l).map (·.1), ∃ before r after, l = before ++ r :: after ∧ r.get column = k ∧
        ∀ x ∈ before, ¬ Spec.Same (x.get column) k := by
    clear h hcs
    induction l using List.reverseRecOn with
    | nil => exact ⟨.slnil, nofun⟩
    | append_singleton l r ih =>
      rw [collectLoop_concat, List.map_append]
      have old : ∀ k ∈ (collectLoop column [] l).map (·.1), ∃ before x after, l ++ [r] = before ++ x :: after ∧ x.get column = k ∧
          ∀ y ∈ before, ¬ Spec.Same (y.get column) k := by
        intro k hk
        obtain ⟨a, x, b, h1, h2, h3⟩ := ih.2 k hk
        exact ⟨a, x, b ++ [r], by rw [h1]; simp, h2, h3⟩
      rcases append_names (collectLoop column [] l) (r.get column) (without column r) with ⟨_, h⟩ | ⟨h1, h⟩
      · rw [h]
        exact ⟨ih.1.trans (List.sublist_append_left ..), old⟩
      · rw [h]
        refine ⟨ih.1.append (.refl _), fun k hk => ?_⟩
        rcases List.mem_append.1 hk with hk | hk
        · exact old k hk
        · rw [List.mem_singleton.1 hk]
          refine ⟨l, r, [], rfl, rfl, fun x hx hs => ?_⟩
          have : norm (x.get column) ∈ (collectLoop column [] l).map (fun kv => norm kv.1) := by
            rw [(grouped column l).keys, dedup_mem]
            exact List.mem_map.2 ⟨x, hx, rfl⟩
          obtain ⟨c, hc, he⟩ := List.mem_map.1 this
          exact h1 c hc (he.trans (same_iff.1 hs))
  refine ⟨?_, ?_, keys.1, fun c hc => keys.2 _ (List.mem_map_of_mem hc), ?_⟩
  · have := dedup_nodup (l.map (fun r => norm (r.get column)))
    rw [← h.keys, List.nodup_iff_pairwise_ne, List.pairwise_map] at this
    exact this.imp (fun hn hs => hn (same_iff.1 hs))
  · intro r hr
    have : norm (r.get column) ∈ (collectLoop column [] l).map (fun kv => norm kv.1) := by
      rw [h.keys, dedup_mem]
      exact List.mem_map.2 ⟨r, hr, rfl⟩
    obtain ⟨c, hc, he⟩ := List.mem_map.1 this
    exact ⟨c, hc, same_iff.2 he.symm⟩
  · intro c hc has hhas
    rw [h.groups c hc]
    have e1 : l.filter has = having column c.1 l := by
      unfold having
      refine List.filter_congr (fun r _ => ?_)
      rw [Bool.eq_iff_iff, hhas, same_iff]
      simp
    rw [e1]
    refine List.map_congr_left (fun r _ => ?_)
    unfold without
    refine List.filter_congr (fun kv _ => ?_)
    rw [Bool.eq_iff_iff]
    simp

/-! ## Asking -/

theorem find_group (column : Str) (l : List Record) (cs : Collections) (h : Grouped column l cs) (v : Value) :
    get cs v = (having column v l).map (without column) := by
  unfold get
  cases hf : cs.find? (fun kv => norm kv.1 == norm v) with
  | some kv =>
    have hk : norm kv.1 = norm v := by simpa using List.find?_some hf
    have := h.groups kv (List.mem_of_find?_eq_some hf)
    simp only [Option.map_some, Option.getD_some]
    rw [this]
    unfold having
    rw [hk]
  | none =>
    rw [List.find?_eq_none] at hf
    have : having column v l = [] := by
      unfold having
      rw [List.filter_eq_nil_iff]
      intro r hr e
      have e : norm (r.get column) = norm v := by simpa using e
      have : norm v ∈ cs.map (fun kv => norm kv.1) := by
        rw [h.keys, dedup_mem]
        exact List.mem_map.2 ⟨r, hr, e⟩
      obtain ⟨kv, hkv, hk⟩ := List.mem_map.1 this
      exact hf kv hkv (by simpa using hk)
    rw [this]
    rfl

/-- **C59**: a collection asked for by its value is the records with that value; its values for a column are theirs. -/
theorem C59_get (hash : Str → BitVec 64) (column : Str) (l : List Record) (v : Value) :
    get (collect hash column false l) v = (having column v l).map (without column) :=
  find_group column l _ (grouped column l) v

theorem lookup_without (column k : Str) (h : k ≠ column) (r : Record) : (without column r).lookup k = r.lookup k := by
  unfold Record.lookup without
  induction r with
  | nil => rfl
  | cons kv r ih =>
    rw [List.filter_cons]
    by_cases hk : kv.1 = column
    · have h1 : (kv.1 != column) = false := by simp [hk]
      have h2 : (kv.1 == k) = false := by rw [hk]; simp; exact fun e => h e.symm
      simp only [h1, List.find?_cons, h2]
      exact ih
    · have h1 : (kv.1 != column) = true := by simp [hk]
      simp only [h1, if_true, List.find?_cons]
      split
      · rfl
      · exact ih

theorem C59_values (hash : Str → BitVec 64) (column : Str) (l : List Record) (v : Value) (k : Str) (h : k ≠ column) :
    subValues (collect hash column false l) v k = (having column v l).filterMap (fun r => r.lookup k) := by
  unfold subValues
  rw [C59_get]
  unfold DictSet.collectList
  rw [List.filterMap_map]
  refine List.filterMap_congr ?_
  intro r _
  exact lookup_without column k h r

/-- The column collected by is gone from the records: asked for, it is empty. -/
theorem C59_own_column (hash : Str → BitVec 64) (column : Str) (l : List Record) (v : Value) :
    subValues (collect hash column false l) v column = [] := by
  unfold subValues
  rw [C59_get]
  unfold DictSet.collectList
  rw [List.filterMap_map, List.filterMap_eq_nil_iff]
  intro r _
  show (without column r).lookup column = none
  unfold Record.lookup without
  rw [Option.map_eq_none_iff, List.find?_eq_none]
  intro x hx e
  have h1 := (List.mem_filter.1 hx).2
  simp at h1 e
  exact h1 e

/-- **C59**: the number of records with a value that is not None. -/
theorem C59_count (hash : Str → BitVec 64) (column : Str) (l : List Record) (v : Value) (hv : v ≠ .none) :
    count (collect hash column false l) v = .one (having column v l).length := by
  have h := grouped column l
  have hcs : collect hash column false l = collectLoop column [] l := rfl
  rw [hcs]
  generalize collectLoop column [] l = cs at h
  have hn : (cs.map (fun kv => norm kv.1)).Nodup := by rw [h.keys]; exact dedup_nodup _
  have hg := find_group column l cs h v
  have key : ((cs.filter (fun kv => norm kv.1 == norm v)).map (fun kv => kv.2.length)).getLast? =
      (cs.find? (fun kv => norm kv.1 == norm v)).map (fun kv => kv.2.length) := by
    clear h hg hcs
    induction cs with
    | nil => rfl
    | cons x cs ih =>
      rw [List.map_cons, List.nodup_cons] at hn
      rw [List.filter_cons, List.find?_cons]
      by_cases hx : norm x.1 = norm v
      · have hb : (norm x.1 == norm v) = true := by simp [hx]
        have : cs.filter (fun kv => norm kv.1 == norm v) = [] := by
          rw [List.filter_eq_nil_iff]
          intro y hy e
          exact hn.1 (by rw [hx]; exact List.mem_map.2 ⟨y, hy, by simpa using e⟩)
        simp only [hb, if_true, this]
        rfl
      · have hb : (norm x.1 == norm v) = false := by simp [hx]
        simp only [hb]
        exact ih hn.2
  have hlen : (get cs v).length = ((cs.find? (fun kv => norm kv.1 == norm v)).map (fun kv => kv.2.length)).getD 0 := by
    unfold get
    cases cs.find? (fun kv => norm kv.1 == norm v) <;> rfl
  rw [hg, List.length_map] at hlen
  have : count cs v = match ((cs.filter (fun kv => norm kv.1 == norm v)).map (fun kv => kv.2.length)).getLast? with
    | some n => .one n
    | none => .one 0 := by
    cases v with
    | none => exact absurd rfl hv
    | _ => rfl
  rw [this, key, hlen]
  cases cs.find? (fun kv => norm kv.1 == norm v) <;> rfl

/-- Counting everything counts every collection. -/
theorem C59_count_all (cs : Collections) : count cs .none = .each (cs.map (fun kv => (kv.1, kv.2.length))) := rfl

/-- **C59** fails for None: the records without a value cannot be counted by asking for None, whatever they are. -/
theorem C59_count_none_fails (cs : Collections) (n : Nat) : count cs .none ≠ .one n := by
  intro h; cases h

theorem having_of {column : Str} {v : Value} {l : List Record} {has : Record → Bool}
    (hhas : ∀ r, has r = true ↔ Spec.Same (r.get column) v) : having column v l = l.filter has := by
  unfold having
  refine List.filter_congr (fun r _ => ?_)
  rw [Bool.eq_iff_iff, hhas, same_iff]
  simp

/-- **C59**: asked for a value, a collected set gives exactly the records that have it, and counts them. -/
theorem C59_asked (hash : Str → BitVec 64) (column : Str) (l : List Record) (v : Value) (has : Record → Bool)
    (hhas : ∀ r, has r = true ↔ Spec.Same (r.get column) v) :
    get (collect hash column false l) v = (l.filter has).map (fun r => r.filter (fun kv => decide (kv.1 ≠ column))) ∧
    (v ≠ .none → count (collect hash column false l) v = .one (l.filter has).length) := by
  constructor
  · rw [C59_get, having_of hhas]
    refine List.map_congr_left (fun r _ => List.filter_congr (fun kv _ => ?_))
    rw [Bool.eq_iff_iff]
    simp
  · intro hv
    rw [C59_count hash column l v hv, having_of hhas]

/-- Non-vacuity: which records have a value can be told. -/
example (v : Value) : ∃ has : Record → Bool, ∀ r, has r = true ↔ Spec.Same (r.get "c".toList) v :=
  ⟨fun r => norm (r.get "c".toList) == norm v, fun r => by rw [same_iff]; simp⟩

/-- **C59**: an aggregation is given, for each collection, the values of its records that are not None, in order. -/
theorem C59_aggregate {β : Type} (hash : Str → BitVec 64) (column k : Str) (hk : k ≠ column) (l : List Record)
    (method : List Value → β) :
    aggregate (collect hash column false l) k method = (collect hash column false l).map (fun kv =>
      (kv.1, method (((having column kv.1 l).map (·.get k)).filter (· != .none)))) := by
  unfold aggregate
  refine List.map_congr_left ?_
  intro kv hkv
  rw [(grouped column l).groups kv hkv, List.map_map]
  have : (Record.get · k) ∘ without column = (Record.get · k) := by
    funext r
    show ((without column r).lookup k).getD _ = (r.lookup k).getD _
    rw [lookup_without column k hk]
  rw [this]

/-- **C59**: the items are the records without the column, each with its value, collection by collection: as many as
there are records. -/
theorem C59_items (hash : Str → BitVec 64) (column : Str) (l : List Record) :
    (items (collect hash column false l)).length = l.length ∧
    ∀ v r, (v, r) ∈ items (collect hash column false l) →
      ∃ x ∈ l, norm (x.get column) = norm v ∧ r = without column x := by
  constructor
  · unfold items
    rw [List.length_flatMap]
    simp only [List.length_map]
    exact (C59_collect hash column l).2.2
  · intro v r h
    unfold items at h
    obtain ⟨kv, hkv, hr⟩ := List.mem_flatMap.1 h
    obtain ⟨i, hi, he⟩ := List.mem_map.1 hr
    injection he with h1 h2
    subst h1; subst h2
    rw [(grouped column l).groups kv hkv] at hi
    obtain ⟨x, hx, rfl⟩ := List.mem_map.1 hi
    have := List.mem_filter.1 hx
    exact ⟨x, this.1, by simpa using this.2, rfl⟩

theorem contains_same (hash : Str → BitVec 64) (column : Str) (l : List Record) (v : Value) :
    contains (collect hash column false l) v = true ↔ ∃ r ∈ l, Spec.Same (r.get column) v := by
  have hk := (C59_collect hash column l).1
  have hm : ∀ x, x ∈ (collect hash column false l).map (fun kv => norm kv.1) ↔ x ∈ l.map (fun r => norm (r.get column)) := by
    intro x; rw [hk]; exact dedup_mem
  unfold contains
  rw [List.any_eq_true]
  constructor
  · rintro ⟨kv, hkv, e⟩
    obtain ⟨r, hr, e'⟩ := List.mem_map.1 ((hm _).1 (List.mem_map.2 ⟨kv, hkv, rfl⟩))
    exact ⟨r, hr, same_iff.2 (e'.trans (by simpa using e))⟩
  · rintro ⟨r, hr, e⟩
    obtain ⟨kv, hkv, e'⟩ := List.mem_map.1 ((hm _).2 (List.mem_map.2 ⟨r, hr, rfl⟩))
    exact ⟨kv, hkv, by simpa using e'.trans (same_iff.1 e)⟩

/-- **C59** fails for several collections at once: as soon as one of those asked for exists, it is a KeyError; and only
then, otherwise there are none. -/
theorem C59_several_fails (hash : Str → BitVec 64) (column : Str) (l : List Record) (entries : List Value) :
    ((∃ v ∈ entries, ∃ r ∈ l, Spec.Same (r.get column) v) → getMany (collect hash column false l) entries = .error .keyError) ∧
    ((∀ v ∈ entries, ∀ r ∈ l, ¬ Spec.Same (r.get column) v) → getMany (collect hash column false l) entries = .ok []) := by
  induction entries with
  | nil => exact ⟨fun h => (by obtain ⟨v, hv, _⟩ := h; cases hv), fun _ => rfl⟩
  | cons e entries ih =>
    rw [getMany]
    split
    · next h =>
      refine ⟨fun _ => rfl, fun hno => ?_⟩
      obtain ⟨r, hr, hs⟩ := (contains_same hash column l e).1 h
      exact absurd hs (hno e List.mem_cons_self r hr)
    · next h =>
      refine ⟨fun ⟨v, hv, r, hr, hs⟩ => ?_, fun hno => ih.2 fun v hv => hno v (List.mem_cons_of_mem _ hv)⟩
      rcases List.mem_cons.1 hv with rfl | hv
      · exact absurd ((contains_same hash column l v).2 ⟨r, hr, hs⟩) h
      · exact ih.1 ⟨v, hv, r, hr, hs⟩

example (hash : Str → BitVec 64) : getMany (collect hash "c".toList false demo) [.str "none".toList, .str "y".toList] = .error .keyError ∧
    getMany (collect hash "c".toList false demo) [.str "none".toList] = .ok [] :=
  show getMany (collectLoop "c".toList [] demo) _ = _ ∧ getMany (collectLoop "c".toList [] demo) _ = _ by
    constructor <;> rfl

/-! ## Without duplicates -/

theorem sameItems_refl (a : Record) : sameItems a a = true := by
  unfold sameItems
  simp only [Bool.and_eq_true, List.all_eq_true, List.any_eq_true]
  exact ⟨fun x hx => ⟨x, hx, by simp⟩, fun x hx => ⟨x, hx, by simp⟩⟩

theorem sameItems_symm (a b : Record) (h : sameItems a b = true) : sameItems b a = true := by
  unfold sameItems at h ⊢
  simp only [Bool.and_eq_true, List.all_eq_true, List.any_eq_true, beq_iff_eq] at h ⊢
  exact ⟨fun x hx => let ⟨y, hy, e1, e2⟩ := h.2 x hx; ⟨y, hy, e1.symm, e2.symm⟩,
    fun x hx => let ⟨y, hy, e1, e2⟩ := h.1 x hx; ⟨y, hy, e1.symm, e2.symm⟩⟩

theorem sameItems_trans (a b c : Record) (h1 : sameItems a b = true) (h2 : sameItems b c = true) : sameItems a c = true := by
  unfold sameItems at h1 h2 ⊢
  simp only [Bool.and_eq_true, List.all_eq_true, List.any_eq_true, beq_iff_eq] at h1 h2 ⊢
  constructor
  · intro x hx
    obtain ⟨y, hy, e1, e2⟩ := h1.1 x hx
    obtain ⟨z, hz, e3, e4⟩ := h2.1 y hy
    exact ⟨z, hz, e1.trans e3, e2.trans e4⟩
  · intro z hz
    obtain ⟨y, hy, e1, e2⟩ := h2.2 z hz
    obtain ⟨x, hx, e3, e4⟩ := h1.2 y hy
    exact ⟨x, hx, e3.trans e1, e4.trans e2⟩

theorem putItem_mem (l : List Record) (i x : Record) (h : x ∈ putItem l i) : x = i ∨ x ∈ l := by
  induction l with
  | nil => simpa [putItem] using h
  | cons y l ih =>
    rw [putItem] at h
    split at h
    · rcases List.mem_cons.1 h with h | h
      · exact Or.inl h
      · exact Or.inr (by simp [h])
    · rcases List.mem_cons.1 h with h | h
      · exact Or.inr (by simp [h])
      · rcases ih h with h | h
        · exact Or.inl h
        · exact Or.inr (by simp [h])

theorem putItem_covers (l : List Record) (i : Record) : (∃ y ∈ putItem l i, sameItems i y = true) ∧
    ∀ x ∈ l, ∃ y ∈ putItem l i, sameItems x y = true := by
  induction l with
  | nil => exact ⟨⟨i, by simp [putItem], sameItems_refl i⟩, by simp⟩
  | cons z l ih =>
    rw [putItem]
    split
    · next h =>
      refine ⟨⟨i, by simp, sameItems_refl i⟩, ?_⟩
      intro x hx
      rcases List.mem_cons.1 hx with rfl | hx
      · exact ⟨i, by simp, h⟩
      · exact ⟨x, by simp [hx], sameItems_refl x⟩
    · obtain ⟨⟨y, hy, h1⟩, h2⟩ := ih
      refine ⟨⟨y, by simp [hy], h1⟩, ?_⟩
      intro x hx
      rcases List.mem_cons.1 hx with rfl | hx
      · exact ⟨x, by simp, sameItems_refl x⟩
      · obtain ⟨y, hy, h⟩ := h2 x hx
        exact ⟨y, by simp [hy], h⟩

theorem putItem_apart (l : List Record) (i : Record) (h : l.Pairwise (fun a b => sameItems a b = false)) :
    (putItem l i).Pairwise (fun a b => sameItems a b = false) := by
  induction l with
  | nil => simp [putItem]
  | cons z l ih =>
    rw [List.pairwise_cons] at h
    rw [putItem]
    split
    · next hz =>
      rw [List.pairwise_cons]
      refine ⟨?_, h.2⟩
      intro x hx
      by_cases e : sameItems i x = true
      · have := sameItems_trans z i x hz e
        rw [h.1 x hx] at this
        cases this
      · simpa using e
    · next hz =>
      rw [List.pairwise_cons]
      refine ⟨?_, ih h.2⟩
      intro x hx
      rcases putItem_mem l i x hx with rfl | hx
      · simpa using hz
      · exact h.1 x hx

theorem uniqueItems_spec (v : List Record) : (uniqueItems v).Pairwise (fun a b => sameItems a b = false) ∧
    (∀ x ∈ uniqueItems v, x ∈ v) ∧ ∀ x ∈ v, ∃ y ∈ uniqueItems v, sameItems x y = true := by
  have : ∀ (v acc : List Record), acc.Pairwise (fun a b => sameItems a b = false) →
      (v.foldl putItem acc).Pairwise (fun a b => sameItems a b = false) ∧
      (∀ x ∈ v.foldl putItem acc, x ∈ acc ∨ x ∈ v) ∧
      (∀ x, x ∈ acc ∨ x ∈ v → ∃ y ∈ v.foldl putItem acc, sameItems x y = true) := by
    intro v
    induction v with
    | nil =>
      intro acc h
      refine ⟨h, fun x hx => Or.inl hx, ?_⟩
      rintro x (hx | hx)
      · exact ⟨x, hx, sameItems_refl x⟩
      · cases hx
    | cons i v ih =>
      intro acc h
      rw [List.foldl_cons]
      obtain ⟨h1, h2, h3⟩ := ih (putItem acc i) (putItem_apart acc i h)
      refine ⟨h1, ?_, ?_⟩
      · intro x hx
        rcases h2 x hx with hx | hx
        · rcases putItem_mem acc i x hx with rfl | hx
          · exact Or.inr (by simp)
          · exact Or.inl hx
        · exact Or.inr (by simp [hx])
      · have hc := putItem_covers acc i
        have step : ∀ x, (∃ y ∈ putItem acc i, sameItems x y = true) → ∃ y ∈ v.foldl putItem (putItem acc i), sameItems x y = true := by
          rintro x ⟨y, hy, e⟩
          obtain ⟨z, hz, e'⟩ := h3 y (Or.inl hy)
          exact ⟨z, hz, sameItems_trans x y z e e'⟩
        rintro x (hx | hx)
        · exact step x (hc.2 x hx)
        · rcases List.mem_cons.1 hx with rfl | hx
          · exact step x hc.1
          · exact h3 x (Or.inr hx)
  obtain ⟨h1, h2, h3⟩ := this v [] List.Pairwise.nil
  exact ⟨h1, fun x hx => by simpa using h2 x hx, fun x hx => h3 x (Or.inr hx)⟩

/-- **C59** without duplicates: of the distinct records, each collection has those with its value, no two with equal
fields, and one equal to each of them. -/
theorem C59_dedupe (hash : Str → BitVec 64) (column : Str) (l : List Record) :
    let cs := collect hash column true l
    let d := DictSet.distinct hash [] l
    cs.map (fun kv => norm kv.1) = dedup (d.map (fun r => norm (r.get column))) ∧
    ∀ kv ∈ cs, kv.2.Pairwise (fun a b => sameItems a b = false) ∧
      (∀ x ∈ kv.2, ∃ r ∈ having column kv.1 d, x = without column r) ∧
      (∀ r ∈ having column kv.1 d, ∃ x ∈ kv.2, sameItems (without column r) x = true) := by
  intro cs d
  have h := grouped column d
  constructor
  · show ((collectLoop column [] d).map (fun kv => (kv.1, uniqueItems kv.2))).map (fun kv => norm kv.1) = _
    rw [List.map_map, ← h.keys]
    rfl
  · intro kv hkv
    obtain ⟨g, hg, rfl⟩ := List.mem_map.1 (show kv ∈ (collectLoop column [] d).map (fun kv => (kv.1, uniqueItems kv.2)) from hkv)
    have hgr := h.groups g hg
    obtain ⟨h1, h2, h3⟩ := uniqueItems_spec g.2
    refine ⟨h1, ?_, ?_⟩
    · intro x hx
      have := h2 x hx
      rw [hgr] at this
      obtain ⟨r, hr, e⟩ := List.mem_map.1 this
      exact ⟨r, hr, e.symm⟩
    · intro r hr
      exact h3 _ (by rw [hgr]; exact List.mem_map.2 ⟨r, hr, rfl⟩)

theorem sameFields_iff {a b : Record} : sameItems a b = true ↔ Spec.SameFields a b := by
  unfold sameItems Spec.SameFields
  simp only [Bool.and_eq_true, List.all_eq_true, List.any_eq_true, beq_iff_eq, same_iff]

theorem without_filter (column : Str) (r : Record) : without column r = r.filter (fun kv => decide (kv.1 ≠ column)) := by
  unfold without
  refine List.filter_congr (fun kv _ => ?_)
  rw [Bool.eq_iff_iff]
  simp

/-- **C59** without duplicates, by the specification: what is collected are the distinct records of the set. -/
theorem C59_deduped (hash : Str → BitVec 64) (column : Str) (l : List Record) :
    Spec.Deduped column (DictSet.distinct hash [] l) (collect hash column true l) := by
  have hd := (C59_dedupe hash column l).2
  have hg := C59_groups hash column (DictSet.distinct hash [] l)
  have hc : collect hash column true l = (collect hash column false (DictSet.distinct hash [] l)).map (fun kv => (kv.1, uniqueItems kv.2)) := rfl
  generalize DictSet.distinct hash [] l = d at hd hg hc
  have hin : ∀ kv : Value × List Record, ∀ r ∈ d, Spec.Same (r.get column) kv.1 → r ∈ having column kv.1 d := by
    intro kv r hr h
    exact List.mem_filter.2 ⟨hr, by simpa using same_iff.1 h⟩
  constructor
  · rw [hc, List.pairwise_map]
    exact hg.differ
  · rw [hc, List.map_map]
    exact hg.order
  · intro c hcm x hx
    obtain ⟨r, hr, e⟩ := (hd c hcm).2.1 x hx
    obtain ⟨h1, h2⟩ := List.mem_filter.1 hr
    exact ⟨r, h1, same_iff.2 (by simpa using h2), by rw [e, without_filter]⟩
  · intro c hcm
    refine (hd c hcm).1.imp ?_
    intro a b h e
    rw [sameFields_iff.2 e] at h
    cases h
  · intro r hr
    obtain ⟨c, hcm, h1⟩ := hg.all r hr
    have hm : (c.1, uniqueItems c.2) ∈ collect hash column true l := by rw [hc]; exact List.mem_map_of_mem hcm
    refine ⟨_, hm, h1, ?_⟩
    obtain ⟨x, hx, e⟩ := (hd _ hm).2.2 r (hin _ r hr h1)
    exact ⟨x, hx, by rw [← without_filter]; exact sameFields_iff.1 e⟩

/-- **C59**: of the items, those with a value are exactly the records that have it, without the column and in their order. -/
theorem C59_listed (hash : Str → BitVec 64) (column : Str) (l : List Record) (v : Value) (has : Record → Bool)
    (hhas : ∀ r, has r = true ↔ Spec.Same (r.get column) v) (named : Value → Bool) (hnamed : ∀ u, named u = true ↔ Spec.Same u v) :
    ((items (collect hash column false l)).filter (fun p => named p.1)).map (·.2) =
      (l.filter has).map (fun r => r.filter (fun kv => decide (kv.1 ≠ column))) := by
  have hn : ∀ u, named u = (norm u == norm v) := by
    intro u
    rw [Bool.eq_iff_iff, hnamed, same_iff, beq_iff_eq]
  rw [← (C59_asked hash column l v has hhas).1]
  have hd := (C59_groups hash column l).differ
  generalize collect hash column false l = cs at hd
  unfold items get
  induction cs with
  | nil => rfl
  | cons c cs ih =>
    rw [List.pairwise_cons] at hd
    rw [List.flatMap_cons, List.filter_append, List.map_append, List.find?_cons]
    by_cases h : norm c.1 = norm v
    · rw [show (norm c.1 == norm v) = true from beq_iff_eq.2 h]
      have h1 : (c.2.map (fun i => (c.1, i))).filter (fun p => named p.1) = c.2.map (fun i => (c.1, i)) := by
        refine List.filter_eq_self.2 (fun p hp => ?_)
        obtain ⟨i, _, rfl⟩ := List.mem_map.1 hp
        rw [hn]
        exact beq_iff_eq.2 h
      have h2 : (cs.flatMap (fun kv => kv.2.map (fun i => (kv.1, i)))).filter (fun p => named p.1) = [] := by
        refine List.filter_eq_nil_iff.2 (fun p hp => ?_)
        obtain ⟨kv, hkv, hp⟩ := List.mem_flatMap.1 hp
        obtain ⟨i, _, rfl⟩ := List.mem_map.1 hp
        rw [hn, beq_iff_eq]
        intro e
        exact hd.1 kv hkv (same_iff.2 (h.trans e.symm))
      rw [h1, h2, List.map_map, List.map_nil, List.append_nil]
      exact List.map_id _
    · rw [show (norm c.1 == norm v) = false from beq_eq_false_iff_ne.2 h]
      have h1 : (c.2.map (fun i => (c.1, i))).filter (fun p => named p.1) = [] := by
        refine List.filter_eq_nil_iff.2 (fun p hp => ?_)
        obtain ⟨i, _, rfl⟩ := List.mem_map.1 hp
        rw [hn, beq_iff_eq]
        exact h
      rw [h1, List.map_nil, List.nil_append]
      exact ih hd.2

/-- **C59**: an aggregation has an answer for each collection, under its name and in their order: what the method says of the values of
the field that are not None, of the records in the collection. -/
theorem C59_aggregated {β : Type} (hash : Str → BitVec 64) (column k : Str) (hk : k ≠ column) (l : List Record) (method : List Value → β) :
    (aggregate (collect hash column false l) k method).map (·.1) = (collect hash column false l).map (·.1) ∧
    ∀ p ∈ aggregate (collect hash column false l) k method, ∀ has : Record → Bool, (∀ r, has r = true ↔ Spec.Same (r.get column) p.1) →
      p.2 = method (((l.filter has).map (fun r => r.get k)).filter (fun x => decide (x ≠ .none))) := by
  constructor
  · unfold aggregate
    rw [List.map_map]
    rfl
  · intro p hp has hhas
    rw [C59_aggregate hash column k hk] at hp
    obtain ⟨kv, _, rfl⟩ := List.mem_map.1 hp
    show method _ = _
    rw [having_of hhas]
    congr 1
    refine List.filter_congr (fun x _ => ?_)
    rw [Bool.eq_iff_iff]
    simp

/-- **C59**: applying a method has an answer for each collection, under its name and in their order: what the method says of the
records in the collection, each without the column, in their order. -/
theorem C59_applied {β : Type} (hash : Str → BitVec 64) (column : Str) (l : List Record) (method : List Record → β) :
    (apply (collect hash column false l) method).map (·.1) = (collect hash column false l).map (·.1) ∧
    ∀ p ∈ apply (collect hash column false l) method, ∀ has : Record → Bool, (∀ r, has r = true ↔ Spec.Same (r.get column) p.1) →
      p.2 = method ((l.filter has).map (fun r => r.filter (fun kv => decide (kv.1 ≠ column)))) := by
  constructor
  · unfold apply
    rw [List.map_map]
    rfl
  · intro p hp has hhas
    obtain ⟨kv, hkv, rfl⟩ := List.mem_map.1 hp
    show method _ = _
    rw [(grouped column l).groups kv hkv, having_of hhas]
    congr 1
    exact List.map_congr_left (fun r _ => without_filter column r)

/-- What the specification says of a set of one record. -/
example (hash : Str → BitVec 64) : (collect hash "c".toList true
    [[("c".toList, .int 1), ("a".toList, .int 2)]]).length = 1 := by
  have h := (C59_deduped hash "c".toList [[("c".toList, .int 1), ("a".toList, .int 2)]])
  have h0 : DictSet.distinct hash [] [[("c".toList, .int 1), ("a".toList, .int 2)]] = [[("c".toList, .int 1), ("a".toList, .int 2)]] := by
    simp [DictSet.distinct, DictSet.dedupeFrom]
  rw [h0] at h
  have h1 := h.order.length_le
  obtain ⟨c, hc, _⟩ := h.all _ (List.mem_singleton.2 rfl)
  have h2 := List.length_pos_of_mem hc
  rw [List.length_map, List.length_map, List.length_singleton] at h1
  omega

/-- Non-vacuity: how many records each collection has. -/
example (hash : Str → BitVec 64) : apply (collect hash "c".toList false demo) List.length
    = [(.str "x".toList, 2), (.str "y".toList, 1), (.none, 1)] :=
  show apply (collectLoop "c".toList [] demo) List.length = _ by decide +kernel

end Mabel.Collected
