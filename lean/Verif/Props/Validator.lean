import Verif.Model.Validator
import Mathlib.Data.List.Basic
import Mathlib.Data.List.Nodup

/-!
# Edit distance and parameter validation: C54, C28
-/

namespace Mabel.Validator
open Mabel.Py

/-! ## C54: specification -/

/-- One edit: a character inserted, removed or replaced, anywhere. -/
inductive Edit : Str → Str → Prop
  | insert (u v : Str) (c : Char) : Edit (u ++ v) (u ++ c :: v)
  | delete (u v : Str) (c : Char) : Edit (u ++ c :: v) (u ++ v)
  | replace (u v : Str) (c d : Char) : Edit (u ++ c :: v) (u ++ d :: v)

/-- `n` edits, one after the other. -/
inductive Edits : Nat → Str → Str → Prop
  | none (a : Str) : Edits 0 a a
  | more {n : Nat} {a b c : Str} : Edit a b → Edits n b c → Edits (n + 1) a c

/-! ## Alignments -/

/-- Edits from left to right. -/
inductive Align : Nat → Str → Str → Prop
  | nil : Align 0 [] []
  | keep {n a b} (c : Char) : Align n a b → Align n (c :: a) (c :: b)
  | sub {n a b} (c d : Char) : Align n a b → Align (n + 1) (c :: a) (d :: b)
  | ins {n a b} (c : Char) : Align n a b → Align (n + 1) a (c :: b)
  | del {n a b} (c : Char) : Align n a b → Align (n + 1) (c :: a) b

theorem Edit.cons {a b : Str} (x : Char) (h : Edit a b) : Edit (x :: a) (x :: b) := by
  cases h with
  | insert u v c => exact .insert (x :: u) v c
  | delete u v c => exact .delete (x :: u) v c
  | replace u v c d => exact .replace (x :: u) v c d

theorem Edits.cons {n : Nat} {a b : Str} (x : Char) (h : Edits n a b) : Edits n (x :: a) (x :: b) := by
  induction h with
  | none a => exact .none _
  | more h _ ih => exact .more (h.cons x) ih

theorem Align.edits {n : Nat} {a b : Str} (h : Align n a b) : Edits n a b := by
  induction h with
  | nil => exact .none _
  | keep c _ ih => exact ih.cons c
  | @sub n a b c d _ ih => exact .more (.replace [] a c d) (ih.cons d)
  | @ins n a b c _ ih => exact .more (.insert [] a c) (ih.cons c)
  | @del n a b c _ ih => exact .more (.delete [] a c) ih

theorem Align.refl (a : Str) : Align 0 a a := by
  induction a with
  | nil => exact .nil
  | cons x a ih => exact .keep x ih

theorem align_insert {x : Char} {a : Str} {m : Nat} {s c : Str} (h : Align m s c) :
    s = x :: a → ∃ m', m' ≤ m + 1 ∧ Align m' a c := by
  induction h with
  | nil => intro h; cases h
  | @keep n a' b y h _ => intro e; cases e; exact ⟨n + 1, by omega, .ins x h⟩
  | @sub n a' b y d h _ => intro e; cases e; exact ⟨n + 1, by omega, .ins d h⟩
  | @ins n a' b y h ih =>
    intro e
    obtain ⟨m', h1, h2⟩ := ih e
    exact ⟨m' + 1, by omega, .ins y h2⟩
  | @del n a' b y h _ => intro e; cases e; exact ⟨n, by omega, h⟩

theorem align_replace {x y : Char} {a : Str} {m : Nat} {s c : Str} (h : Align m s c) :
    s = y :: a → ∃ m', m' ≤ m + 1 ∧ Align m' (x :: a) c := by
  induction h with
  | nil => intro h; cases h
  | @keep n a' b z h _ => intro e; cases e; exact ⟨n + 1, by omega, .sub x y h⟩
  | @sub n a' b z d h _ => intro e; cases e; exact ⟨n + 1, by omega, .sub x d h⟩
  | @ins n a' b z h ih =>
    intro e
    obtain ⟨m', h1, h2⟩ := ih e
    exact ⟨m' + 1, by omega, .ins z h2⟩
  | @del n a' b z h _ => intro e; cases e; exact ⟨n + 1, by omega, .del x h⟩

theorem align_cons {x : Char} {a b : Str}
    (hab : ∀ m c, Align m b c → ∃ m', m' ≤ m + 1 ∧ Align m' a c) {m : Nat} {s c : Str} (h : Align m s c) :
    s = x :: b → ∃ m', m' ≤ m + 1 ∧ Align m' (x :: a) c := by
  induction h with
  | nil => intro h; cases h
  | @keep n a' b' z h _ =>
    intro e; cases e
    obtain ⟨m', h1, h2⟩ := hab _ _ h
    exact ⟨m', by omega, .keep x h2⟩
  | @sub n a' b' z d h _ =>
    intro e; cases e
    obtain ⟨m', h1, h2⟩ := hab _ _ h
    exact ⟨m' + 1, by omega, .sub x d h2⟩
  | @ins n a' b' z h ih =>
    intro e
    obtain ⟨m', h1, h2⟩ := ih e
    exact ⟨m' + 1, by omega, .ins z h2⟩
  | @del n a' b' z h _ =>
    intro e; cases e
    obtain ⟨m', h1, h2⟩ := hab _ _ h
    exact ⟨m' + 1, by omega, .del x h2⟩

theorem align_edit {a b : Str} (h : Edit a b) (m : Nat) (c : Str) (hc : Align m b c) :
    ∃ m', m' ≤ m + 1 ∧ Align m' a c := by
  cases h with
  | insert u v x =>
    induction u generalizing m c with
    | nil => exact align_insert hc rfl
    | cons y u ih => exact align_cons (fun m c h => ih m c h) hc rfl
  | delete u v x =>
    induction u generalizing m c with
    | nil => exact ⟨m + 1, by omega, .del x hc⟩
    | cons y u ih => exact align_cons (fun m c h => ih m c h) hc rfl
  | replace u v x y =>
    induction u generalizing m c with
    | nil => exact align_replace hc rfl
    | cons z u ih => exact align_cons (fun m c h => ih m c h) hc rfl

theorem Edits.align {n : Nat} {a b : Str} (h : Edits n a b) : ∃ m, m ≤ n ∧ Align m a b := by
  induction h with
  | none a => exact ⟨0, by omega, .refl a⟩
  | more h _ ih =>
    obtain ⟨m, h1, h2⟩ := ih
    obtain ⟨m', h3, h4⟩ := align_edit h _ _ h2
    exact ⟨m', by omega, h4⟩

/-! ## The recursion -/

/-- The least cost, by recursion on the first characters. -/
def lev : Str → Str → Nat
  | [], b => b.length
  | x :: a, [] => (x :: a).length
  | x :: a, y :: b =>
    min (min (lev a (y :: b) + 1) (if x = y then lev a b else lev a b + 1)) (lev (x :: a) b + 1)
termination_by a b => a.length + b.length

theorem lev_nil_right (a : Str) : lev a [] = a.length := by cases a <;> simp [lev]

theorem align_lev (a b : Str) : Align (lev a b) a b := by
  have h : ∀ n, ∀ a b : Str, a.length + b.length = n → Align (lev a b) a b := by
    intro n
    induction n using Nat.strongRecOn with
    | ind n ih =>
      intro a b hn
      cases a with
      | nil =>
        simp only [lev]
        clear hn ih
        induction b with
        | nil => exact .nil
        | cons y b ihb => exact .ins y ihb
      | cons x a =>
        cases b with
        | nil =>
          rw [lev_nil_right]
          clear hn ih
          have : ∀ l : Str, Align l.length l [] := by
            intro l
            induction l with
            | nil => exact .nil
            | cons z l ihl => exact .del z ihl
          exact this (x :: a)
        | cons y b =>
          simp only [List.length_cons] at hn
          have h1 := ih _ (by simp only [List.length_cons]; omega) a (y :: b) rfl
          have h2 := ih _ (by omega) a b rfl
          have h3 := ih _ (by simp only [List.length_cons]; omega) (x :: a) b rfl
          have e : lev (x :: a) (y :: b) = min (min (lev a (y :: b) + 1) (if x = y then lev a b else lev a b + 1)) (lev (x :: a) b + 1) := by
            rw [lev]
          rw [e]
          rcases Nat.le_total (min (lev a (y :: b) + 1) (if x = y then lev a b else lev a b + 1)) (lev (x :: a) b + 1) with h | h
          · rw [Nat.min_eq_left h]
            rcases Nat.le_total (lev a (y :: b) + 1) (if x = y then lev a b else lev a b + 1) with h' | h'
            · rw [Nat.min_eq_left h']; exact .del x h1
            · rw [Nat.min_eq_right h']
              by_cases hxy : x = y
              · rw [if_pos hxy, hxy]; exact .keep y h2
              · rw [if_neg hxy]; exact .sub x y h2
          · rw [Nat.min_eq_right h]; exact .ins y h3
  exact h _ a b rfl

theorem lev_le_align {n : Nat} {a b : Str} (h : Align n a b) : lev a b ≤ n := by
  induction h with
  | nil => simp [lev]
  | @keep n a b c _ ih =>
    rw [lev]
    refine Nat.le_trans (Nat.min_le_left _ _) (Nat.le_trans (Nat.min_le_right _ _) ?_)
    rw [if_pos rfl]; exact ih
  | @sub n a b c d _ ih =>
    rw [lev]
    refine Nat.le_trans (Nat.min_le_left _ _) (Nat.le_trans (Nat.min_le_right _ _) ?_)
    split <;> omega
  | @ins n a b c _ ih =>
    cases a with
    | nil => simp only [lev] at ih ⊢; simpa using ih
    | cons x a =>
      rw [lev]
      exact Nat.le_trans (Nat.min_le_right _ _) (by omega)
  | @del n a b c _ ih =>
    cases b with
    | nil => rw [lev_nil_right] at ih ⊢; simpa using ih
    | cons y b =>
      rw [lev]
      exact Nat.le_trans (Nat.min_le_left _ _) (Nat.le_trans (Nat.min_le_left _ _) (by omega))

/-! ## The matrix -/

/-- The distance of the first `x` and the first `y` characters. -/
def want (w1 w2 : Str) (x y : Nat) : Nat := lev (w1.take x).reverse (w2.take y).reverse

theorem want_left (w1 w2 : Str) (x : Nat) (hx : x ≤ w1.length) : want w1 w2 x 0 = x := by
  simp [want, lev_nil_right, hx]

theorem want_right (w1 w2 : Str) (y : Nat) (hy : y ≤ w2.length) : want w1 w2 0 y = y := by
  simp [want, lev, hy]

theorem want_succ (w1 w2 : Str) (x y : Nat) (hx : x < w1.length) (hy : y < w2.length) :
    want w1 w2 (x + 1) (y + 1) =
      if w1[x]? = w2[y]? then min (min (want w1 w2 x (y + 1) + 1) (want w1 w2 x y)) (want w1 w2 (x + 1) y + 1)
      else min (min (want w1 w2 x (y + 1) + 1) (want w1 w2 x y + 1)) (want w1 w2 (x + 1) y + 1) := by
  have e1 : (w1.take (x + 1)).reverse = w1[x] :: (w1.take x).reverse := by
    rw [List.take_add_one, List.getElem?_eq_getElem hx]; simp
  have e2 : (w2.take (y + 1)).reverse = w2[y] :: (w2.take y).reverse := by
    rw [List.take_add_one, List.getElem?_eq_getElem hy]; simp
  unfold want
  rw [e1, e2, lev, List.getElem?_eq_getElem hx, List.getElem?_eq_getElem hy]
  by_cases h : w1[x] = w2[y]
  · rw [if_pos h, if_pos (by rw [h])]
  · rw [if_neg h, if_neg (by simpa using h)]

theorem foldl_column (n : Nat) (m : Matrix) (a b : Nat) :
    (List.range n).foldl (fun m x => Matrix.put m x 0 x) m a b = if a < n ∧ b = 0 then a else m a b := by
  induction n with
  | zero => simp
  | succ n ih =>
    rw [List.range_succ, List.foldl_append]
    simp only [List.foldl_cons, List.foldl_nil, Matrix.put]
    by_cases h : a = n ∧ b = 0
    · rw [if_pos h, if_pos ⟨by omega, h.2⟩, h.1]
    · rw [if_neg h, ih]
      by_cases h2 : a < n ∧ b = 0
      · rw [if_pos h2, if_pos ⟨by omega, h2.2⟩]
      · rw [if_neg h2, if_neg (by omega)]

theorem foldl_row (n : Nat) (m : Matrix) (a b : Nat) :
    (List.range n).foldl (fun m y => Matrix.put m 0 y y) m a b = if b < n ∧ a = 0 then b else m a b := by
  induction n with
  | zero => simp
  | succ n ih =>
    rw [List.range_succ, List.foldl_append]
    simp only [List.foldl_cons, List.foldl_nil, Matrix.put]
    by_cases h : a = 0 ∧ b = n
    · rw [if_pos h, if_pos ⟨by omega, h.1⟩, h.2]
    · rw [if_neg h, ih]
      by_cases h2 : b < n ∧ a = 0
      · rw [if_pos h2, if_pos ⟨by omega, h2.2⟩]
      · rw [if_neg h2, if_neg (by omega)]

theorem borders_eq (w1 w2 : Str) (a b : Nat) (ha : a ≤ w1.length) (hb : b ≤ w2.length) (h : a = 0 ∨ b = 0) :
    borders w1 w2 a b = want w1 w2 a b := by
  unfold borders
  simp only [foldl_row, foldl_column]
  by_cases h0 : a = 0
  · rw [if_pos ⟨by omega, h0⟩, h0, want_right _ _ _ hb]
  · have hb0 : b = 0 := by omega
    rw [if_neg (by omega), if_pos ⟨by omega, hb0⟩, hb0, want_left _ _ _ ha]

/-- The cells that are right: the borders, whole rows before `x`, and row `x` before `y`. -/
def Right (w1 w2 : Str) (m : Matrix) (x y : Nat) : Prop :=
  ∀ a b, a ≤ w1.length → b ≤ w2.length → (a = 0 ∨ b = 0 ∨ a < x ∨ (a = x ∧ b < y)) → m a b = want w1 w2 a b

theorem fillRow_right (w1 w2 : Str) (m : Matrix) (x : Nat) (hx : x < w1.length) (h : Right w1 w2 m (x + 1) 1) :
    Right w1 w2 (fillRow w1 w2 m (x + 1)) (x + 2) 1 := by
  have key : ∀ n, n ≤ w2.length →
      Right w1 w2 ((List.range' 1 n).foldl (fun m y => m.put (x + 1) y (cell w1 w2 m (x + 1) y)) m) (x + 1) (n + 1) := by
    intro n
    induction n with
    | zero => intro _; exact h
    | succ n ih =>
      intro hn
      have ih := ih (by omega)
      rw [List.range'_1_concat, List.foldl_append]
      simp only [List.foldl_cons, List.foldl_nil]
      revert ih
      generalize (List.range' 1 n).foldl (fun m y => m.put (x + 1) y (cell w1 w2 m (x + 1) y)) m = m'
      intro ih a b ha hb hab
      unfold Matrix.put
      by_cases hc : a = x + 1 ∧ b = 1 + n
      · rw [if_pos hc, hc.1, hc.2, show 1 + n = n + 1 by omega, want_succ w1 w2 x n hx (by omega)]
        unfold cell
        rw [show x + 1 - 1 = x by omega, show n + 1 - 1 = n by omega]
        rw [ih x (n + 1) (by omega) (by omega) (by omega), ih x n (by omega) (by omega) (by omega),
          ih (x + 1) n (by omega) (by omega) (by omega)]
      · rw [if_neg hc]
        exact ih a b ha hb (by omega)
  intro a b ha hb hab
  have := key w2.length (Nat.le_refl _)
  exact this a b ha hb (by omega)

theorem distance_eq (lower : Str → Str) (word1 word2 : Str) :
    distance lower word1 word2 = lev (lower word1).reverse (lower word2).reverse := by
  unfold distance
  simp only []
  generalize lower word1 = w1
  generalize lower word2 = w2
  have key : ∀ n, n ≤ w1.length →
      Right w1 w2 ((List.range' 1 n).foldl (fillRow w1 w2) (borders w1 w2)) (n + 1) 1 := by
    intro n
    induction n with
    | zero =>
      intro _ a b ha hb hab
      exact borders_eq w1 w2 a b ha hb (by omega)
    | succ n ih =>
      intro hn
      rw [List.range'_1_concat, List.foldl_append]
      simp only [List.foldl_cons, List.foldl_nil]
      rw [show 1 + n = n + 1 by omega]
      exact fillRow_right w1 w2 _ n (by omega) (ih (by omega))
  have := key w1.length (Nat.le_refl _) w1.length w2.length (Nat.le_refl _) (Nat.le_refl _) (by omega)
  rw [this]
  simp [want]

theorem Edit.reverse {a b : Str} (h : Edit a b) : Edit a.reverse b.reverse := by
  cases h with
  | insert u v c => simpa using Edit.insert v.reverse u.reverse c
  | delete u v c => simpa using Edit.delete v.reverse u.reverse c
  | replace u v c d => simpa using Edit.replace v.reverse u.reverse c d

theorem Edits.reverse {n : Nat} {a b : Str} (h : Edits n a b) : Edits n a.reverse b.reverse := by
  induction h with
  | none a => exact .none _
  | more h _ ih => exact .more h.reverse ih

/-- **C54.**  The distance is the least number of insertions, removals and replacements of single characters
that turn one word into the other, upper and lower case being the same. -/
theorem C54_edit_distance (lower : Str → Str) (word1 word2 : Str) :
    Edits (distance lower word1 word2) (lower word1) (lower word2) ∧
      ∀ n, Edits n (lower word1) (lower word2) → distance lower word1 word2 ≤ n := by
  rw [distance_eq]
  constructor
  · have := (align_lev (lower word1).reverse (lower word2).reverse).edits.reverse
    simpa using this
  · intro n h
    obtain ⟨m, h1, h2⟩ := h.reverse.align
    exact Nat.le_trans (lev_le_align h2) h1

/-- kitten, sitting: three edits. -/
example : distance id "kitten".toList "sitting".toList = 3 := by decide +kernel

/-- **C54, the suggestions**: a name is suggested exactly if it is a parameter's name and the misspelt one can be
turned into it with no more edits than half its length. -/
theorem C54_suggestions (lower : Str → Str) (rules : List Rule) (name valid : Str) :
    valid ∈ suggestions lower rules name ↔
      (∃ r ∈ rules, r.name = valid) ∧ ∃ n, n ≤ valid.length / 2 ∧ Edits n (lower name) (lower valid) := by
  unfold suggestions
  rw [List.mem_filter, List.mem_eraseDups, List.mem_map]
  have h := C54_edit_distance lower name valid
  constructor
  · rintro ⟨⟨r, hr, hn⟩, hd⟩
    exact ⟨⟨r, hr, hn⟩, _, by simpa using hd, h.1⟩
  · rintro ⟨⟨r, hr, hn⟩, n, hn2, he⟩
    exact ⟨⟨r, hr, hn⟩, by simpa using Nat.le_trans (h.2 n he) hn2⟩

example : suggestions id readerRules "datset".toList = ["dataset".toList] := by decide +kernel

/-! ## C28: specification -/

variable {τ α : Type}

/-- `name` is passed with value `v`: by position, or by keyword (and not also by position). -/
def Passes (params : List Str) (args : List τ) (kwargs : List (Str × τ)) (name : Str) (v : τ) : Prop :=
  (name, v) ∈ params.zip args ∨ ((name, v) ∈ kwargs ∧ name ∉ params.take args.length)

/-- A rule that holds for the call: one of the function's, or one that an argument brings. -/
def Applies (vals : Values τ) (rules : List Rule) (passes : Str → τ → Prop) (r : Rule) : Prop :=
  r ∈ rules ∨ ∃ name v more, passes name v ∧ vals.rules v = some more ∧ r ∈ more

/-- What a call must satisfy. -/
structure Acceptable (vals : Values τ) (rules : List Rule) (passes : Str → τ → Prop) : Prop where
  /-- every parameter is known -/
  known : ∀ name v, passes name v → ∃ r, Applies vals rules passes r ∧ r.name = name
  /-- every required parameter is there -/
  required : ∀ r, Applies vals rules passes r → r.required = true → ∃ v, passes r.name v
  /-- no parameter is in use together with one it is incompatible with -/
  compatible : ∀ r ∈ rules, ∀ v, passes r.name v → vals.truthy v = true →
    ∀ t ∈ r.incompatible, ∀ w, ¬ passes t w

/-! ## C28: proofs -/

theorem enter_keys (d : List (Str × τ)) (k : Str) (v : τ) (hd : (d.map Prod.fst).Nodup) :
    ((enter d k v).map Prod.fst).Nodup := by
  unfold enter
  split
  · have : (d.map (fun kv => if kv.1 = k then (k, v) else kv)).map Prod.fst = d.map Prod.fst := by
      rw [List.map_map]
      apply List.map_congr_left
      intro kv _
      simp only [Function.comp]
      split
      · rename_i h; exact h.symm
      · rfl
    rw [this]
    exact hd
  · rename_i h
    rw [List.map_append]
    refine List.nodup_append.2 ⟨hd, by simp, ?_⟩
    intro a ha b hb e
    simp only [List.map_cons, List.map_nil, List.mem_singleton] at hb
    subst e hb
    apply h
    obtain ⟨kv, hkv, he⟩ := List.mem_map.1 ha
    exact List.any_eq_true.2 ⟨kv, hkv, by simp [he]⟩

theorem mem_enter (d : List (Str × τ)) (k : Str) (v : τ) (name : Str) (w : τ) :
    (name, w) ∈ enter d k v ↔ (name = k ∧ w = v) ∨ (name ≠ k ∧ (name, w) ∈ d) := by
  unfold enter
  by_cases h : d.any (fun kv => kv.1 == k) = true
  · rw [if_pos h, List.mem_map]
    constructor
    · rintro ⟨kv, hkv, he⟩
      by_cases hk : kv.1 = k
      · rw [if_pos hk] at he; cases he; exact Or.inl ⟨rfl, rfl⟩
      · rw [if_neg hk] at he; subst he; exact Or.inr ⟨hk, hkv⟩
    · rintro (⟨rfl, rfl⟩ | ⟨hne, hm⟩)
      · obtain ⟨kv, hkv, he⟩ := List.any_eq_true.1 h
        exact ⟨kv, hkv, by rw [if_pos (by simpa using he)]⟩
      · exact ⟨_, hm, by rw [if_neg hne]⟩
  · rw [if_neg h, List.mem_append, List.mem_singleton]
    constructor
    · rintro (hm | he)
      · refine Or.inr ⟨?_, hm⟩
        rintro rfl
        exact h (List.any_eq_true.2 ⟨_, hm, by simp⟩)
      · cases he; exact Or.inl ⟨rfl, rfl⟩
    · rintro (⟨rfl, rfl⟩ | ⟨_, hm⟩)
      · exact Or.inr rfl
      · exact Or.inl hm

theorem entered_ok (params : List Str) (args : List τ) (d : List (Str × τ)) (hp : params.Nodup)
    (hlen : args.length ≤ params.length) (hd : (d.map Prod.fst).Nodup) :
    ∃ e, entered params args d = .ok e ∧ (e.map Prod.fst).Nodup ∧
      ∀ name v, (name, v) ∈ e ↔ Passes params args d name v := by
  induction args generalizing params d with
  | nil => exact ⟨d, by simp [entered], hd, fun name v => by simp [Passes]⟩
  | cons a args ih =>
    cases params with
    | nil => simp at hlen
    | cons p ps =>
      have hps := List.nodup_cons.1 hp
      obtain ⟨e, h1, h2, h3⟩ := ih ps (enter d p a) hps.2 (by simpa using hlen) (enter_keys d p a hd)
      refine ⟨e, by simpa [entered] using h1, h2, ?_⟩
      intro name v
      rw [h3]
      unfold Passes
      rw [mem_enter]
      simp only [List.zip_cons_cons, List.mem_cons, Prod.mk.injEq, List.length_cons, List.take_succ_cons, not_or]
      constructor
      · rintro (h | ⟨h | h, hn⟩)
        · exact Or.inl (Or.inr h)
        · exact Or.inl (Or.inl h)
        · exact Or.inr ⟨h.2, h.1, hn⟩
      · rintro ((⟨rfl, rfl⟩ | h) | ⟨h, hne, hn⟩)
        · exact Or.inr ⟨Or.inl ⟨rfl, rfl⟩, fun hx => hps.1 (List.mem_of_mem_take hx)⟩
        · exact Or.inl h
        · exact Or.inr ⟨Or.inr ⟨hne, h⟩, hn⟩

theorem mem_allRules (vals : Values τ) (rules : List Rule) (d : List (Str × τ)) (r : Rule) :
    r ∈ allRules vals rules d ↔ Applies vals rules (fun n v => (n, v) ∈ d) r := by
  unfold allRules Applies
  induction d generalizing rules with
  | nil => simp
  | cons kv d ih =>
    rw [List.foldl_cons, ih]
    obtain ⟨k, v⟩ := kv
    simp only []
    cases h : vals.rules v with
    | none =>
      constructor
      · rintro (h1 | ⟨n, w, more, h1, h2, h3⟩)
        · exact Or.inl h1
        · exact Or.inr ⟨n, w, more, List.mem_cons_of_mem _ h1, h2, h3⟩
      · rintro (h1 | ⟨n, w, more, h1, h2, h3⟩)
        · exact Or.inl h1
        · rcases List.mem_cons.1 h1 with h1 | h1
          · cases h1; rw [h] at h2; cases h2
          · exact Or.inr ⟨n, w, more, h1, h2, h3⟩
    | some ms =>
      simp only [List.mem_append]
      constructor
      · rintro ((h1 | h1) | ⟨n, w, more, h1, h2, h3⟩)
        · exact Or.inl h1
        · exact Or.inr ⟨k, v, ms, List.mem_cons_self, h, h1⟩
        · exact Or.inr ⟨n, w, more, List.mem_cons_of_mem _ h1, h2, h3⟩
      · rintro (h1 | ⟨n, w, more, h1, h2, h3⟩)
        · exact Or.inl (Or.inl h1)
        · rcases List.mem_cons.1 h1 with h1 | h1
          · cases h1; rw [h] at h2; cases h2; exact Or.inl (Or.inr h3)
          · exact Or.inr ⟨n, w, more, h1, h2, h3⟩

theorem has_iff (d : List (Str × τ)) (name : Str) : has d name = true ↔ ∃ v, (name, v) ∈ d := by
  unfold has
  rw [List.any_eq_true]
  constructor
  · rintro ⟨⟨k, v⟩, h, he⟩
    have : k = name := by simpa using he
    exact ⟨v, this ▸ h⟩
  · rintro ⟨v, h⟩; exact ⟨_, h, by simp⟩

theorem find_value (d : List (Str × τ)) (hd : (d.map Prod.fst).Nodup) (name : Str) (v : τ) (h : (name, v) ∈ d) :
    d.find? (fun kv => kv.1 == name) = some (name, v) := by
  induction d with
  | nil => cases h
  | cons kv d ih =>
    obtain ⟨k, w⟩ := kv
    rw [List.find?_cons]
    have hn := List.nodup_cons.1 (by simpa using hd : (k :: d.map Prod.fst).Nodup)
    by_cases hk : k = name
    · subst hk
      rcases List.mem_cons.1 h with h | h
      · cases h; simp
      · exact absurd (List.mem_map.2 ⟨_, h, rfl⟩) hn.1
    · rcases List.mem_cons.1 h with h | h
      · cases h; exact absurd rfl hk
      · rw [show ((k, w).1 == name) = false from by simpa using hk]
        exact ih hn.2 h

/-- **C28.**  A call of a decorated function runs the function, with the arguments unchanged, if every parameter
passed is known, every required one is passed and no incompatible ones are; otherwise it is refused, and
the function is not run.  (For a function whose parameters have different names and a call that does not
pass more arguments by position than there are parameters.) -/
theorem C28_accepted_iff (vals : Values τ) (rules : List Rule) (params : List Str) (func : List τ → List (Str × τ) → α)
    (args : List τ) (kwargs : List (Str × τ)) (hp : params.Nodup) (hlen : args.length ≤ params.length)
    (hk : (kwargs.map Prod.fst).Nodup) :
    (Acceptable vals rules (Passes params args kwargs) ∧
      call vals rules params func args kwargs = .ran (func args kwargs)) ∨
    (¬ Acceptable vals rules (Passes params args kwargs) ∧
      call vals rules params func args kwargs = .refused .invalidReaderConfig) := by
  obtain ⟨d, h1, h2, h3⟩ := entered_ok params args kwargs hp hlen hk
  have hpass : (fun n v => (n, v) ∈ d) = Passes params args kwargs := by
    funext n v; exact propext (h3 n v)
  have hunknown : unknown (allRules vals rules d) d = false ↔
      ∀ name v, Passes params args kwargs name v → ∃ r, Applies vals rules (Passes params args kwargs) r ∧ r.name = name := by
    unfold unknown known
    rw [List.any_eq_false]
    constructor
    · intro h name v hv
      have := h (name, v) ((h3 name v).2 hv)
      simp only [Bool.not_eq_true, Bool.not_eq_false', List.any_eq_true] at this
      obtain ⟨r, hr, he⟩ := this
      rw [mem_allRules, hpass] at hr
      exact ⟨r, hr, by simpa using he⟩
    · rintro h ⟨name, v⟩ hv
      obtain ⟨r, hr, he⟩ := h name v ((h3 name v).1 hv)
      rw [← hpass, ← mem_allRules] at hr
      simp only [Bool.not_eq_true, Bool.not_eq_false', List.any_eq_true]
      exact ⟨r, hr, by simpa using he⟩
  have hmissing : missing (allRules vals rules d) d = false ↔
      ∀ r, Applies vals rules (Passes params args kwargs) r → r.required = true → ∃ v, Passes params args kwargs r.name v := by
    unfold missing
    rw [List.any_eq_false]
    constructor
    · intro h r hr hreq
      rw [← hpass, ← mem_allRules] at hr
      have := h r (List.mem_filter.2 ⟨hr, hreq⟩)
      simp only [Bool.not_eq_true, Bool.not_eq_false'] at this
      obtain ⟨v, hv⟩ := (has_iff d r.name).1 this
      exact ⟨v, (h3 _ _).1 hv⟩
    · intro h r hr
      obtain ⟨hr, hreq⟩ := List.mem_filter.1 hr
      rw [mem_allRules, hpass] at hr
      obtain ⟨v, hv⟩ := h r hr hreq
      simp only [Bool.not_eq_true, Bool.not_eq_false']
      exact (has_iff d r.name).2 ⟨v, (h3 _ _).2 hv⟩
  have htoxic : toxic vals rules d = false ↔
      ∀ r ∈ rules, ∀ v, Passes params args kwargs r.name v → vals.truthy v = true →
        ∀ t ∈ r.incompatible, ∀ w, ¬ Passes params args kwargs t w := by
    unfold toxic
    rw [List.any_eq_false]
    constructor
    · intro h r hr v hv htr t ht w hw
      have hm := (h3 _ _).2 hv
      refine h r (List.mem_filter.2 ⟨hr, by cases hi : r.incompatible with | nil => rw [hi] at ht; cases ht | cons x l => rfl⟩) ?_
      rw [find_value d h2 _ _ hm, (has_iff d r.name).2 ⟨v, hm⟩]
      simp only [Option.elim_some, htr, Bool.true_and, List.any_eq_true]
      exact ⟨t, ht, (has_iff d t).2 ⟨w, (h3 _ _).2 hw⟩⟩
    · intro h r hr hx
      obtain ⟨hr, _⟩ := List.mem_filter.1 hr
      simp only [Bool.and_eq_true, List.any_eq_true] at hx
      obtain ⟨⟨hx1, hx2⟩, t, ht, hx3⟩ := hx
      obtain ⟨v, hv⟩ := (has_iff d r.name).1 hx1
      obtain ⟨w, hw⟩ := (has_iff d t).1 hx3
      rw [find_value d h2 _ _ hv] at hx2
      exact h r hr v ((h3 _ _).1 hv) hx2 t ht w ((h3 _ _).1 hw)
  have hcall : call vals rules params func args kwargs =
      if unknown (allRules vals rules d) d = false ∧ missing (allRules vals rules d) d = false ∧ toxic vals rules d = false
      then .ran (func args kwargs) else .refused .invalidReaderConfig := by
    unfold call
    rw [h1]
    simp only []
    cases unknown (allRules vals rules d) d <;> cases missing (allRules vals rules d) d <;>
      cases toxic vals rules d <;> rfl
  rw [hcall]
  by_cases h : unknown (allRules vals rules d) d = false ∧ missing (allRules vals rules d) d = false ∧ toxic vals rules d = false
  · rw [if_pos h]
    exact Or.inl ⟨⟨hunknown.1 h.1, hmissing.1 h.2.1, htoxic.1 h.2.2⟩, rfl⟩
  · rw [if_neg h]
    exact Or.inr ⟨fun ha => h ⟨hunknown.2 ha.known, hmissing.2 ha.required, htoxic.2 ha.compatible⟩, rfl⟩

/-- More arguments by position than parameters: refused too, with another exception. -/
theorem C28_too_many (vals : Values τ) (rules : List Rule) (params : List Str) (func : List τ → List (Str × τ) → α)
    (args : List τ) (kwargs : List (Str × τ)) (hlen : params.length < args.length) :
    call vals rules params func args kwargs = .refused .indexError := by
  have : ∀ (args : List τ) (params : List Str) (d : List (Str × τ)), params.length < args.length →
      entered params args d = .error .indexError := by
    intro args
    induction args with
    | nil => intro params d h; simp at h
    | cons a args ih =>
      intro params d h
      cases params with
      | nil => rfl
      | cons p ps => exact ih ps _ (by simpa using h)
  unfold call
  rw [this args params kwargs hlen]

/-- Values for the examples: truth values, one of which (`none`) brings a rule. -/
def demoVals : Values (Option Bool) where
  truthy v := v.getD true
  rules v := match v with
    | none => some [⟨"data".toList, true, ["select".toList]⟩]
    | some _ => none

/-- A reader's parameters: accepted; a required one missing; one unknown; an incompatible pair; and the same
pair with the first one switched off. -/
example :
    let f : List (Option Bool) → List (Str × Option Bool) → Nat := fun _ kw => kw.length
    call demoVals readerRules [] f [] [("dataset".toList, some true), ("cursor".toList, some true)] = .ran 2 ∧
    call demoVals readerRules [] f [] [("cursor".toList, some true)] = .refused .invalidReaderConfig ∧
    call demoVals readerRules [] f [] [("dataset".toList, some true), ("crsor".toList, some true)] = .refused .invalidReaderConfig ∧
    call demoVals readerRules [] f [] [("dataset".toList, some true), ("multiprocess".toList, some true), ("cursor".toList, some true)]
      = .refused .invalidReaderConfig ∧
    call demoVals readerRules [] f [] [("dataset".toList, some true), ("multiprocess".toList, some false), ("cursor".toList, some true)]
      = .ran 3 := by decide +kernel

/-- An inner reader that requires the parameter `data` of its own. -/
example :
    let f : List (Option Bool) → List (Str × Option Bool) → Nat := fun _ kw => kw.length
    call demoVals readerRules [] f [] [("dataset".toList, some true), ("inner_reader".toList, none)] = .refused .invalidReaderConfig ∧
    call demoVals readerRules [] f [] [("dataset".toList, some true), ("inner_reader".toList, none), ("data".toList, some true)] = .ran 3 := by
  decide +kernel

/-- **C28 for `Reader`**, called with arguments that bring no rules of their own: it runs exactly when the names are
these, the data set is given and none of these pairs is used together. -/
theorem C28_reader (vals : Values τ) (func : List τ → List (Str × τ) → α) (kwargs : List (Str × τ))
    (hk : (kwargs.map Prod.fst).Nodup) (hplain : ∀ kv ∈ kwargs, vals.rules kv.2 = none) :
    call vals readerRules [] func [] kwargs = .ran (func [] kwargs) ↔
      (∀ kv ∈ kwargs, kv.1 ∈ ["cursor".toList, "dataset".toList, "end_date".toList, "freshness_limit".toList,
        "inner_reader".toList, "raw_path".toList, "select".toList, "start_date".toList, "filters".toList,
        "persistence".toList, "override_format".toList, "multiprocess".toList, "valid_dataset_prefixes".toList,
        "partitions".toList, "partition_filter".toList, "project".toList]) ∧
      "dataset".toList ∈ kwargs.map Prod.fst ∧
      (∀ ab ∈ [("raw_path".toList, "freshness_limit".toList), ("multiprocess".toList, "cursor".toList),
          ("partitions".toList, "raw_path".toList), ("partition_filter".toList, "freshness_limit".toList)],
        ∀ v, (ab.1, v) ∈ kwargs → vals.truthy v = true → ab.2 ∉ kwargs.map Prod.fst) := by
  have hpass : ∀ n v, Passes [] [] kwargs n v ↔ (n, v) ∈ kwargs := by
    intro n v
    unfold Passes
    simp
  have happ : ∀ r, Applies vals readerRules (Passes [] [] kwargs) r ↔ r ∈ readerRules := by
    intro r
    unfold Applies
    constructor
    · rintro (h | ⟨n, v, more, h1, h2, h3⟩)
      · exact h
      · rw [hplain _ ((hpass n v).1 h1)] at h2
        cases h2
    · exact Or.inl
  have hiff : call vals readerRules [] func [] kwargs = .ran (func [] kwargs) ↔
      Acceptable vals readerRules (Passes [] [] kwargs) := by
    rcases C28_accepted_iff vals readerRules [] func [] kwargs List.nodup_nil (Nat.le_refl _) hk with ⟨h1, h2⟩ | ⟨h1, h2⟩
    · exact ⟨fun _ => h1, fun _ => h2⟩
    · constructor
      · intro h
        rw [h2] at h
        cases h
      · intro h
        exact absurd h h1
  rw [hiff]
  constructor
  · intro h
    refine ⟨?_, ?_, ?_⟩
    · intro kv hkv
      obtain ⟨r, h1, h2⟩ := h.known kv.1 kv.2 ((hpass _ _).2 hkv)
      rw [← h2]
      exact List.mem_map.2 ⟨r, (happ r).1 h1, rfl⟩
    · obtain ⟨v, hv⟩ := h.required ⟨"dataset".toList, true, []⟩ ((happ _).2 (by decide)) rfl
      exact List.mem_map.2 ⟨_, (hpass _ _).1 hv, rfl⟩
    · intro ab hab v hv ht hb
      obtain ⟨⟨b, w⟩, hw, hb⟩ := List.mem_map.1 hb
      have hb : b = ab.2 := hb
      subst hb
      have hr : (⟨ab.1, false, [ab.2]⟩ : Rule) ∈ readerRules := by
        exact (by decide : ∀ ab ∈ [("raw_path".toList, "freshness_limit".toList), ("multiprocess".toList, "cursor".toList),
          ("partitions".toList, "raw_path".toList), ("partition_filter".toList, "freshness_limit".toList)],
          (⟨ab.1, false, [ab.2]⟩ : Rule) ∈ readerRules) ab hab
      exact h.compatible _ hr v ((hpass _ _).2 hv) ht ab.2 (by simp) w ((hpass _ _).2 hw)
  · rintro ⟨h1, h2, h3⟩
    refine ⟨?_, ?_, ?_⟩
    · intro n v h
      obtain ⟨r, hr, hn⟩ := List.mem_map.1 (show n ∈ readerRules.map (·.name) from h1 (n, v) ((hpass _ _).1 h))
      exact ⟨r, (happ r).2 hr, hn⟩
    · intro r hr hq
      have : r.name = "dataset".toList := by
        exact (by decide : ∀ r ∈ readerRules, r.required = true → r.name = "dataset".toList) r ((happ r).1 hr) hq
      obtain ⟨kv, hkv, e⟩ := List.mem_map.1 h2
      exact ⟨kv.2, by rw [this, ← e]; exact (hpass _ _).2 hkv⟩
    · intro r hr v hv ht t htt w hw
      have hab : (r.name, t) ∈ [("raw_path".toList, "freshness_limit".toList), ("multiprocess".toList, "cursor".toList),
          ("partitions".toList, "raw_path".toList), ("partition_filter".toList, "freshness_limit".toList)] := by
        clear hv hw
        revert t r
        decide
      exact h3 _ hab v ((hpass _ _).1 hv) ht (List.mem_map.2 ⟨_, (hpass _ _).1 hw, rfl⟩)

/-- **C28 fails for incompatibilities that an argument brings**: an inner reader's rule says that its `data` is
incompatible with `select`, and the call with both runs. -/
theorem C28_brought_incompatibility_fails :
    ∃ r : Rule, Applies demoVals readerRules
        (Passes [] [] [("dataset".toList, some true), ("inner_reader".toList, none), ("data".toList, some true), ("select".toList, some true)]) r ∧
      r.name = "data".toList ∧ "select".toList ∈ r.incompatible ∧
      call demoVals readerRules [] (fun _ kw => kw.length) []
        [("dataset".toList, some true), ("inner_reader".toList, none), ("data".toList, some true), ("select".toList, some true)] = .ran 4 := by
  refine ⟨⟨"data".toList, true, ["select".toList]⟩, Or.inr ⟨"inner_reader".toList, none, _, ?_, rfl, List.mem_cons_self⟩, rfl,
    List.mem_cons_self, by decide +kernel⟩
  exact Or.inr ⟨by simp, by simp⟩

end Mabel.Validator
