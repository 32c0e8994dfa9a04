import Verif.Spec.Hashes
import Verif.Lemmas.Num

/-! Hashes that tell records apart. -/

namespace Mabel.Hashes
open Mabel.Py

/-- The XOR of the hashes. -/
def xorOf (hash : Str → BitVec 64) (l : List Str) : BitVec 64 := l.foldr (fun t x => hash t ^^^ x) 0

theorem xorOf_append (hash : Str → BitVec 64) (a b : List Str) : xorOf hash (a ++ b) = xorOf hash a ^^^ xorOf hash b := by
  unfold xorOf
  induction a with
  | nil => simp
  | cons x a ih => rw [List.cons_append, List.foldr_cons, ih, List.foldr_cons, BitVec.xor_assoc]

theorem xorOf_perm (hash : Str → BitVec 64) {a b : List Str} (h : a.Perm b) : xorOf hash a = xorOf hash b := by
  unfold xorOf
  induction h with
  | nil => rfl
  | cons x _ ih => rw [List.foldr_cons, ih, List.foldr_cons]
  | swap x y l => rw [List.foldr_cons, List.foldr_cons, List.foldr_cons, List.foldr_cons, ← BitVec.xor_assoc, ← BitVec.xor_assoc, BitVec.xor_comm (hash y)]
  | trans _ _ h1 h2 => exact h1.trans h2

theorem xorOf_split (hash : Str → BitVec 64) (p : Str → Bool) (l : List Str) :
    xorOf hash l = xorOf hash (l.filter p) ^^^ xorOf hash (l.filter (fun x => !p x)) := by
  rw [← xorOf_append]
  exact (xorOf_perm hash (List.filter_append_perm p l)).symm

theorem foldl_xor (f : Str → BitVec 64) (l : List Str) : ∀ x, (l.map f).foldl (fun x y => x ^^^ y) x = x ^^^ xorOf f l := by
  unfold xorOf
  induction l with
  | nil => intro x; simp
  | cons a l ih => intro x; rw [List.map_cons, List.foldl_cons, ih, List.foldr_cons, BitVec.xor_assoc]

theorem natStr_comma (n : Nat) : ',' ∉ natStr n := by
  intro h
  obtain ⟨k, hk, e⟩ := natStr_mem h
  revert hk e
  revert k
  have : ∀ k < 10, ',' ≠ digitChar k := by decide
  exact fun k hk e => this k hk e

theorem split_inj {a b s t : Str} (ha : ',' ∉ a) (hb : ',' ∉ b) (h : a ++ ',' :: s = b ++ ',' :: t) : a = b ∧ s = t := by
  induction a generalizing b with
  | nil =>
    cases b with
    | nil => exact ⟨rfl, by injection h⟩
    | cons c b => injection h with h1 _; subst h1; exact absurd (List.mem_cons_self ..) hb
  | cons c a ih =>
    cases b with
    | nil => injection h with h1 _; subst h1; exact absurd (List.mem_cons_self ..) ha
    | cons d b =>
      injection h with h1 h2
      subst h1
      obtain ⟨h3, h4⟩ := ih (fun h => ha (List.mem_cons_of_mem _ h)) (fun h => hb (List.mem_cons_of_mem _ h)) h2
      exact ⟨by rw [h3], h4⟩

theorem entry_inj {i j : Nat} {s t : Str} (h : natStr i ++ ',' :: s = natStr j ++ ',' :: t) : i = j ∧ s = t := by
  obtain ⟨h1, h2⟩ := split_inj (natStr_comma i) (natStr_comma j) h
  exact ⟨natStr_inj h1, h2⟩

theorem mem_entries {l : List Str} {x : Str} : x ∈ entries l ↔ ∃ (i : Nat) (t : Str), l[i]? = some t ∧ x = natStr i ++ ',' :: t := by
  unfold entries
  rw [List.mem_iff_getElem?]
  constructor
  · rintro ⟨i, h⟩
    rw [List.getElem?_mapIdx] at h
    cases e : l[i]? with
    | none => rw [e] at h; cases h
    | some t => rw [e] at h; injection h with h; exact ⟨i, t, e, h.symm⟩
  · rintro ⟨i, t, h, rfl⟩
    exact ⟨i, by rw [List.getElem?_mapIdx, h]; rfl⟩

theorem entries_nodup (l : List Str) : (entries l).Nodup := by
  unfold entries
  refine List.pairwise_iff_getElem.2 (fun i j hi hj hij h => ?_)
  rw [List.getElem_mapIdx, List.getElem_mapIdx] at h
  exact absurd (entry_inj h).1 (by omega)

theorem texts_sub {a b : List Str} (h : ∀ x ∈ entries a, x ∈ entries b) {i : Nat} {t : Str} (ht : a[i]? = some t) : b[i]? = some t := by
  obtain ⟨j, u, hu, e⟩ := mem_entries.1 (h _ (mem_entries.2 ⟨i, t, ht, rfl⟩))
  obtain ⟨rfl, rfl⟩ := entry_inj e
  exact hu

/-- Independent hashes tell texts in places apart. -/
theorem texts_eq {hash : Str → BitVec 64} {a b : List Str} (hi : Independent hash (entries a ++ entries b))
    (h : xorOf hash (entries a) = xorOf hash (entries b)) : a = b := by
  have hp : ((entries a).filter (fun x => decide (x ∈ entries b))).Perm ((entries b).filter (fun x => decide (x ∈ entries a))) := by
    refine (List.perm_ext_iff_of_nodup ((entries_nodup a).filter _) ((entries_nodup b).filter _)).2 ?_
    intro x
    simp only [List.mem_filter, decide_eq_true_eq]
    exact And.comm
  have hx : xorOf hash ((entries a).filter (fun x => !decide (x ∈ entries b)) ++ (entries b).filter (fun x => !decide (x ∈ entries a))) = 0 := by
    rw [xorOf_split hash (fun x => decide (x ∈ entries b)) (entries a), xorOf_split hash (fun x => decide (x ∈ entries a)) (entries b),
      xorOf_perm hash hp] at h
    rw [xorOf_append, (BitVec.xor_right_inj _).1 h, BitVec.xor_self]
    rfl
  have hnil := Classical.byContradiction (fun hne => hi _ (by
      intro t ht
      rcases List.mem_append.1 ht with ht | ht
      · exact List.mem_append_left _ (List.mem_filter.1 ht).1
      · exact List.mem_append_right _ (List.mem_filter.1 ht).1) (by
      refine List.nodup_append.2 ⟨(entries_nodup a).filter _, (entries_nodup b).filter _, ?_⟩
      intro x hx y hy e
      subst e
      have h1 := (List.mem_filter.1 hx).2
      have h2 := (List.mem_filter.1 hy).1
      simp [h2] at h1) hne hx)
  rw [List.append_eq_nil_iff] at hnil
  have h1 : ∀ x ∈ entries a, x ∈ entries b := by
    intro x hx
    have := List.filter_eq_nil_iff.1 hnil.1 x hx
    simpa using this
  have h2 : ∀ x ∈ entries b, x ∈ entries a := by
    intro x hx
    have := List.filter_eq_nil_iff.1 hnil.2 x hx
    simpa using this
  refine List.ext_getElem? (fun i => ?_)
  cases e : a[i]? with
  | some t => exact (texts_sub h1 e).symm
  | none =>
    cases e' : b[i]? with
    | none => rfl
    | some t => rw [texts_sub h2 e'] at e; cases e

theorem Independent.mono {hash : Str → BitVec 64} {a b : List Str} (h : Independent hash b) (hs : ∀ t ∈ a, t ∈ b) : Independent hash a :=
  fun T hT hn hne => h T (fun t ht => hs t (hT t ht)) hn hne

/-- All collections of some of these texts. -/
def subs : List Str → List (List Str)
  | [] => [[]]
  | x :: l => subs l ++ (subs l).map (x :: ·)

theorem filter_subs (p : Str → Bool) (l : List Str) : l.filter p ∈ subs l := by
  induction l with
  | nil => simp [subs]
  | cons x l ih =>
    rw [List.filter_cons, subs, List.mem_append]
    split
    · exact .inr (List.mem_map.2 ⟨_, ih, rfl⟩)
    · exact .inl ih

/-- For the examples: look at all collections. -/
theorem independent_of {hash : Str → BitVec 64} {l : List Str} (hn : l.Nodup) (h : ∀ s ∈ subs l, s ≠ [] → xorOf hash s ≠ 0) :
    Independent hash l := by
  intro T hT hd hne
  have hp : T.Perm (l.filter (fun x => decide (x ∈ T))) := by
    refine (List.perm_ext_iff_of_nodup hd (hn.filter _)).2 ?_
    intro x
    simp only [List.mem_filter, decide_eq_true_eq]
    exact ⟨fun hx => ⟨hT x hx, hx⟩, fun hx => hx.2⟩
  have := h _ (filter_subs (fun x => decide (x ∈ T)) l) (fun e => hne (by rw [e] at hp; exact hp.eq_nil))
  rw [← xorOf_perm hash hp] at this
  exact this

/-- Records with the same names and the same values are the same. -/
theorem pairs_eq {α β : Type} {a b : List (α × β)} (h1 : a.map Prod.fst = b.map Prod.fst) (h2 : a.map Prod.snd = b.map Prod.snd) : a = b := by
  induction a generalizing b with
  | nil => cases b with
    | nil => rfl
    | cons y b => simp at h1
  | cons x a ih => cases b with
    | nil => simp at h1
    | cons y b =>
      simp only [List.map_cons, List.cons.injEq] at h1 h2
      rw [ih h1.2 h2.2, Prod.ext h1.1 h2.1]

end Mabel.Hashes
