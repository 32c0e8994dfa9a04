import Verif.Model.Colors
import Verif.Spec.Colors
import Verif.Lemmas.Str

/-!
# Colours in text: C94
-/

namespace Mabel.Colors
open Mabel.Py

theorem colors_table : colors = table := by decide +kernel

/-- A word in braces. -/
structure Word (k : Str) : Prop where
  opens : k.head? = some '{'
  once : '{' ∉ k.tail
  plain : '\x1b' ∉ k

theorem table_words : ∀ kv ∈ table, Word kv.1 ∧ kv.2.head? = some '\x1b' ∧ '{' ∉ kv.2 := by
  intro kv hkv
  have : ∀ kv ∈ table, kv.1.head? = some '{' ∧ '{' ∉ kv.1.tail ∧ '\x1b' ∉ kv.1 ∧ kv.2.head? = some '\x1b' ∧ '{' ∉ kv.2 := by
    decide +kernel
  obtain ⟨h1, h2, h3, h4, h5⟩ := this kv hkv
  exact ⟨⟨h1, h2, h3⟩, h4, h5⟩

theorem Word.eq {k : Str} (h : Word k) : ∃ m, k = '{' :: m ∧ '{' ∉ m ∧ '\x1b' ∉ m := by
  cases k with
  | nil => cases h.opens
  | cons c m =>
    have hc : c = '{' := by simpa using h.opens
    subst hc
    exact ⟨m, rfl, h.once, fun hm => h.plain (List.mem_cons_of_mem _ hm)⟩

/-- What has no opening brace is passed over. -/
theorem replace_skip {k v a x : Str} (hk : Word k) (ha : '{' ∉ a) : replace k v (a ++ x) = a ++ replace k v x := by
  obtain ⟨m, rfl, -, -⟩ := hk.eq
  unfold replace
  induction a with
  | nil => rfl
  | cons c a ih =>
    rw [List.cons_append, replaceGo, if_neg, ih (fun h => ha (List.mem_cons_of_mem _ h))]
    · rfl
    · intro hp
      obtain ⟨t, ht⟩ := isPrefixOf_iff.1 hp
      exact ha (by rw [(List.cons.inj ht).1]; exact List.mem_cons_self)

theorem replaceGo_drop (k v : Str) : ∀ (a x : Str), replaceGo k v a.length (a ++ x) = replaceGo k v 0 x := by
  intro a x
  induction a with
  | nil => rfl
  | cons c a ih => rw [List.cons_append, List.length_cons, replaceGo]; exact ih

theorem replace_word {k v x : Str} (hk : Word k) : replace k v (k ++ x) = v ++ replace k v x := by
  obtain ⟨m, rfl, -, -⟩ := hk.eq
  unfold replace
  have hp : ('{' :: m).isPrefixOf ('{' :: (m ++ x)) = true := isPrefixOf_iff.2 ⟨x, rfl⟩
  rw [List.cons_append, replaceGo, if_pos hp, List.length_cons, Nat.add_sub_cancel, replaceGo_drop]

theorem replace_other {k v x : Str} {c : Char} (h : ¬ k <+: c :: x) : replace k v (c :: x) = c :: replace k v x := by
  unfold replace
  rw [replaceGo, if_neg (fun hp => h (List.isPrefixOf_iff_prefix.1 hp))]

/-- Text without an opening brace is kept, and what comes after it is read on its own. -/
theorem painted_over {S : List (Str × Str)} (hS : ∀ kv ∈ S, Word kv.1) {m s t : Str} (hm : '{' ∉ m)
    (hp : Painted S (m ++ s) t) : ∃ t', t = m ++ t' ∧ Painted S s t' := by
  induction m generalizing t with
  | nil => exact ⟨t, rfl, hp⟩
  | cons c m ih =>
    generalize hx : c :: m ++ s = x at hp
    cases hp with
    | done => cases hx
    | @word k v s' t' hk hp =>
      obtain ⟨m', rfl, -, -⟩ := (hS _ hk).eq
      have := (List.cons.inj hx).1
      exact absurd (by rw [this]; exact List.mem_cons_self) hm
    | @char d s' t' hn hp =>
      obtain ⟨rfl, rfl⟩ := List.cons.inj hx
      obtain ⟨t'', rfl, h⟩ := ih (fun h => hm (List.mem_cons_of_mem _ h)) hp
      exact ⟨t'', rfl, h⟩

/-- What is seen of a text without escape characters was there before. -/
theorem painted_under {S : List (Str × Str)} (hS : ∀ kv ∈ S, kv.2.head? = some '\x1b') {m s t : Str} (hm : '\x1b' ∉ m)
    (hp : Painted S s (m ++ t)) : ∃ s', s = m ++ s' ∧ Painted S s' t := by
  induction m generalizing s with
  | nil => exact ⟨s, rfl, hp⟩
  | cons c m ih =>
    generalize hx : c :: m ++ t = x at hp
    cases hp with
    | done => cases hx
    | @word k v s' t' hk hp =>
      have hv := hS _ hk
      cases v with
      | nil => cases hv
      | cons d v =>
        have hd : d = '\x1b' := by simpa using hv
        have := (List.cons.inj hx).1
        exact absurd (by rw [this, hd]; exact List.mem_cons_self) hm
    | @char d s' t' hn hp =>
      obtain ⟨rfl, rfl⟩ := List.cons.inj hx
      obtain ⟨s'', rfl, h⟩ := ih (fun h => hm (List.mem_cons_of_mem _ h)) hp
      exact ⟨s'', rfl, h⟩

theorem painted_more {S : List (Str × Str)} (hS : ∀ kv ∈ S, Word kv.1 ∧ kv.2.head? = some '\x1b' ∧ '{' ∉ kv.2)
    {k v : Str} (hk : Word k) (n : Nat) : ∀ s t, s.length ≤ n → Painted S s t → Painted (S ++ [(k, v)]) s (replace k v t) := by
  induction n with
  | zero =>
    intro s t hn hp
    cases s with
    | cons c s => simp at hn
    | nil =>
      generalize hx : ([] : Str) = x at hp
      cases hp with
      | done => exact .done
      | @word k' v' s' t' hk' hp' =>
        obtain ⟨m', rfl, -, -⟩ := (hS _ hk').1.eq
        cases hx
      | char => cases hx
  | succ n ih =>
    intro s t hn hp
    cases hp with
    | done => exact .done
    | @word k' v' s t hk' hp =>
      obtain ⟨hw, -, hv⟩ := hS _ hk'
      obtain ⟨m', rfl, -, -⟩ := hw.eq
      rw [replace_skip hk hv]
      exact .word (List.mem_append_left _ hk') (ih s t (by simp at hn; omega) hp)
    | @char c s t hno hp =>
      by_cases hpre : k <+: c :: t
      · obtain ⟨t2, ht2⟩ := hpre
        obtain ⟨m, rfl, hm, hesc⟩ := hk.eq
        obtain ⟨rfl, rfl⟩ := List.cons.inj ht2
        obtain ⟨s2, rfl, h2⟩ := painted_under (fun kv h => (hS kv h).2.1) hesc hp
        have : replace ('{' :: m) v ('{' :: List.append m t2) = v ++ replace ('{' :: m) v t2 := replace_word hk
        rw [this]
        have h3 := ih s2 t2 (by simp at hn; omega) h2
        have h4 := Painted.word (table := S ++ [('{' :: m, v)]) (k := '{' :: m) (v := v) (by simp) h3
        exact h4
      · rw [replace_other hpre]
        refine .char ?_ (ih s t (by simpa using hn) hp)
        intro kv hkv
        rcases List.mem_append.1 hkv with h | h
        · exact hno kv h
        · rw [List.mem_singleton.1 h]
          rintro ⟨s2, hs2⟩
          obtain ⟨m, rfl, hm, -⟩ := hk.eq
          obtain ⟨rfl, rfl⟩ := List.cons.inj hs2
          obtain ⟨t', rfl, -⟩ := painted_over (fun kv h => (hS kv h).1) hm hp
          exact hpre ⟨t', rfl⟩

theorem painted_nothing (s : Str) : Painted [] s s := by
  induction s with
  | nil => exact .done
  | cons c s ih => exact .char (by simp) ih

theorem painted_fold (s : Str) (S R : List (Str × Str)) (t : Str)
    (hS : ∀ kv ∈ S ++ R, Word kv.1 ∧ kv.2.head? = some '\x1b' ∧ '{' ∉ kv.2) (hp : Painted S s t) :
    Painted (S ++ R) s (R.foldl (fun record kv => replace kv.1 kv.2 record) t) := by
  induction R generalizing S t with
  | nil => rw [List.append_nil]; exact hp
  | cons kv R ih =>
    have h := painted_more (fun kv h => hS kv (List.mem_append_left _ h)) (v := kv.2) (hS kv (by simp)).1 s.length s t
      (Nat.le_refl _) hp
    have := ih (S ++ [(kv.1, kv.2)]) _ (by
      intro kv' h'
      rw [List.append_assoc] at h'
      exact hS kv' h') h
    rw [List.append_assoc] at this
    exact this

/-- No word is the beginning of another. -/
theorem table_apart : ∀ kv ∈ table, ∀ kv' ∈ table, kv.1 <+: kv'.1 → kv = kv' := by decide +kernel

/-- What a text is painted as is settled by the text. -/
theorem painted_unique {S : List (Str × Str)} (hne : ∀ kv ∈ S, kv.1 ≠ [])
    (hS : ∀ kv ∈ S, ∀ kv' ∈ S, kv.1 <+: kv'.1 → kv = kv') {s t t' : Str}
    (h : Painted S s t) (h' : Painted S s t') : t = t' := by
  induction h generalizing t' with
  | done =>
    generalize hx : ([] : Str) = x at h'
    cases h' with
    | done => rfl
    | @word k v s t hk hp => exact absurd (List.append_eq_nil_iff.1 hx.symm).1 (hne _ hk)
    | char => cases hx
  | @word k v s t hk hp ih =>
    generalize hx : k ++ s = x at h'
    cases h' with
    | done => exact absurd (List.append_eq_nil_iff.1 hx).1 (hne _ hk)
    | @word k' v' s' t'' hk' hp' =>
      have : (k, v) = (k', v') := by
        rcases List.prefix_or_prefix_of_prefix (l₃ := k ++ s) ⟨s, rfl⟩ ⟨s', hx.symm⟩ with h | h
        · exact hS _ hk _ hk' h
        · exact (hS _ hk' _ hk h).symm
      cases this
      rw [ih (by rw [List.append_cancel_left hx]; exact hp')]
    | @char c s' t'' hno hp' => exact absurd ⟨s, hx⟩ (hno _ hk)
  | @char c s t hno hp ih =>
    generalize hx : c :: s = x at h'
    cases h' with
    | done => cases hx
    | @word k' v' s' t'' hk' hp' => exact absurd ⟨s', hx.symm⟩ (hno _ hk')
    | @char c s' t'' hno' hp' =>
      obtain ⟨rfl, rfl⟩ := List.cons.inj hx
      rw [ih hp']

/-- **C94.** With colours, any text is given with each word for a colour replaced by its code and all else as it was. -/
theorem C94_on (s : Str) : ∀ t, colorize s true = t ↔ Painted table s t := by
  have h : Painted table s (colorize s true) := by
    have := painted_fold s [] table s (by simpa using table_words) (painted_nothing s)
    unfold colorize
    rw [if_pos rfl, colors_table]
    exact this
  intro t
  constructor
  · rintro rfl; exact h
  · intro ht
    refine painted_unique ?_ table_apart h ht
    intro kv hkv
    obtain ⟨m, hm, -⟩ := (table_words kv hkv).1.eq
    rw [hm]; simp

example : Painted table "a {RED}b{OFF} {x}".toList "a \x1b[0;31mb\x1b[0m {x}".toList := (C94_on _ _).1 (by decide +kernel)

/-! ## Without colours -/

/-- A part of a text: a character or a word for a colour. -/
abbrev Part := Char ⊕ Str

def flat (ps : List Part) : Str := ps.flatMap fun p => match p with | .inl c => [c] | .inr k => k

def Proper (ps : List Part) : Prop := ∀ p ∈ ps, (∀ c, p = .inl c → c ≠ '{') ∧ (∀ k, p = .inr k → k ∈ table.map Prod.fst)

theorem replace_parts {k : Str} (hk : k ∈ table.map Prod.fst) {ps : List Part} (hp : Proper ps) :
    replace k [] (flat ps) = flat (ps.filter (· ≠ .inr k)) := by
  obtain ⟨kv, hkv, rfl⟩ := List.mem_map.1 hk
  have hw := (table_words kv hkv).1
  induction ps with
  | nil => rfl
  | cons p ps ih =>
    have ih := ih (fun p h => hp p (List.mem_cons_of_mem _ h))
    cases p with
    | inl c =>
      have hc := (hp _ List.mem_cons_self).1 c rfl
      rw [show flat (.inl c :: ps) = [c] ++ flat ps from rfl, replace_skip hw (by simpa using fun h => hc h.symm), ih,
        List.filter_cons_of_pos (by simp)]
      rfl
    | inr k' =>
      obtain ⟨kv', hkv', hk'⟩ := List.mem_map.1 ((hp _ List.mem_cons_self).2 k' rfl)
      subst hk'
      rw [show flat (.inr kv'.1 :: ps) = kv'.1 ++ flat ps from rfl]
      by_cases he : kv'.1 = kv.1
      · rw [he, replace_word hw, ih, List.nil_append, List.filter_cons_of_neg (by simp)]
      · obtain ⟨m, hm, hm', -⟩ := (table_words kv' hkv').1.eq
        have hno : ¬ kv.1 <+: '{' :: (m ++ flat ps) := by
          intro h
          rw [← List.cons_append, ← hm] at h
          rcases List.prefix_or_prefix_of_prefix h ⟨flat ps, rfl⟩ with h | h
          · exact he (by rw [table_apart _ hkv _ hkv' h])
          · exact he (by rw [table_apart _ hkv' _ hkv h])
        rw [hm, List.cons_append, replace_other hno, replace_skip hw hm', ih, List.filter_cons_of_pos (by simpa [← hm] using he)]
        rfl

theorem fold_parts (ks : List (Str × Str)) (hks : ∀ kv ∈ ks, kv ∈ table) {ps : List Part} (hp : Proper ps) :
    ks.foldl (fun record kv => replace kv.1 [] record) (flat ps) =
      flat (ps.filter fun p => ∀ kv ∈ ks, p ≠ .inr kv.1) := by
  induction ks generalizing ps with
  | nil => rw [List.filter_eq_self.2 (by simp)]; rfl
  | cons kv ks ih =>
    rw [List.foldl_cons, replace_parts (List.mem_map_of_mem (hks kv (by simp))) hp,
      ih (fun kv h => hks kv (by simp [h])) (fun p h => hp p (List.mem_filter.1 h).1), List.filter_filter]
    congr 1
    apply List.filter_congr
    intro p _
    rw [← Bool.decide_and]
    congr 1
    apply propext
    constructor
    · rintro ⟨h1, h2⟩ kv' h'
      rcases List.mem_cons.1 h' with rfl | h'
      · exact h2
      · exact h1 kv' h'
    · intro h
      exact ⟨fun kv' h' => h kv' (by simp [h']), h kv (by simp)⟩

theorem parts_of {s t : Str} (h : Painted blank s t) (hb : '{' ∉ t) :
    ∃ ps, Proper ps ∧ flat ps = s ∧ flat (ps.filter fun p => ∀ kv ∈ table, p ≠ .inr kv.1) = t := by
  induction h with
  | done => exact ⟨[], by simp [Proper], rfl, rfl⟩
  | @word k v s t hk hp ih =>
    obtain ⟨kv, hkv, he⟩ := List.mem_map.1 hk
    obtain ⟨rfl, rfl⟩ := Prod.mk.inj he
    obtain ⟨ps, h1, h2, h3⟩ := ih (by simpa using hb)
    refine ⟨.inr kv.1 :: ps, ?_, by rw [← h2]; rfl, ?_⟩
    · intro p hp
      rcases List.mem_cons.1 hp with rfl | hp
      · refine ⟨fun c h => (by cases h), ?_⟩
        intro k hk
        cases hk
        exact List.mem_map_of_mem hkv
      · exact h1 p hp
    · rw [List.filter_cons_of_neg, h3]
      · rfl
      · simp only [decide_eq_true_eq]
        exact fun h => h kv hkv rfl
  | @char c s t hno hp ih =>
    obtain ⟨ps, h1, h2, h3⟩ := ih (fun h => hb (List.mem_cons_of_mem _ h))
    refine ⟨.inl c :: ps, ?_, by rw [← h2]; rfl, ?_⟩
    · intro p hp
      rcases List.mem_cons.1 hp with rfl | hp
      · refine ⟨?_, fun k h => (by cases h)⟩
        rintro c' h rfl
        cases h
        exact hb List.mem_cons_self
      · exact h1 p hp
    · rw [List.filter_cons_of_pos (by simp), ← h3]
      rfl

/-- **C94 (partial).** Without colours, the words for colours are taken out of a text and nothing else is, if no opening
brace is left.  Otherwise a word may be left behind (`C94_off_fails`). -/
theorem C94_off_partial {s t : Str} (h : Painted blank s t) (hb : '{' ∉ t) : colorize s false = t := by
  obtain ⟨ps, h1, h2, h3⟩ := parts_of h hb
  unfold colorize
  rw [if_neg (by decide), colors_table, ← h2, fold_parts table (fun _ h => h) h1, h3]

/-- **C94.** Without colours, a text may be given with a word for a colour in it that was not there. -/
theorem C94_off_fails : colorize "{O{RED}FF}".toList false = "{OFF}".toList ∧
    Painted blank "{O{RED}FF}".toList "{OFF}".toList ∧ ¬ "{OFF}".toList <:+: "{O{RED}FF}".toList := by
  refine ⟨by decide +kernel, ?_, by decide +kernel⟩
  refine .char (s := "O{RED}FF}".toList) (by decide +kernel) (.char (s := "{RED}FF}".toList) (by decide +kernel) ?_)
  refine .word (k := "{RED}".toList) (v := []) (s := "FF}".toList) (by decide +kernel) ?_
  exact .char (by decide +kernel) (.char (by decide +kernel) (.char (by decide +kernel) .done))

example : Painted blank "a{RED}b".toList "ab".toList ∧ '{' ∉ "ab".toList := by
  refine ⟨.char (s := "{RED}b".toList) (by decide +kernel) ?_, by decide⟩
  exact .word (k := "{RED}".toList) (v := []) (s := "b".toList) (by decide +kernel) (.char (by decide +kernel) .done)

theorem painted_plain {S : List (Str × Str)} (hS : ∀ kv ∈ S, Word kv.1) {a t : Str} (ha : '{' ∉ a) (h : Painted S t t) :
    Painted S (a ++ t) (a ++ t) := by
  induction a with
  | nil => exact h
  | cons c a ih =>
    refine .char ?_ (ih fun h => ha (List.mem_cons_of_mem _ h))
    rintro kv hkv ⟨x, hx⟩
    obtain ⟨m, hm, -⟩ := (hS kv hkv).eq
    rw [hm] at hx
    exact ha (by rw [← (List.cons.inj hx).1]; exact List.mem_cons_self)

theorem painted_again {S : List (Str × Str)} (hS : ∀ kv ∈ S, Word kv.1 ∧ kv.2.head? = some '\x1b' ∧ '{' ∉ kv.2)
    {s t : Str} (h : Painted S s t) : Painted S t t := by
  induction h with
  | done => exact .done
  | @word k v s t hk hp ih => exact painted_plain (fun kv h => (hS kv h).1) (hS _ hk).2.2 ih
  | @char c s t hno hp ih =>
    refine .char ?_ ih
    rintro kv hkv ⟨x, hx⟩
    obtain ⟨m, hm, -, hesc⟩ := (hS kv hkv).1.eq
    have h1 := hno kv hkv
    rw [hm] at hx h1
    obtain ⟨rfl, rfl⟩ := List.cons.inj hx
    obtain ⟨s', rfl, -⟩ := painted_under (fun kv h => (hS kv h).2.1) hesc hp
    exact h1 ⟨s', rfl⟩

/-- **C94.** A text that has been given colours has no words for colours in it any more: giving it colours again does not
change it. -/
theorem C94_again (s : Str) : colorize (colorize s true) true = colorize s true :=
  (C94_on _ _).2 (painted_again table_words ((C94_on s _).1 rfl))

end Mabel.Colors
