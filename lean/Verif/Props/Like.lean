import Verif.Model.Like
import Verif.Spec.Like

/-! # LIKE (C46) -/

namespace Mabel.Like
open Mabel.Py Spec

/-- What one character of the pattern becomes. -/
def item (c : Char) : Rx := if c = '%' then .run else if c = '_' then .any else .lit c

def piece (c : Char) : Str :=
  if c = '%' then ".*?".toList else if c = '_' then ".".toList else if c ∈ regexCharacters then ['\\', c] else [c]

theorem regexText_eq (p : Str) : regexText p = p.flatMap piece := by
  unfold regexText escape replaceChar
  rw [List.flatMap_assoc, List.flatMap_assoc]
  congr 1
  funext c
  unfold piece
  by_cases h1 : c = '%'
  · subst h1; decide
  · by_cases h2 : c = '_'
    · subst h2; decide
    · rw [if_neg h1, if_neg h2]
      by_cases h3 : c ∈ regexCharacters
      · simp [h3, h1, h2]
      · simp [h3, h1, h2]

theorem piece_head (c : Char) (s : Str) : ∀ t, piece c ++ s ≠ '*' :: t := by
  intro t h
  unfold piece at h
  split at h
  · exact absurd (List.cons.inj h).1 (by decide)
  · split at h
    · exact absurd (List.cons.inj h).1 (by decide)
    · split at h
      · exact absurd (List.cons.inj h).1 (by decide)
      · rename_i h3
        have := (List.cons.inj h).1
        subst this
        exact h3 (by decide)

theorem pieces_head (p : Str) : ∀ t, p.flatMap piece ≠ '*' :: t := by
  cases p with
  | nil => intro t h; cases h
  | cons c p => rw [List.flatMap_cons]; exact piece_head c _

theorem readRx_piece (c : Char) (s : Str) (hs : ∀ t, s ≠ '*' :: t) :
    readRx (piece c ++ s) = (readRx s).map (item c :: ·) := by
  unfold piece item
  by_cases h1 : c = '%'
  · rw [if_pos h1, if_pos h1]; rfl
  · rw [if_neg h1, if_neg h1]
    by_cases h2 : c = '_'
    · rw [if_pos h2, if_pos h2]
      show readRx ('.' :: s) = _
      cases s with
      | nil => rfl
      | cons d s =>
        have : d ≠ '*' := fun h => hs s (by rw [h])
        rw [readRx]
        intro s' h
        exact this (List.cons.inj h).1
    · rw [if_neg h2, if_neg h2]
      by_cases h3 : c ∈ regexCharacters
      · rw [if_pos h3]; rfl
      · rw [if_neg h3]
        show readRx (c :: s) = _
        have hb : c ≠ '\\' := by rintro rfl; exact h3 (by decide)
        have hd : c ≠ '.' := by rintro rfl; exact h3 (by decide)
        rw [readRx, if_neg h3]
        all_goals (intros; simp_all)

/-- Every pattern can be read. -/
theorem compiles (p : Str) : readRx (regexText p) = some (p.map item) := by
  rw [regexText_eq]
  induction p with
  | nil => rfl
  | cons c p ih =>
    rw [List.flatMap_cons, readRx_piece c _ (pieces_head p), ih]
    rfl

/-- The characters a wildcard stands for, in the code. -/
def NoFeed (s : Str) : Prop := '\n' ∉ s

/-- LIKE as the code has it: wildcards do not stand for line feeds. -/
inductive Narrow : Str → Str → Prop
  | nil : Narrow [] []
  | self {c p t} : c ≠ '%' → c ≠ '_' → Narrow p t → Narrow (c :: p) (c :: t)
  | one {c p t} : c ≠ '\n' → Narrow p t → Narrow ('_' :: p) (c :: t)
  | many {u p t} : NoFeed u → Narrow p t → Narrow ('%' :: p) (u ++ t)

theorem runMatch_iff (k : Str → Bool) (t : Str) :
    runMatch k t = true ↔ ∃ u v, t = u ++ v ∧ NoFeed u ∧ k v = true := by
  induction t with
  | nil =>
    simp only [runMatch]
    constructor
    · intro h; exact ⟨[], [], rfl, by simp [NoFeed], h⟩
    · rintro ⟨u, v, h, _, hk⟩
      have := List.append_eq_nil_iff.1 h.symm
      rw [this.2] at hk; exact hk
  | cons c t ih =>
    simp only [runMatch, Bool.or_eq_true, Bool.and_eq_true, decide_eq_true_eq, ih]
    constructor
    · rintro (h | ⟨hc, u, v, rfl, hu, hk⟩)
      · exact ⟨[], c :: t, rfl, by simp [NoFeed], h⟩
      · refine ⟨c :: u, v, rfl, ?_, hk⟩
        unfold NoFeed at *
        simp only [List.mem_cons, not_or]
        exact ⟨fun h => hc h.symm, hu⟩
    · rintro ⟨u, v, h, hu, hk⟩
      cases u with
      | nil => exact Or.inl (by rw [show c :: t = v from h]; exact hk)
      | cons d u =>
        obtain ⟨rfl, rfl⟩ := List.cons.inj h
        unfold NoFeed at hu
        simp only [List.mem_cons, not_or] at hu
        exact Or.inr ⟨fun h => hu.1 h.symm, u, v, rfl, hu.2, hk⟩

theorem narrow_self {c : Char} {p t : Str} (h1 : c ≠ '%') (h2 : c ≠ '_') (h : Narrow (c :: p) t) :
    ∃ t', t = c :: t' ∧ Narrow p t' := by
  cases h with
  | self _ _ h => exact ⟨_, rfl, h⟩
  | one => exact absurd rfl h2
  | many => exact absurd rfl h1

theorem rxMatch_iff (p t : Str) :
    rxMatch (p.map item) t = true ↔ Narrow p t ∨ ∃ t', t = t' ++ ['\n'] ∧ Narrow p t' := by
  induction p generalizing t with
  | nil =>
    simp only [List.map_nil, rxMatch, decide_eq_true_eq]
    constructor
    · rintro (rfl | rfl)
      · exact Or.inl .nil
      · exact Or.inr ⟨[], rfl, .nil⟩
    · rintro (h | ⟨t', rfl, h⟩)
      · cases h; exact Or.inl rfl
      · cases h; exact Or.inr rfl
  | cons c p ih =>
    rw [List.map_cons]
    by_cases h1 : c = '%'
    · subst h1
      rw [show item '%' = .run from rfl]
      simp only [rxMatch]
      rw [runMatch_iff]
      constructor
      · rintro ⟨u, v, rfl, hu, hk⟩
        rcases (ih v).1 hk with h | ⟨t', rfl, h⟩
        · exact Or.inl (.many hu h)
        · exact Or.inr ⟨u ++ t', by simp, .many hu h⟩
      · rintro (h | ⟨t', rfl, h⟩)
        · cases h with
          | self h _ _ => exact absurd rfl h
          | many hu h => exact ⟨_, _, rfl, hu, (ih _).2 (Or.inl h)⟩
        · cases h with
          | self h _ _ => exact absurd rfl h
          | many hu h => exact ⟨_, _, by rw [List.append_assoc], hu, (ih _).2 (Or.inr ⟨_, rfl, h⟩)⟩
    · by_cases h2 : c = '_'
      · subst h2
        rw [show item '_' = .any from rfl]
        simp only [rxMatch]
        cases t with
        | nil =>
          constructor
          · intro h; cases h
          · rintro (h | ⟨t', h, _⟩)
            · cases h
            · exact absurd h (by simp)
        | cons d t =>
          simp only [Bool.and_eq_true, decide_eq_true_eq, ih]
          constructor
          · rintro ⟨hd, h | ⟨t', rfl, h⟩⟩
            · exact Or.inl (.one hd h)
            · exact Or.inr ⟨d :: t', rfl, .one hd h⟩
          · rintro (h | ⟨t', e, h⟩)
            · cases h with
              | self _ h _ => exact absurd rfl h
              | one hd h => exact ⟨hd, Or.inl h⟩
            · cases h with
              | self _ h _ => exact absurd rfl h
              | one hd h =>
                obtain ⟨rfl, rfl⟩ := List.cons.inj e
                exact ⟨hd, Or.inr ⟨_, rfl, h⟩⟩
      · rw [show item c = .lit c from by unfold item; rw [if_neg h1, if_neg h2]]
        simp only [rxMatch]
        cases t with
        | nil =>
          constructor
          · intro h; cases h
          · rintro (h | ⟨t', h, _⟩)
            · obtain ⟨_, h, _⟩ := narrow_self h1 h2 h; cases h
            · exact absurd h (by simp)
        | cons d t =>
          simp only [Bool.and_eq_true, decide_eq_true_eq, ih]
          constructor
          · rintro ⟨rfl, h | ⟨t', rfl, h⟩⟩
            · exact Or.inl (.self h1 h2 h)
            · exact Or.inr ⟨d :: t', rfl, .self h1 h2 h⟩
          · rintro (h | ⟨t', e, h⟩)
            · obtain ⟨_, e, h⟩ := narrow_self h1 h2 h
              obtain ⟨rfl, rfl⟩ := List.cons.inj e
              exact ⟨rfl, Or.inl h⟩
            · obtain ⟨_, rfl, h'⟩ := narrow_self h1 h2 h
              obtain ⟨rfl, rfl⟩ := List.cons.inj e
              exact ⟨rfl, Or.inr ⟨_, rfl, h'⟩⟩

theorem narrow_like {p t : Str} (h : Narrow p t) : Like p t := by
  induction h with
  | nil => exact .nil
  | self h1 h2 _ ih => exact .self h1 h2 ih
  | one _ _ ih => exact .one ih
  | many _ _ ih => exact .many ih

theorem like_narrow {p t : Str} (h : Like p t) (hn : '\n' ∉ t) : Narrow p t := by
  induction h with
  | nil => exact .nil
  | self h1 h2 _ ih => exact .self h1 h2 (ih (fun h => hn (by simp [h])))
  | one _ ih => exact .one (fun h => hn (by simp [h])) (ih (fun h => hn (by simp [h])))
  | many _ ih => exact .many (fun h => hn (by simp [h])) (ih (fun h => hn (by simp [h])))

/-- **C46** (partial): LIKE is SQL's LIKE on the lower-case texts, for texts without line feeds and every pattern.
Missing for the full property: texts with line feeds (see the `_fails` theorems; `C46_exactly` says what
happens to them). -/
theorem C46_like_partial (lower : Str → Str) (x : Value) (y : Str) (h : '\n' ∉ lower (Value.toStr x)) :
    like lower x y = true ↔ Like (lower y) (lower (Value.toStr x)) := by
  unfold like likeText
  rw [compiles]
  simp only []
  rw [rxMatch_iff]
  constructor
  · rintro (h1 | ⟨t', e, h1⟩)
    · exact narrow_like h1
    · exact absurd (by rw [e]; simp) h
  · exact fun h1 => Or.inl (like_narrow h1 h)

/-- **C46**: exactly what is matched: wildcards do not stand for line feeds, and one line feed at the end of the text
is ignored. -/
theorem C46_exactly (lower : Str → Str) (x : Value) (y : Str) :
    like lower x y = true ↔ Narrow (lower y) (lower (Value.toStr x)) ∨
      ∃ t, lower (Value.toStr x) = t ++ ['\n'] ∧ Narrow (lower y) t := by
  unfold like likeText
  rw [compiles]
  exact rxMatch_iff _ _

/-- **C46**: a pattern without wildcards matches only itself, whatever regular-expression characters it has (for texts
without line feeds). -/
theorem C46_plain (lower : Str → Str) (x : Value) (y : Str) (h : '\n' ∉ lower (Value.toStr x))
    (h1 : '%' ∉ lower y) (h2 : '_' ∉ lower y) : like lower x y = true ↔ lower (Value.toStr x) = lower y := by
  rw [C46_like_partial lower x y h]
  generalize lower y = p at *
  generalize lower (Value.toStr x) = t at *
  clear h
  induction p generalizing t with
  | nil =>
    constructor
    · intro h; cases h; rfl
    · rintro rfl; exact .nil
  | cons c p ih =>
    simp only [List.mem_cons, not_or] at h1 h2
    constructor
    · intro h
      cases h with
      | self _ _ h => rw [(ih h1.2 h2.2 _).1 h]
      | one => exact absurd rfl h2.1
      | many => exact absurd rfl h1.1
    · rintro rfl
      exact .self (fun h => h1.1 h.symm) (fun h => h2.1 h.symm) ((ih h1.2 h2.2 _).2 rfl)

/-- **C46**: NOT LIKE is the complement. -/
theorem C46_not_like (lower : Str → Str) (x : Value) (y : Str) (h : '\n' ∉ lower (Value.toStr x)) :
    notLike lower x y = true ↔ ¬ Like (lower y) (lower (Value.toStr x)) := by
  unfold notLike
  rw [Bool.not_eq_true', ← C46_like_partial lower x y h, Bool.not_eq_true]

/-- **C46** (fails): a `%` does not stand for a text with a line feed. -/
theorem C46_percent_line_feed_fails :
    like id (.str "a\nb".toList) "a%b".toList = false ∧ Like "a%b".toList "a\nb".toList :=
  ⟨by decide, .self (by decide) (by decide) (.many (u := ['\n']) (.self (by decide) (by decide) .nil))⟩

/-- **C46** (fails): a text that ends with a line feed matches patterns without one. -/
theorem C46_final_line_feed_fails :
    like id (.str "ab\n".toList) "ab".toList = true ∧ ¬ Like "ab".toList "ab\n".toList := by
  refine ⟨by decide, ?_⟩
  intro h
  cases h with
  | self _ _ h => cases h with
    | self _ _ h => cases h

/-- **C46** (fails): a null matches the patterns that the text `None` matches. -/
theorem C46_null_fails : like (fun s => s.map Char.toLower) .none "no%".toList = true := by decide

/-- Metacharacters, both wildcards, upper and lower case. -/
example : like (fun s => s.map Char.toLower) (.str "A.c*d[1]".toList) "a_C%1]".toList = true ∧
    like (fun s => s.map Char.toLower) (.str "abc".toList) "a.c".toList = false := by decide

example : Like "a_c%1]".toList "a.c*d[1]".toList :=
  (C46_like_partial (fun s => s.map Char.toLower) (.str "A.c*d[1]".toList) "a_C%1]".toList (by decide)).1 (by decide)

example : like id (.str "a+b".toList) "a+b".toList = true :=
  (C46_plain id (.str "a+b".toList) "a+b".toList (by decide) (by decide) (by decide)).2 rfl

example : notLike id (.str "b".toList) "a%".toList = true := by decide

end Mabel.Like
