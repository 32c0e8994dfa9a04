import Verif.Model.Naming
import Verif.Props.Listing
import Verif.Props.Paths

/-! # Facts about the names -/

namespace Mabel.Naming
open Mabel.Py Mabel.Paths Mabel.Listing Mabel.Spec

/-! ## The order of frames is the order of time -/

theorem digitChar_lt : ∀ a, a < 10 → ∀ b, b < 10 → (digitChar a < digitChar b ↔ a < b) := by decide

theorem digitsValue_cons (d : Nat) (ds : List Nat) :
    digitsValue (d :: ds) = d * 10 ^ ds.length + digitsValue ds := by
  have key : ∀ (ds : List Nat) (a : Nat), ds.foldl (fun a d => 10 * a + d) a
      = a * 10 ^ ds.length + ds.foldl (fun a d => 10 * a + d) 0 := by
    intro ds
    induction ds with
    | nil => intro a; simp
    | cons x ds ih =>
      intro a
      simp only [List.foldl_cons, List.length_cons]
      rw [ih (10 * a + x), ih (10 * 0 + x), Nat.pow_succ, Nat.add_mul, Nat.add_mul]
      have : 10 * a * 10 ^ ds.length = a * (10 ^ ds.length * 10) := by
        rw [Nat.mul_comm 10 a, Nat.mul_assoc, Nat.mul_comm 10]
      omega
  unfold digitsValue
  rw [List.foldl_cons, key]
  simp

theorem digitsValue_lt (ds : List Nat) (h : ∀ d ∈ ds, d < 10) : digitsValue ds < 10 ^ ds.length := by
  induction ds with
  | nil => simp [digitsValue]
  | cons d ds ih =>
    rw [digitsValue_cons, List.length_cons, Nat.pow_succ]
    have h1 := h d (by simp)
    have h2 := ih (fun x hx => h x (by simp [hx]))
    have h3 : d * 10 ^ ds.length ≤ 9 * 10 ^ ds.length := Nat.mul_le_mul_right _ (by omega)
    omega

/-- Digit texts of the same length compare as the numbers they stand for. -/
theorem digits_lt (ds es : List Nat) (hd : ∀ d ∈ ds, d < 10) (he : ∀ d ∈ es, d < 10)
    (hl : ds.length = es.length) :
    ds.map digitChar < es.map digitChar ↔ digitsValue ds < digitsValue es := by
  induction ds generalizing es with
  | nil =>
    cases es with
    | nil => simp [digitsValue]
    | cons e es => simp at hl
  | cons d ds ih =>
    cases es with
    | nil => simp at hl
    | cons e es =>
      have hl' : ds.length = es.length := by simpa using hl
      have h1 := hd d (by simp)
      have h2 := he e (by simp)
      have v1 := digitsValue_lt ds (fun x hx => hd x (by simp [hx]))
      have v2 := digitsValue_lt es (fun x hx => he x (by simp [hx]))
      rw [List.map_cons, List.map_cons, List.cons_lt_cons_iff, digitChar_lt d h1 e h2,
        ih es (fun x hx => hd x (by simp [hx])) (fun x hx => he x (by simp [hx])) hl',
        digitsValue_cons, digitsValue_cons, ← hl']
      rw [← hl'] at v2
      constructor
      · rintro (h | ⟨h, h'⟩)
        · have : (d + 1) * 10 ^ ds.length ≤ e * 10 ^ ds.length := Nat.mul_le_mul_right _ h
          rw [Nat.add_mul] at this
          omega
        · have := digitChar_inj d h1 e h2 h
          subst this
          omega
      · intro h
        rcases Nat.lt_trichotomy d e with hlt | rfl | hgt
        · exact Or.inl hlt
        · exact Or.inr ⟨rfl, by omega⟩
        · have : (e + 1) * 10 ^ ds.length ≤ d * 10 ^ ds.length := Nat.mul_le_mul_right _ hgt
          rw [Nat.add_mul] at this
          omega

/-- The digits of a timestamp, in order. -/
def stamp1 (t : DateTime) : List Nat :=
  [t.year / 1000, t.year / 100 % 10, t.year / 10 % 10, t.year % 10, t.month / 10, t.month % 10,
    t.day / 10, t.day % 10]
def stamp2 (t : DateTime) : List Nat :=
  [t.hour / 10, t.hour % 10, t.minute / 10, t.minute % 10, t.second / 10, t.second % 10]

theorem asAtName_eq (t : DateTime) :
    asAtName t = "as_at_".toList ++ ((stamp1 t).map digitChar ++ '-' :: (stamp2 t).map digitChar) := rfl

theorem stamp1_digits {t : DateTime} (h : t.valid = true) : ∀ d ∈ stamp1 t, d < 10 := by
  have hv := (DateTime.valid_iff t).1 h
  have hd := days_lt t.year t.month
  simp only [stamp1, List.mem_cons, List.not_mem_nil, or_false]
  rintro d (rfl | rfl | rfl | rfl | rfl | rfl | rfl | rfl) <;> omega

theorem stamp2_digits {t : DateTime} (h : t.valid = true) : ∀ d ∈ stamp2 t, d < 10 := by
  have hv := (DateTime.valid_iff t).1 h
  simp only [stamp2, List.mem_cons, List.not_mem_nil, or_false]
  rintro d (rfl | rfl | rfl | rfl | rfl | rfl) <;> omega

theorem stamp1_value (t : DateTime) (h : t.valid = true) :
    digitsValue (stamp1 t) = t.year * 10000 + t.month * 100 + t.day := by
  simp only [digitsValue, stamp1, List.foldl]
  omega

theorem stamp2_value (t : DateTime) (h : t.valid = true) :
    digitsValue (stamp2 t) = t.hour * 10000 + t.minute * 100 + t.second := by
  simp only [digitsValue, stamp2, List.foldl]
  omega

theorem append_lt_append {a b x y : Str} (hl : a.length = b.length) :
    a ++ x < b ++ y ↔ a < b ∨ (a = b ∧ x < y) := by
  induction a generalizing b with
  | nil =>
    cases b with
    | nil => simp
    | cons c b => simp at hl
  | cons c a ih =>
    cases b with
    | nil => simp at hl
    | cons d b =>
      simp only [List.cons_append, List.cons_lt_cons_iff, ih (by simpa using hl), List.cons.injEq]
      constructor
      · rintro (h | ⟨h, h' | ⟨h', h''⟩⟩)
        · exact Or.inl (Or.inl h)
        · exact Or.inl (Or.inr ⟨h, h'⟩)
        · exact Or.inr ⟨⟨h, h'⟩, h''⟩
      · rintro ((h | ⟨h, h'⟩) | ⟨⟨h, h'⟩, h''⟩)
        · exact Or.inl h
        · exact Or.inr ⟨h, Or.inl h'⟩
        · exact Or.inr ⟨h, Or.inr ⟨h', h''⟩⟩

/-- Timestamps in names are in the order of time. -/
theorem asAtName_lt {s t : DateTime} (hs : s.valid = true) (ht : t.valid = true) :
    asAtName s < asAtName t ↔ s.seconds < t.seconds := by
  rw [asAtName_eq, asAtName_eq, append_lt_append rfl, append_lt_append (by simp [stamp1]),
    List.cons_lt_cons_iff]
  rw [digits_lt _ _ (stamp1_digits hs) (stamp1_digits ht) rfl,
    digits_lt _ _ (stamp2_digits hs) (stamp2_digits ht) rfl, stamp1_value s hs, stamp1_value t ht,
    stamp2_value s hs, stamp2_value t ht]
  have hv := (DateTime.valid_iff s).1 hs
  have hw := (DateTime.valid_iff t).1 ht
  have hds := days_lt s.year s.month
  have hdt := days_lt t.year t.month
  have hirr : ¬ "as_at_".toList < "as_at_".toList := by decide
  have hd : ¬ '-' < '-' := by decide
  simp only [hirr, hd, false_or, true_and]
  have lex : (s.year * 10000 + s.month * 100 + s.day < t.year * 10000 + t.month * 100 + t.day) ↔
      (s.year < t.year ∨ (s.year = t.year ∧ (s.month < t.month ∨ (s.month = t.month ∧ s.day < t.day)))) := by
    omega
  have eq1 : (stamp1 s).map digitChar = (stamp1 t).map digitChar ↔
      s.year = t.year ∧ s.month = t.month ∧ s.day = t.day := by
    constructor
    · intro e
      have := map_digitChar_inj _ _ (stamp1_digits hs) (stamp1_digits ht) e
      have e2 := congrArg digitsValue this
      rw [stamp1_value s hs, stamp1_value t ht] at e2
      omega
    · rintro ⟨e1, e2, e3⟩
      simp only [stamp1, e1, e2, e3]
  rw [lex, eq1]
  constructor
  · rintro (h | ⟨⟨h1, h2, h3⟩, h4⟩)
    · have := DateTime.ordinal_lt_of_lex hs ht h
      unfold DateTime.seconds
      have := Nat.mul_le_mul_right 86400 this
      generalize s.ordinal = a at *
      generalize t.ordinal = b at *
      omega
    · have : s.ordinal = t.ordinal := by simp only [DateTime.ordinal, h1, h2, h3]
      unfold DateTime.seconds
      rw [this]
      omega
  · intro h
    by_cases hl : s.year < t.year ∨ (s.year = t.year ∧ (s.month < t.month ∨ (s.month = t.month ∧ s.day < t.day)))
    · exact Or.inl hl
    · by_cases he : s.year = t.year ∧ s.month = t.month ∧ s.day = t.day
      · right
        refine ⟨he, ?_⟩
        have : s.ordinal = t.ordinal := by simp only [DateTime.ordinal, he.1, he.2.1, he.2.2]
        unfold DateTime.seconds at h
        rw [this] at h
        omega
      · exfalso
        have h2 := DateTime.ordinal_lt_of_lex ht hs (by omega)
        unfold DateTime.seconds at h
        have := Nat.mul_le_mul_right 86400 h2
        generalize s.ordinal = a at *
        generalize t.ordinal = b at *
        omega

theorem asAtName_le {s t : DateTime} (hs : s.valid = true) (ht : t.valid = true)
    (h : s.seconds ≤ t.seconds) : strLe (asAtName s) (asAtName t) = true := by
  unfold strLe
  rw [decide_eq_true_eq]
  have : ¬ asAtName t < asAtName s := by
    rw [asAtName_lt ht hs]; omega
  exact this

theorem asAtName_length (t : DateTime) : (asAtName t).length = 21 := by
  rw [asAtName_eq]; simp [stamp1, stamp2]

/-- No timestamped name is the beginning of another. -/
theorem asAtName_prefix {s t : DateTime} (h : asAtName s <+: asAtName t) : asAtName s = asAtName t :=
  h.eq_of_length (by rw [asAtName_length, asAtName_length])

theorem asAtName_tail {t : DateTime} (h : t.valid = true) (c : Char) (hc : c ∈ asAtName t) :
    c ∈ "as_at_".toList ∨ c = '-' ∨ ∃ k, k < 10 ∧ c = digitChar k := by
  rw [asAtName_eq, List.mem_append, List.mem_append, List.mem_cons, List.mem_map, List.mem_map] at hc
  rcases hc with hc | ⟨k, hk, rfl⟩ | hc | ⟨k, hk, rfl⟩
  · exact Or.inl hc
  · exact Or.inr (Or.inr ⟨k, stamp1_digits h k hk, rfl⟩)
  · exact Or.inr (Or.inl hc)
  · exact Or.inr (Or.inr ⟨k, stamp2_digits h k hk, rfl⟩)

theorem asAtName_flat {t : DateTime} (h : t.valid = true) : '/' ∉ asAtName t := by
  intro hc
  rcases asAtName_tail h _ hc with hc | hc | ⟨k, hk, hc⟩
  · exact absurd hc (by decide)
  · exact absurd hc (by decide)
  · exact (digitChar_plain k hk).2.2.2.2.2.1 hc.symm

theorem asAtName_dot {t : DateTime} (h : t.valid = true) : '.' ∉ asAtName t := by
  intro hc
  rcases asAtName_tail h _ hc with hc | hc | ⟨k, hk, hc⟩
  · exact absurd hc (by decide)
  · exact absurd hc (by decide)
  · exact (digitChar_plain k hk).2.2.2.2.2.2.1 hc.symm

theorem asAtName_brace {t : DateTime} (h : t.valid = true) : '{' ∉ asAtName t := by
  intro hc
  rcases asAtName_tail h _ hc with hc | hc | ⟨k, hk, hc⟩
  · exact absurd hc (by decide)
  · exact absurd hc (by decide)
  · exact (digitChar_plain k hk).2.2.2.1 hc.symm

theorem asAtName_as_at (t : DateTime) : "as_at_".toList <+: asAtName t := ⟨_, (asAtName_eq t).symm⟩

theorem digitChar_not_s : ∀ k, k < 10 → digitChar k ≠ 's' := by decide

theorem asAtName_once {t : DateTime} (h : t.valid = true) :
    contains "as_at_".toList (asAtName t).tail = false := by
  rw [contains_false]
  rintro ⟨a, b, e⟩
  -- the only `s` of the name is its second character
  have h1 : 's' ∉ ((stamp1 t).map digitChar ++ '-' :: (stamp2 t).map digitChar) := by
    intro hc
    rw [List.mem_append, List.mem_cons, List.mem_map, List.mem_map] at hc
    rcases hc with ⟨k, hk, hc⟩ | hc | ⟨k, hk, hc⟩
    · exact digitChar_not_s k (stamp1_digits h k hk) hc
    · exact absurd hc (by decide)
    · exact digitChar_not_s k (stamp2_digits h k hk) hc
  have e2 : (asAtName t).tail = ['s'] ++ ("_at_".toList ++ ((stamp1 t).map digitChar ++ '-' ::
      (stamp2 t).map digitChar)) := by rw [asAtName_eq]; rfl
  rw [e2] at e
  cases a with
  | nil => exact absurd (congrArg List.head? e) (by simp)
  | cons x a =>
    simp only [List.cons_append, List.nil_append, List.cons.injEq] at e
    have : 's' ∈ ("_at_".toList ++ ((stamp1 t).map digitChar ++ '-' :: (stamp2 t).map digitChar)) := by
      rw [e.2]; simp
    rcases List.mem_append.1 this with hc | hc
    · exact absurd hc (by decide)
    · exact h1 hc

/-! ## The names agree -/

/-- One folder of a dataset's path, with date fields. -/
structure Folder (l : List Piece) : Prop where
  plain : Plain l
  flat : ∀ s, Piece.lit s ∈ l → '/' ∉ s
  ne : template l ≠ []
  dot : template l ≠ ['.']

theorem text_digit (d : DateTime) (hd : d.valid = true) (f : Field) :
    Field.text d f ≠ [] ∧ ∀ c ∈ Field.text d f, ∃ k, k < 10 ∧ c = digitChar k := by
  unfold Field.text
  split
  · refine ⟨natStr_ne_nil _, ?_⟩
    intro c hc
    exact natStr_mem hc
  · rename_i hf
    have := value_lt hd f hf
    refine ⟨by simp [two], ?_⟩
    intro c hc
    simp only [two, List.mem_cons, List.not_mem_nil, or_false] at hc
    rcases hc with rfl | rfl
    · exact ⟨_, by omega, rfl⟩
    · exact ⟨_, by omega, rfl⟩

theorem mem_filled {d : DateTime} {l : List Piece} {c : Char} (h : c ∈ filled d l) :
    (∃ s, Piece.lit s ∈ l ∧ c ∈ s) ∨ ∃ f, c ∈ Field.text d f := by
  induction l with
  | nil => simp [filled] at h
  | cons p l ih =>
    cases p with
    | lit s =>
      rw [filled, List.mem_append] at h
      rcases h with h | h
      · exact Or.inl ⟨s, by simp, h⟩
      · rcases ih h with ⟨t, ht, hc⟩ | h
        · exact Or.inl ⟨t, by simp [ht], hc⟩
        · exact Or.inr h
    | field f =>
      rw [filled, List.mem_append] at h
      rcases h with h | h
      · exact Or.inr ⟨f, h⟩
      · rcases ih h with ⟨t, ht, hc⟩ | h
        · exact Or.inl ⟨t, by simp [ht], hc⟩
        · exact Or.inr h

theorem filled_no_brace {d : DateTime} (hd : d.valid = true) {l : List Piece} (h : Plain l) :
    '{' ∉ filled d l := by
  intro hc
  rcases mem_filled hc with ⟨s, hs, hc⟩ | ⟨f, hc⟩
  · exact h s hs hc
  · obtain ⟨k, hk, e⟩ := (text_digit d hd f).2 _ hc
    exact (digitChar_plain k hk).2.2.2.1 e.symm

theorem mem_template {l : List Piece} {c : Char} (h : c ∈ template l) :
    (∃ s, Piece.lit s ∈ l ∧ c ∈ s) ∨ ∃ f, c ∈ Field.token f := by
  induction l with
  | nil => simp [template] at h
  | cons p l ih =>
    cases p with
    | lit s =>
      rw [template, List.mem_append] at h
      rcases h with h | h
      · exact Or.inl ⟨s, by simp, h⟩
      · rcases ih h with ⟨t, ht, hc⟩ | h
        · exact Or.inl ⟨t, by simp [ht], hc⟩
        · exact Or.inr h
    | field f =>
      rw [template, List.mem_append] at h
      rcases h with h | h
      · exact Or.inr ⟨f, h⟩
      · rcases ih h with ⟨t, ht, hc⟩ | h
        · exact Or.inl ⟨t, by simp [ht], hc⟩
        · exact Or.inr h

theorem folder_template {l : List Piece} (h : Folder l) : Comp (template l) := by
  refine ⟨h.ne, h.dot, ?_⟩
  intro hc
  rcases mem_template hc with ⟨s, hs, hc⟩ | ⟨f, hc⟩
  · exact h.flat s hs hc
  · cases f <;> exact absurd hc (by decide)

/-- A folder without fields is itself; one with fields has a digit in it. -/
theorem filled_cases {d : DateTime} (hd : d.valid = true) (l : List Piece) :
    filled d l = template l ∨ ∃ k, k < 10 ∧ digitChar k ∈ filled d l := by
  induction l with
  | nil => exact Or.inl rfl
  | cons p l ih =>
    cases p with
    | lit s =>
      rcases ih with h | ⟨k, hk, hc⟩
      · exact Or.inl (by rw [filled, template, h])
      · exact Or.inr ⟨k, hk, by rw [filled]; exact List.mem_append_right _ hc⟩
    | field f =>
      obtain ⟨hne, ha⟩ := text_digit d hd f
      obtain ⟨c, hc⟩ := List.exists_mem_of_ne_nil _ hne
      obtain ⟨k, hk, rfl⟩ := ha c hc
      exact Or.inr ⟨k, hk, by rw [filled]; exact List.mem_append_left _ hc⟩

theorem folder_filled {l : List Piece} (h : Folder l) {d : DateTime} (hd : d.valid = true) :
    Comp (filled d l) := by
  have flat : '/' ∉ filled d l := by
    intro hc
    rcases mem_filled hc with ⟨s, hs, hc⟩ | ⟨f, hc⟩
    · exact h.flat s hs hc
    · obtain ⟨k, hk, e⟩ := (text_digit d hd f).2 _ hc
      exact (digitChar_plain k hk).2.2.2.2.2.1 e.symm
  rcases filled_cases hd l with e | ⟨k, hk, hc⟩
  · rw [e]; exact folder_template h
  · refine ⟨List.ne_nil_of_mem hc, ?_, flat⟩
    intro e
    rw [e, List.mem_singleton] at hc
    exact (digitChar_plain k hk).2.2.2.2.2.2.1 hc

/-- A path of folders, as one template. -/
def pathPieces : List (List Piece) → List Piece
  | [] => []
  | [l] => l
  | l :: ls => l ++ .lit ['/'] :: pathPieces ls

theorem template_append (l m : List Piece) : template (l ++ m) = template l ++ template m := by
  induction l with
  | nil => rfl
  | cons p l ih => cases p <;> simp [template, ih]

theorem filled_append (d : DateTime) (l m : List Piece) : filled d (l ++ m) = filled d l ++ filled d m := by
  induction l with
  | nil => rfl
  | cons p l ih => cases p <;> simp [filled, ih]

theorem template_path (ls : List (List Piece)) :
    template (pathPieces ls) = join ['/'] (ls.map template) := by
  induction ls with
  | nil => rfl
  | cons l ls ih =>
    cases ls with
    | nil => rfl
    | cons m ls =>
      rw [pathPieces, template_append, template, ih]
      · simp [join]
      · simp

theorem filled_path (d : DateTime) (ls : List (List Piece)) :
    filled d (pathPieces ls) = join ['/'] (ls.map (filled d)) := by
  induction ls with
  | nil => rfl
  | cons l ls ih =>
    cases ls with
    | nil => rfl
    | cons m ls =>
      rw [pathPieces, filled_append, filled, ih]
      · simp [join]
      · simp

theorem plain_path {ls : List (List Piece)} (h : ∀ l ∈ ls, Plain l) : Plain (pathPieces ls) := by
  induction ls with
  | nil => intro s hs; simp [pathPieces] at hs
  | cons l ls ih =>
    cases ls with
    | nil => exact h l (by simp)
    | cons m ls =>
      have ih := ih (fun x hx => h x (by simp [hx]))
      intro s hs
      rw [pathPieces] at hs
      · rcases List.mem_append.1 hs with hs | hs
        · exact h l (by simp) s hs
        · rcases List.mem_cons.1 hs with hs | hs
          · cases hs; decide
          · exact ih s hs
      · simp

theorem replace_stem_none {s rnd : Str} (h : '{' ∉ s) : replace "{stem}".toList rnd s = s := by
  have := replaceGo_lit (tok := "stem}".toList) (new := rnd) s [] h
  simp only [List.append_nil] at this
  unfold replace
  exact this.trans (by simp [replaceGo])

/-- A path with a slash at its end is the same path. -/
theorem parse_slash {l : List Str} (hne : l ≠ []) (h : ∀ c ∈ l, Comp c) :
    Posix.parse (join ['/'] l ++ ['/']) = ⟨[], l⟩ := by
  have e : split '/' (join ['/'] l ++ ['/']) = l ++ [[]] := by
    rw [split_slash, split_join hne (fun p hp => (h p hp).2.2)]; rfl
  cases l with
  | nil => exact absurd rfl hne
  | cons c l =>
    have hd := head_join (l := l) (h c (by simp))
    unfold Posix.parse
    rw [e, List.filter_append, filter_comps h]
    simp only [bne_self_eq_false, Bool.false_and, Bool.false_eq_true, not_false_eq_true, List.filter_cons_of_neg,
      List.filter_nil, List.append_nil]
    generalize join ['/'] (c :: l) = j at *
    cases j with
    | nil =>
      exfalso
      have := h c (by simp)
      simp only [List.nil_append, split, if_true] at e
      cases c with
      | nil => exact this.1 rfl
      | cons => simp at e
    | cons x j =>
      have := hd x (by simp)
      split
      · rename_i heq; simp only [List.cons_append, List.cons.injEq] at heq; exact absurd heq.1 this
      · rename_i heq; simp only [List.cons_append, List.cons.injEq] at heq; exact absurd heq.1 this
      · rename_i heq; simp only [List.cons_append, List.cons.injEq] at heq; exact absurd heq.1 this
      · rfl

theorem getParts_congr {s t : Str} (hs : s ≠ []) (ht : t ≠ []) (h : Posix.parse s = Posix.parse t) :
    getParts s = getParts t := by
  unfold getParts
  rw [if_neg hs, if_neg ht, h]

/-- The dataset of a job and its partitions, as folders. -/
structure Job.OK (w : Job) (ls : List (List Piece)) : Prop where
  folders : ∀ l ∈ ls, Folder l
  ne : ls ≠ []
  path : (if w.partitions = [] then w.dataset else w.dataset ++ ['/'] ++ join ['/'] w.partitions)
    = join ['/'] (ls.map template)
  dataset : endsWith ['/'] w.dataset = false
  date : w.date.valid = true

theorem join_snoc' (l : List Str) (x : Str) (h : l ≠ []) :
    join ['/'] l ++ ['/'] ++ x = join ['/'] (l ++ [x]) := by rw [join_snoc l x h]; simp

theorem frameId_eq {w : Job} {ls : List (List Piece)} (h : w.OK ls) {now : DateTime}
    (hn : now.valid = true) :
    frameId w.dataset w.partitions (asAtName now) w.date w.rnd
      = .ok (join ['/'] (ls.map (filled w.date) ++ [asAtName now]) ++ ['/']) := by
  have ha : Comp (asAtName now) := ⟨by rw [asAtName_eq]; simp, by rw [asAtName_eq]; simp, asAtName_flat hn⟩
  have hc : ∀ c ∈ ls.map template, Comp c := by
    intro c hc
    obtain ⟨l, hl, rfl⟩ := List.mem_map.1 hc
    exact folder_template (h.folders l hl)
  have hne : ls.map template ≠ [] := by simpa using h.ne
  unfold frameId
  simp only [h.path]
  rw [join_snoc' _ _ hne]
  have hlast : (join ['/'] (ls.map template ++ [asAtName now])).getLast? ≠ some '/' := by
    rw [← join_snoc' _ _ hne]
    intro e
    rw [List.getLast?_append_of_ne_nil _ ha.1] at e
    exact ha.2.2 (List.mem_of_getLast? e)
  have hnil : join ['/'] (ls.map template ++ [asAtName now]) ≠ [] := by
    rw [← join_snoc' _ _ hne]; simp
  unfold buildPath
  rw [if_neg hnil, if_pos hlast]
  cases ls with
  | nil => exact absurd rfl h.ne
  | cons l ls =>
    have hg := C52_parts_folder (template l) (ls.map template ++ [asAtName now]) (hc _ (by simp))
      (by
        intro f hf
        rcases List.mem_append.1 hf with hf | hf
        · exact hc f (by simp only [List.map_cons]; exact List.mem_cons_of_mem _ hf)
        · rw [List.mem_singleton.1 hf]; exact ha)
      (by simp) (by
        intro f hf
        rw [List.getLast?_append] at hf
        simp only [List.getLast?_singleton, Option.some_or, Option.mem_def, Option.some.injEq] at hf
        exact hf ▸ asAtName_dot hn)
    simp only [List.map_cons, List.cons_append]
    rw [hg]
    simp only
    rw [if_pos (by
      intro e
      have e2 := congrArg List.length e
      have : 0 < (join ['/'] (ls.map template ++ [asAtName now])).length := by
        apply List.length_pos_iff.2
        cases ls with
        | nil => simpa [join] using ha.1
        | cons m ls => rw [List.map_cons, List.cons_append, join_cons _ _ (by simp)]; simp
      rw [List.length_append] at e2
      simp only [List.length_cons, List.length_nil] at e2
      omega)]
    have e1 : template l ++ ['/'] ++ (join ['/'] (ls.map template ++ [asAtName now]) ++ ['/'])
        = template (pathPieces ((l :: ls) ++ [[.lit (asAtName now)], []])) := by
      rw [template_path]
      simp only [List.map_append, List.map_cons, List.map_nil, template, List.append_nil, List.cons_append]
      rw [join_cons _ _ (by simp)]
      have : List.map template ls ++ [asAtName now, []] = (List.map template ls ++ [asAtName now]) ++ [[]] := by
        simp
      rw [this, join_snoc (List.map template ls ++ [asAtName now]) [] (by simp)]
      simp
    have hp : Plain (pathPieces ((l :: ls) ++ [[.lit (asAtName now)], []])) := by
      apply plain_path
      intro m hm
      rcases List.mem_append.1 hm with hm | hm
      · exact (h.folders m hm).plain
      · simp only [List.mem_cons, List.not_mem_nil, or_false] at hm
        rcases hm with rfl | rfl
        · intro s hs
          simp only [List.mem_singleton, Piece.lit.injEq] at hs
          exact hs ▸ asAtName_brace hn
        · intro s hs; simp at hs
    rw [e1, C52_template _ hp _ h.date, replace_stem_none (filled_no_brace h.date hp), filled_path]
    simp only [List.map_append, List.map_cons, List.map_nil, filled, List.append_nil, List.cons_append]
    have : filled w.date l :: (List.map (filled w.date) ls ++ [asAtName now, []])
        = (filled w.date l :: (List.map (filled w.date) ls ++ [asAtName now])) ++ [[]] := by
      simp
    rw [this, join_snoc _ _ (by simp)]

/-- The folder of the date, as a text. -/
def Job.base (w : Job) (ls : List (List Piece)) : Str := join ['/'] (ls.map (filled w.date))

theorem extension_no_brace (format : Str) : '{' ∉ extension format ∧ '/' ∉ extension format := by
  unfold extension
  split
  · decide
  · split
    · rename_i h
      rcases h with rfl | rfl <;> decide
    · decide

/-- The name of a blob: folder of the date, frame, identifier and extension. -/
theorem batchBlob_eq {w : Job} {ls : List (List Piece)} (h : w.OK ls) {now : DateTime}
    (hn : now.valid = true) (i : Str) :
    batchBlob w.dataset w.partitions (asAtName now) w.date w.rnd w.format i
      = .ok (Framed.path ⟨w.base ls, asAtName now, i ++ extension w.format⟩) := by
  have ha : Comp (asAtName now) := ⟨by rw [asAtName_eq]; simp, by rw [asAtName_eq]; simp, asAtName_flat hn⟩
  have hc : ∀ c ∈ ls.map (filled w.date), Comp c := by
    intro c hc
    obtain ⟨l, hl, rfl⟩ := List.mem_map.1 hc
    exact folder_filled (h.folders l hl) h.date
  have hne : ls.map (filled w.date) ≠ [] := by simpa using h.ne
  have hall : ∀ c ∈ ls.map (filled w.date) ++ [asAtName now], Comp c := by
    intro c hm
    rcases List.mem_append.1 hm with hm | hm
    · exact hc c hm
    · rw [List.mem_singleton.1 hm]; exact ha
  have hb : '{' ∉ join ['/'] (ls.map (filled w.date) ++ [asAtName now]) := by
    rw [join_snoc _ _ hne, ← filled_path]
    have := filled_no_brace h.date (plain_path (fun l hl => (h.folders l hl).plain))
    simp only [List.mem_append, List.mem_cons, not_or]
    exact ⟨this, by decide, asAtName_brace hn⟩
  unfold batchBlob
  rw [frameId_eq h hn]
  simp only
  have hnil : join ['/'] (ls.map (filled w.date) ++ [asAtName now]) ≠ [] := by
    rw [join_snoc _ _ hne]; simp
  have hgp := getParts_congr (s := join ['/'] (ls.map (filled w.date) ++ [asAtName now]) ++ ['/'])
    (by simp) hnil
    (by rw [parse_slash (by simp) hall, parse_join (by simp) hall])
  unfold blobName
  rw [hgp]
  cases ls with
  | nil => exact absurd rfl h.ne
  | cons l ls =>
    have hg := C52_parts_folder (filled w.date l) (ls.map (filled w.date) ++ [asAtName now]) (hc _ (by simp))
      (by
        intro f hf
        rcases List.mem_append.1 hf with hf | hf
        · exact hc f (by simp only [List.map_cons]; exact List.mem_cons_of_mem _ hf)
        · rw [List.mem_singleton.1 hf]; exact ha)
      (by simp) (by
        intro f hf
        rw [List.getLast?_append] at hf
        simp only [List.getLast?_singleton, Option.some_or, Option.mem_def, Option.some.injEq] at hf
        exact hf ▸ asAtName_dot hn)
    simp only [List.map_cons, List.cons_append]
    rw [hg]
    simp only
    have hbk : filled w.date l ≠ ['/'] := by
      intro e
      exact (hc (filled w.date l) (by simp)).2.2 (by rw [e]; simp)
    rw [if_neg hbk, if_neg (by
      intro e
      have e2 := congrArg List.length e
      have : 0 < (join ['/'] (ls.map (filled w.date) ++ [asAtName now])).length := by
        apply List.length_pos_iff.2
        cases ls with
        | nil => simpa [join] using ha.1
        | cons m ls => rw [List.map_cons, List.cons_append, join_cons _ _ (by simp)]; simp
      rw [List.length_append] at e2
      simp only [List.length_cons, List.length_nil] at e2
      omega)]
    have e1 : filled w.date l ++ ['/'] ++ (join ['/'] (ls.map (filled w.date) ++ [asAtName now]) ++ ['/'])
        = join ['/'] (List.map (filled w.date) (l :: ls) ++ [asAtName now]) ++ ['/'] := by
      rw [List.map_cons, List.cons_append, join_cons _ _ (by simp)]; simp
    rw [e1, List.append_assoc _ "{stem}".toList]
    have hs : '{' ∉ join ['/'] (List.map (filled w.date) (l :: ls) ++ [asAtName now]) ++ ['/'] := by
      simp only [List.mem_append, List.mem_singleton, not_or]
      exact ⟨hb, by decide⟩
    unfold replace
    have r1 := replaceGo_lit (tok := "stem}".toList) (new := i) _ ("{stem}".toList ++ extension w.format) hs
    have r2 := replaceGo_tok (tok := "stem}".toList) (new := i) (extension w.format)
    have r3 := replaceGo_lit (tok := "stem}".toList) (new := i) (extension w.format) []
      (extension_no_brace w.format).1
    simp only [List.append_nil] at r3
    have e2 : "{stem}".toList = '{' :: "stem}".toList := rfl
    rw [e2] at r1 ⊢
    rw [r1, r2, r3, join_snoc _ _ (by simp)]
    simp [Framed.path, Job.base, replaceGo]

theorem rsplitSlash_append {a b : Str} (hb : '/' ∉ b) : rsplitSlash (a ++ '/' :: b) = some (a, b) := by
  have hnone : ∀ b : Str, '/' ∉ b → rsplitSlash b = none := by
    intro b
    induction b with
    | nil => intro _; rfl
    | cons c b ih =>
      intro h
      simp only [List.mem_cons, not_or] at h
      rw [rsplitSlash, ih h.2]
      have : c ≠ '/' := fun e => h.1 e.symm
      simp [this]
  induction a with
  | nil => rw [List.nil_append, rsplitSlash, hnone b hb]; simp
  | cons c a ih => rw [List.cons_append, rsplitSlash, ih]

theorem dirname_path (b : Framed) (hf : '/' ∉ b.frame) (hne : b.frame ≠ []) (hn : '/' ∉ b.name) :
    dirname b.path = b.base ++ '/' :: b.frame := by
  unfold dirname Framed.path
  rw [rsplitSlash_append hn]
  obtain ⟨init, last, e⟩ : ∃ init last, b.frame = init ++ [last] :=
    ⟨b.frame.dropLast, b.frame.getLast hne, (List.dropLast_concat_getLast hne).symm⟩
  have hl : last ≠ '/' := by
    intro h
    apply hf
    rw [e, h]; simp
  simp only [e]
  rw [if_neg (by simp [hl])]
  simp [hl]

theorem completionPath_eq {w : Job} {ls : List (List Piece)} (h : w.OK ls) {now : DateTime}
    (hn : now.valid = true) (b : Batch) (hb : b.now = now) :
    b.markers w = .ok
      ((if b.complete then [Framed.path ⟨w.base ls, asAtName now, "frame.complete".toList⟩] else []) ++
        (if b.ignored then [Framed.path ⟨w.base ls, asAtName now, "frame.ignore".toList⟩] else [])) := by
  unfold Batch.markers
  rw [hb, batchBlob_eq h hn]
  simp only
  have hd := dirname_path ⟨w.base ls, asAtName now, "{stem}".toList ++ extension w.format⟩
    (asAtName_flat hn) (by show asAtName now ≠ []; rw [asAtName_eq]; simp) (by
      show '/' ∉ "{stem}".toList ++ extension w.format
      rw [List.mem_append, not_or]
      exact ⟨by decide, (extension_no_brace _).2⟩)
  simp only at hd
  unfold completionPath
  rw [hd]
  simp [Framed.path]

/-- The reader looks in the folder the writer wrote to. -/
theorem cyclePath_eq {w : Job} {ls : List (List Piece)} (h : w.OK ls) (rnd : Str) :
    cyclePath (readerDataset w.dataset w.partitions) rnd w.date = ⟨[], ls.map (filled w.date)⟩ := by
  have e : readerDataset w.dataset w.partitions = template (pathPieces (ls ++ [[]])) := by
    rw [template_path]
    simp only [List.map_append, List.map_cons, List.map_nil, template]
    rw [join_snoc _ _ (by simpa using h.ne), ← h.path]
    unfold readerDataset
    rw [h.dataset]
    simp only [Bool.false_eq_true, if_false]
    split <;> simp
  have hp : Plain (pathPieces (ls ++ [[]])) := by
    apply plain_path
    intro m hm
    rcases List.mem_append.1 hm with hm | hm
    · exact (h.folders m hm).plain
    · rw [List.mem_singleton.1 hm]; intro s hs; simp at hs
  unfold cyclePath
  rw [e, C52_template _ hp _ h.date, replace_stem_none (filled_no_brace h.date hp), filled_path]
  simp only [List.map_append, List.map_cons, List.map_nil, filled]
  rw [join_snoc _ _ (by simpa using h.ne)]
  apply parse_slash (by simpa using h.ne)
  intro c hc
  obtain ⟨l, hl, rfl⟩ := List.mem_map.1 hc
  exact folder_filled (h.folders l hl) h.date

end Mabel.Naming
