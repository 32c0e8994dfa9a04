import Verif.Lemmas.Paths
import Verif.Lemmas.DateTime

/-!
# Properties of paths: C52
-/

namespace Mabel.Paths
open Mabel.Py

/-! ## Splitting a path -/

/-- **C52 (a file).**  A path of a bucket, at least one folder and a file name with an extension is
split into exactly these. -/
theorem C52_parts_file (bucket : Str) (folders : List Str) (stem ext : Str) (hb : Comp bucket)
    (hf : ∀ f ∈ folders, Comp f) (hne : folders ≠ []) (hs : stem ≠ []) (hs' : '/' ∉ stem)
    (he : ext ≠ []) (he' : '/' ∉ ext) (hdot : '.' ∉ ext) :
    getParts (join ['/'] (bucket :: folders ++ [stem ++ '.' :: ext]))
      = .ok (bucket, join ['/'] folders ++ ['/'], some stem, some ('.' :: ext)) := by
  have hc : ∀ c ∈ bucket :: folders ++ [stem ++ '.' :: ext], Comp c := by
    intro c hc
    simp only [List.cons_append, List.mem_cons, List.mem_append, List.not_mem_nil, or_false] at hc
    rcases hc with rfl | hc | rfl
    · exact hb
    · exact hf c hc
    · refine ⟨by simp, ?_, ?_⟩
      · intro h
        have := congrArg List.length h
        have h1 : 0 < stem.length := List.length_pos_iff.2 hs
        simp at this
        omega
      · simp only [List.mem_append, List.mem_cons, not_or]
        exact ⟨hs', by decide, he'⟩
  have hp := parse_join (by simp) hc
  have hlen : 0 < folders.length := List.length_pos_iff.2 hne
  obtain ⟨h1, h2⟩ := suffixOf_append hs he hdot
  have hname : (Posix.mk [] (bucket :: folders ++ [stem ++ '.' :: ext])).name = stem ++ '.' :: ext := by
    unfold Posix.name
    rw [List.getLast?_append]
    rfl
  unfold getParts
  rw [if_neg (fun h => absurd (congrArg List.length h) (by
    rw [List.cons_append, join_cons _ _ (by simp)]; simp))]
  simp only [hp, Posix.parts, if_true]
  cases folders with
  | nil => exact absurd rfl hne
  | cons f folders =>
    simp only [List.cons_append, hname] at hname ⊢
    simp only [hname, h1, h2, List.tail_cons]
    rw [if_neg (by simp)]
    have hd : (f :: (folders ++ [stem ++ '.' :: ext])).dropLast = f :: folders := by
      rw [← List.cons_append, List.dropLast_concat]
    rw [hd, parse_join (by simp) hf]
    simp [Posix.str]

/-- Re-joining the parts gives the path back. -/
theorem C52_rejoin_file (bucket : Str) (folders : List Str) (stem ext : Str) (hb : Comp bucket)
    (hf : ∀ f ∈ folders, Comp f) (hne : folders ≠ []) (hs : stem ≠ []) (hs' : '/' ∉ stem)
    (he : ext ≠ []) (he' : '/' ∉ ext) (hdot : '.' ∉ ext) (path : Str)
    (hpath : path = join ['/'] (bucket :: folders ++ [stem ++ '.' :: ext])) :
    ∃ b f s e, getParts path = .ok (b, f, some s, some e) ∧ b ++ ['/'] ++ f ++ s ++ e = path := by
  refine ⟨_, _, _, _, hpath ▸ C52_parts_file bucket folders stem ext hb hf hne hs hs' he he' hdot, ?_⟩
  rw [hpath, List.cons_append, join_cons _ _ (by simp), join_snoc _ _ hne]
  simp

example : getParts "bucket/tests/year_2024/data.v2.jsonl".toList
    = .ok ("bucket".toList, "tests/year_2024/".toList, some "data.v2".toList, some ".jsonl".toList) := by
  decide

/-- **C52 (a folder).**  A path whose last component has no extension is all folders. -/
theorem C52_parts_folder (bucket : Str) (folders : List Str) (hb : Comp bucket)
    (hf : ∀ f ∈ folders, Comp f) (hne : folders ≠ []) (hdot : ∀ f ∈ folders.getLast?, '.' ∉ f) :
    getParts (join ['/'] (bucket :: folders))
      = .ok (bucket, join ['/'] folders ++ ['/'], none, none) := by
  have hc : ∀ c ∈ bucket :: folders, Comp c := by
    intro c hc
    rcases List.mem_cons.1 hc with rfl | hc
    · exact hb
    · exact hf c hc
  have hp := parse_join (by simp) hc
  obtain ⟨init, last, rfl⟩ : ∃ init last, folders = init ++ [last] :=
    ⟨folders.dropLast, folders.getLast hne, (List.dropLast_concat_getLast hne).symm⟩
  have hl : '.' ∉ last := hdot last (by rw [List.getLast?_append]; rfl)
  obtain ⟨h1, h2⟩ := suffixOf_none hl
  have hname : (Posix.mk [] (bucket :: (init ++ [last]))).name = last := by
    unfold Posix.name
    rw [← List.cons_append, List.getLast?_append]
    rfl
  unfold getParts
  rw [if_neg (fun h => absurd (congrArg List.length h) (by
    rw [join_cons _ _ (by simp)]; simp))]
  simp only [hp, Posix.parts, if_true, hname, h1, h2, List.tail_cons, List.dropLast_concat]
  have hd : (init ++ [last]).dropLast = init := List.dropLast_concat
  cases init with
  | nil => simp [join, Posix.parse, split, Posix.str]
  | cons f init =>
    rw [parse_join (by simp) (fun c hc => hf c (List.mem_append_left _ hc))]
    simp [Posix.str]

/-- Re-joining gives the path back, as a folder. -/
theorem C52_rejoin_folder (bucket : Str) (folders : List Str) (hb : Comp bucket)
    (hf : ∀ f ∈ folders, Comp f) (hne : folders ≠ []) (hdot : ∀ f ∈ folders.getLast?, '.' ∉ f)
    (path : Str) (hpath : path = join ['/'] (bucket :: folders)) :
    ∃ b f, getParts path = .ok (b, f, none, none) ∧ b ++ ['/'] ++ f = path ++ ['/'] := by
  refine ⟨_, _, hpath ▸ C52_parts_folder bucket folders hb hf hne hdot, ?_⟩
  rw [hpath, join_cons _ _ hne]
  simp

example : getParts "bucket/tests/year_2024".toList
    = .ok ("bucket".toList, "tests/year_2024/".toList, none, none) := by decide

/-- **A file directly in the bucket is not re-joined to the same path**: the folder part is `./`. -/
theorem C52_file_in_bucket_fails (bucket stem ext : Str) (hb : Comp bucket) (hs : stem ≠ [])
    (hs' : '/' ∉ stem) (he : ext ≠ []) (he' : '/' ∉ ext) (hdot : '.' ∉ ext) :
    getParts (bucket ++ '/' :: stem ++ '.' :: ext)
      = .ok (bucket, "./".toList, some stem, some ('.' :: ext)) := by
  have hc : ∀ c ∈ [bucket, stem ++ '.' :: ext], Comp c := by
    intro c hc
    simp only [List.mem_cons, List.not_mem_nil, or_false] at hc
    rcases hc with rfl | rfl
    · exact hb
    · refine ⟨by simp, ?_, ?_⟩
      · intro h
        have := congrArg List.length h
        have h1 : 0 < stem.length := List.length_pos_iff.2 hs
        simp at this
        omega
      · simp only [List.mem_append, List.mem_cons, not_or]
        exact ⟨hs', by decide, he'⟩
  have hp := parse_join (by simp) hc
  obtain ⟨h1, h2⟩ := suffixOf_append hs he hdot
  have e : bucket ++ '/' :: stem ++ '.' :: ext = join ['/'] [bucket, stem ++ '.' :: ext] := by
    simp [join]
  rw [e]
  unfold getParts
  rw [if_neg (fun h => absurd (congrArg List.length h) (by simp [join]))]
  simp only [hp, Posix.parts, if_true, Posix.name, List.getLast?_cons_cons, List.getLast?_singleton,
    Option.getD_some, h1, h2, List.tail_cons]
  rw [if_neg (by simp)]
  rfl

/-- A bucket alone gets a folder it does not have, and the empty path is refused. -/
theorem C52_bucket_alone (bucket : Str) (hb : Comp bucket) :
    getParts bucket = .ok (bucket, "partitions/".toList, none, none) ∧ getParts [] = .error .valueError := by
  refine ⟨?_, rfl⟩
  have hp := parse_join (l := [bucket]) (by simp) (by simpa using hb)
  simp only [join] at hp
  unfold getParts
  rw [if_neg hb.1]
  simp [hp, Posix.parts]

/-! ## Date templates -/

/-- The fields of a date template. -/
inductive Field
  | yyyy | mm | dd | HH | MM | SS
  deriving DecidableEq, Repr

/-- How a field is written in a template. -/
def Field.token : Field → Str
  | .yyyy => "{yyyy}".toList | .mm => "{mm}".toList | .dd => "{dd}".toList
  | .HH => "{HH}".toList | .MM => "{MM}".toList | .SS => "{SS}".toList

/-- The value of a field. -/
def Field.value (d : DateTime) : Field → Nat
  | .yyyy => d.year | .mm => d.month | .dd => d.day | .HH => d.hour | .MM => d.minute | .SS => d.second

/-- The text a field must become: the year in full, everything else in two digits. -/
def Field.text (d : DateTime) (f : Field) : Str :=
  if f = .yyyy then natStr (f.value d) else two (f.value d)

/-- A template is literal text and fields. -/
inductive Piece
  | lit (s : Str)
  | field (f : Field)

/-- The template as it is written. -/
def template : List Piece → Str
  | [] => []
  | .lit s :: ps => s ++ template ps
  | .field f :: ps => f.token ++ template ps

/-- The template with the fields of a date filled in. -/
def filled (d : DateTime) : List Piece → Str
  | [] => []
  | .lit s :: ps => s ++ filled d ps
  | .field f :: ps => f.text d ++ filled d ps

/-- One field filled in. -/
def subst (f : Field) (t : Str) : List Piece → List Piece
  | [] => []
  | .lit s :: ps => .lit s :: subst f t ps
  | .field g :: ps => (if g = f then .lit t else .field g) :: subst f t ps

def Plain (l : List Piece) : Prop := ∀ s, Piece.lit s ∈ l → '{' ∉ s

theorem subst_plain {f : Field} {t : Str} {l : List Piece} (ht : '{' ∉ t) (h : Plain l) :
    Plain (subst f t l) := by
  induction l with
  | nil => intro s hs; simp [subst] at hs
  | cons p l ih =>
    have hl := ih (fun s hs => h s (by simp [hs]))
    intro s hs
    cases p with
    | lit u =>
      simp only [subst, List.mem_cons, Piece.lit.injEq] at hs
      rcases hs with rfl | hs
      · exact h _ (by simp)
      · exact hl s hs
    | field g =>
      simp only [subst, List.mem_cons] at hs
      rcases hs with hs | hs
      · split at hs
        · cases hs; exact ht
        · cases hs
      · exact hl s hs

theorem replace_template (f : Field) (t : Str) (l : List Piece) (h : Plain l) :
    replace f.token t (template l) = template (subst f t l) := by
  unfold replace
  induction l with
  | nil => cases f <;> rfl
  | cons p l ih =>
    have hl := ih (fun s hs => h s (by simp [hs]))
    cases p with
    | lit u =>
      simp only [template, subst]
      rw [← hl]
      cases f <;> exact replaceGo_lit u _ (h u (by simp))
    | field g =>
      simp only [template, subst]
      by_cases hg : g = f
      · rw [if_pos hg, hg]
        simp only [template]
        rw [← hl]
        cases f <;> exact replaceGo_tok _
      · rw [if_neg hg]
        simp only [template]
        rw [← hl]
        cases f <;> cases g <;> first
          | exact absurd rfl hg
          | exact replaceGo_other _ (by decide) (by decide)

theorem two_no_brace (n : Nat) (h : n < 100) : '{' ∉ two n := by
  intro hc
  simp only [two, List.mem_cons, List.not_mem_nil, or_false] at hc
  rcases hc with hc | hc
  · exact (digitChar_plain (n / 10) (by omega)).2.2.2.1 hc.symm
  · exact (digitChar_plain (n % 10) (by omega)).2.2.2.1 hc.symm

theorem natStr_no_brace (n : Nat) : '{' ∉ natStr n := by
  intro hc
  obtain ⟨k, hk, e⟩ := natStr_mem hc
  exact (digitChar_plain k hk).2.2.2.1 e.symm

theorem days_lt (y m : Nat) : DateTime.daysInMonth y m < 100 := by
  unfold DateTime.daysInMonth
  split <;> (try split) <;> omega

theorem value_lt {d : DateTime} (hd : d.valid = true) (f : Field) (hf : f ≠ .yyyy) : f.value d < 100 := by
  have h := (DateTime.valid_iff d).1 hd
  have := days_lt d.year d.month
  cases f <;> simp only [Field.value, ne_eq, reduceCtorEq, not_true_eq_false, not_false_eq_true] at * <;> omega

/-- **C52 (templates).**  Every template whose literal text has no `{` becomes the template with each
date field written out: months, days, hours, minutes and seconds in two digits. -/
theorem C52_template (l : List Piece) (h : Plain l) (d : DateTime) (hd : d.valid = true) :
    dateFormat (template l) d = filled d l := by
  have hv := fun f hf => value_lt hd f hf
  have e2 : ∀ f, f ≠ Field.yyyy → pad2 (f.value d) = f.text d := fun f hf => by
    rw [pad2_eq_two _ (hv f hf), Field.text, if_neg hf]
  have nb : ∀ f, '{' ∉ Field.text d f := by
    intro f
    unfold Field.text
    split
    · exact natStr_no_brace _
    · rename_i hf; exact two_no_brace _ (hv f hf)
  have p1 := subst_plain (f := .yyyy) (nb .yyyy) h
  have p2 := subst_plain (f := .mm) (nb .mm) p1
  have p3 := subst_plain (f := .dd) (nb .dd) p2
  have p4 := subst_plain (f := .HH) (nb .HH) p3
  have p5 := subst_plain (f := .MM) (nb .MM) p4
  have r1 := replace_template .yyyy (Field.text d .yyyy) l h
  have r2 := replace_template .mm (Field.text d .mm) _ p1
  have r3 := replace_template .dd (Field.text d .dd) _ p2
  have r4 := replace_template .HH (Field.text d .HH) _ p3
  have r5 := replace_template .MM (Field.text d .MM) _ p4
  have r6 := replace_template .SS (Field.text d .SS) _ p5
  have t1 : natStr d.year = Field.text d .yyyy := rfl
  have t2 : pad2 d.month = Field.text d .mm := e2 .mm (by decide)
  have t3 : pad2 d.day = Field.text d .dd := e2 .dd (by decide)
  have t4 : pad2 d.hour = Field.text d .HH := e2 .HH (by decide)
  have t5 : pad2 d.minute = Field.text d .MM := e2 .MM (by decide)
  have t6 : pad2 d.second = Field.text d .SS := e2 .SS (by decide)
  unfold dateFormat
  simp only [t1, t2, t3, t4, t5, t6]
  simp only [Field.token] at r1 r2 r3 r4 r5 r6
  rw [r1, r2, r3, r4, r5, r6]
  clear r1 r2 r3 r4 r5 r6 p1 p2 p3 p4 p5 h
  induction l with
  | nil => rfl
  | cons p l ih =>
    cases p with
    | lit u => simp only [subst, template, filled, ih]
    | field g =>
      cases g <;> simp only [subst, if_true, reduceCtorEq, if_false, template, filled, ih]

/-- The template of a partition. -/
example : let l := [Piece.lit "year_".toList, .field .yyyy, .lit "/month_".toList, .field .mm,
      .lit "/day_".toList, .field .dd, .lit "/by_hour/hour=".toList, .field .HH]
    Plain l ∧ template l = "year_{yyyy}/month_{mm}/day_{dd}/by_hour/hour={HH}".toList ∧
    dateFormat (template l) ⟨2024, 2, 9, 5, 0, 0⟩ = "year_2024/month_02/day_09/by_hour/hour=05".toList := by
  refine ⟨?_, by decide, by decide⟩
  intro s hs
  simp only [List.mem_cons, List.not_mem_nil, or_false, Piece.lit.injEq, reduceCtorEq, false_or] at hs
  rcases hs with rfl | rfl | rfl | rfl <;> decide

theorem two_inj {m n : Nat} (hm : m < 100) (hn : n < 100) (h : two m = two n) : m = n := by
  simp only [two, List.cons.injEq, and_true] at h
  have h1 := digitChar_inj _ (by omega) _ (by omega) h.1
  have h2 := digitChar_inj _ (by omega) _ (by omega) h.2
  omega

theorem filled_length : ∀ l : List Piece, ∃ c k, ∀ d' : DateTime,
    (filled d' l).length = c + k * (natStr d'.year).length ∧ (Piece.field .yyyy ∈ l → 0 < k) ∧ 0 ≤ k := by
  intro l
  induction l with
  | nil => exact ⟨0, 0, fun d' => by simp [filled]⟩
  | cons p l ih =>
    obtain ⟨c, k, h⟩ := ih
    cases p with
    | lit u =>
      refine ⟨u.length + c, k, fun d' => ⟨?_, ?_, by omega⟩⟩
      · simp only [filled, List.length_append, (h d').1]; omega
      · intro hm; simp only [List.mem_cons, reduceCtorEq, false_or] at hm; exact (h d').2.1 hm
    | field g =>
      by_cases hg : g = .yyyy
      · refine ⟨c, k + 1, fun d' => ⟨?_, by omega, by omega⟩⟩
        simp only [filled, List.length_append, (h d').1, Field.text, hg, if_true, Field.value]
        rw [Nat.add_mul]; omega
      · refine ⟨c + 2, k, fun d' => ⟨?_, ?_, by omega⟩⟩
        · simp only [filled, List.length_append, (h d').1, Field.text, hg, if_false]
          simp [two]; omega
        · intro hm
          simp only [List.mem_cons, Piece.field.injEq] at hm
          rcases hm with hm | hm
          · exact absurd hm.symm hg
          · exact (h d').2.1 hm

/-- **C52 (different dates, different paths).**  If two dates fill a template to the same text, they
agree in every field of the template; so with a template that has year, month and day, different days
have different paths, for every valid date. -/
theorem C52_dates_distinct (l : List Piece) (h : Plain l) (d d' : DateTime) (hd : d.valid = true)
    (hd' : d'.valid = true) (heq : dateFormat (template l) d = dateFormat (template l) d')
    (f : Field) (hf : Piece.field f ∈ l) : f.value d = f.value d' := by
  rw [C52_template l h d hd, C52_template l h d' hd'] at heq
  have hlen : Piece.field .yyyy ∈ l → (natStr d.year).length = (natStr d'.year).length := by
    intro hy
    obtain ⟨c, k, hk⟩ := filled_length l
    have h1 := (hk d).1
    have h2 := (hk d').1
    rw [heq] at h1
    have h3 : k * (natStr d.year).length = k * (natStr d'.year).length := by omega
    exact Nat.eq_of_mul_eq_mul_left ((hk d).2.1 hy) h3
  clear h
  induction l with
  | nil => simp at hf
  | cons p l ih =>
    cases p with
    | lit u =>
      simp only [filled, List.append_cancel_left_eq] at heq
      simp only [List.mem_cons, reduceCtorEq, false_or] at hf hlen
      exact ih heq hf hlen
    | field g =>
      simp only [filled] at heq
      have hl : (g.text d).length = (g.text d').length := by
        by_cases hg : g = .yyyy
        · subst hg; exact hlen (by simp)
        · simp only [Field.text, hg, if_false]; rfl
      obtain ⟨e1, e2⟩ := List.append_inj heq hl
      rcases List.mem_cons.1 hf with hf | hf
      · cases hf
        by_cases hg : f = .yyyy
        · subst hg; exact natStr_inj e1
        · simp only [Field.text, hg, if_false] at e1
          exact two_inj (value_lt hd f hg) (value_lt hd' f hg) e1
      · exact ih e2 hf (fun hy => hlen (by simp [hy]))

/-- A template that names the fields of the day gives every day its own path. -/
example (d d' : DateTime) (hd : d.valid = true) (hd' : d'.valid = true)
    (h : dateFormat "{yyyy}{mm}{dd}".toList d = dateFormat "{yyyy}{mm}{dd}".toList d') :
    d.year = d'.year ∧ d.month = d'.month ∧ d.day = d'.day := by
  have hp : Plain [.field .yyyy, .field .mm, .field .dd] := by
    intro s hs; simp at hs
  have key := C52_dates_distinct [.field .yyyy, .field .mm, .field .dd] hp d d' hd hd' h
  exact ⟨key .yyyy (by simp), key .mm (by simp), key .dd (by simp)⟩

end Mabel.Paths
