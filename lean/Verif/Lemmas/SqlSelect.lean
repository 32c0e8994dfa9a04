import Verif.Lemmas.SqlReader
import Verif.Spec.SqlGroup

/-! # Lemmas on SELECT: reading, renaming and choosing columns -/

namespace Mabel.SqlReader
open Mabel.Py Mabel.Dates Mabel.Tokens Mabel.Filters Mabel.Records Mabel.Blobs Mabel.Expression Mabel.Expression.Spec Mabel.Evaluator
  Mabel.Evaluator.Spec Mabel.SqlReader.Spec
open Mabel.Tokenizer (Re)
open Mabel.Tokenizer.Spec (SaneRe capitals)

/-! ## Columns -/

/-- The value of an item. -/
def val (F : Funs) (r : Row) (s : Sel) : Datum := (s.value F r).toOption.getD (.one .none)

theorem columns_val {F : Funs} {r : Row} {ss : List Sel} {out : Row} (h : columns F r ss = .ok out) :
    out = ss.map (fun s => (s.name, val F r s)) ∧ putColumns F r ss = .ok (ss.map (fun s => (putName s, val F r s))) := by
  induction ss generalizing out with
  | nil => cases h; exact ⟨rfl, rfl⟩
  | cons s ss ih =>
    rw [columns] at h
    rw [putColumns]
    cases hv : s.value F r with
    | error e => rw [hv] at h; cases h
    | ok v =>
      rw [hv] at h
      cases hc : columns F r ss with
      | error e => rw [hc] at h; cases h
      | ok cols =>
        rw [hc] at h
        obtain ⟨h1, h2⟩ := ih hc
        rw [h2]
        injection h with h
        have hs : val F r s = v := by unfold val; rw [hv]; rfl
        rw [List.map_cons, List.map_cons, hs]
        exact ⟨by rw [← h, h1], rfl⟩

theorem lookup_none {d : Row} {k : Str} (h : k ∉ d.map Prod.fst) : Row.lookup d k = none := by
  induction d with
  | nil => rfl
  | cons kv d ih =>
    obtain ⟨x, y⟩ := kv
    rw [List.map_cons, List.mem_cons, not_or] at h
    rw [lookup_cons, if_neg h.1, ih h.2]

theorem lookup_mem {d : Row} {k : Str} {v : Datum} (h : Row.lookup d k = some v) : k ∈ d.map Prod.fst := by
  by_contra hn
  rw [lookup_none hn] at h
  cases h

theorem lookup_map {f : Sel → Str} {v : Sel → Datum} {l : List Sel} (h : (l.map f).Nodup) {s : Sel} (hs : s ∈ l) :
    Row.lookup (l.map (fun s => (f s, v s))) (f s) = some (v s) := by
  induction l with
  | nil => cases hs
  | cons x l ih =>
    rw [List.map_cons, List.nodup_cons] at h
    rw [List.map_cons, lookup_cons]
    rcases List.mem_cons.1 hs with rfl | hs
    · rw [if_pos rfl]
    · rw [if_neg (fun e : f s = f x => h.1 (e ▸ List.mem_map_of_mem hs)), ih h.2 hs]

/-! ## Names -/

theorem given_none {s : Sel} (h : s.given = none) : putName s = s.name ∧ s.name = s.heading := by
  have : s.name = s.heading := by unfold Sel.name; rw [h]; rfl
  refine ⟨?_, this⟩
  cases s with
  | leaf l a => rw [this, putName, Sel.heading]
  | call f args a => rfl

theorem given_some {s : Sel} {n : Str} (h : s.given = some n) : s.name = n := by unfold Sel.name; rw [h]; rfl

theorem putName_cases (s : Sel) : putName s = s.name ∨ (s.given.isSome = true ∧ putName s = s.heading) := by
  cases h : s.given with
  | none => exact Or.inl (given_none h).1
  | some n =>
    cases s with
    | call f args a => exact Or.inl rfl
    | leaf l a => exact Or.inr ⟨rfl, by rw [putName, Sel.heading]⟩

section
variable {ss : List Sel} (h : Named ss)
include h

theorem name_inj {s t : Sel} (hs : s ∈ ss) (ht : t ∈ ss) (e : s.name = t.name) : s = t :=
  List.inj_on_of_nodup_map h.names hs ht e

theorem heading_inj {s t : Sel} (hs : s ∈ ss) (ht : t ∈ ss) (gs : s.given.isSome = true) (gt : t.given.isSome = true)
    (e : s.heading = t.heading) : s = t :=
  List.inj_on_of_nodup_map h.once (List.mem_filter.2 ⟨hs, gs⟩) (List.mem_filter.2 ⟨ht, gt⟩) e

theorem heading_ne {s t : Sel} (hs : s ∈ ss) (ht : t ∈ ss) (gs : s.given.isSome = true) : s.heading ≠ t.name := by
  intro e
  refine h.renamed s hs ?_ (e ▸ List.mem_map_of_mem ht)
  intro hn
  rw [hn] at gs
  cases gs

theorem putName_nodup : (ss.map putName).Nodup := by
  refine List.Nodup.map_on ?_ (List.Nodup.of_map _ h.names)
  intro s hs t ht e
  rcases putName_cases s with h1 | ⟨g1, h1⟩ <;> rcases putName_cases t with h2 | ⟨g2, h2⟩
  · exact name_inj h hs ht (by rw [← h1, e, h2])
  · exact absurd (by rw [← h2, ← e, h1]) (heading_ne h ht hs g2)
  · exact absurd (by rw [← h1, e, h2]) (heading_ne h hs ht g1)
  · exact heading_inj h hs ht g1 g2 (by rw [← h1, e, h2])

end

/-! ## The star -/

theorem Name_ne_star {n : Str} (h : Name n) : n ≠ "*".toList := by
  obtain ⟨⟨c, cs, rfl, hc⟩, _⟩ := h
  intro e
  injection e with e _
  subst e
  exact absurd hc (by decide)

theorem intStr_ne_star (i : Int) : intStr i ≠ "*".toList := by
  intro e
  have := pyInt_intStr i
  rw [e] at this
  exact absurd this (by
    rw [show pyInt "*".toList = .error .valueError from rfl]
    exact fun h => by cases h)

theorem heading_ne_star {s : Sel} (hg : s.Readable) (hs : ∀ a, s ≠ .leaf .star a) : s.heading ≠ "*".toList := by
  cases s with
  | leaf l a =>
    rw [Sel.heading]
    rw [Sel.Readable] at hg
    match l, hg.1 with
    | .field n, hn => exact Name_ne_star hn
    | .quotedField n, _ => exact fun e => by injection e with e _; exact absurd e (by decide)
    | .int i, _ => exact intStr_ne_star i
    | .text q s, hq => exact fun e => by injection e with e _; rcases hq.1 with rfl | rfl <;> exact absurd e (by decide)
    | .date q s d, hq => exact fun e => by injection e with e _; rcases hq.1 with rfl | rfl <;> exact absurd e (by decide)
    | .bool true w, hw => rintro rfl; exact absurd hw (show ¬ capitals "*".toList = "TRUE".toList by decide)
    | .bool false w, hw => rintro rfl; exact absurd hw (show ¬ capitals "*".toList = "FALSE".toList by decide)
    | .null w, hw => rintro rfl; exact absurd hw (show ¬ (capitals "*".toList = "NULL".toList ∨ capitals "*".toList = "NONE".toList) by decide)
    | .star, _ => exact absurd rfl (hs a)
  | call f args a =>
    rw [Sel.heading]
    intro e
    have : '(' ∈ capitals f ++ "(".toList ++ join ",".toList (headings args) ++ ")".toList := by simp
    rw [e] at this
    exact absurd this (by decide)

theorem name_ne_star {s : Sel} (hg : s.Readable) (hs : ∀ a, s ≠ .leaf .star a) : s.name ≠ "*".toList := by
  have hh := heading_ne_star hg hs
  unfold Sel.name
  cases s with
  | leaf l a =>
    rw [Sel.Readable] at hg
    rcases a with _ | ⟨k, n⟩
    · exact hh
    · exact Name_ne_star (hg.2 k n rfl).2
  | call f args a =>
    rw [Sel.Readable] at hg
    rcases a with _ | ⟨k, n⟩
    · exact hh
    · exact Name_ne_star (hg.2.2 k n rfl).2

theorem putName_ne_star {s : Sel} (hg : s.Readable) (hs : ∀ a, s ≠ .leaf .star a) : putName s ≠ "*".toList := by
  rcases putName_cases s with h | ⟨_, h⟩
  · rw [h]; exact name_ne_star hg hs
  · rw [h]; exact heading_ne_star hg hs

theorem good_mem {ss : List Sel} (h : GoodArgs ss) : ∀ s ∈ ss, s.Good := by
  induction ss with
  | nil => intro s hs; cases hs
  | cons x ss ih =>
    rw [GoodArgs] at h
    intro s hs
    rcases List.mem_cons.1 hs with rfl | hs
    · exact h.1
    · exact ih h.2 s hs

theorem good_append {ss ts : List Sel} (h1 : GoodArgs ss) (h2 : GoodArgs ts) : GoodArgs (ss ++ ts) := by
  induction ss with
  | nil => exact h2
  | cons x ss ih =>
    rw [GoodArgs] at h1
    rw [List.cons_append, GoodArgs]
    exact ⟨h1.1, ih h1.2⟩

/-! ## The fields -/

theorem tok_as {s : Sel} (hg : s.Readable) : (Sel.tok s).as_.filter (· ≠ []) = s.given := by
  cases s with
  | leaf l a => rw [Sel.Readable] at hg; rw [Sel.tok]; exact given_filter hg.2
  | call f args a => rw [Sel.Readable] at hg; rw [Sel.tok]; exact given_filter hg.2.2

theorem fieldOf_tok {s : Sel} (hg : s.Readable) (hp : ∀ a, s ≠ .leaf .star a ∧ (∀ w, s ≠ .leaf (.null w) a) ∧ ∀ b w, s ≠ .leaf (.bool b w) a) :
    fieldOf (Sel.tok s) = [s.name] := by
  have ha := tok_as hg
  have hn := functionName_tok s
  unfold fieldOf
  simp only [ha, hn]
  cases s with
  | call f args a => rw [Sel.tok]; rcases callLabel_cases f with e | e <;> (rw [e]; rfl)
  | leaf l a =>
    rw [Sel.tok]
    match l, hp a with
    | .field _, _ => rfl
    | .quotedField _, _ => rfl
    | .int _, _ => rfl
    | .text _ _, _ => rfl
    | .date _ _ _, _ => rfl
    | .bool b w, h => exact absurd rfl (h.2.2 b w)
    | .null w, h => exact absurd rfl (h.2.1 w)
    | .star, h => exact absurd rfl h.1

theorem plain_of {ss : List Sel} {rows : List Row} (h : Selectable ss rows) {s : Sel} (hs : s ∈ ss) (a : Option (Str × Str)) :
    s ≠ .leaf .star a ∧ (∀ w, s ≠ .leaf (.null w) a) ∧ ∀ b w, s ≠ .leaf (.bool b w) a := by
  obtain ⟨h1, h2, h3⟩ := h.plain a
  exact ⟨fun e => h1 (e ▸ hs), fun w e => h2 w (e ▸ hs), fun b w e => h3 b w (e ▸ hs)⟩

theorem getFields_sels {ss : List Sel} (hg : ReadableArgs ss)
    (hp : ∀ s ∈ ss, ∀ a, s ≠ .leaf .star a ∧ (∀ w, s ≠ .leaf (.null w) a) ∧ ∀ b w, s ≠ .leaf (.bool b w) a) :
    getFields (ss.map Sel.tok) = ss.map Sel.name := by
  unfold getFields
  induction ss with
  | nil => rfl
  | cons s ss ih =>
    rw [ReadableArgs] at hg
    rw [List.map_cons, List.flatMap_cons, ih hg.2 (fun s hs => hp s (List.mem_cons_of_mem _ hs)),
      fieldOf_tok hg.1 (hp s (List.mem_cons_self ..))]
    rfl

/-! ## Renaming -/

/-- The names given with AS. -/
def asNames (ss : List Sel) : List (Str × Str) := (ss.filter (fun s => s.given.isSome)).map (fun s => (s.heading, s.name))

/-- One step of `renames`. -/
def renameAcc (d : List (Str × Str)) (t : Tok) : List (Str × Str) :=
  match t.as_.filter (· ≠ []) with
  | some a => put d (functionName t) a
  | none => d

theorem renameAcc_eq (d : List (Str × Str)) (t : Tok) : renameAcc d t = ((t.as_.filter (· ≠ [])).map (put d (functionName t))).getD d := by
  unfold renameAcc
  cases t.as_.filter (· ≠ []) <;> rfl

theorem renames_fold (ss : List Sel) (hg : ReadableArgs ss) : ∀ d, (ss.map Sel.tok).foldl renameAcc d = (asNames ss).foldl (fun d kv => put d kv.1 kv.2) d := by
  induction ss with
  | nil => intro d; rfl
  | cons s ss ih =>
    intro d
    rw [ReadableArgs] at hg
    rw [List.map_cons, List.foldl_cons, ih hg.2, renameAcc_eq, tok_as hg.1, functionName_tok]
    unfold asNames
    cases h : s.given with
    | none => rw [List.filter_cons_of_neg (by rw [h]; decide)]; rfl
    | some n => rw [List.filter_cons_of_pos (by rw [h]; rfl), List.map_cons, List.foldl_cons, given_some h]; rfl

theorem renames_sels {ss : List Sel} (hg : ReadableArgs ss) (ho : ((ss.filter (fun s => s.given.isSome)).map Sel.heading).Nodup) :
    renames (ss.map Sel.tok) = asNames ss := by
  show (ss.map Sel.tok).foldl renameAcc [] = _
  rw [renames_fold ss hg]
  refine toDict_of_nodup _ ?_
  unfold asNames
  rw [List.map_map]
  exact ho

theorem lookup_asNames {ss : List Sel} {k n : Str} (h : (asNames ss).lookup k = some n) :
    ∃ s ∈ ss, s.given.isSome = true ∧ s.heading = k ∧ s.name = n := by
  have : (k, n) ∈ asNames ss := by
    generalize asNames ss = l at h
    induction l with
    | nil => cases h
    | cons kv l ih =>
      obtain ⟨x, y⟩ := kv
      rw [List.lookup_cons] at h
      split at h
      · next e =>
        rw [beq_iff_eq] at e
        injection h with h
        rw [e, h]
        exact List.mem_cons_self ..
      · exact List.mem_cons_of_mem _ (ih h)
  unfold asNames at this
  obtain ⟨s, hs, e⟩ := List.mem_map.1 this
  injection e with e1 e2
  obtain ⟨h1, h2⟩ := List.mem_filter.1 hs
  exact ⟨s, h1, h2, e1, e2⟩

theorem asNames_lookup {ss : List Sel} (ho : ((ss.filter (fun s => s.given.isSome)).map Sel.heading).Nodup) {s : Sel} (hs : s ∈ ss)
    (hg : s.given.isSome = true) : (asNames ss).lookup s.heading = some s.name := by
  have hm : s ∈ ss.filter (fun s => s.given.isSome) := List.mem_filter.2 ⟨hs, hg⟩
  unfold asNames
  generalize ss.filter (fun s => s.given.isSome) = l at ho hm
  induction l with
  | nil => cases hm
  | cons x l ih =>
    rw [List.map_cons, List.nodup_cons] at ho
    rw [List.map_cons, List.lookup_cons]
    rcases List.mem_cons.1 hm with rfl | hm
    · rw [beq_self_eq_true]
    · have : (s.heading == x.heading) = false := beq_eq_false_iff_ne.2 (fun e => ho.1 (e ▸ List.mem_map_of_mem hm))
      rw [this]
      exact ih ho.2 hm

theorem remove_lookup (r : Row) (k k' : Str) : Row.lookup (remove r k) k' = if k' = k then none else Row.lookup r k' := by
  unfold remove
  induction r with
  | nil => rw [List.filter_nil]; split <;> rfl
  | cons kv r ih =>
    obtain ⟨x, y⟩ := kv
    by_cases hx : x = k
    · subst hx
      rw [List.filter_cons_of_neg (by simp), ih, lookup_cons]
      split
      · rfl
      · rfl
    · rw [List.filter_cons_of_pos (by simpa using hx), lookup_cons, lookup_cons, ih]
      by_cases h : k' = x
      · subst h; rw [if_pos rfl, if_pos rfl, if_neg hx]
      · rw [if_neg h, if_neg h]

/-- What one renaming leaves under a name that it does not touch. -/
theorem renameOne_other {ss : List Sel} (r : Row) (k x : Str) (h : ∀ s ∈ ss, s.given.isSome = true → s.heading = k → x ≠ k ∧ x ≠ s.name) :
    Row.lookup (renameOne (asNames ss) r k) x = Row.lookup r x := by
  unfold renameOne
  cases hl : (asNames ss).lookup k with
  | none => rfl
  | some n =>
    obtain ⟨s, hs, hg, hk, hn⟩ := lookup_asNames hl
    obtain ⟨h1, h2⟩ := h s hs hg hk
    simp only
    rw [put_lookup_datum, if_neg (hn ▸ h2), remove_lookup, if_neg h1]

theorem renameOne_this {ss : List Sel} (h : Named ss) {s : Sel} (hs : s ∈ ss) (hg : s.given.isSome = true)
    (r : Row) : Row.lookup (renameOne (asNames ss) r s.heading) s.name =
        some ((Row.lookup r s.heading).getD ((Row.lookup r s.name).getD (.one .none))) ∧
      Row.lookup (renameOne (asNames ss) r s.heading) s.heading = none := by
  unfold renameOne
  rw [asNames_lookup h.once hs hg]
  simp only
  rw [put_lookup_datum, if_pos rfl, put_lookup_datum, if_neg (heading_ne h hs hs hg), remove_lookup, if_pos rfl]
  exact ⟨rfl, rfl⟩

/-- The names of columns that need no renaming are left alone. -/
theorem rename_name {ss : List Sel} (h : Named ss) {s : Sel} (hs : s ∈ ss) (ks : List Str) (r : Row)
    (hk : s.given.isSome = true → s.heading ∉ ks) : Row.lookup (ks.foldl (renameOne (asNames ss)) r) s.name = Row.lookup r s.name := by
  induction ks generalizing r with
  | nil => rfl
  | cons k ks ih =>
    rw [List.foldl_cons, ih _ (fun g hm => hk g (List.mem_cons_of_mem _ hm))]
    refine renameOne_other r k _ ?_
    intro t ht hg he
    refine ⟨fun e => heading_ne h ht hs hg (by rw [he, e]), fun e => ?_⟩
    have := name_inj h hs ht e
    subst this
    exact hk hg (he ▸ List.mem_cons_self ..)

/-- The value under the written name is moved to the given name. -/
theorem rename_heading {ss : List Sel} (h : Named ss) {s : Sel} (hs : s ∈ ss) (hg : s.given.isSome = true)
    (v : Datum) : ∀ (ks : List Str) (r : Row),
      (Row.lookup r s.heading = none ∧ Row.lookup r s.name = some v) ∨ (Row.lookup r s.heading = some v ∧ s.heading ∈ ks) →
      Row.lookup (ks.foldl (renameOne (asNames ss)) r) s.name = some v := by
  intro ks
  induction ks with
  | nil =>
    rintro r (⟨_, h2⟩ | ⟨_, h2⟩)
    · exact h2
    · cases h2
  | cons k ks ih =>
    intro r hr
    rw [List.foldl_cons]
    by_cases hk : k = s.heading
    · subst hk
      obtain ⟨h1, h2⟩ := renameOne_this h hs hg r
      refine ih _ (Or.inl ⟨h2, ?_⟩)
      rw [h1]
      rcases hr with ⟨a, b⟩ | ⟨a, _⟩
      · rw [a, b]; rfl
      · rw [a]; rfl
    · have e1 : Row.lookup (renameOne (asNames ss) r k) s.heading = Row.lookup r s.heading := by
        refine renameOne_other r k _ ?_
        intro t ht _ _
        exact ⟨fun e => hk e.symm, heading_ne h hs ht hg⟩
      have e2 : Row.lookup (renameOne (asNames ss) r k) s.name = Row.lookup r s.name := by
        refine renameOne_other r k _ ?_
        intro t ht gt he
        refine ⟨fun e => heading_ne h ht hs gt (by rw [he, e]), fun e => ?_⟩
        have := name_inj h hs ht e
        subst this
        exact hk he.symm
      refine ih _ ?_
      rw [e1, e2]
      rcases hr with a | ⟨a, b⟩
      · exact Or.inl a
      · refine Or.inr ⟨a, ?_⟩
        rcases List.mem_cons.1 b with b | b
        · exact absurd b.symm hk
        · exact b

/-! ## What the reader gives for a record -/

def star : Sel := .leaf .star none

theorem putColumns_append {F : Funs} {r : Row} {a b : List Sel} {x y : Row} (h1 : putColumns F r a = .ok x) (h2 : putColumns F r b = .ok y) :
    putColumns F r (a ++ b) = .ok (x ++ y) := by
  induction a generalizing x with
  | nil => cases h1; exact h2
  | cons s a ih =>
    rw [putColumns] at h1
    rw [List.cons_append, putColumns]
    cases hv : s.value F r with
    | error e => rw [hv] at h1; cases h1
    | ok v =>
      rw [hv] at h1
      cases hc : putColumns F r a with
      | error e => rw [hc] at h1; cases h1
      | ok cols =>
        rw [hc] at h1
        rw [ih hc]
        injection h1 with h1
        rw [← h1]
        rfl

/-- A record with the values of the items. -/
def aug (F : Funs) (ss : List Sel) (r : Row) : Row :=
  (ss.map (fun s => (putName s, val F r s)) ++ [("*".toList, Datum.one (.str "*".toList))]).foldl (fun d kv => put d kv.1 kv.2) r

theorem call_aug {lex : Lex} (hl : Sane lex) {F : Funs} {ss : List Sel} (hg : GoodArgs ss) {r out : Row} (h : columns F r ss = .ok out) :
    (call F lex ((ss ++ [star]).map Sel.tok) r).1 = .ok (aug F ss r) := by
  have hs : GoodArgs [star] := by
    rw [GoodArgs, GoodArgs]
    unfold star
    rw [Sel.Good]
    exact ⟨⟨trivial, fun _ _ e => by cases e⟩, trivial⟩
  have h2 : putColumns F r [star] = .ok [("*".toList, .one (.str "*".toList))] := rfl
  unfold call
  rw [any_star, List.any_append, if_pos (by simp [star, Sel.isStar]), fill_sels hl F r _ (good_append hg hs),
    putColumns_append (columns_val h).2 h2]
  rfl

theorem aug_lookup (F : Funs) (ss : List Sel) (r : Row) (k : Str) (hk : k ≠ "*".toList) :
    Row.lookup (aug F ss r) k = (Row.lookup (ss.map (fun s => (putName s, val F r s))).reverse k).or (Row.lookup r k) := by
  unfold aug
  rw [foldl_lookup_datum, List.reverse_append, lookup_append]
  have : Row.lookup [("*".toList, Datum.one (.str "*".toList))].reverse k = none := by
    rw [List.reverse_singleton, lookup_cons, if_neg hk]
    rfl
  rw [this]
  rfl

theorem aug_put {F : Funs} {ss : List Sel} {rows : List Row} (h : Selectable ss rows) (hg : GoodArgs ss) (r : Row) {s : Sel} (hs : s ∈ ss) :
    Row.lookup (aug F ss r) (putName s) = some (val F r s) := by
  rw [aug_lookup F ss r _ (putName_ne_star (readable_good _ (good_mem hg s hs)) (fun a => (plain_of h hs a).1)), ← List.map_reverse,
    lookup_map (by rw [List.map_reverse]; exact List.nodup_reverse.2 (putName_nodup h.toNamed)) (List.mem_reverse.2 hs)]
  rfl

theorem aug_other {F : Funs} {ss : List Sel} (r : Row) {k : Str} (hk : k ≠ "*".toList) (hn : k ∉ ss.map putName) :
    Row.lookup (aug F ss r) k = Row.lookup r k := by
  rw [aug_lookup F ss r k hk, lookup_none]
  · rfl
  · rw [List.map_reverse, List.mem_reverse, List.map_map]
    exact hn

/-- Choosing columns. -/
theorem selectRow_of {ss : List Sel} (h : Named ss) (hstar : "*".toList ∉ ss.map Sel.name) {r : Row} {v : Sel → Datum}
    (hr : ∀ s ∈ ss, (Row.lookup r s.name).getD (.one .none) = v s) : selectRow (ss.map Sel.name) r = ss.map (fun s => (s.name, v s)) := by
  unfold selectRow
  rw [if_neg hstar, toDict_of_nodup, List.map_map]
  · refine List.map_congr_left (fun s hs => ?_)
    simp only [Function.comp_apply, hr s hs]
  · rw [List.map_map]
    simpa [Function.comp_def] using h.names

/-- The columns of the renamed record. -/
theorem select_aug {F : Funs} {ss : List Sel} {rows : List Row} (h : Selectable ss rows) (hg : GoodArgs ss) {r out : Row} (hr : r ∈ rows)
    (ho : columns F r ss = .ok out) :
    selectRow (ss.map Sel.name) (performRenames (asNames ss) (aug F ss r)) = out := by
  have hlook : ∀ s ∈ ss, Row.lookup (performRenames (asNames ss) (aug F ss r)) s.name = some (val F r s) := by
    intro s hs
    have hput := aug_put (F := F) h hg r hs
    unfold performRenames
    cases hgv : s.given with
    | none =>
      rw [rename_name h.toNamed hs _ _ (by rw [hgv]; intro e; cases e), ← (given_none hgv).1, hput]
    | some n =>
      have hsome : s.given.isSome = true := by rw [hgv]; rfl
      have hleaf : putName s = s.heading → Row.lookup (((aug F ss r).map (·.1)).foldl (renameOne (asNames ss)) (aug F ss r)) s.name = some (val F r s) := by
        intro e
        rw [e] at hput
        exact rename_heading h.toNamed hs hsome _ _ _ (Or.inr ⟨hput, lookup_mem hput⟩)
      cases s with
      | leaf l a => exact hleaf (by rw [putName, Sel.heading])
      | call f args a =>
        rcases a with _ | ⟨kw, nm⟩
        · cases hgv
        · rw [rename_name h.toNamed hs _ _ (fun _ hm => ?_)]
          · exact hput
          · obtain ⟨⟨k, v⟩, hkv, e⟩ := List.mem_map.1 hm
            have hsome' : (Row.lookup (aug F ss r) (Sel.call f args (some (kw, nm))).heading).isSome = true := by
              unfold Row.lookup
              rw [Option.isSome_map, List.find?_isSome]
              exact ⟨_, hkv, by rw [beq_iff_eq]; exact e⟩
            rw [aug_other r (heading_ne_star (readable_good _ (good_mem hg _ hs)) (fun _ e => by cases e)) ?_, h.fresh f args _ hs r hr] at hsome'
            · cases hsome'
            · intro hm
              obtain ⟨t, ht, e⟩ := List.mem_map.1 hm
              rcases putName_cases t with e1 | ⟨g1, e1⟩
              · exact heading_ne h.toNamed hs ht hsome (by rw [← e, e1])
              · have := heading_inj h.toNamed hs ht hsome g1 (by rw [← e, e1])
                subst this
                exact heading_ne h.toNamed hs hs hsome (by rw [← e]; rfl)
  have hstar : "*".toList ∉ ss.map Sel.name := by
    intro hm
    obtain ⟨s, hs, e⟩ := List.mem_map.1 hm
    exact name_ne_star (readable_good _ (good_mem hg s hs)) (fun a => (plain_of h hs a).1) e
  rw [selectRow_of h.toNamed hstar (v := val F r) (fun s hs => by rw [hlook s hs]; rfl), (columns_val ho).1]

/-- A record with its columns renamed. -/
theorem select_headings {ss : List Sel} (h : Named ss) (hstar : "*".toList ∉ ss.map Sel.name) {r : Row}
    (hr : ∀ s ∈ ss, s.given ≠ none → (Row.lookup r s.heading).isSome = true) :
    selectRow (ss.map Sel.name) (performRenames (asNames ss) r) = shown ss r := by
  refine selectRow_of h hstar (fun s hs => ?_)
  unfold performRenames
  cases hgv : s.given with
  | none => rw [rename_name h hs _ _ (by rw [hgv]; intro e; cases e), (given_none hgv).2]
  | some n =>
    obtain ⟨v, hv⟩ := Option.isSome_iff_exists.1 (hr s hs (by rw [hgv]; simp))
    rw [rename_heading h hs (by rw [hgv]; rfl) v _ _ (Or.inr ⟨hv, lookup_mem hv⟩), hv]

end Mabel.SqlReader
