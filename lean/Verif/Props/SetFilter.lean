import Verif.Model.SetFilter
import Verif.Props.ReaderFilter
import Verif.Props.ExprDnf

/-!
# C102: a set can be filtered by a text, by tuples and lists and by a function, and it makes no difference whether the reader or
the set filters
-/

namespace Mabel.SqlReader
open Mabel.Py Mabel.Dates Mabel.Tokens Mabel.Filters Mabel.Filters.Spec Mabel.Records Mabel.Evaluator
  Mabel.Evaluator.Spec Mabel.SqlReader.Spec Mabel.Listing Mabel.Naming
open Mabel.Expression (name_a sampleLex_sane Tree C75_again_partial after_after C45_same_partial)
open Mabel.Expression.Spec (Sane WellNamed Written Convertible)
open Mabel.Tokenizer (asciiRe_sane parseText)
open Mabel.Tokenizer.Spec (SaneRe)
open Mabel.Blobs (Gen Lib mapItems filterItems)
open Mabel.History (Run afterDayRuns)
open Mabel.Disk (Disk)

/-! ## Texts -/

/-- Evaluating the expression changes it, but not what it keeps. -/
theorem whereItems_eq (lib : Filters.Lib) (lex : Lex) (t : Tree) (hw : WellNamed t) (rows : List Row) :
    whereItems lib lex t rows = filterItems (fun r => Expression.evaluate lib lex r t) none rows := by
  have key : ∀ rows : List Row, whereItems lib lex t.after rows =
      filterItems (fun r => Expression.evaluate lib lex r t) none rows := by
    intro rows
    induction rows with
    | nil => rfl
    | cons r rows ih =>
      rw [whereItems, filterItems, C75_again_partial lib lex r t hw, after_after t hw]
      simp only [ih]
      rfl
  cases rows with
  | nil => rfl
  | cons r rows =>
    rw [whereItems, filterItems, key]
    rfl

/-- **C102**: a filter that is a text keeps exactly the records for which the condition written in it holds, in order. -/
theorem C102_text_partial {env : Env} (hre : SaneRe env.re) (hl : Sane env.lex) {rows : List Row} {text : Str} {cond : Row → Bool}
    (hw : Where env (fun _ => False) rows (some text) cond) :
    filterSet env rows (.text text) = .ok (some (Gen.of (rows.filter cond))) := by
  obtain ⟨ls, t, h1, h2, h3, h4, _, h6⟩ := hw
  unfold filterSet
  simp only
  rw [Tokenizer.C64_expression_partial hre hl ls text h1 h2 t h3]
  show Except.ok (some (whereItems env.lib env.lex t rows)) = _
  rw [whereItems_eq _ _ _ h4, filterItems_ok h6]

/-! ## Tuples and lists -/

/-- **C102**: a filter of lists of tuples keeps exactly the records that meet all the predicates of one of the lists. -/
theorem C102_lists_partial {env : Env} {rows : List Row} {ass : List (List Atom)} (hass : ass ≠ [])
    (happ : ∀ r ∈ rows, Applies env.lib ass r) {meets : Row → Bool} (hm : ∀ r ∈ rows, meets r = true ↔ Meets env.lib ass r) :
    filterSet env rows (.value (nested ass)) = .ok (some (Gen.of (rows.filter meets))) := by
  unfold filterSet
  simp only
  rw [if_pos (by rfl)]
  rw [filterItems_ok (p := (DnfFilters.init _).call env.lib) (c := meets) (fun r hr => verdict_nested hass (happ r hr) (hm r hr))]

/-- **C102**: … and a filter that is one list of tuples those that meet all of them. -/
theorem C102_list_partial {env : Env} {rows : List Row} {as : List Atom} (happ : ∀ r ∈ rows, Applies env.lib [as] r)
    {meets : Row → Bool} (hm : ∀ r ∈ rows, meets r = true ↔ Meets env.lib [as] r) :
    filterSet env rows (.value (flat as)) = .ok (some (Gen.of (rows.filter meets))) := by
  unfold filterSet
  simp only
  rw [if_pos (by rfl)]
  rw [filterItems_ok (p := (DnfFilters.init _).call env.lib) (c := meets) (fun r hr => verdict_flat (happ r hr) (hm r hr))]

/-- **C102**: a filter that is a function keeps exactly the records for which it returns true. -/
theorem C102_function_partial {env : Env} {rows : List Row} {f : Row → Except Err Bool} {keep : Row → Bool}
    (hf : ∀ r ∈ rows, f r = .ok (keep r)) :
    filterSet env rows (.function f) = .ok (some (Gen.of (rows.filter keep))) := by
  unfold filterSet
  simp only
  rw [filterItems_ok hf]

/-! ## The filter decides, not where it is given -/

section
variable {w : Job} {first last : DateTime} {days : List DateTime} {runs : List (DateTime × Run Row)} {d : Disk}
  {lib : Lib Row} {rows : DateTime → List Row} {prefixes : List Str} {env : Env}

/-- A reader without a filter, after the runs. -/
theorem unfiltered {bs : List (List Row)} {dataset : Str} {env : Env} (h2 : env.blobs dataset = .ok bs)
    (hfull : ∀ r ∈ bs.flatten, r ≠ []) :
    openFiltered env "*".toList dataset (.value .none) = .ok (Gen.of bs.flatten) := by
  rw [(C100_empty_list env dataset bs h2).2, List.filter_eq_self.2 (fun r hr => decide_eq_true (hfull r hr))]

/-- **C102**: after any history of runs that may be stopped at any moment, it makes no difference whether a text is given to the
reader or to the set that a reader without a filter returns, if no record is empty. -/
theorem C102_reader_text_partial (hre : SaneRe env.re) (hl : Sane env.lex) (h : Left w first last days runs d lib rows prefixes)
    (hne : ∃ t ∈ days, rows t ≠ []) (hfull : ∀ t ∈ days, ∀ r ∈ rows t, r ≠ []) (now : DateTime) (rnd : Str) {text : Str}
    {cond : Row → Bool} (hw : Where env (fun _ => False) (days.flatMap rows) (some text) cond) :
    ∃ d' all kept, afterDayRuns w d runs = .ok d' ∧
      openFiltered (stored env lib (daysReader w first last prefixes) now rnd d') "*".toList w.dataset (.value .none) =
        .ok (Gen.of all) ∧
      openFiltered (stored env lib (daysReader w first last prefixes) now rnd d') "*".toList w.dataset (.text text) =
        .ok (Gen.of kept) ∧
      filterSet (stored env lib (daysReader w first last prefixes) now rnd d') all (.text text) = .ok (some (Gen.of kept)) := by
  obtain ⟨d', bs, h1, h2, h3⟩ := C88_stored h hne now rnd
  have hfull' : ∀ r ∈ bs.flatten, r ≠ [] := by
    intro r hr
    rw [h3] at hr
    obtain ⟨t, ht, hr⟩ := List.mem_flatMap.1 hr
    exact hfull t ht r hr
  rw [← h3] at hw
  refine ⟨d', bs.flatten, bs.flatten.filter cond, h1, unfiltered h2 hfull', ?_, ?_⟩
  · have := open_where (env := stored env lib (daysReader w first last prefixes) now rnd d') (w := some text) (cond := cond)
      (hidden := fun _ => False) hre hl h2 hw (tokens_star _) (a := id) (fun _ _ => rfl) nofun (fun _ _ _ _ _ => rfl)
    rw [List.map_id] at this
    exact this
  · exact C102_text_partial (env := stored env lib (daysReader w first last prefixes) now rnd d') hre hl hw

/-- **C102**: … and the same for lists of tuples. -/
theorem C102_reader_lists_partial (h : Left w first last days runs d lib rows prefixes)
    (hne : ∃ t ∈ days, rows t ≠ []) (hfull : ∀ t ∈ days, ∀ r ∈ rows t, r ≠ []) (now : DateTime) (rnd : Str)
    {ass : List (List Atom)} (hass : ass ≠ []) (happ : ∀ t ∈ days, ∀ r ∈ rows t, Applies env.lib ass r) :
    ∃ d' all kept, afterDayRuns w d runs = .ok d' ∧
      openFiltered (stored env lib (daysReader w first last prefixes) now rnd d') "*".toList w.dataset (.value .none) =
        .ok (Gen.of all) ∧
      openFiltered (stored env lib (daysReader w first last prefixes) now rnd d') "*".toList w.dataset (.value (nested ass)) =
        .ok (Gen.of kept) ∧
      filterSet (stored env lib (daysReader w first last prefixes) now rnd d') all (.value (nested ass)) =
        .ok (some (Gen.of kept)) := by
  classical
  obtain ⟨d', bs, h1, h2, h3⟩ := C88_stored h hne now rnd
  have hin : ∀ r ∈ bs.flatten, ∃ t ∈ days, r ∈ rows t := by
    intro r hr
    rw [h3] at hr
    exact List.mem_flatMap.1 hr
  have hm : ∀ r ∈ bs.flatten, decide (Meets env.lib ass r) = true ↔ Meets env.lib ass r := fun r _ => decide_eq_true_iff
  have ha : ∀ r ∈ bs.flatten, Applies env.lib ass r := by
    intro r hr
    obtain ⟨t, ht, hr⟩ := hin r hr
    exact happ t ht r hr
  refine ⟨d', bs.flatten, bs.flatten.filter (fun r => decide (Meets env.lib ass r)), h1, unfiltered h2 ?_, ?_, ?_⟩
  · intro r hr
    obtain ⟨t, ht, hr⟩ := hin r hr
    exact hfull t ht r hr
  · have := open_pred (env := stored env lib (daysReader w first last prefixes) now rnd d') (p := nested ass) (Or.inr rfl)
      (tokens_star _) h2 (a := id) (fun r _ => rfl) (keep := fun r => decide (Meets env.lib ass r))
      (fun r hr => verdict_nested hass (ha r hr) (hm r hr))
    rw [List.map_id] at this
    exact this
  · exact C102_lists_partial (env := stored env lib (daysReader w first last prefixes) now rnd d') hass ha hm

end

/-- **C102**: for alternatives of numeric comparisons and pairs of them, the text and the filter that is made of it
(`Expression.to_dnf`) keep the same. -/
theorem C102_converted_partial {env : Env} (hre : SaneRe env.re) (hl : Sane env.lex) (hk : KeepsOperators env.lib)
    {ls : List Tokenizer.Spec.Lexeme} {text : Str} {t : Tree} (hlaid : Tokenizer.Spec.Laid env.re ls text)
    (hsimple : ∀ l ∈ ls, l.Simple env.re) (hw : Written .or t (ls.map Tokenizer.Spec.Lexeme.token)) (hn : WellNamed t)
    (rows : List Row) (hc : ∀ r ∈ rows, Convertible r t) {p : Pred} (hp : Expression.toDnf env.lib t = .ok p)
    (hl' : p.isTuple = true ∨ p.isList = true) :
    filterSet env rows (.text text) = filterSet env rows (.value p) := by
  have he : ∀ r ∈ rows, Expression.evaluate env.lib env.lex r t = verdict env.lib p r := by
    intro r hr
    obtain ⟨p', b, h1, h2, h3⟩ := C45_same_partial env.lib hk env.lex r t (hc r hr)
    rw [hp] at h1
    obtain rfl := Except.ok.inj h1
    rw [h2, h3]
  unfold filterSet
  simp only
  rw [Tokenizer.C64_expression_partial hre hl ls text hlaid hsimple t hw, if_pos (by simpa using hl')]
  show Except.ok (some (whereItems env.lib env.lex t rows)) = _
  rw [whereItems_eq _ _ _ hn]
  congr 2
  clear hc
  induction rows with
  | nil => rfl
  | cons r rows ih =>
    rw [filterItems, filterItems, he r List.mem_cons_self, ih (fun x hx => he x (List.mem_cons_of_mem _ hx))]
    rfl

/-! ## What is not a filter -/

/-- **C102** fails for filters of other kinds: None, a dictionary, a number, … are not refused; what comes back is None instead of
a set. -/
theorem C102_other_fails (env : Env) (rows : List Row) :
    filterSet env rows (.value .none) = .ok none ∧ filterSet env rows (.value .other) = .ok none := ⟨rfl, rfl⟩

/-- **C102** fails where a filter raises: a set raises, having yielded what came before; a reader (`C100_raising_fails`) is silent
about it and leaves out the rest of the blob. -/
theorem C102_raising_fails :
    let p := flat [⟨"a".toList, ">".toList, .one (.int 0)⟩]
    filterSet { sampleEnv with blobs := fun _ => .ok [mixedRows] } mixedRows (.value p) =
      .ok (some ⟨[[("a".toList, .one (.int 1))]], some .typeError⟩) ∧
    openFiltered { sampleEnv with blobs := fun _ => .ok [mixedRows] } "*".toList [] (.value p) =
      .ok ⟨[[("a".toList, .one (.int 1))]], none⟩ := by
  decide +kernel

/-- **C102** fails for empty records: a reader without a filter does not deliver them, so that a filter which keeps them (here the
empty list, which keeps everything) finds them if the reader is given it and not if the set is. -/
theorem C102_empty_record_fails :
    let env := { sampleEnv with blobs := fun _ => .ok [[[]]] }
    openFiltered env "*".toList [] (.value (.list [])) = .ok ⟨[[]], none⟩ ∧
    openFiltered env "*".toList [] (.value .none) = .ok ⟨[], none⟩ ∧
    filterSet env [] (.value (.list [])) = .ok (some ⟨[], none⟩) := by
  decide +kernel

/-! ## Concrete cases -/

section
open Mabel.EndToEnd (zJob)
open Mabel.History (demoStart feb28 feb29 mar1)

/-- Non-vacuity of `C102_text_partial`. -/
example : filterSet sampleEnv [sampleRow 1 "x", sampleRow 3 "y", sampleRow 0 "z"] (.text "a > 0".toList) =
    .ok (some (Gen.of [sampleRow 1 "x", sampleRow 3 "y"])) := by
  rw [C102_text_partial asciiRe_sane sampleLex_sane (where_pos (fun h => h))]
  decide +kernel

/-- Non-vacuity of `C102_lists_partial`. -/
example : filterSet sampleEnv [sampleRow 1 "x", sampleRow 3 "y", sampleRow 0 "z"] (.value (nested demoAtoms)) =
    .ok (some (Gen.of [sampleRow 3 "y", sampleRow 0 "z"])) := by
  have happ : ∀ r ∈ [sampleRow 1 "x", sampleRow 3 "y", sampleRow 0 "z"], ∀ as ∈ demoAtoms, ∀ a ∈ as,
      (verdict sampleEnv.lib a.tuple r).isOk = true := by decide +kernel
  rw [C102_lists_partial (ass := demoAtoms) (by decide)
    (fun r hr as has a ha => by
      have := happ r hr as has a ha
      cases hv : verdict sampleEnv.lib a.tuple r with
      | error e => rw [hv] at this; cases this
      | ok b => exact ⟨b, rfl⟩)
    (meets := fun r => demoAtoms.any (fun as => as.all (fun a => decide (verdict sampleEnv.lib a.tuple r = .ok true))))
    (fun r _ => by simp [Meets])]
  decide +kernel

/-- Non-vacuity of `C102_reader_text_partial`. -/
example (now : DateTime) (rnd : Str) : ∃ d' all kept, afterDayRuns zJob demoStart rowRuns = .ok d' ∧
    openFiltered (stored sampleEnv rowLib (daysReader zJob feb28 mar1 ["tests/".toList]) now rnd d') "*".toList zJob.dataset
      (.value .none) = .ok (Gen.of all) ∧
    openFiltered (stored sampleEnv rowLib (daysReader zJob feb28 mar1 ["tests/".toList]) now rnd d') "*".toList zJob.dataset
      (.text "a > 0".toList) = .ok (Gen.of kept) ∧
    filterSet (stored sampleEnv rowLib (daysReader zJob feb28 mar1 ["tests/".toList]) now rnd d') all (.text "a > 0".toList) =
      .ok (some (Gen.of kept)) :=
  C102_reader_text_partial (env := sampleEnv) asciiRe_sane sampleLex_sane row_left row_some (by decide +kernel) now rnd
    (by rw [row_days]; exact where_pos (fun h => h))

/-- Non-vacuity of `C102_converted_partial`: `a > 0` and the tuple it is converted to. -/
example : filterSet sampleEnv [sampleRow 1 "x", sampleRow 3 "y", sampleRow 0 "z"] (.text "a > 0".toList) =
    filterSet sampleEnv [sampleRow 1 "x", sampleRow 3 "y", sampleRow 0 "z"]
      (.value (.tup (.str "a".toList) ">".toList (.one (.int 0)))) := by
  refine C102_converted_partial asciiRe_sane sampleLex_sane (fun o ho => ?_) pos_laid pos_simple pos_written ?_ _ ?_ rfl (Or.inl rfl)
  · revert o
    decide +kernel
  · intro c hc
    rw [Expression.Spec.comparisons, List.mem_singleton] at hc
    subst hc
    exact ⟨fun k e => ⟨_, Or.inl ⟨name_a, by injection e with e; exact e.symm⟩⟩, nofun⟩
  · intro r hr
    simp only [List.mem_cons, List.not_mem_nil, or_false] at hr
    rcases hr with rfl | rfl | rfl <;> exact .one (.mk name_a (by decide) (.int 0) rfl rfl)

end

end Mabel.SqlReader
