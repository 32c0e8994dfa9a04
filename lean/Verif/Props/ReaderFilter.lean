import Verif.Model.ReaderFilter
import Verif.Props.SqlStorage
import Verif.Props.Filters

/-!
# C100: readers with filters deliver the records that meet them
-/

namespace Mabel.SqlReader
open Mabel.Py Mabel.Dates Mabel.Tokens Mabel.Filters Mabel.Filters.Spec Mabel.Records Mabel.Evaluator
  Mabel.Evaluator.Spec Mabel.SqlReader.Spec Mabel.Listing Mabel.Naming
open Mabel.Expression (sampleLex_sane)
open Mabel.Expression.Spec (Sane)
open Mabel.Tokenizer (asciiRe_sane)
open Mabel.Tokenizer.Spec (SaneRe)
open Mabel.Blobs (Gen Lib mapItems filterItems)
open Mabel.History (Run afterDayRuns)
open Mabel.Disk (Disk)

/-! ## What is read of blobs -/

/-- A reader with a filter of tuples and lists that raises on none of the records. -/
theorem open_pred {env : Env} {select dataset : Str} {p : Pred} (hp : p.isTuple = true ∨ p.isList = true)
    {tokens : Option (List Tok)} (ht : readerTokens env select = .ok tokens) {bs : List (List Row)}
    (hbs : env.blobs dataset = .ok bs) {a : Row → Row} (ha : ∀ r ∈ bs.flatten, readerColumns env tokens r = .ok (a r))
    {keep : Row → Bool} (hk : ∀ r ∈ bs.flatten, verdict env.lib p (a r) = .ok (keep r)) :
    openFiltered env select dataset (.value p) = .ok (Gen.of ((bs.flatten.filter keep).map a)) := by
  unfold openFiltered
  simp only
  rw [if_pos (by simpa using hp), ht]
  show Except.ok _ = _
  rw [hbs]
  simp only
  rw [readBlobs_ok (filters := (DnfFilters.init p).call env.lib) ha hk]

theorem tokens_star (env : Env) : readerTokens env "*".toList = .ok none := by
  unfold readerTokens
  rw [if_pos rfl]

/-- Which records satisfy alternatives: all the predicates of one of the lists. -/
def Meets (lib : Filters.Lib) (ass : List (List Atom)) (r : Row) : Prop :=
  ∃ as ∈ ass, ∀ a ∈ as, verdict lib a.tuple r = .ok true

/-- None of the predicates raises on the record. -/
def Applies (lib : Filters.Lib) (ass : List (List Atom)) (r : Row) : Prop :=
  ∀ as ∈ ass, ∀ a ∈ as, ∃ b, verdict lib a.tuple r = .ok b

theorem verdict_nested {lib : Filters.Lib} {ass : List (List Atom)} (hne : ass ≠ []) {r : Row} (h : Applies lib ass r)
    {k : Bool} (hk : k = true ↔ Meets lib ass r) : verdict lib (nested ass) r = .ok k := by
  obtain ⟨⟨b, hb⟩, h2⟩ := C42_disjunction lib ass hne r h
  rw [hb]
  rw [hb] at h2
  have : b = true ↔ k = true := by
    rw [hk]
    unfold Meets
    rw [← h2]
    exact ⟨fun e => by rw [e], fun e => Except.ok.inj e⟩
  rw [Bool.eq_iff_iff.2 this]

theorem verdict_flat {lib : Filters.Lib} {as : List Atom} {r : Row} (h : Applies lib [as] r)
    {k : Bool} (hk : k = true ↔ Meets lib [as] r) : verdict lib (flat as) r = .ok k := by
  obtain ⟨b, hb⟩ := C42_conjunction_total lib as r (h as (List.mem_singleton_self _))
  have h2 := C42_conjunction lib as r
  rw [hb] at h2 ⊢
  have : b = true ↔ k = true := by
    rw [hk]
    unfold Meets
    simp only [List.mem_singleton, exists_eq_left]
    rw [← h2]
    exact ⟨fun e => by rw [e], fun e => Except.ok.inj e⟩
  rw [Bool.eq_iff_iff.2 this]

section
variable {w : Job} {first last : DateTime} {days : List DateTime} {runs : List (DateTime × Run Row)} {d : Disk}
  {lib : Lib Row} {rows : DateTime → List Row} {prefixes : List Str} {env : Env}

/-- **C100**: a filter of lists of tuples.  After any history of runs that may be stopped at any moment, a reader of these days
with the filter delivers, of what the last finished run of each day stored, exactly the records that meet all the predicates
of one of the lists, day after day, each once and in the order they were written. -/
theorem C100_lists_partial (h : Left w first last days runs d lib rows prefixes) (hne : ∃ t ∈ days, rows t ≠ []) (now : DateTime)
    (rnd : Str) {ass : List (List Atom)} (hass : ass ≠ []) (happ : ∀ t ∈ days, ∀ r ∈ rows t, Applies env.lib ass r)
    {meets : Row → Bool} (hm : ∀ t ∈ days, ∀ r ∈ rows t, meets r = true ↔ Meets env.lib ass r) :
    ∃ d' g, afterDayRuns w d runs = .ok d' ∧
      openFiltered (stored env lib (daysReader w first last prefixes) now rnd d') "*".toList w.dataset (.value (nested ass)) = .ok g ∧
      g.raised = none ∧ g.items = (days.flatMap rows).filter meets := by
  obtain ⟨d', bs, h1, h2, h3⟩ := C88_stored h hne now rnd
  have hin : ∀ r ∈ bs.flatten, ∃ t ∈ days, r ∈ rows t := by
    intro r hr
    rw [h3] at hr
    exact List.mem_flatMap.1 hr
  refine ⟨d', Gen.of ((bs.flatten.filter meets).map id), h1, ?_, rfl, ?_⟩
  · refine open_pred (env := stored env lib (daysReader w first last prefixes) now rnd d') (Or.inr rfl) (tokens_star _) h2
      (fun r _ => rfl) (fun r hr => ?_)
    obtain ⟨t, ht, hr⟩ := hin r hr
    exact verdict_nested hass (happ t ht r hr) (hm t ht r hr)
  · show List.map id _ = _
    rw [List.map_id, h3]

/-- **C100**: a filter that is one list of tuples: all of its predicates have to hold. -/
theorem C100_list_partial (h : Left w first last days runs d lib rows prefixes) (hne : ∃ t ∈ days, rows t ≠ []) (now : DateTime)
    (rnd : Str) {as : List Atom} (happ : ∀ t ∈ days, ∀ r ∈ rows t, Applies env.lib [as] r)
    {meets : Row → Bool} (hm : ∀ t ∈ days, ∀ r ∈ rows t, meets r = true ↔ Meets env.lib [as] r) :
    ∃ d' g, afterDayRuns w d runs = .ok d' ∧
      openFiltered (stored env lib (daysReader w first last prefixes) now rnd d') "*".toList w.dataset (.value (flat as)) = .ok g ∧
      g.raised = none ∧ g.items = (days.flatMap rows).filter meets := by
  obtain ⟨d', bs, h1, h2, h3⟩ := C88_stored h hne now rnd
  refine ⟨d', Gen.of ((bs.flatten.filter meets).map id), h1, ?_, rfl, ?_⟩
  · refine open_pred (env := stored env lib (daysReader w first last prefixes) now rnd d') (Or.inr rfl) (tokens_star _) h2
      (fun r _ => rfl) (fun r hr => ?_)
    rw [h3] at hr
    obtain ⟨t, ht, hr⟩ := List.mem_flatMap.1 hr
    exact verdict_flat (happ t ht r hr) (hm t ht r hr)
  · show List.map id _ = _
    rw [List.map_id, h3]

/-- **C100**: a filter that is a text: the condition written in it. -/
theorem C100_text_partial (hre : SaneRe env.re) (hl : Sane env.lex) (h : Left w first last days runs d lib rows prefixes)
    (hne : ∃ t ∈ days, rows t ≠ []) (now : DateTime) (rnd : Str) {text : Str} {cond : Row → Bool}
    (hw : Where env (fun _ => False) (days.flatMap rows) (some text) cond) :
    ∃ d' g, afterDayRuns w d runs = .ok d' ∧
      openFiltered (stored env lib (daysReader w first last prefixes) now rnd d') "*".toList w.dataset (.text text) = .ok g ∧
      g.raised = none ∧ g.items = (days.flatMap rows).filter cond := by
  obtain ⟨d', bs, h1, h2, h3⟩ := C88_stored h hne now rnd
  rw [← h3] at hw ⊢
  refine ⟨d', Gen.of ((bs.flatten.filter cond).map id), h1, ?_, rfl, List.map_id _⟩
  exact open_where (env := stored env lib (daysReader w first last prefixes) now rnd d') (w := some text) (cond := cond)
    (hidden := fun _ => False) hre hl h2 hw (tokens_star _)
    (fun _ _ => rfl) nofun (fun _ _ _ _ _ => rfl)

/-- **C100**: with a selection, the filter is about the selected columns: each record is first made the record of its columns,
and then the filter decides about that. -/
theorem C100_select_partial (hre : SaneRe env.re) (hl : Sane env.lex) (h : Left w first last days runs d lib rows prefixes)
    (hne : ∃ t ∈ days, rows t ≠ []) (now : DateTime) (rnd : Str) {ss : List Sel} {b : Str} (hb : Laid env.re (piecesOf ss) b)
    (hbs : b ≠ "*".toList) (hg : GoodArgs ss) (hp : ∀ s ∈ ss, s.Plain) (hs : ss.any Sel.isStar = false)
    (hd : (ss.map Sel.name).Nodup) {out : Row → Row} (hout : ∀ t ∈ days, ∀ r ∈ rows t, columns env.funs r ss = .ok (out r))
    {ass : List (List Atom)} (hass : ass ≠ []) (happ : ∀ t ∈ days, ∀ r ∈ rows t, Applies env.lib ass (out r))
    {meets : Row → Bool} (hm : ∀ t ∈ days, ∀ r ∈ rows t, meets (out r) = true ↔ Meets env.lib ass (out r)) :
    ∃ d' g, afterDayRuns w d runs = .ok d' ∧
      openFiltered (stored env lib (daysReader w first last prefixes) now rnd d') b w.dataset (.value (nested ass)) = .ok g ∧
      g.raised = none ∧ g.items = ((days.flatMap rows).map out).filter meets := by
  obtain ⟨d', bs, h1, h2, h3⟩ := C88_stored h hne now rnd
  obtain ⟨ts, hts, hcall⟩ := C62_one_each_partial hre hl env.funs hg hp hs hd hb
  have hcols : ∀ r, readerColumns env (some ts) r = columns env.funs r ss := by
    intro r
    have := hcall [r]
    rw [C62_no_memory] at this
    exact (List.cons.inj this).1
  have hin : ∀ r ∈ bs.flatten, ∃ t ∈ days, r ∈ rows t := by
    intro r hr
    rw [h3] at hr
    exact List.mem_flatMap.1 hr
  have htok : readerTokens (stored env lib (daysReader w first last prefixes) now rnd d') b = .ok (some ts) := by
    unfold readerTokens
    rw [if_neg hbs]
    show (init env.re env.lex b).map some = _
    rw [hts]
    rfl
  refine ⟨d', Gen.of ((bs.flatten.filter (fun r => meets (out r))).map out), h1, ?_, rfl, ?_⟩
  · refine open_pred (env := stored env lib (daysReader w first last prefixes) now rnd d') (Or.inr rfl) htok h2
      (fun r hr => ?_) (fun r hr => ?_)
    · obtain ⟨t, ht, hr⟩ := hin r hr
      exact (hcols r).trans (hout t ht r hr)
    · obtain ⟨t, ht, hr⟩ := hin r hr
      exact verdict_nested hass (happ t ht r hr) (hm t ht r hr)
  · show List.map out _ = _
    rw [h3, List.filter_map]
    rfl

end

/-! ## What no filter, an empty filter and other objects do -/

/-- **C100**: an empty list keeps every record, even the empty ones, that a reader without a filter drops. -/
theorem C100_empty_list (env : Env) (dataset : Str) (bs : List (List Row)) (h : env.blobs dataset = .ok bs) :
    openFiltered env "*".toList dataset (.value (.list [])) = .ok (Gen.of bs.flatten) ∧
    openFiltered env "*".toList dataset (.value .none) = .ok (Gen.of (bs.flatten.filter (fun r => decide (r ≠ [])))) := by
  constructor
  · rw [open_pred (Or.inr rfl) (tokens_star _) h (a := id) (fun _ _ => rfl) (keep := fun _ => true) (fun _ _ => rfl),
      List.map_id, List.filter_true]
  · have : openFiltered env "*".toList dataset (.value .none) = openReader env "*".toList dataset none := rfl
    rw [this]
    unfold openReader readerTree
    rw [tokens_star]
    show Except.ok (readBlobs env none (readerColumns env none) dataset) = _
    unfold readBlobs
    rw [h]
    simp only
    rw [readBlobs_ok (columns := readerColumns env none) (filters := fun r => .ok (decide (r ≠ []))) (a := id)
      (c := fun r => decide (r ≠ [])) (fun _ _ => rfl) (fun _ _ => rfl), List.map_id]

/-- **C100 fails for functions**: a filter that is a function, as `DictSet.filter` takes it, or any other object that is not a
text, a tuple or a list, is not applied and not refused: the reader delivers what it delivers without a filter. -/
theorem C100_function_fails (env : Env) (select dataset : Str) :
    openFiltered env select dataset (.value .other) = openFiltered env select dataset (.value .none) := rfl

/-! ## Filters that raise -/

/-- **C100**: if the filter raises on a record, the reader goes on with the next blob: of each blob it delivers the records that
meet the filter up to the first record it cannot be applied to. -/
theorem C100_until_it_raises (env : Env) (dataset : Str) (p : Pred) (hp : p.isTuple = true ∨ p.isList = true)
    (bs : List (List Row)) (h : env.blobs dataset = .ok bs) :
    ∃ g, openFiltered env "*".toList dataset (.value p) = .ok g ∧ g.raised = none ∧
      g.items = bs.flatMap (fun rows =>
        (rows.takeWhile (fun r => (verdict env.lib p r).isOk)).filter (fun r => decide (verdict env.lib p r = .ok true))) := by
  have key : ∀ rows : List Row, readBlob (readerColumns env none) ((DnfFilters.init p).call env.lib) rows =
      (rows.takeWhile (fun r => (verdict env.lib p r).isOk)).filter (fun r => decide (verdict env.lib p r = .ok true)) := by
    intro rows
    unfold readBlob Gen.map Gen.filter Gen.of
    simp only
    have hc : readerColumns env none = .ok := rfl
    rw [hc, mapItems_same]
    simp only
    induction rows with
    | nil => rfl
    | cons r rows ih =>
      rw [List.takeWhile_cons, filterItems]
      have hcall : (DnfFilters.init p).call env.lib r = verdict env.lib p r := rfl
      rw [hcall]
      cases hv : verdict env.lib p r with
      | error e => rfl
      | ok k =>
        have : (Except.ok (ε := Err) k).isOk = true := rfl
        rw [this, if_pos rfl, List.filter_cons, hv]
        cases k
        · exact ih
        · simp only [decide_true, if_true]
          exact congrArg (r :: ·) ih
  refine ⟨Gen.of (bs.flatMap (readBlob (readerColumns env none) ((DnfFilters.init p).call env.lib))), ?_, rfl, ?_⟩
  · unfold openFiltered
    simp only
    rw [if_pos (by simpa using hp), tokens_star]
    show Except.ok _ = _
    rw [h]
  · show List.flatMap _ _ = _
    congr 1
    funext rows
    exact key rows

/-- Records with a number and with a text in the same field. -/
def mixedRows : List Row := [[("a".toList, .one (.int 1))], [("a".toList, .one (.str "x".toList))], [("a".toList, .one (.int 2))]]

/-- **C100 fails for filters that raise**: of a blob in which one record has a text where the others have numbers, a reader with
the filter `[("a", ">", 0)]` delivers only what is before that record, and does not say so: the last record, which has a number
greater than nought, is missing. -/
theorem C100_raising_fails : ∃ (env : Env) (a : Atom) (g : Gen Row) (r : Row), env.blobs [] = .ok [mixedRows] ∧ r ∈ mixedRows ∧
    openFiltered env "*".toList [] (.value (flat [a])) = .ok g ∧ g.raised = none ∧
    verdict env.lib (flat [a]) r = .ok true ∧ r ∉ g.items := by
  refine ⟨{ sampleEnv with blobs := fun _ => .ok [mixedRows] }, ⟨"a".toList, ">".toList, .one (.int 0)⟩,
    Gen.of [[("a".toList, .one (.int 1))]], [("a".toList, .one (.int 2))], rfl, by decide, ?_, rfl, ?_, by decide⟩
  · obtain ⟨g, h1, h2, h3⟩ := C100_until_it_raises { sampleEnv with blobs := fun _ => .ok [mixedRows] } []
      (flat [⟨"a".toList, ">".toList, .one (.int 0)⟩]) (Or.inr rfl) [mixedRows] rfl
    rw [h1]
    congr 1
    have e : g = Gen.of g.items := by
      cases g
      simp only at h2
      subst h2
      rfl
    rw [e, h3]
    decide +kernel
  · decide +kernel

/-! ## Concrete runs and filters -/

section
open Mabel.EndToEnd (zJob)
open Mabel.History (demoStart feb28 feb29 mar1)

def demoAtoms : List (List Atom) :=
  [[⟨"a".toList, ">".toList, .one (.int 2)⟩], [⟨"a".toList, "<".toList, .one (.int 1)⟩, ⟨"b".toList, "==".toList, .one (.str "z".toList)⟩]]

/-- Non-vacuity of `C100_lists_partial`: from the runs to the records. -/
example (now : DateTime) (rnd : Str) : ∃ d' g, afterDayRuns zJob demoStart rowRuns = .ok d' ∧
    openFiltered (stored sampleEnv rowLib (daysReader zJob feb28 mar1 ["tests/".toList]) now rnd d') "*".toList zJob.dataset
      (.value (nested demoAtoms)) = .ok g ∧ g.raised = none ∧ g.items = [sampleRow 3 "y", sampleRow 0 "z"] := by
  have happ : ∀ r ∈ [sampleRow 1 "x", sampleRow 3 "y", sampleRow 0 "z"], ∀ as ∈ demoAtoms, ∀ a ∈ as,
      (verdict sampleEnv.lib a.tuple r).isOk = true := by decide +kernel
  have hin : ∀ t ∈ [feb28, feb29, mar1], ∀ r ∈ rowsOn t, r ∈ [sampleRow 1 "x", sampleRow 3 "y", sampleRow 0 "z"] := by decide +kernel
  obtain ⟨d', g, h1, h2, h3, h4⟩ := C100_lists_partial (env := sampleEnv) row_left row_some now rnd (ass := demoAtoms) (by decide)
    (fun t ht r hr as has a ha => by
      have := happ r (hin t ht r hr) as has a ha
      cases hv : verdict sampleEnv.lib a.tuple r with
      | error e => rw [hv] at this; cases this
      | ok b => exact ⟨b, rfl⟩)
    (meets := fun r => demoAtoms.any (fun as => as.all (fun a => decide (verdict sampleEnv.lib a.tuple r = .ok true))))
    (fun t ht r hr => by simp [Meets])
  refine ⟨d', g, h1, h2, h3, ?_⟩
  rw [h4, row_days]
  decide +kernel

/-- Non-vacuity of `C100_text_partial`. -/
example (now : DateTime) (rnd : Str) : ∃ d' g, afterDayRuns zJob demoStart rowRuns = .ok d' ∧
    openFiltered (stored sampleEnv rowLib (daysReader zJob feb28 mar1 ["tests/".toList]) now rnd d') "*".toList zJob.dataset
      (.text "a > 0".toList) = .ok g ∧ g.raised = none ∧ g.items = [sampleRow 1 "x", sampleRow 3 "y"] := by
  obtain ⟨d', g, h1, h2, h3, h4⟩ := C100_text_partial (env := sampleEnv) asciiRe_sane sampleLex_sane row_left row_some now rnd
    (by rw [row_days]; exact where_pos (fun h => h))
  refine ⟨d', g, h1, h2, h3, ?_⟩
  rw [h4, row_days]
  decide +kernel

/-- Non-vacuity of `C100_list_partial`. -/
example (now : DateTime) (rnd : Str) : ∃ d' g, afterDayRuns zJob demoStart rowRuns = .ok d' ∧
    openFiltered (stored sampleEnv rowLib (daysReader zJob feb28 mar1 ["tests/".toList]) now rnd d') "*".toList zJob.dataset
      (.value (flat [⟨"a".toList, ">=".toList, .one (.int 1)⟩, ⟨"b".toList, "!=".toList, .one (.str "x".toList)⟩])) = .ok g ∧
    g.raised = none ∧ g.items = [sampleRow 3 "y"] := by
  let as : List Atom := [⟨"a".toList, ">=".toList, .one (.int 1)⟩, ⟨"b".toList, "!=".toList, .one (.str "x".toList)⟩]
  have happ : ∀ r ∈ [sampleRow 1 "x", sampleRow 3 "y", sampleRow 0 "z"], ∀ a ∈ as,
      (verdict sampleEnv.lib a.tuple r).isOk = true := by decide +kernel
  have hin : ∀ t ∈ [feb28, feb29, mar1], ∀ r ∈ rowsOn t, r ∈ [sampleRow 1 "x", sampleRow 3 "y", sampleRow 0 "z"] := by decide +kernel
  obtain ⟨d', g, h1, h2, h3, h4⟩ := C100_list_partial (env := sampleEnv) row_left row_some now rnd (as := as)
    (fun t ht r hr bs hbs a ha => by
      rw [List.mem_singleton] at hbs
      subst hbs
      have := happ r (hin t ht r hr) a ha
      cases hv : verdict sampleEnv.lib a.tuple r with
      | error e => rw [hv] at this; cases this
      | ok b => exact ⟨b, rfl⟩)
    (meets := fun r => as.all (fun a => decide (verdict sampleEnv.lib a.tuple r = .ok true)))
    (fun t ht r hr => by simp [Meets])
  refine ⟨d', g, h1, h2, h3, ?_⟩
  rw [h4, row_days]
  decide +kernel

/-- Non-vacuity of `C100_select_partial`: the filter is about the name given to a column, which no stored record has. -/
example (now : DateTime) (rnd : Str) : ∃ d' g, afterDayRuns zJob demoStart rowRuns = .ok d' ∧
    openFiltered (stored sampleEnv rowLib (daysReader zJob feb28 mar1 ["tests/".toList]) now rnd d') "a, UPPER(b) AS c".toList
      zJob.dataset (.value (nested [[⟨"c".toList, "==".toList, .one (.str "Y".toList)⟩]])) = .ok g ∧
    g.raised = none ∧ g.items = [[("a".toList, .one (.int 3)), ("c".toList, .one (.str "Y".toList))]] := by
  let ass : List (List Atom) := [[⟨"c".toList, "==".toList, .one (.str "Y".toList)⟩]]
  have happ : ∀ r ∈ [sampleRow 1 "x", sampleRow 3 "y", sampleRow 0 "z"], ∀ as ∈ ass, ∀ a ∈ as,
      (verdict sampleEnv.lib a.tuple (upperB r)).isOk = true := by decide +kernel
  have hin : ∀ t ∈ [feb28, feb29, mar1], ∀ r ∈ rowsOn t, r ∈ [sampleRow 1 "x", sampleRow 3 "y", sampleRow 0 "z"] := by decide +kernel
  obtain ⟨d', g, h1, h2, h3, h4⟩ := C100_select_partial (env := sampleEnv) asciiRe_sane sampleLex_sane row_left row_some now rnd
    sels_laid (by decide) sels_good (by
      intro s hs
      simp only [sampleSels, List.mem_cons, List.not_mem_nil, or_false] at hs
      rcases hs with rfl | rfl
      · rfl
      · trivial) rfl (by decide +kernel) (out := upperB)
    (fun t ht r hr => by
      have := hin t ht r hr
      simp only [List.mem_cons, List.not_mem_nil, or_false] at this
      rcases this with rfl | rfl | rfl <;> rfl)
    (ass := ass) (by decide)
    (fun t ht r hr as has a ha => by
      have := happ r (hin t ht r hr) as has a ha
      cases hv : verdict sampleEnv.lib a.tuple (upperB r) with
      | error e => rw [hv] at this; cases this
      | ok b => exact ⟨b, rfl⟩)
    (meets := fun r => ass.any (fun as => as.all (fun a => decide (verdict sampleEnv.lib a.tuple r = .ok true))))
    (fun t ht r hr => by simp [Meets])
  refine ⟨d', g, h1, h2, h3, ?_⟩
  rw [h4, row_days]
  decide +kernel

end

end Mabel.SqlReader
