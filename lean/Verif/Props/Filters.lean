import Verif.Spec.Filters
import Verif.Props.Like
import Verif.Lemmas.Order
import Mathlib.Algebra.Order.Ring.Rat
import Mathlib.Data.Rat.Cast.Order

/-! # Filters written as lists and tuples (C42) -/

namespace Mabel.Filters
open Mabel.Py Spec

theorem evalAll_true (lib : Lib) (ps : List Pred) (r : Row) :
    evalAll lib ps r = .ok true ↔ ∀ p ∈ ps, evaluate lib p r = .ok true := by
  induction ps with
  | nil => simp [evalAll]
  | cons p ps ih =>
    rw [evalAll]
    cases h : evaluate lib p r with
    | error e => simp [bind, Except.bind, h]
    | ok b => cases b <;> simp [bind, Except.bind, h, ih]

theorem evalAll_ok (lib : Lib) (ps : List Pred) (r : Row) (h : ∀ p ∈ ps, ∃ b, evaluate lib p r = .ok b) :
    ∃ b, evalAll lib ps r = .ok b := by
  induction ps with
  | nil => exact ⟨true, by rw [evalAll]⟩
  | cons p ps ih =>
    obtain ⟨b, hb⟩ := h p (by simp)
    obtain ⟨c, hc⟩ := ih (fun q hq => h q (by simp [hq]))
    rw [evalAll, hb]
    cases b with
    | false => exact ⟨false, rfl⟩
    | true => exact ⟨c, hc⟩

theorem evalAny_true (lib : Lib) (ps : List Pred) (r : Row) (h : ∀ p ∈ ps, ∃ b, evaluate lib p r = .ok b) :
    evalAny lib ps r = .ok true ↔ ∃ p ∈ ps, evaluate lib p r = .ok true := by
  induction ps with
  | nil => simp [evalAny]
  | cons p ps ih =>
    obtain ⟨b, hb⟩ := h p (by simp)
    have := ih (fun q hq => h q (by simp [hq]))
    rw [evalAny, hb]
    cases b <;> simp [bind, Except.bind, hb, this]

theorem evalAny_ok (lib : Lib) (ps : List Pred) (r : Row) (h : ∀ p ∈ ps, ∃ b, evaluate lib p r = .ok b) :
    ∃ b, evalAny lib ps r = .ok b := by
  induction ps with
  | nil => exact ⟨false, by rw [evalAny]⟩
  | cons p ps ih =>
    obtain ⟨b, hb⟩ := h p (by simp)
    obtain ⟨c, hc⟩ := ih (fun q hq => h q (by simp [hq]))
    rw [evalAny, hb]
    cases b with
    | false => exact ⟨c, hc⟩
    | true => exact ⟨true, rfl⟩

/-- What the filter with the one predicate says. -/
theorem verdict_tuple (lib : Lib) (a : Atom) (r : Row) :
    verdict lib a.tuple r = atom lib (.str a.key) a.op a.value r := by
  show evaluate lib a.tuple r = _
  rw [Atom.tuple, evaluate]

theorem verdict_list (lib : Lib) (ps : List Pred) (r : Row) : verdict lib (.list ps) r = evaluate lib (.list ps) r := by
  unfold verdict DnfFilters.call DnfFilters.init
  cases ps with
  | nil => rfl
  | cons p ps => rfl

theorem evaluate_flat (lib : Lib) (as : List Atom) (r : Row) :
    evaluate lib (flat as) r = evalAll lib (as.map Atom.tuple) r := by
  rw [flat, evaluate, if_pos]
  simp [Pred.isTuple, Atom.tuple]

theorem evaluate_tuple (lib : Lib) (a : Atom) (r : Row) : evaluate lib a.tuple r = verdict lib a.tuple r := by
  rw [verdict_tuple, Atom.tuple, evaluate]

/-- **C42**: a flat list of predicates is a conjunction: it accepts a record when each predicate does. -/
theorem C42_conjunction (lib : Lib) (as : List Atom) (r : Row) :
    verdict lib (flat as) r = .ok true ↔ ∀ a ∈ as, verdict lib a.tuple r = .ok true := by
  rw [flat, verdict_list, ← flat, evaluate_flat, evalAll_true]
  simp [evaluate_tuple]

/-- **C42**: a filter whose predicates do not raise on a record does not raise on it. -/
theorem C42_conjunction_total (lib : Lib) (as : List Atom) (r : Row)
    (h : ∀ a ∈ as, ∃ b, verdict lib a.tuple r = .ok b) : ∃ b, verdict lib (flat as) r = .ok b := by
  rw [flat, verdict_list, ← flat, evaluate_flat]
  apply evalAll_ok
  intro p hp
  obtain ⟨a, ha, rfl⟩ := List.mem_map.1 hp
  rw [evaluate_tuple]
  exact h a ha

theorem evaluate_nested (lib : Lib) (ass : List (List Atom)) (hne : ass ≠ []) (r : Row) :
    evaluate lib (nested ass) r = evalAny lib (ass.map flat) r := by
  rw [nested, evaluate, if_neg, if_pos]
  · simp [Pred.isList, flat]
  · cases ass with
    | nil => exact absurd rfl hne
    | cons as ass => simp [Pred.isTuple, flat]

/-- **C42**: a list of lists is a disjunction of conjunctions. -/
theorem C42_disjunction (lib : Lib) (ass : List (List Atom)) (hne : ass ≠ []) (r : Row)
    (h : ∀ as ∈ ass, ∀ a ∈ as, ∃ b, verdict lib a.tuple r = .ok b) :
    (∃ b, verdict lib (nested ass) r = .ok b) ∧
    (verdict lib (nested ass) r = .ok true ↔ ∃ as ∈ ass, ∀ a ∈ as, verdict lib a.tuple r = .ok true) := by
  have hok : ∀ p ∈ ass.map flat, ∃ b, evaluate lib p r = .ok b := by
    intro p hp
    obtain ⟨as, ha, rfl⟩ := List.mem_map.1 hp
    have := C42_conjunction_total lib as r (h as ha)
    rw [flat, verdict_list] at this
    exact this
  rw [show verdict lib (nested ass) r = evaluate lib (nested ass) r from by rw [nested, verdict_list],
    evaluate_nested lib ass hne]
  refine ⟨evalAny_ok lib _ r hok, ?_⟩
  rw [evalAny_true lib _ r hok]
  constructor
  · rintro ⟨p, hp, hv⟩
    obtain ⟨as, ha, rfl⟩ := List.mem_map.1 hp
    refine ⟨as, ha, (C42_conjunction lib as r).1 ?_⟩
    rw [flat, verdict_list]; exact hv
  · rintro ⟨as, ha, hv⟩
    refine ⟨flat as, List.mem_map_of_mem ha, ?_⟩
    have := (C42_conjunction lib as r).2 hv
    rw [flat, verdict_list] at this
    exact this

/-- **C42**: a predicate on a missing or null field is false, whatever the operator (known or not) and the value. -/
theorem C42_null (lib : Lib) (a : Atom) (r : Row)
    (h : r.lookup a.key = none ∨ r.lookup a.key = some (.one .none)) : verdict lib a.tuple r = .ok false := by
  rw [verdict_tuple, atom, if_pos]
  show (r.lookup a.key).getD (.one .none) = _
  rcases h with h | h <;> rw [h] <;> rfl

/-- **C42**: a list with both predicates and lists is refused, for every record. -/
theorem C42_mixed (lib : Lib) (ps : List Pred) (r : Row) (a : Atom) (qs : List Pred)
    (h1 : a.tuple ∈ ps) (h2 : Pred.list qs ∈ ps) : verdict lib (.list ps) r = .error .invalidSyntax := by
  rw [verdict_list, evaluate, if_neg, if_neg]
  · intro h
    exact absurd (List.all_eq_true.1 h _ h1) (by simp [Atom.tuple, Pred.isList])
  · intro h
    exact absurd (List.all_eq_true.1 h _ h2) (by simp [Pred.isTuple])

theorem evalAll_bad (lib : Lib) (as : List Atom) (rest : List Pred) (r : Row)
    (h : ∀ a ∈ as, verdict lib a.tuple r = .ok true) :
    evalAll lib (as.map Atom.tuple ++ .badTuple :: rest) r = .error .valueError := by
  induction as with
  | nil =>
    show evalAll lib (.badTuple :: rest) r = _
    rw [evalAll, evaluate]
    rfl
  | cons a as ih =>
    rw [List.map_cons, List.cons_append, evalAll, evaluate_tuple, h a List.mem_cons_self]
    exact ih (fun b hb => h b (List.mem_cons_of_mem _ hb))

/-- **C42**: a predicate that is not of three parts raises ValueError, alone, or after predicates that accept the record. -/
theorem C42_malformed (lib : Lib) (as bs : List Atom) (r : Row) (h : ∀ a ∈ as, verdict lib a.tuple r = .ok true) :
    verdict lib .badTuple r = .error .valueError ∧
    verdict lib (.list (as.map Atom.tuple ++ .badTuple :: bs.map Atom.tuple)) r = .error .valueError := by
  refine ⟨rfl, ?_⟩
  rw [verdict_list, evaluate, if_pos]
  · exact evalAll_bad lib as _ r h
  · simp [Pred.isTuple, Atom.tuple]

/-- **C42**: adding conjuncts only narrows: what a filter accepts, the filter with fewer predicates accepts. -/
theorem C42_narrows (lib : Lib) (as bs : List Atom) (r : Row) (hsub : ∀ a ∈ as, a ∈ bs)
    (h : verdict lib (flat bs) r = .ok true) : verdict lib (flat as) r = .ok true := by
  rw [C42_conjunction] at *
  exact fun a ha => h a (hsub a ha)

/-- **C42**: adding alternatives only widens. -/
theorem C42_widens (lib : Lib) (ass bss : List (List Atom)) (hne : ass ≠ []) (r : Row)
    (hsub : ∀ a ∈ ass, a ∈ bss) (hok : ∀ as ∈ bss, ∀ a ∈ as, ∃ b, verdict lib a.tuple r = .ok b)
    (h : verdict lib (nested ass) r = .ok true) : verdict lib (nested bss) r = .ok true := by
  have hne' : bss ≠ [] := by
    cases ass with
    | nil => exact absurd rfl hne
    | cons a ass => intro h; have := hsub a (by simp); rw [h] at this; cases this
  rw [(C42_disjunction lib bss hne' r hok).2]
  rw [(C42_disjunction lib ass hne r (fun as ha => hok as (hsub as ha))).2] at h
  obtain ⟨as, ha, hv⟩ := h
  exact ⟨as, hsub as ha, hv⟩

theorem keep_eq (test : Row → Except Err Bool) (rs out : List Row) (h : keep test rs = .ok out) :
    out = rs.filter (fun r => decide (test r = .ok true)) ∧ ∀ r ∈ rs, ∃ b, test r = .ok b := by
  induction rs generalizing out with
  | nil => cases h; exact ⟨rfl, by simp⟩
  | cons r rs ih =>
    rw [keep] at h
    cases hb : test r with
    | error e => rw [hb] at h; cases h
    | ok b =>
      rw [hb] at h
      cases hk : keep test rs with
      | error e => rw [hk] at h; cases h
      | ok rest =>
        rw [hk] at h
        have h := Except.ok.inj h
        obtain ⟨h1, h2⟩ := ih rest hk
        constructor
        · subst h
          rw [List.filter_cons]
          cases b <;> simp [hb, h1]
        · intro x hx
          rcases List.mem_cons.1 hx with rfl | hx
          · exact ⟨b, hb⟩
          · exact h2 x hx

theorem keep_ok (test : Row → Except Err Bool) (rs : List Row) (h : ∀ r ∈ rs, ∃ b, test r = .ok b) :
    ∃ out, keep test rs = .ok out := by
  induction rs with
  | nil => exact ⟨[], rfl⟩
  | cons r rs ih =>
    obtain ⟨b, hb⟩ := h r (by simp)
    obtain ⟨out, ho⟩ := ih (fun x hx => h x (by simp [hx]))
    exact ⟨_, by rw [keep, hb, ho]; rfl⟩

/-- **C42**: filtering a set of records with a list (or a tuple) keeps exactly the records that the filter accepts, in
order; it raises when the filter does on one of them, and otherwise it does not. -/
theorem C42_filter (lib : Lib) (filters : Pred) (hf : filters ≠ .none) (rs : List Row) :
    (∀ out, (DnfFilters.init filters).filterDictset lib rs = .ok out →
      out = rs.filter (fun r => decide (verdict lib filters r = .ok true))) ∧
    ((∃ out, (DnfFilters.init filters).filterDictset lib rs = .ok out) ↔
      ∀ r ∈ rs, ∃ b, verdict lib filters r = .ok b) := by
  have he : (DnfFilters.init filters).emptyFilter = false := by
    cases filters <;> first | rfl | exact absurd rfl hf
  unfold DnfFilters.filterDictset
  rw [if_neg (by rw [he]; decide)]
  exact ⟨fun out h => (keep_eq _ rs out h).1, fun ⟨out, h⟩ => (keep_eq _ rs out h).2, keep_ok _ rs⟩

/-- **C42**: no filter, and an empty filter, keep everything. -/
theorem C42_no_filter (lib : Lib) (rs : List Row) :
    (DnfFilters.init .none).filterDictset lib rs = .ok rs ∧
    (DnfFilters.init (.list [])).filterDictset lib rs = .ok rs ∧
    ∀ r, verdict lib .none r = .ok true ∧ verdict lib (.list []) r = .ok true ∧ evaluate lib .none r = .ok true := by
  refine ⟨rfl, ?_, fun r => ⟨rfl, rfl, by rw [evaluate]⟩⟩
  unfold DnfFilters.filterDictset
  rw [if_neg (by decide)]
  induction rs with
  | nil => rfl
  | cons r rs ih =>
    rw [keep, ih]
    rfl

/-! ## The operators -/

theorem mem_of_lookup {op : Str} {o : Op} {l : List (Str × Op)} (h : l.lookup op = some o) : (op, o) ∈ l := by
  induction l with
  | nil => cases h
  | cons a l ih =>
    rw [List.lookup_cons] at h
    split at h
    · rename_i heq
      have := eq_of_beq heq
      subst this
      rw [← Option.some.inj h]
      exact List.mem_cons_self
    · exact List.mem_cons_of_mem _ (ih h)

theorem verdict_op (lib : Lib) (hl : KeepsOperators lib) (k op : Str) (o : Op) (y x : Datum) (r : Row)
    (hx : r.lookup k = some x) (hn : x ≠ .one .none) (ho : operators.lookup op = some o) :
    verdict lib (Atom.tuple ⟨k, op, y⟩) r = o.apply lib x y := by
  have hf : field r (.str k) = x := by
    show (r.lookup k).getD _ = x
    rw [hx]; rfl
  have : operators.lookup (lib.lower op) = some o := by rw [hl _ (mem_of_lookup ho)]; exact ho
  rw [verdict_tuple, atom, hf, if_neg hn]
  simp only [this]

theorem contains_iff (s t : Str) : contains s t = true ↔ ∃ a b, t = a ++ s ++ b := by
  induction t with
  | nil =>
    rw [contains, List.isPrefixOf_iff_prefix]
    constructor
    · rintro ⟨b, hb⟩; exact ⟨[], b, hb.symm⟩
    · rintro ⟨a, b, h⟩
      have := List.append_eq_nil_iff.1 h.symm
      exact ⟨b, by rw [(List.append_eq_nil_iff.1 this.1).2, this.2]; rfl⟩
  | cons c t ih =>
    rw [contains, Bool.or_eq_true, ih, List.isPrefixOf_iff_prefix]
    constructor
    · rintro (⟨b, hb⟩ | ⟨a, b, rfl⟩)
      · exact ⟨[], b, hb.symm⟩
      · exact ⟨c :: a, b, rfl⟩
    · rintro ⟨a, b, h⟩
      cases a with
      | nil => exact Or.inl ⟨b, h.symm⟩
      | cons d a =>
        obtain ⟨rfl, rfl⟩ := List.cons.inj h
        exact Or.inr ⟨a, b, rfl⟩

/-- **C42**: the operators on integers. -/
theorem C42_integers (lib : Lib) (hl : KeepsOperators lib) (k : Str) (op : String) (x y : Int) (r : Row) (p : Prop)
    (hx : r.lookup k = some (.one (.int x))) (hp : holdsInt op x y = some p) :
    ∃ b, verdict lib (Atom.tuple ⟨k, op.toList, .one (.int y)⟩) r = .ok b ∧ (b = true ↔ p) := by
  unfold holdsInt at hp
  split at hp <;> first | (cases hp; done) | (obtain rfl := Option.some.inj hp)
  all_goals
    refine ⟨_, (verdict_op lib hl k _ _ _ _ r hx (by simp) rfl).trans rfl, ?_⟩
    first
    | (simp [Datum.eq, Scalar.eq, Scalar.num]; done)
    | (rw [decide_eq_true_iff]; exact Int.cast_lt)
    | (rw [Bool.not_eq_true', decide_eq_false_iff_not, not_lt]; exact Int.cast_le)

/-- **C42**: the operators on numbers of any kind: integers, floats and booleans compare by value. -/
theorem C42_numbers (lib : Lib) (hl : KeepsOperators lib) (k : Str) (op : String) (x y : Scalar) (a b : Rat) (r : Row) (p : Prop)
    (hx : r.lookup k = some (.one x)) (ha : Order.Amount x a) (hb : Order.Amount y b) (hp : holdsNumber op a b = some p) :
    ∃ v, verdict lib (Atom.tuple ⟨k, op.toList, .one y⟩) r = .ok v ∧ (v = true ↔ p) := by
  rw [Order.amount_iff] at ha hb
  have hn : Datum.one x ≠ .one .none := by
    intro h
    cases h
    cases ha
  unfold holdsNumber at hp
  split at hp <;> first | (cases hp; done) | (obtain rfl := Option.some.inj hp)
  all_goals
    refine ⟨_, (verdict_op lib hl k _ _ _ _ r hx hn rfl).trans (by
      simp only [Op.apply, Datum.eq, Datum.lt, Datum.le, Scalar.eq, Scalar.lt, ha, hb, Except.map]
      rfl), ?_⟩
    simp

/-- **C42**: the operators on numbers, texts and datetimes: equal, different, before, after, in the order of their type. -/
theorem C42_values (lib : Lib) (hl : KeepsOperators lib) (k : Str) (op : String) (x y : Scalar) (r : Row) (p : Prop)
    (hx : r.lookup k = some (.one x)) (hc : Order.Comparable x y) (hp : holdsValue op x y = some p) :
    ∃ v, verdict lib (Atom.tuple ⟨k, op.toList, .one y⟩) r = .ok v ∧ (v = true ↔ p) := by
  have hn : Datum.one x ≠ .one .none := by
    rintro h
    cases h
    cases hc with
    | number h _ => cases h
  have heq : ∀ a b, (Datum.one a).eq (.one b) = true ↔ Order.Equal a b := fun a b => Order.eq_iff
  have hlt : ∀ a b, Order.Comparable a b → ∃ v, (Datum.one a).lt (.one b) = .ok v ∧ (v = true ↔ Order.Below a b) := by
    intro a b h
    rcases Order.below_or h with h | h
    · exact ⟨true, Order.lt_true_iff.2 h, by simp [h]⟩
    · exact ⟨false, Order.lt_false_iff.2 h, by simp [h.2]⟩
  have hle : ∀ a b, Order.Comparable a b → ∃ v, (Datum.one a).le (.one b) = .ok v ∧ (v = true ↔ Order.AtMost a b) := by
    intro a b h
    obtain ⟨v, h1, h2⟩ := hlt b a h.symm
    refine ⟨!v, by
      have : (Datum.one a).le (.one b) = ((Datum.one b).lt (.one a)).map (!·) := rfl
      rw [this, h1]
      rfl, ?_⟩
    unfold Order.AtMost
    rw [← h2]
    simp [h]
  unfold holdsValue at hp
  split at hp <;> first | (cases hp; done) | (obtain rfl := Option.some.inj hp)
  · exact ⟨(Datum.one x).eq (.one y), (verdict_op lib hl k _ _ _ _ r hx hn rfl).trans rfl, heq x y⟩
  · exact ⟨(Datum.one x).eq (.one y), (verdict_op lib hl k _ _ _ _ r hx hn rfl).trans rfl, heq x y⟩
  · exact ⟨(Datum.one x).eq (.one y), (verdict_op lib hl k _ _ _ _ r hx hn rfl).trans rfl, heq x y⟩
  · exact ⟨!(Datum.one x).eq (.one y), (verdict_op lib hl k _ _ _ _ r hx hn rfl).trans rfl, by rw [← heq x y]; simp⟩
  · exact ⟨!(Datum.one x).eq (.one y), (verdict_op lib hl k _ _ _ _ r hx hn rfl).trans rfl, by rw [← heq x y]; simp⟩
  · obtain ⟨v, h1, h2⟩ := hlt x y hc
    exact ⟨v, (verdict_op lib hl k _ .lt _ _ r hx hn rfl).trans h1, h2⟩
  · obtain ⟨v, h1, h2⟩ := hlt y x hc.symm
    exact ⟨v, (verdict_op lib hl k _ .gt _ _ r hx hn rfl).trans h1, h2⟩
  · obtain ⟨v, h1, h2⟩ := hle x y hc
    exact ⟨v, (verdict_op lib hl k _ .le _ _ r hx hn rfl).trans h1, h2⟩
  · obtain ⟨v, h1, h2⟩ := hle y x hc.symm
    exact ⟨v, (verdict_op lib hl k _ .ge _ _ r hx hn rfl).trans h1, h2⟩

theorem eqList_iff (a b : List Scalar) : eqList a b = true ↔ Order.AllEqual a b := by
  induction a generalizing b with
  | nil =>
    cases b with
    | nil => exact ⟨fun _ => .nil, fun _ => rfl⟩
    | cons => exact ⟨(by rintro ⟨⟩), (by rintro ⟨⟩)⟩
  | cons x a ih =>
    cases b with
    | nil => exact ⟨(by rintro ⟨⟩), (by rintro ⟨⟩)⟩
    | cons y b =>
      rw [eqList, Bool.and_eq_true, Order.eq_iff, ih]
      exact ⟨fun h => .cons h.1 h.2, fun h => by cases h with | cons h1 h2 => exact ⟨h1, h2⟩⟩

theorem below_not_equal {x y : Scalar} (h : Order.Below x y) : ¬ Order.Equal x y := by
  rintro (rfl | ⟨p, h1, h2⟩)
  · cases h with
    | number h1 h2 h3 =>
      rw [Order.amount_iff] at h1 h2
      rw [h1] at h2
      exact absurd h3 (by rw [Option.some.inj h2]; exact lt_irrefl _)
    | text h => exact absurd h (List.lt_irrefl _)
    | date h => exact absurd h (by omega)
  · cases h with
    | number h3 h4 h5 =>
      rw [Order.amount_iff] at h1 h2 h3 h4
      rw [h1] at h3
      rw [h2] at h4
      rw [← Option.some.inj h3, ← Option.some.inj h4] at h5
      exact absurd h5 (lt_irrefl _)
    | text => cases h1
    | date => cases h1

theorem ltList_iff (a b : List Scalar) : (ltList a b = .ok true ↔ Order.ListBelow a b) ∧
    (ltList a b = .error .typeError ↔ Order.Undecided a b) ∧ (ltList a b = .ok true ∨ ltList a b = .ok false ∨ ltList a b = .error .typeError) := by
  induction a generalizing b with
  | nil =>
    cases b with
    | nil =>
      rw [ltList]
      exact ⟨⟨(by rintro ⟨⟩), (by rintro ⟨⟩)⟩, ⟨(by rintro ⟨⟩), (by rintro ⟨⟩)⟩, Or.inr (Or.inl rfl)⟩
    | cons y b =>
      rw [ltList]
      exact ⟨⟨fun _ => .ends, fun _ => rfl⟩, ⟨(by rintro ⟨⟩), (by rintro ⟨⟩)⟩, Or.inl rfl⟩
  | cons x a ih =>
    cases b with
    | nil =>
      rw [ltList]
      exact ⟨⟨(by rintro ⟨⟩), (by rintro ⟨⟩)⟩, ⟨(by rintro ⟨⟩), (by rintro ⟨⟩)⟩, Or.inr (Or.inl rfl)⟩
    | cons y b =>
      rw [ltList]
      by_cases he : x.eq y = true
      · have he' := Order.eq_iff.1 he
        rw [if_pos he]
        refine ⟨(ih b).1.trans ⟨fun h => .later he' h, fun h => ?_⟩, (ih b).2.1.trans ⟨fun h => .later he' h, fun h => ?_⟩, (ih b).2.2⟩
        · cases h with
          | here h => exact absurd he' (below_not_equal h)
          | later _ h => exact h
        · cases h with
          | here h => exact absurd he' h
          | later _ h => exact h
      · have he' : ¬ Order.Equal x y := fun h => he (Order.eq_iff.2 h)
        rw [if_neg he]
        refine ⟨Order.lt_true_iff.trans ⟨fun h => .here h, fun h => ?_⟩, Order.lt_error_iff.trans ⟨fun h => .here he' h, fun h => ?_⟩, ?_⟩
        · cases h with
          | here h => exact h
          | later h => exact absurd h he'
        · cases h with
          | here _ h => exact h
          | later h => exact absurd h he'
        · by_cases hc : Order.Comparable x y
          · rcases Order.below_or hc with h | h
            · exact Or.inl (Order.lt_true_iff.2 h)
            · exact Or.inr (Or.inl (Order.lt_false_iff.2 h))
          · exact Or.inr (Or.inr (Order.lt_error_iff.2 hc))

theorem equal_symm {x y : Scalar} (h : Order.Equal x y) : Order.Equal y x := by
  rcases h with rfl | ⟨p, h1, h2⟩
  · exact Or.inl rfl
  · exact Or.inr ⟨p, h2, h1⟩

theorem undecided_symm {a b : List Scalar} (h : Order.Undecided a b) : Order.Undecided b a := by
  induction h with
  | here h1 h2 => exact .here (fun h => h1 (equal_symm h)) (fun h => h2 h.symm)
  | later h1 _ ih => exact .later (equal_symm h1) ih

/-- **C42**: the operators on lists: equal place by place, and ordered by the first place where they differ. -/
theorem C42_lists (lib : Lib) (hl : KeepsOperators lib) (k : Str) (op : String) (x y : List Scalar) (r : Row) (p : Prop)
    (hx : r.lookup k = some (.list x)) (hc : ¬ Order.Undecided x y) (hp : holdsList op x y = some p) :
    ∃ v, verdict lib (Atom.tuple ⟨k, op.toList, .list y⟩) r = .ok v ∧ (v = true ↔ p) := by
  have hn : Datum.list x ≠ .one .none := by simp
  have hlt : ∀ a b, ¬ Order.Undecided a b → ∃ v, (Datum.list a).lt (.list b) = .ok v ∧ (v = true ↔ Order.ListBelow a b) := by
    intro a b h
    obtain ⟨h1, h2, h3⟩ := ltList_iff a b
    rcases h3 with h3 | h3 | h3
    · exact ⟨true, h3, by simp [h1.1 h3]⟩
    · exact ⟨false, h3, by rw [← h1, h3]; simp⟩
    · exact absurd (h2.1 h3) h
  have hle : ∀ a b, ¬ Order.Undecided a b → ∃ v, (Datum.list a).le (.list b) = .ok v ∧ (v = true ↔ ¬ Order.ListBelow b a) := by
    intro a b h
    obtain ⟨v, h1, h2⟩ := hlt b a (fun h' => h (undecided_symm h'))
    refine ⟨!v, by
      have : (Datum.list a).le (.list b) = ((Datum.list b).lt (.list a)).map (!·) := rfl
      rw [this, h1]
      rfl, ?_⟩
    rw [← h2]
    simp
  have hc' : ¬ Order.Undecided y x := fun h => hc (undecided_symm h)
  unfold holdsList at hp
  split at hp <;> first | (cases hp; done) | (obtain rfl := Option.some.inj hp)
  · exact ⟨eqList x y, (verdict_op lib hl k _ _ _ _ r hx hn rfl).trans rfl, eqList_iff x y⟩
  · exact ⟨eqList x y, (verdict_op lib hl k _ _ _ _ r hx hn rfl).trans rfl, eqList_iff x y⟩
  · exact ⟨eqList x y, (verdict_op lib hl k _ _ _ _ r hx hn rfl).trans rfl, eqList_iff x y⟩
  · exact ⟨!eqList x y, (verdict_op lib hl k _ _ _ _ r hx hn rfl).trans rfl, by rw [← eqList_iff x y]; simp⟩
  · exact ⟨!eqList x y, (verdict_op lib hl k _ _ _ _ r hx hn rfl).trans rfl, by rw [← eqList_iff x y]; simp⟩
  · obtain ⟨v, h1, h2⟩ := hlt x y hc
    exact ⟨v, (verdict_op lib hl k _ .lt _ _ r hx hn rfl).trans h1, h2⟩
  · obtain ⟨v, h1, h2⟩ := hlt y x hc'
    exact ⟨v, (verdict_op lib hl k _ .gt _ _ r hx hn rfl).trans h1, h2⟩
  · obtain ⟨v, h1, h2⟩ := hle x y hc
    exact ⟨v, (verdict_op lib hl k _ .le _ _ r hx hn rfl).trans h1, h2⟩
  · obtain ⟨v, h1, h2⟩ := hle y x hc'
    exact ⟨v, (verdict_op lib hl k _ .ge _ _ r hx hn rfl).trans h1, h2⟩

/-- **C42**: if the first values that differ cannot be compared, to ask which list comes first raises TypeError; so does asking it of
a list and another value, which are different. -/
theorem C42_lists_undecided (lib : Lib) (hl : KeepsOperators lib) (k : Str) (op : String) (x : List Scalar) (y : Datum) (r : Row)
    (hx : r.lookup k = some (.list x)) (hc : (∃ l, y = .list l ∧ Order.Undecided x l) ∨ ∃ a, y = .one a)
    (hop : op ∈ ["<", ">", "<=", ">="]) : verdict lib (Atom.tuple ⟨k, op.toList, y⟩) r = .error .typeError := by
  have hn : Datum.list x ≠ .one .none := by simp
  have h1 : (Datum.list x).lt y = .error .typeError := by
    rcases hc with ⟨l, rfl, h⟩ | ⟨a, rfl⟩
    · exact (ltList_iff x l).2.1.2 h
    · rfl
  have h2 : y.lt (.list x) = .error .typeError := by
    rcases hc with ⟨l, rfl, h⟩ | ⟨a, rfl⟩
    · exact (ltList_iff l x).2.1.2 (undecided_symm h)
    · rfl
  have h3 : (Datum.list x).le y = .error .typeError := by
    show (y.lt (.list x)).map (!·) = _
    rw [h2]
    rfl
  have h4 : y.le (.list x) = .error .typeError := by
    show ((Datum.list x).lt y).map (!·) = _
    rw [h1]
    rfl
  simp only [List.mem_cons, List.not_mem_nil, or_false] at hop
  rcases hop with rfl | rfl | rfl | rfl
  · exact (verdict_op lib hl k _ .lt _ _ r hx hn rfl).trans h1
  · exact (verdict_op lib hl k _ .gt _ _ r hx hn rfl).trans h2
  · exact (verdict_op lib hl k _ .le _ _ r hx hn rfl).trans h3
  · exact (verdict_op lib hl k _ .ge _ _ r hx hn rfl).trans h4

/-- Non-vacuity: a list that ends comes before one that goes on; the first difference decides; a text and a number do not compare. -/
example : Order.ListBelow [.int 1] [.float 1, .str "a".toList] ∧ Order.ListBelow [.int 1, .int 5] [.bool true, .int 7, .int 0] ∧
    Order.Undecided [.int 1, .str "a".toList] [.int 1, .int 2] ∧ ¬ Order.Undecided [.int 1, .int 5] [.bool true, .int 7, .int 0] := by
  have e : Order.Equal (.int 1) (.bool true) := Or.inr ⟨1, Order.Amount.whole 1, .yes⟩
  refine ⟨.later (Or.inr ⟨1, Order.Amount.whole 1, .fraction 1⟩) .ends, .later e (.here (.number (.whole 5) (.whole 7) (by decide))),
    .later (Or.inl rfl) (.here ?_ ?_), ?_⟩
  · rintro (h | ⟨p, h, _⟩) <;> cases h
  · intro h
    cases h with
    | number h => cases h
  · intro h
    cases h with
    | here h _ => exact h e
    | later _ h => cases h with
      | here _ h => exact h (.number (.whole 5) (.whole 7))
      | later h _ => rcases h with h | ⟨p, h1, h2⟩
                     · cases h
                     · rw [Order.amount_iff] at h1 h2
                       have := h1.trans h2.symm
                       revert this
                       decide

/-- **C42**: values of different types are different, and to ask which comes first raises TypeError. -/
theorem C42_other_type (lib : Lib) (hl : KeepsOperators lib) (k : Str) (op : String) (x y : Scalar) (r : Row)
    (hx : r.lookup k = some (.one x)) (hn : x ≠ .none) (hc : ¬ Order.Comparable x y) (hy : x ≠ y) :
    (op ∈ ["=", "==", "is"] → verdict lib (Atom.tuple ⟨k, op.toList, .one y⟩) r = .ok false) ∧
    (op ∈ ["!=", "<>"] → verdict lib (Atom.tuple ⟨k, op.toList, .one y⟩) r = .ok true) ∧
    (op ∈ ["<", ">", "<=", ">="] → verdict lib (Atom.tuple ⟨k, op.toList, .one y⟩) r = .error .typeError) := by
  have hn : Datum.one x ≠ .one .none := by simpa using hn
  have heq : (Datum.one x).eq (.one y) = false := by
    have : ¬ Order.Equal x y := by
      rintro (h | ⟨p, h1, h2⟩)
      · exact hy h
      · exact hc (.number h1 h2)
    rw [← Order.eq_iff] at this
    exact Bool.not_eq_true _ ▸ this
  have h1 : (Datum.one x).lt (.one y) = .error .typeError := Order.lt_error_iff.2 hc
  have h2 : (Datum.one y).lt (.one x) = .error .typeError := Order.lt_error_iff.2 (fun h => hc h.symm)
  have h3 : (Datum.one x).le (.one y) = .error .typeError := by
    show ((Datum.one y).lt (.one x)).map (!·) = _
    rw [h2]
    rfl
  have h4 : (Datum.one y).le (.one x) = .error .typeError := by
    show ((Datum.one x).lt (.one y)).map (!·) = _
    rw [h1]
    rfl
  refine ⟨?_, ?_, ?_⟩ <;> intro h <;> simp only [List.mem_cons, List.not_mem_nil, or_false] at h
  · rcases h with rfl | rfl | rfl <;> exact (verdict_op lib hl k _ .eq _ _ r hx hn rfl).trans (congrArg _ heq)
  · rcases h with rfl | rfl <;> exact (verdict_op lib hl k _ .ne _ _ r hx hn rfl).trans (congrArg (fun b => Except.ok (!b)) heq)
  · rcases h with rfl | rfl | rfl | rfl
    · exact (verdict_op lib hl k _ .lt _ _ r hx hn rfl).trans h1
    · exact (verdict_op lib hl k _ .gt _ _ r hx hn rfl).trans h2
    · exact (verdict_op lib hl k _ .le _ _ r hx hn rfl).trans h3
    · exact (verdict_op lib hl k _ .ge _ _ r hx hn rfl).trans h4

/-- **C42**: the operators on texts. -/
theorem C42_texts (lib : Lib) (hl : KeepsOperators lib) (k : Str) (op : String) (x y : Str) (r : Row) (p : Prop)
    (hx : r.lookup k = some (.one (.str x))) (hp : holdsText op x y = some p) :
    ∃ b, verdict lib (Atom.tuple ⟨k, op.toList, .one (.str y)⟩) r = .ok b ∧ (b = true ↔ p) := by
  unfold holdsText at hp
  split at hp <;> first | (cases hp; done) | (obtain rfl := Option.some.inj hp)
  all_goals
    refine ⟨_, (verdict_op lib hl k _ _ _ _ r hx (by simp) rfl).trans rfl, ?_⟩
    simp [Datum.eq, Scalar.eq, Scalar.num, strLe, contains_iff, ← Bool.not_eq_true]

theorem any_str (x : Str) (l : List Str) :
    ((l.map Scalar.str).any fun s => (Datum.one (.str x)).eq (.one s)) = decide (x ∈ l) := by
  induction l with
  | nil => rfl
  | cons a l ih =>
    rw [List.map_cons, List.any_cons, ih]
    simp [Datum.eq, Scalar.eq, Scalar.num]

/-- **C42**: membership in a list of texts. -/
theorem C42_members (lib : Lib) (hl : KeepsOperators lib) (k : Str) (op : String) (x : Str) (l : List Str) (r : Row)
    (p : Prop) (hx : r.lookup k = some (.one (.str x))) (hp : holdsMember op x l = some p) :
    ∃ b, verdict lib (Atom.tuple ⟨k, op.toList, .list (l.map .str)⟩) r = .ok b ∧ (b = true ↔ p) := by
  have key := any_str x l
  unfold holdsMember at hp
  split at hp <;> first | (cases hp; done) | (obtain rfl := Option.some.inj hp)
  all_goals
    refine ⟨_, (verdict_op lib hl k _ _ _ _ r hx (by simp) rfl).trans rfl, ?_⟩
    rw [key]
    simp

/-- **C42**: the operators on a list in the record: it contains the text. -/
theorem C42_list_contains (lib : Lib) (hl : KeepsOperators lib) (k : Str) (x : List Str) (y : Str) (r : Row)
    (hx : r.lookup k = some (.list (x.map .str))) :
    verdict lib (Atom.tuple ⟨k, "contains".toList, .one (.str y)⟩) r = .ok (decide (y ∈ x)) ∧
    verdict lib (Atom.tuple ⟨k, "!contains".toList, .one (.str y)⟩) r = .ok (decide (y ∉ x)) := by
  have key := any_str y x
  constructor
  · rw [verdict_op lib hl k _ _ _ _ r hx (by simp) rfl]
    exact congrArg Except.ok key
  · rw [verdict_op lib hl k _ _ _ _ r hx (by simp) rfl]
    show Except.ok (!_) = _
    rw [key]
    simp

/-- **C42**: `like` on texts without line feeds is SQL's LIKE. -/
theorem C42_like (lib : Lib) (hl : KeepsOperators lib) (k x y : Str) (r : Row)
    (hx : r.lookup k = some (.one (.str x))) (hn : '\n' ∉ lib.lower x) :
    ∃ b, verdict lib (Atom.tuple ⟨k, "like".toList, .one (.str y)⟩) r = .ok b ∧
      (b = true ↔ Like.Spec.Like (lib.lower y) (lib.lower x)) :=
  ⟨_, (verdict_op lib hl k _ _ _ _ r hx (by simp) rfl).trans rfl, Like.C46_like_partial lib.lower (.str x) y hn⟩

/-- **C42**: LIKE of a number or a truth value is about how it is written. -/
theorem C42_like_values (lib : Lib) (hl : KeepsOperators lib) (k y : Str) (x : Scalar) (t : Str) (r : Row)
    (hx : r.lookup k = some (.one x)) (ht : WrittenAs x t) (hn : '\n' ∉ lib.lower t) :
    ∃ b, verdict lib (Atom.tuple ⟨k, "like".toList, .one (.str y)⟩) r = .ok b ∧
      (b = true ↔ Like.Spec.Like (lib.lower y) (lib.lower t)) := by
  have h := Like.C46_like_partial lib.lower (.str t) y hn
  cases ht <;> exact ⟨_, (verdict_op lib hl k _ _ _ _ r hx (by simp) rfl).trans rfl, h⟩

/-- **C42**: an operator that does not exist raises on a field that has a value. -/
theorem C42_unknown_operator (lib : Lib) (a : Atom) (r : Row) (x : Datum) (hx : r.lookup a.key = some x)
    (hn : x ≠ .one .none) (ho : operators.lookup (lib.lower a.op) = none) :
    verdict lib a.tuple r = .error .keyError := by
  have hf : field r (.str a.key) = x := by
    show (r.lookup a.key).getD _ = x
    rw [hx]; rfl
  rw [verdict_tuple, atom, hf, if_neg hn]
  simp only [ho]

/-! ## Cases -/

/-- A library for the examples. -/
def sampleLib : Lib := ⟨id, fun _ => [], fun _ => .error .reError, fun _ _ => false⟩

def sampleRow : Row := [("name".toList, .one (.str "Ann".toList)), ("age".toList, .one (.int 41)), ("gone".toList, .one .none)]

def isAnn : Atom := ⟨"name".toList, "==".toList, .one (.str "Ann".toList)⟩
def isOld : Atom := ⟨"age".toList, ">".toList, .one (.int 80)⟩
def isAdult : Atom := ⟨"age".toList, ">=".toList, .one (.int 18)⟩

example : KeepsOperators sampleLib := fun _ _ => rfl

example : verdict sampleLib (flat [isAnn, isAdult]) sampleRow = .ok true ∧
    verdict sampleLib (flat [isAnn, isOld]) sampleRow = .ok false ∧
    verdict sampleLib (nested [[isOld], [isAnn, isAdult]]) sampleRow = .ok true ∧
    verdict sampleLib (nested [[isOld], [isAnn, isOld]]) sampleRow = .ok false := by decide +kernel

/-- The hypotheses of `C42_disjunction` and `C42_conjunction_total` are met. -/
example : ∀ as ∈ [[isOld], [isAnn, isAdult]], ∀ a ∈ as, ∃ b, verdict sampleLib a.tuple sampleRow = .ok b := by
  intro as has a ha
  simp only [List.mem_cons, List.not_mem_nil, or_false] at has
  rcases has with rfl | rfl
  · simp only [List.mem_cons, List.not_mem_nil, or_false] at ha
    subst ha; exact ⟨false, by decide +kernel⟩
  · simp only [List.mem_cons, List.not_mem_nil, or_false] at ha
    rcases ha with rfl | rfl
    · exact ⟨true, by decide +kernel⟩
    · exact ⟨true, by decide +kernel⟩

/-- A null field and a missing field. -/
example : verdict sampleLib (Atom.tuple ⟨"gone".toList, "!=".toList, .one (.int 1)⟩) sampleRow = .ok false :=
  C42_null _ _ _ (Or.inr (by decide +kernel))
example : verdict sampleLib (Atom.tuple ⟨"other".toList, "nonsense".toList, .one (.int 1)⟩) sampleRow = .ok false :=
  C42_null _ _ _ (Or.inl (by decide +kernel))

example : verdict sampleLib (.list [isAnn.tuple, flat [isAdult]]) sampleRow = .error .invalidSyntax :=
  C42_mixed _ _ _ isAnn [isAdult.tuple] (by simp) (by simp [flat])

example : verdict sampleLib (flat [isAdult]) sampleRow = .ok true :=
  C42_narrows _ _ [isAnn, isAdult] _ (by simp) (by decide +kernel)

example : ∃ b, verdict sampleLib (Atom.tuple ⟨"age".toList, "<=".toList, .one (.int 41)⟩) sampleRow = .ok b ∧
    (b = true ↔ (41 : Int) ≤ 41) :=
  C42_integers _ (fun _ _ => rfl) _ "<=" 41 41 _ _ (by decide +kernel) rfl

/-- An integer and a float. -/
example : ∃ b, verdict sampleLib (Atom.tuple ⟨"age".toList, "==".toList, .one (.float 41)⟩) sampleRow = .ok b ∧
    (b = true ↔ (41 : Rat) = 41) :=
  C42_numbers _ (fun _ _ => rfl) _ "==" (.int 41) (.float 41) 41 41 _ _ (by decide +kernel) (.whole 41) (.fraction 41) rfl

/-- A fraction after a number, and a datetime after another. -/
example : (∃ b, verdict sampleLib (Atom.tuple ⟨"age".toList, "<".toList, .one (.float (83 / 2))⟩) sampleRow = .ok b ∧
    (b = true ↔ Order.Below (.int 41) (.float (83 / 2)))) ∧ ∀ d e : DateTime,
    ∃ b, verdict sampleLib (Atom.tuple ⟨"at".toList, ">=".toList, .one (.date e)⟩) [("at".toList, .one (.date d))] = .ok b ∧
    (b = true ↔ Order.AtMost (.date e) (.date d)) :=
  ⟨C42_values _ (fun _ _ => rfl) _ "<" _ _ _ _ (by decide +kernel) (.number (.whole 41) (.fraction _)) rfl,
    fun d e => C42_values _ (fun _ _ => rfl) _ ">=" _ _ _ _ rfl (.date d e) rfl⟩

/-- A number and a text. -/
example : verdict sampleLib (Atom.tuple ⟨"age".toList, "<".toList, .one (.str "50".toList)⟩) sampleRow = .error .typeError :=
  (C42_other_type _ (fun _ _ => rfl) _ "<" (.int 41) _ _ (by decide +kernel) (by decide) (by
    intro h
    cases h with
    | number _ h => cases h) (by decide)).2.2 (by decide)

example : ∃ b, verdict sampleLib (Atom.tuple ⟨"name".toList, "contains".toList, .one (.str "nn".toList)⟩) sampleRow = .ok b ∧
    (b = true ↔ ∃ a c, "Ann".toList = a ++ "nn".toList ++ c) :=
  C42_texts _ (fun _ _ => rfl) _ "contains" _ _ _ _ (by decide +kernel) rfl

example : ∃ b, verdict sampleLib (Atom.tuple ⟨"name".toList, "like".toList, .one (.str "A%".toList)⟩) sampleRow = .ok b ∧
    (b = true ↔ Like.Spec.Like "A%".toList "Ann".toList) :=
  C42_like _ (fun _ _ => rfl) _ _ _ _ (by decide +kernel) (by decide)

example : verdict sampleLib (Atom.tuple ⟨"age".toList, "between".toList, .one (.int 1)⟩) sampleRow = .error .keyError :=
  C42_unknown_operator _ _ _ (.one (.int 41)) (by decide +kernel) (by simp) (by decide +kernel)

/-- Non-vacuity: 41 is like `4_`. -/
example : ∃ b, verdict sampleLib (Atom.tuple ⟨"age".toList, "like".toList, .one (.str "4_".toList)⟩) [("age".toList, .one (.int 41))] = .ok b ∧
    (b = true ↔ Like.Spec.Like "4_".toList "41".toList) :=
  C42_like_values _ (fun _ _ => rfl) _ _ _ _ _ rfl (.whole 41) (by decide)

/-- A predicate of two parts after one that accepts the record. -/
example : verdict sampleLib (.list [isAnn.tuple, .badTuple]) sampleRow = .error .valueError :=
  (C42_malformed _ [isAnn] [] _ (by
    intro a ha
    rw [List.mem_singleton.1 ha]
    decide +kernel)).2

end Mabel.Filters
