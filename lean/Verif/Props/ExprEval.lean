import Verif.Props.Expression
import Verif.Props.Filters

/-! # Evaluating expressions (C44, C75, C76) -/

namespace Mabel.Expression
open Mabel.Py Mabel.Dates Mabel.Filters Mabel.Tokens Spec

variable {lex : Lex}

/-! ## The connectives -/

/-- **C44**: if each comparison has a truth value on the record, the expression evaluates to the boolean combination
of them. -/
theorem C44_boolean (lib : Lib) (lex : Lex) (r : Row) (truth : Term → Str → Term → Bool) (t : Tree)
    (h : ∀ c ∈ comparisons t, evaluate lib lex r (.cmp c.1 c.2.1 c.2.2) = .ok (truth c.1 c.2.1 c.2.2)) :
    evaluate lib lex r t = .ok (meaning truth t) := by
  induction t with
  | cmp l op rt => exact h (l, op, rt) (by simp [comparisons])
  | not t ih =>
    rw [evaluate, ih (fun c hc => h c (by simpa [comparisons] using hc))]
    rfl
  | and a b iha ihb =>
    rw [evaluate, iha (fun c hc => h c (by simp [comparisons, hc])), ihb (fun c hc => h c (by simp [comparisons, hc]))]
    rfl
  | or a b iha ihb =>
    rw [evaluate, iha (fun c hc => h c (by simp [comparisons, hc])), ihb (fun c hc => h c (by simp [comparisons, hc]))]
    rfl

/-- **C44**: from the tokens to the truth value: an expression in its text form means what it says. -/
theorem C44_text_form (lib : Lib) (h : Sane lex) (r : Row) (truth : Term → Str → Term → Bool) (t : Tree)
    (ts : List Str) (hw : Written .or t ts)
    (hc : ∀ c ∈ comparisons t, evaluate lib lex r (.cmp c.1 c.2.1 c.2.2) = .ok (truth c.1 c.2.1 c.2.2)) :
    (parse lex ts >>= evaluate lib lex r) = .ok (meaning truth t) := by
  rw [C43_parse_partial h t ts hw]
  exact C44_boolean lib lex r truth t hc

/-- **C44**: evaluation raises exactly when one of the comparisons does: nothing is skipped and nothing else raises. -/
theorem C44_raises (lib : Lib) (lex : Lex) (r : Row) (t : Tree) :
    (∃ e, evaluate lib lex r t = .error e) ↔
      ∃ c ∈ comparisons t, ∃ e, evaluate lib lex r (.cmp c.1 c.2.1 c.2.2) = .error e := by
  constructor
  · intro ⟨e, he⟩
    induction t generalizing e with
    | cmp l op rt => exact ⟨(l, op, rt), by simp [comparisons], e, he⟩
    | not t ih =>
      rw [evaluate] at he
      cases hx : evaluate lib lex r t with
      | ok b => rw [hx] at he; cases he
      | error e' =>
        obtain ⟨c, hc, h⟩ := ih _ hx
        exact ⟨c, by simpa [comparisons] using hc, h⟩
    | and a b iha ihb =>
      rw [evaluate] at he
      cases hx : evaluate lib lex r a with
      | error e' =>
        obtain ⟨c, hc, h⟩ := iha _ hx
        exact ⟨c, by simp [comparisons, hc], h⟩
      | ok x =>
        cases hy : evaluate lib lex r b with
        | error e' =>
          obtain ⟨c, hc, h⟩ := ihb _ hy
          exact ⟨c, by simp [comparisons, hc], h⟩
        | ok y => rw [hx, hy] at he; cases he
    | or a b iha ihb =>
      rw [evaluate] at he
      cases hx : evaluate lib lex r a with
      | error e' =>
        obtain ⟨c, hc, h⟩ := iha _ hx
        exact ⟨c, by simp [comparisons, hc], h⟩
      | ok x =>
        cases hy : evaluate lib lex r b with
        | error e' =>
          obtain ⟨c, hc, h⟩ := ihb _ hy
          exact ⟨c, by simp [comparisons, hc], h⟩
        | ok y => rw [hx, hy] at he; cases he
  · rintro ⟨c, hc, e, he⟩
    induction t with
    | cmp l op rt =>
      obtain rfl : c = (l, op, rt) := by simpa [comparisons] using hc
      exact ⟨e, he⟩
    | not t ih =>
      obtain ⟨e', h⟩ := ih (by simpa [comparisons] using hc)
      exact ⟨e', by rw [evaluate, h]; rfl⟩
    | and a b iha ihb =>
      rw [evaluate]
      cases hx : evaluate lib lex r a with
      | error e' => exact ⟨e', rfl⟩
      | ok x =>
        rcases List.mem_append.1 hc with hc | hc
        · obtain ⟨e', h⟩ := iha hc; rw [hx] at h; cases h
        · obtain ⟨e', h⟩ := ihb hc
          exact ⟨e', by rw [h]; rfl⟩
    | or a b iha ihb =>
      rw [evaluate]
      cases hx : evaluate lib lex r a with
      | error e' => exact ⟨e', rfl⟩
      | ok x =>
        rcases List.mem_append.1 hc with hc | hc
        · obtain ⟨e', h⟩ := iha hc; rw [hx] at h; cases h
        · obtain ⟨e', h⟩ := ihb hc
          exact ⟨e', by rw [h]; rfl⟩

/-! ## Raising -/

/-- The error is one of those that count as false. -/
def Soft {α : Type} (x : Except Err α) : Prop := ∀ e, x = .error e → e = .typeError

theorem Soft.ok {α : Type} (a : α) : Soft (.ok a : Except Err α) := by intro e h; cases h
theorem Soft.type {α : Type} : Soft (.error .typeError : Except Err α) := by intro e h; injection h with h; exact h.symm
theorem Soft.map {α β : Type} {x : Except Err α} (h : Soft x) (f : α → β) : Soft (x.map f) := by
  intro e he
  cases x with
  | error e' => exact h e (by injection he with he; rw [he])
  | ok a => cases he

theorem soft_scalar_lt (a b : Scalar) : Soft (a.lt b) := by
  unfold Scalar.lt
  split
  · exact .ok _
  · split <;> first | exact .ok _ | exact .type

theorem soft_ltList (a b : List Scalar) : Soft (ltList a b) := by
  induction a generalizing b with
  | nil => cases b <;> exact .ok _
  | cons x a ih =>
    cases b with
    | nil => exact .ok _
    | cons y b =>
      rw [ltList]
      split
      · exact ih b
      · exact soft_scalar_lt x y

theorem soft_lt (a b : Datum) : Soft (a.lt b) := by
  cases a <;> cases b <;> first | exact soft_scalar_lt _ _ | exact soft_ltList _ _ | exact .type

theorem soft_memberOf (a b : Datum) : Soft (memberOf a b) := by
  unfold memberOf
  split
  · exact .ok _
  · split <;> first | exact .ok _ | exact .type
  · exact .type

theorem soft_functionIn (lib : Lib) (lex : Lex) (a b : Datum) : Soft (functionIn lib lex a b) := by
  unfold functionIn
  apply Soft.map
  split <;> first | exact .ok _ | exact .type

theorem evalTerm_ok (lex : Lex) (r : Row) (t : Term) (h1 : t ≠ .bareNot) (h2 : t ≠ .var []) :
    ∃ v, evalTerm lex r t = .ok v := by
  cases t with
  | var name =>
    rw [evalTerm, if_neg (fun h => h2 (by rw [h]))]
    split <;> exact ⟨_, rfl⟩
  | bareNot => exact absurd rfl h1
  | _ => exact ⟨_, rfl⟩

theorem lookup_operator {op : Str} (h : op ∈ Tokens.operators.map (·.1)) : ∃ o, Tokens.operators.lookup op = some o := by
  have : ∀ op ∈ Tokens.operators.map (·.1), (Tokens.operators.lookup op).isSome = true := by decide +kernel
  exact Option.isSome_iff_exists.1 (this op h)

theorem operator_of {op : Str} {o : Tokens.Op} (h : Tokens.operators.lookup op = some o) :
    (o = .like → op = "LIKE".toList) ∧ (o = .notLike → op = "NOT LIKE".toList) ∧ (o = .matches → op = "MATCHES".toList) := by
  have key : ∀ p ∈ Tokens.operators, (p.2 = .like → p.1 = "LIKE".toList) ∧ (p.2 = .notLike → p.1 = "NOT LIKE".toList) ∧
      (p.2 = .matches → p.1 = "MATCHES".toList) := by decide +kernel
  have hm : ∀ l : List (Str × Tokens.Op), l.lookup op = some o → (op, o) ∈ l := by
    intro l hl
    induction l with
    | nil => cases hl
    | cons a l ih =>
      rw [List.lookup_cons] at hl
      split at hl
      · rename_i heq
        obtain rfl := Option.some.inj hl
        rw [show op = a.1 from by simpa using heq]
        simp
      · simp [ih hl]
  exact key _ (hm _ h)

theorem safe_ok (lib : Lib) (lex : Lex) (r : Row) (c : Term × Str × Term) (h : Safe lib c) :
    ∃ b, evaluate lib lex r (.cmp c.1 c.2.1 c.2.2) = .ok b := by
  obtain ⟨l, op, rt⟩ := c
  obtain ⟨hop, h1, h2, h3, h4, hlike, hmatch⟩ := h
  obtain ⟨x, hx⟩ := evalTerm_ok lex r l h1 h2
  obtain ⟨y, hy⟩ := evalTerm_ok lex r rt h3 h4
  obtain ⟨o, ho⟩ := lookup_operator hop
  obtain ⟨k1, k2, k3⟩ := operator_of ho
  have hc : ∀ z : Except Err Bool, Soft z → ∃ b, caught z = .ok b := by
    intro z hz
    cases z with
    | ok b => exact ⟨b, rfl⟩
    | error e => rw [hz e rfl]; exact ⟨false, rfl⟩
  have he : evaluate lib lex r (.cmp l op rt) = caught (o.apply lib lex x y) := by
    rw [evaluate, hx, hy]
    show (match Tokens.operators.lookup op with | none => _ | some o => _) = _
    rw [ho]
  show ∃ b, evaluate lib lex r (.cmp l op rt) = .ok b
  rw [he]
  apply hc
  cases o with
  | eq => exact .ok _
  | ne => exact .ok _
  | lt => exact soft_lt _ _
  | gt => exact soft_lt _ _
  | le => exact (soft_lt _ _).map _
  | ge => exact (soft_lt _ _).map _
  | «is» => exact .ok _
  | isNot => exact .ok _
  | like =>
    obtain ⟨p, hp⟩ := hlike (Or.inl (k1 rfl))
    rw [show rt = .lit p from hp] at hy
    obtain rfl := Except.ok.inj hy
    exact .ok _
  | notLike =>
    obtain ⟨p, hp⟩ := hlike (Or.inr (k2 rfl))
    rw [show rt = .lit p from hp] at hy
    obtain rfl := Except.ok.inj hy
    exact .ok _
  | «matches» =>
    obtain ⟨p, f, hp, hf⟩ := hmatch (k3 rfl)
    rw [show rt = .lit p from hp] at hy
    obtain rfl := Except.ok.inj hy
    show Soft (Filters.matches lib x (.one (.str p)))
    unfold Filters.matches
    simp only [hf]
    show Soft (match x with | .one (.str s) => _ | _ => _)
    split
    · exact .ok _
    · exact .type
  | isIn => exact soft_functionIn lib lex x y
  | contains => exact soft_memberOf y x

/-- **C44** (partial): an expression does not raise on any record, if LIKE and NOT LIKE have texts on the right and
MATCHES regular expressions.
Missing for the full property: those cases do raise, see the `_fails` theorems. -/
theorem C44_never_raises_partial (lib : Lib) (lex : Lex) (t : Tree) (h : ∀ c ∈ comparisons t, Safe lib c) (r : Row) :
    ∃ b, evaluate lib lex r t = .ok b := by
  cases he : evaluate lib lex r t with
  | ok b => exact ⟨b, rfl⟩
  | error e =>
    obtain ⟨c, hc, e', hr⟩ := (C44_raises lib lex r t).1 ⟨e, he⟩
    obtain ⟨b, hb⟩ := safe_ok lib lex r c (h c hc)
    rw [hb] at hr
    cases hr

/-- **C44** (fails): LIKE with a number raises on every record, with a field that is missing on that record. -/
theorem C44_like_number_fails (lib : Lib) (lex : Lex) (r : Row) (k : Str) (hk : k ≠ []) (i : Int) :
    evaluate lib lex r (.cmp (.var k) "LIKE".toList (.int i)) = .error .attributeError := by
  obtain ⟨x, hx⟩ := evalTerm_ok lex r (.var k) (by simp) (by simpa using hk)
  rw [evaluate, hx]
  rfl

theorem C44_like_missing_fails (lib : Lib) (lex : Lex) (r : Row) (k j : Str) (hk : k ≠ []) (hj : j ≠ [])
    (hm : r.lookup (bareName j) = none) :
    evaluate lib lex r (.cmp (.var k) "LIKE".toList (.var j)) = .error .attributeError := by
  obtain ⟨x, hx⟩ := evalTerm_ok lex r (.var k) (by simp) (by simpa using hk)
  have hy : evalTerm lex r (.var j) = .ok (.one .none) := by
    rw [evalTerm, if_neg hj, hm]
  rw [evaluate, hx, hy]
  rfl

/-- **C44** (fails): a text that is not a regular expression raises. -/
theorem C44_bad_regex_fails (lib : Lib) (lex : Lex) (r : Row) (k p : Str) (hk : k ≠ [])
    (hp : lib.compile p = .error .reError) :
    evaluate lib lex r (.cmp (.var k) "MATCHES".toList (.lit p)) = .error .reError := by
  obtain ⟨x, hx⟩ := evalTerm_ok lex r (.var k) (by simp) (by simpa using hk)
  rw [evaluate, hx]
  show caught (Filters.matches lib x (.one (.str p))) = _
  unfold Filters.matches
  simp only [hp]
  rfl

/-! ## Evaluating again (C75) -/

theorem name_not_wrapped {s : Str} (h : Name s) : wrapped '`' s = false := by
  obtain ⟨⟨c, cs, rfl, hc⟩, _, _⟩ := h
  unfold wrapped
  have : c ≠ '`' := by
    rintro rfl
    exact absurd hc (by decide)
  simp [this]

theorem wrapped_mem {q : Char} {s : Str} (h : wrapped q s = true) : q ∈ s := by
  unfold wrapped at h
  rw [Bool.and_eq_true, beq_iff_eq] at h
  cases s with
  | nil => cases h.1
  | cons c s =>
    obtain rfl : c = q := by simpa using h.1
    simp

theorem bareName_names {k s : Str} (h : Names k s) : bareName k = s ∧ bareName s = s ∧ k ≠ [] ∧ s ≠ [] := by
  unfold bareName
  rcases h with ⟨hn, rfl⟩ | ⟨hne, hq, rfl⟩
  · have hne : k ≠ [] := by
      obtain ⟨⟨c, cs, rfl, _⟩, _⟩ := hn
      simp
    simp [name_not_wrapped hn, hne]
  · have hw : wrapped '`' s = false := by
      cases hw : wrapped '`' s with
      | false => rfl
      | true => exact absurd (wrapped_mem hw) hq
    simp [hw, quote_wrapped, quote_inner, hne]
    simp [quote]

theorem evalTerm_after (lex : Lex) (r : Row) (t : Term) (h : ∀ k, t = .var k → ∃ s, Names k s) :
    evalTerm lex r t.after = evalTerm lex r t := by
  cases t with
  | var k =>
    obtain ⟨s, hs⟩ := h k rfl
    obtain ⟨h1, h2, h3, h4⟩ := bareName_names hs
    rw [Term.after, evalTerm, evalTerm, h1, h2, if_neg h3, if_neg h4]
  | _ => rfl

/-- **C75** (partial): evaluating an expression changes it, but not what it evaluates to, on any record.
Missing for the full property: names in backquotes that are empty or have backquotes inside. -/
theorem C75_again_partial (lib : Lib) (lex : Lex) (r : Row) (t : Tree) (h : WellNamed t) :
    evaluate lib lex r t.after = evaluate lib lex r t := by
  induction t with
  | cmp l op rt =>
    obtain ⟨h1, h2⟩ := h (l, op, rt) (by simp [comparisons])
    rw [Tree.after, evaluate, evaluate, evalTerm_after lex r l h1, evalTerm_after lex r rt h2]
  | not t ih => rw [Tree.after, evaluate, evaluate, ih h]
  | and a b iha ihb =>
    rw [Tree.after, evaluate, evaluate, iha (fun c hc => h c (by simp [comparisons, hc])),
      ihb (fun c hc => h c (by simp [comparisons, hc]))]
  | or a b iha ihb =>
    rw [Tree.after, evaluate, evaluate, iha (fun c hc => h c (by simp [comparisons, hc])),
      ihb (fun c hc => h c (by simp [comparisons, hc]))]

theorem after_after (t : Tree) (h : WellNamed t) : t.after.after = t.after := by
  have ht : ∀ u : Term, (∀ k, u = .var k → ∃ s, Names k s) → u.after.after = u.after := by
    intro u hu
    cases u with
    | var k =>
      obtain ⟨s, hs⟩ := hu k rfl
      obtain ⟨h1, h2, _, _⟩ := bareName_names hs
      rw [Term.after, h1, Term.after, h2]
    | _ => rfl
  induction t with
  | cmp l op rt =>
    obtain ⟨h1, h2⟩ := h (l, op, rt) (by simp [comparisons])
    rw [Tree.after, Tree.after, ht l h1, ht rt h2]
  | not t ih => rw [Tree.after, Tree.after, ih h]
  | and a b iha ihb =>
    rw [Tree.after, Tree.after, iha (fun c hc => h c (by simp [comparisons, hc])),
      ihb (fun c hc => h c (by simp [comparisons, hc]))]
  | or a b iha ihb =>
    rw [Tree.after, Tree.after, iha (fun c hc => h c (by simp [comparisons, hc])),
      ihb (fun c hc => h c (by simp [comparisons, hc]))]

/-- **C75** (partial): so it does not matter how many records an expression has seen. -/
theorem C75_any_number_partial (lib : Lib) (lex : Lex) (r : Row) (t : Tree) (h : WellNamed t) (n : Nat) :
    evaluate lib lex r (afterMany n t) = evaluate lib lex r t := by
  have : ∀ n, afterMany (n + 1) t = t.after := by
    intro n
    induction n with
    | zero => rfl
    | succ n ih => rw [afterMany, ih, after_after t h]
  cases n with
  | zero => rfl
  | succ n => rw [this, C75_again_partial lib lex r t h]

/-- **C75** (fails): the name of an empty field: the first record is compared, the second raises. -/
theorem C75_empty_name_fails (lib : Lib) (lex : Lex) (r : Row) (i : Int) :
    (∃ b, evaluate lib lex r (.cmp (.var "``".toList) "=".toList (.int i)) = .ok b) ∧
    evaluate lib lex r (Tree.after (.cmp (.var "``".toList) "=".toList (.int i))) = .error .indexError := by
  constructor
  · obtain ⟨x, hx⟩ := evalTerm_ok lex r (.var "``".toList) (by simp) (by simp)
    rw [evaluate, hx]
    exact ⟨_, rfl⟩
  · rfl

/-! ## Comparisons (C76) -/

theorem evalTerm_field (lex : Lex) (r : Row) {k s : Str} (hk : Names k s) (x : Datum) (hx : r.lookup s = some x) :
    evalTerm lex r (.var k) = .ok (interpret lex x) := by
  obtain ⟨h1, _, h3, _⟩ := bareName_names hk
  rw [evalTerm, if_neg h3, h1, hx]

theorem evaluate_cmp (lib : Lib) (lex : Lex) (r : Row) {k s op : Str} (hk : Names k s) {x : Datum} (hx : r.lookup s = some x)
    {rt : Term} {y : Datum} (hy : evalTerm lex r rt = .ok y) {o : Tokens.Op} (ho : Tokens.operators.lookup op = some o) :
    evaluate lib lex r (.cmp (.var k) op rt) = caught (o.apply lib lex (interpret lex x) y) := by
  rw [evaluate, evalTerm_field lex r hk x hx, hy]
  show (match Tokens.operators.lookup op with | none => _ | some o => _) = _
  rw [ho]

/-- **C76**: comparing a field that is an integer with an integer. -/
theorem C76_integers (lib : Lib) (lex : Lex) (r : Row) (k s : Str) (hk : Names k s) (op : String) (x y : Int) (p : Prop)
    (hx : r.lookup s = some (.one (.int x))) (hop : op ≠ "is") (hp : Filters.Spec.holdsInt op x y = some p) :
    ∃ b, evaluate lib lex r (.cmp (.var k) op.toList (.int y)) = .ok b ∧ (b = true ↔ p) := by
  unfold Filters.Spec.holdsInt at hp
  split at hp <;> first | (cases hp; done) | (exact absurd rfl hop) | (obtain rfl := Option.some.inj hp)
  all_goals
    refine ⟨_, (evaluate_cmp lib lex r hk hx (y := .one (.int y)) rfl rfl).trans rfl, ?_⟩
    simp [interpret, Datum.eq, Scalar.eq, Scalar.num]

/-- **C76**: comparing a field that is a number of any kind with a number: they compare by value. -/
theorem C76_numbers (lib : Lib) (lex : Lex) (r : Row) (k s : Str) (hk : Names k s) (op : String) (x y : Scalar) (n : Term)
    (a b : Rat) (p : Prop) (hx : r.lookup s = some (.one x)) (hy : Number n y) (ha : Order.Amount x a)
    (hb : Order.Amount y b) (hop : op ≠ "is") (hp : Filters.Spec.holdsNumber op a b = some p) :
    ∃ v, evaluate lib lex r (.cmp (.var k) op.toList n) = .ok v ∧ (v = true ↔ p) := by
  rw [Order.amount_iff] at ha hb
  have hi : interpret lex (.one x) = .one x := by
    cases x <;> first | rfl | cases ha
  have hn : evalTerm lex r n = .ok (.one y) := by
    cases hy <;> rfl
  unfold Filters.Spec.holdsNumber at hp
  split at hp <;> first | (cases hp; done) | (exact absurd rfl hop) | (obtain rfl := Option.some.inj hp)
  all_goals
    refine ⟨_, (evaluate_cmp lib lex r hk hx (y := .one y) hn rfl).trans (by
      rw [hi]
      simp only [Tokens.Op.apply, Datum.eq, Datum.lt, Datum.le, Scalar.eq, Scalar.lt, ha, hb, Except.map]
      rfl), ?_⟩
    simp

theorem just_text {lex : Lex} {x : Str} (h : JustText lex x) : interpretStr lex x = .str x := by
  obtain ⟨h1, h2, h3, h4, h5⟩ := h
  unfold interpretStr
  simp only []
  rw [if_neg (not_or.2 ⟨h1, h2⟩)]
  cases hi : pyInt x with
  | ok i => exact absurd hi (h3 i)
  | error e => simp only [h4, h5]

/-- **C76** (partial): comparing a field that is a text with a text.
Missing for the full property: texts that are also booleans, numbers or dates. -/
theorem C76_texts_partial (lib : Lib) (lex : Lex) (r : Row) (k s : Str) (hk : Names k s) (op : String) (x y : Str) (p : Prop)
    (hx : r.lookup s = some (.one (.str x))) (hj : JustText lex x) (hp : Spec.holdsText op x y = some p) :
    ∃ b, evaluate lib lex r (.cmp (.var k) op.toList (.lit y)) = .ok b ∧ (b = true ↔ p) := by
  unfold Spec.holdsText at hp
  split at hp <;> first | (cases hp; done) | (obtain rfl := Option.some.inj hp)
  all_goals
    refine ⟨_, (evaluate_cmp lib lex r hk hx (y := .one (.str y)) rfl rfl).trans (by
      rw [interpret, just_text hj]
      rfl), ?_⟩
    simp [Datum.eq, Scalar.eq, Scalar.num, strLe, contains_iff, ← Bool.not_eq_true]

/-- **C76** (partial): LIKE on a text without line feeds is SQL's LIKE. -/
theorem C76_like_partial (lib : Lib) (lex : Lex) (r : Row) (k s : Str) (hk : Names k s) (x y : Str)
    (hx : r.lookup s = some (.one (.str x))) (hj : JustText lex x) (hn : '\n' ∉ lib.lower x) :
    ∃ b, evaluate lib lex r (.cmp (.var k) "LIKE".toList (.lit y)) = .ok b ∧
      evaluate lib lex r (.cmp (.var k) "NOT LIKE".toList (.lit y)) = .ok (!b) ∧
      (b = true ↔ Like.Spec.Like (lib.lower y) (lib.lower x)) := by
  refine ⟨_, (evaluate_cmp lib lex r hk hx (y := .one (.str y)) rfl rfl).trans (by
      rw [interpret, just_text hj]; rfl),
    (evaluate_cmp lib lex r hk hx (y := .one (.str y)) rfl rfl).trans (by
      rw [interpret, just_text hj]; rfl), Like.C46_like_partial lib.lower (.str x) y hn⟩

/-- **C76**: IS NULL and IS NOT NULL tell whether the field has a value. -/
theorem C76_null (lib : Lib) (lex : Lex) (r : Row) (k s : Str) (hk : Names k s) :
    evaluate lib lex r (.cmp (.var k) "IS".toList .null) =
      .ok (decide (r.lookup s = none ∨ r.lookup s = some (.one .none))) ∧
    evaluate lib lex r (.cmp (.var k) "IS NOT".toList .null) =
      .ok (!decide (r.lookup s = none ∨ r.lookup s = some (.one .none))) := by
  obtain ⟨h1, _, h3, _⟩ := bareName_names hk
  have key : ∃ v, evalTerm lex r (.var k) = .ok v ∧
      isSame lib v (.one .none) = decide (r.lookup s = none ∨ r.lookup s = some (.one .none)) := by
    rw [evalTerm, if_neg h3, h1]
    cases hl : r.lookup s with
    | none => exact ⟨_, rfl, by simp [isSame]⟩
    | some v =>
      refine ⟨_, rfl, ?_⟩
      cases v with
      | list l => simp [interpret, isSame]
      | one a =>
        cases a with
        | str x =>
          have : ∀ b : Scalar, b ≠ .none → isSame lib (.one b) (.one .none) = false := by
            intro b hb
            cases b <;> first | exact absurd rfl hb | rfl
          show isSame lib (.one (interpretStr lex x)) (.one .none) = _
          rw [this]
          · simp
          · unfold interpretStr
            simp only []
            split
            · simp
            · split
              · simp
              · split
                · simp
                · split <;> simp
        | none => simp [interpret, isSame]
        | bool b => simp [interpret, isSame]
        | int i => simp [interpret, isSame]
        | float q => simp [interpret, isSame]
        | date d => simp [interpret, isSame]
  obtain ⟨v, hv, hs⟩ := key
  constructor
  · rw [evaluate, hv]
    show Except.ok (isSame lib v (.one .none)) = _
    rw [hs]
  · rw [evaluate, hv]
    show Except.ok (!isSame lib v (.one .none)) = _
    rw [hs]

/-! ### IN -/

theorem strip_two {s : Str} (hs : 2 ≤ s.length) (h1 : ∀ c, s.head? = some c → isSpace c = false)
    (h2 : ∀ c, s.getLast? = some c → isSpace c = false) : strip s ≠ ",".toList := by
  rw [strip_ends s h1 h2]
  intro h
  rw [h] at hs
  simp at hs

theorem interpretQuoted_quote (h : Sane lex) (q : Char) (s : Str) (hq : q = '"' ∨ q = '\'') (hd : parseIso s = none) :
    interpretQuoted lex (quote q s) = .str s := by
  obtain ⟨f1, f2, f3, f4, f5, f6, f7, f8, f9⟩ := quote_facts q hq
  obtain ⟨t, ht⟩ := upper_head h q (s ++ [q]) f1
  rw [f6] at ht
  unfold interpretQuoted
  rw [quote_inner]
  unfold quote
  simp only [ht]
  rw [if_neg]
  · simp only [pyInt_bad q (s ++ [q]) f2 f3 f4 f5, h.float q (s ++ [q]) f9, hd]
  · rintro (he | he)
    · exact f7 (List.cons.inj he).1
    · exact f8 (List.cons.inj he).1

theorem quoted_members (lib : Lib) (h : Sane lex) (q : Char) (hq : q = '"' ∨ q = '\'') (l : List Str)
    (hd : ∀ s ∈ l, parseIso s = none) :
    (((l.map (fun s => Scalar.str (quote q s))).filter (fun i => strip (Filters.str lib (.one i)) ≠ ",".toList)).map
      (interpretItem lex)) = l.map Scalar.str := by
  induction l with
  | nil => rfl
  | cons s l ih =>
    have hsp : isSpace q = false := by rcases hq with rfl | rfl <;> decide
    rw [List.map_cons, List.filter_cons, if_pos, List.map_cons, ih (fun x hx => hd x (by simp [hx])), List.map_cons]
    · congr 1
      exact interpretQuoted_quote h q s hq (hd s (by simp))
    · rw [decide_eq_true_iff]
      show strip (quote q s) ≠ _
      rw [quote_strip q s hsp]
      exact quote_ne q s ','

theorem in_list (lib : Lib) (lex : Lex) (x : Datum) (l l' : List Scalar)
    (h : ((l.filter (fun i => strip (Filters.str lib (.one i)) ≠ ",".toList)).map (interpretItem lex)) = l') :
    Tokens.Op.apply lib lex .isIn x (.list l) = .ok (l'.any (fun c => x.eq (.one c))) := by
  rw [← h]
  rfl

/-- **C76** (partial): IN with a list of texts is membership. -/
theorem C76_in_texts_partial (lib : Lib) (h : Sane lex) (r : Row) (k s : Str) (hk : Names k s) (x : Str) (q : Char)
    (hq : q = '"' ∨ q = '\'') (l : List Str) (hx : r.lookup s = some (.one (.str x))) (hj : JustText lex x)
    (hd : ∀ s ∈ l, parseIso s = none) :
    evaluate lib lex r (.cmp (.var k) "IN".toList (.list (l.map (fun s => .str (quote q s))))) = .ok (decide (x ∈ l)) := by
  rw [evaluate_cmp lib lex r hk hx (y := .list (l.map (fun s => .str (quote q s)))) rfl rfl, interpret, just_text hj]
  rw [in_list lib lex _ _ _ (quoted_members lib h q hq l hd), any_str]
  rfl

/-- **C76**: IN with a list of integers is membership. -/
theorem C76_in_integers (lib : Lib) (lex : Lex) (r : Row) (k s : Str) (hk : Names k s) (x : Int) (l : List Int)
    (hx : r.lookup s = some (.one (.int x))) :
    evaluate lib lex r (.cmp (.var k) "IN".toList (.list (l.map .int))) = .ok (decide (x ∈ l)) := by
  have hf : ((l.map Scalar.int).filter (fun i => strip (Filters.str lib (.one i)) ≠ ",".toList)).map (interpretItem lex) =
      l.map Scalar.int := by
    clear hx
    induction l with
    | nil => rfl
    | cons i l ih =>
      rw [List.map_cons, List.filter_cons, if_pos, List.map_cons, ih]
      · rfl
      · rw [decide_eq_true_iff]
        show strip (intStr i) ≠ _
        rw [intStr_strip]
        intro hc
        exact intStr_fact i (P := fun c => c ≠ ',') (by decide) (by decide) ',' (by rw [hc]; simp) rfl
  rw [evaluate_cmp lib lex r hk hx (y := .list (l.map .int)) rfl rfl, in_list lib lex _ _ _ hf]
  show Except.ok ((l.map Scalar.int).any fun c => (Datum.one (.int x)).eq (.one c)) = _
  congr 1
  clear hx hf
  induction l with
  | nil => rfl
  | cons i l ih =>
    rw [List.map_cons, List.any_cons, ih]
    simp [Datum.eq, Scalar.eq, Scalar.num]

/-- **C76** (fails): a field that is the text of a number is not equal to that text, and is equal to the number. -/
theorem C76_number_text_fails (lib : Lib) (h : Sane lex) (r : Row) (k s : Str) (hk : Names k s) (i : Int)
    (hx : r.lookup s = some (.one (.str (intStr i)))) :
    evaluate lib lex r (.cmp (.var k) "=".toList (.lit (intStr i))) = .ok false ∧
    evaluate lib lex r (.cmp (.var k) "=".toList (.int i)) = .ok true := by
  constructor
  · rw [evaluate_cmp lib lex r hk hx (y := .one (.str (intStr i))) rfl rfl, interpret, interpret_int h]
    rfl
  · rw [evaluate_cmp lib lex r hk hx (y := .one (.int i)) rfl rfl, interpret, interpret_int h]
    show caught (.ok _) = _
    simp [caught, Datum.eq, Scalar.eq, Scalar.num]

/-- **C76** (fails): a field that is the text `true` or `false` (in any case) is equal to the boolean, and not to its text. -/
theorem C76_boolean_text_fails (lib : Lib) (lex : Lex) (r : Row) (k s x : Str) (hk : Names k s) (v : Bool)
    (hx : r.lookup s = some (.one (.str x))) (hu : lex.upper x = if v then "TRUE".toList else "FALSE".toList) :
    (∀ w, evaluate lib lex r (.cmp (.var k) "=".toList (.bool w)) = .ok (v == w)) ∧
    evaluate lib lex r (.cmp (.var k) "=".toList (.lit x)) = .ok false := by
  have hi : interpret lex (.one (.str x)) = .one (.bool v) := by
    rw [interpret, interpretStr]
    simp only [hu]
    cases v <;> rfl
  constructor
  · intro w
    rw [evaluate_cmp lib lex r hk hx (y := .one (.bool w)) rfl rfl, hi]
    show Except.ok _ = Except.ok _
    cases v <;> cases w <;> exact congrArg Except.ok (by decide +kernel)
  · rw [evaluate_cmp lib lex r hk hx (y := .one (.str x)) rfl rfl, hi]
    rfl

/-! ## Cases -/

theorem names_a : Names "a".toList "a".toList := Or.inl ⟨name_a, rfl⟩
theorem names_b : Names "`b c`".toList "b c".toList := Or.inr ⟨by decide, by decide, rfl⟩

def sampleRecord : Row := [("a".toList, .one (.int 1)), ("b".toList, .one (.int 3)), ("b c".toList, .one (.str "x".toList)),
  ("n".toList, .one .none)]

/-- `NOT a = 1 AND ( b > 2 OR a = 'x' )` on a record, from its tokens. -/
example : (parse sampleLex sampleTokens >>= evaluate sampleLib sampleLex sampleRecord) = .ok false :=
  C44_text_form sampleLib sampleLex_sane sampleRecord (fun _ _ r => decide (r ≠ .lit "x".toList)) sampleTree sampleTokens
    sample_written (by decide +kernel)

example : ∃ b, evaluate sampleLib sampleLex [] sampleTree = .ok b := by
  apply C44_never_raises_partial
  intro c hc
  simp only [sampleTree, comparisons, List.mem_append, List.mem_cons, List.not_mem_nil, or_false] at hc
  rcases hc with rfl | rfl | rfl <;> simp [Safe, comparisonNames]

example : ∃ c ∈ comparisons (.and (.cmp (.var "a".toList) "=".toList (.int 1)) (.cmp (.var "a".toList) "LIKE".toList (.int 5))),
    ∃ e, evaluate sampleLib sampleLex sampleRecord (.cmp c.1 c.2.1 c.2.2) = .error e :=
  (C44_raises _ _ _ _).1 ⟨.attributeError, by decide +kernel⟩

example : evaluate sampleLib sampleLex sampleRecord (.cmp (.var "a".toList) "LIKE".toList (.var "zz".toList)) =
    .error .attributeError :=
  C44_like_missing_fails _ _ _ _ _ (by decide) (by decide) (by decide +kernel)

example : evaluate sampleLib sampleLex sampleRecord (.cmp (.var "a".toList) "MATCHES".toList (.lit "(".toList)) =
    .error .reError := C44_bad_regex_fails _ _ _ _ _ (by decide) rfl

/-- With a name in backquotes the tree does change. -/
def quotedTree : Tree := .cmp (.var "`b c`".toList) "=".toList (.lit "x".toList)

example : WellNamed quotedTree ∧ quotedTree.after ≠ quotedTree ∧
    evaluate sampleLib sampleLex sampleRecord (afterMany 3 quotedTree) = .ok true := by
  have hw : WellNamed quotedTree := by
    intro c hc
    simp only [quotedTree, comparisons, List.mem_cons, List.not_mem_nil, or_false] at hc
    subst hc
    constructor
    · intro k hk
      obtain rfl := Term.var.inj hk
      exact ⟨_, names_b⟩
    · intro k hk
      cases hk
  exact ⟨hw, by decide, by rw [C75_any_number_partial _ _ _ _ hw]; decide +kernel⟩

example : ∃ b, evaluate sampleLib sampleLex sampleRecord (.cmp (.var "a".toList) "<=".toList (.int 1)) = .ok b ∧
    (b = true ↔ (1 : Int) ≤ 1) :=
  C76_integers _ _ _ _ _ names_a "<=" 1 1 _ (by decide +kernel) (by decide) rfl

example : ∃ b, evaluate sampleLib sampleLex sampleRecord (.cmp (.var "a".toList) "<".toList (.float (3/2))) = .ok b ∧
    (b = true ↔ (1 : Rat) < 3/2) :=
  C76_numbers _ _ _ _ _ names_a "<" (.int 1) (.float (3/2)) _ 1 (3/2) _ (by decide +kernel) (.float _) (.whole 1) (.fraction _) (by decide) rfl

example : evaluate sampleLib sampleLex [("a".toList, .one (.str "False".toList))] (.cmp (.var "a".toList) "=".toList (.bool false)) =
    .ok true :=
  (C76_boolean_text_fails sampleLib sampleLex _ _ _ _ names_a false rfl (by decide +kernel)).1 false

theorem just_x : JustText sampleLex "x".toList := by
  refine ⟨by decide, by decide, ?_, by decide, by decide +kernel⟩
  intro i hi
  have : (pyInt "x".toList).isOk = false := by decide +kernel
  rw [hi] at this
  cases this

example : ∃ b, evaluate sampleLib sampleLex sampleRecord (.cmp (.var "`b c`".toList) "<".toList (.lit "y".toList)) = .ok b ∧
    (b = true ↔ "x".toList < "y".toList) :=
  C76_texts_partial _ _ _ _ _ names_b "<" _ _ _ (by decide +kernel) just_x rfl

example : ∃ b, evaluate sampleLib sampleLex sampleRecord (.cmp (.var "`b c`".toList) "LIKE".toList (.lit "_%".toList)) = .ok b ∧
    evaluate sampleLib sampleLex sampleRecord (.cmp (.var "`b c`".toList) "NOT LIKE".toList (.lit "_%".toList)) = .ok (!b) ∧
    (b = true ↔ Like.Spec.Like "_%".toList "x".toList) :=
  C76_like_partial sampleLib _ _ _ _ names_b _ _ (by decide +kernel) just_x (by decide)

example : evaluate sampleLib sampleLex sampleRecord (.cmp (.var "`b c`".toList) "IN".toList
    (.list (["w".toList, "x".toList].map (fun s => .str (quote '\'' s))))) = .ok true :=
  C76_in_texts_partial _ sampleLex_sane _ _ _ names_b _ '\'' (Or.inr rfl) _ (by decide +kernel) just_x (by decide +kernel)

example : evaluate sampleLib sampleLex sampleRecord (.cmp (.var "a".toList) "IN".toList (.list ([2, 3].map .int))) = .ok false :=
  C76_in_integers _ _ _ _ _ names_a 1 [2, 3] (by decide +kernel)

example : evaluate sampleLib sampleLex [("a".toList, .one (.str "5".toList))] (.cmp (.var "a".toList) "=".toList (.lit "5".toList)) =
    .ok false :=
  (C76_number_text_fails sampleLib sampleLex_sane _ _ _ names_a 5 (by decide +kernel)).1

end Mabel.Expression
