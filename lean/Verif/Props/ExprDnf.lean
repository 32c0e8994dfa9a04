import Verif.Props.ExprEval

/-! # Expressions as filters (C45) -/

namespace Mabel.Expression
open Mabel.Py Mabel.Dates Mabel.Filters Mabel.Tokens Spec
open Mabel.Filters.Spec (verdict KeepsOperators)

theorem number_terms {n : Term} {y : Scalar} (h : Number n y) (lib : Lib) (lex : Lex) (r : Row) :
    termDnf lib n = .ok (.one y) ∧ evalTerm lex r n = .ok (.one y) ∧ y.num.isSome = true := by
  cases h <;> exact ⟨rfl, rfl, rfl⟩

theorem number_interpret (lex : Lex) {x : Scalar} (h : x.num.isSome = true) : interpret lex (.one x) = .one x := by
  cases x <;> first | rfl | cases h

theorem number_lt {x y : Scalar} (hx : x.num.isSome = true) (hy : y.num.isSome = true) : ∃ b, x.lt y = .ok b := by
  unfold Scalar.lt
  obtain ⟨p, hp⟩ := Option.isSome_iff_exists.1 hx
  obtain ⟨q, hq⟩ := Option.isSome_iff_exists.1 hy
  rw [hp, hq]
  exact ⟨_, rfl⟩

/-- The operators that both have do the same with numbers. -/
theorem same_operators (lib : Lib) (hl : KeepsOperators lib) (lex : Lex) {op : Str}
    (hop : op ∈ ["=", "==", "!=", "<>", "<", ">", "<=", ">="].map String.toList) {x y : Scalar}
    (hx : x.num.isSome = true) (hy : y.num.isSome = true) :
    ∃ o o' b, Filters.operators.lookup (lib.lower op) = some o ∧ Tokens.operators.lookup op = some o' ∧
      o.apply lib (.one x) (.one y) = .ok b ∧ o'.apply lib lex (.one x) (.one y) = .ok b := by
  have hlow : lib.lower op = op := by
    have : ∀ op ∈ ["=", "==", "!=", "<>", "<", ">", "<=", ">="].map String.toList,
      ∃ o ∈ Filters.operators, o.1 = op := by decide +kernel
    obtain ⟨o, ho, rfl⟩ := this op hop
    exact hl o ho
  rw [hlow]
  obtain ⟨b, hb⟩ := number_lt hx hy
  obtain ⟨c, hc⟩ := number_lt hy hx
  simp only [List.map_cons, List.map_nil, List.mem_cons, List.not_mem_nil, or_false] at hop
  rcases hop with rfl | rfl | rfl | rfl | rfl | rfl | rfl | rfl
  · exact ⟨.eq, .eq, _, rfl, rfl, rfl, rfl⟩
  · exact ⟨.eq, .eq, _, rfl, rfl, rfl, rfl⟩
  · exact ⟨.ne, .ne, _, rfl, rfl, rfl, rfl⟩
  · exact ⟨.ne, .ne, _, rfl, rfl, rfl, rfl⟩
  · exact ⟨.lt, .lt, b, rfl, rfl, hb, hb⟩
  · exact ⟨.gt, .gt, c, rfl, rfl, hc, hc⟩
  · refine ⟨.le, .le, !c, rfl, rfl, ?_, ?_⟩ <;> (show (y.lt x).map _ = _; rw [hc]; rfl)
  · refine ⟨.ge, .ge, !b, rfl, rfl, ?_, ?_⟩ <;> (show (x.lt y).map _ = _; rw [hb]; rfl)

theorem numeric_same (lib : Lib) (hl : KeepsOperators lib) (lex : Lex) (r : Row) {t : Tree} (h : Numeric r t) :
    ∃ p b, toDnf lib t = .ok p ∧ p.isTuple = true ∧ p.isList = false ∧ Filters.evaluate lib p r = .ok b ∧
      evaluate lib lex r t = .ok b := by
  cases h with
  | mk hk hop hn hx hxn =>
    rename_i k op n x y
    obtain ⟨h1, h2, h3⟩ := number_terms hn lib lex r
    obtain ⟨o, o', b, e1, e2, e3, e4⟩ := same_operators lib hl lex hop hxn h3
    refine ⟨.tup (.str k) op (.one y), b, ?_, rfl, rfl, ?_, ?_⟩
    · rw [toDnf, h1]
      rfl
    · rw [Filters.evaluate, atom, show field r (.str k) = .one x from by
        show (r.lookup k).getD _ = _
        rw [hx]; rfl, if_neg (by rintro h; cases h; cases hxn), e1]
      exact e3
    · rw [evaluate_cmp lib lex r (Or.inl ⟨hk, rfl⟩) hx h2 e2, number_interpret lex hxn, e4]
      rfl

theorem single_list (lib : Lib) (r : Row) (p : Pred) (b : Bool) (h : p.isTuple = true ∨ p.isList = true)
    (he : Filters.evaluate lib p r = .ok b) : Filters.evaluate lib (.list [p]) r = .ok b := by
  rw [Filters.evaluate]
  cases hp : p.isTuple with
  | true =>
    rw [if_pos (by simp [hp]), evalAll, he]
    cases b <;> rfl
  | false =>
    rw [hp] at h
    rw [if_neg (by simp [hp]), if_pos (by simpa using h), evalAny, he]
    cases b <;> rfl

theorem convertible_same (lib : Lib) (hl : KeepsOperators lib) (lex : Lex) (r : Row) {t : Tree} (h : Convertible r t) :
    ∃ p b, toDnf lib t = .ok p ∧ (p.isTuple = true ∨ p.isList = true) ∧ Filters.evaluate lib p r = .ok b ∧
      evaluate lib lex r t = .ok b := by
  induction h with
  | one h =>
    obtain ⟨p, b, h1, h2, _, h3, h4⟩ := numeric_same lib hl lex r h
    exact ⟨p, b, h1, Or.inl h2, h3, h4⟩
  | pair hs ht =>
    obtain ⟨p, b, h1, h2, _, h3, h4⟩ := numeric_same lib hl lex r hs
    obtain ⟨q, c, k1, k2, _, k3, k4⟩ := numeric_same lib hl lex r ht
    refine ⟨.list [p, q], b && c, ?_, Or.inr rfl, ?_, ?_⟩
    · rw [toDnf, h1, k1]; rfl
    · rw [Filters.evaluate, if_pos (by simp [h2, k2]), evalAll, h3]
      cases b
      · rfl
      · show evalAll lib [q] r = _
        rw [evalAll, k3]
        cases c <;> rfl
    · rw [evaluate, h4, k4]; rfl
  | or _ _ ihs iht =>
    obtain ⟨p, b, h1, h2, h3, h4⟩ := ihs
    obtain ⟨q, c, k1, k2, k3, k4⟩ := iht
    refine ⟨.list [.list [p], .list [q]], b || c, ?_, Or.inr rfl, ?_, ?_⟩
    · rw [toDnf, h1, k1]; rfl
    · rw [Filters.evaluate, if_neg (by simp [Pred.isTuple]), if_pos (by simp [Pred.isList]), evalAny,
        single_list lib r p b h2 h3]
      cases b
      · show evalAny lib [.list [q]] r = _
        rw [evalAny, single_list lib r q c k2 k3]
        cases c <;> rfl
      · rfl
    · rw [evaluate, h4, k4]; rfl

theorem verdict_of (lib : Lib) (p : Pred) (r : Row) (h : p.isTuple = true ∨ p.isList = true) :
    verdict lib p r = Filters.evaluate lib p r := by
  cases p with
  | list ps => exact verdict_list lib ps r
  | tup k op v => rfl
  | badTuple => rfl
  | none => rcases h with h | h <;> cases h
  | other => rcases h with h | h <;> cases h

/-- **C45** (partial): for alternatives of numeric comparisons and pairs of them, the filter made from the expression
accepts a record exactly when the expression does.
Missing for the full property: the `_fails` theorems show that it does not hold for NOT, for three or more parts of
an AND, for an AND of alternatives, for texts and for missing fields. -/
theorem C45_same_partial (lib : Lib) (hl : KeepsOperators lib) (lex : Lex) (r : Row) (t : Tree) (h : Convertible r t) :
    ∃ p b, toDnf lib t = .ok p ∧ verdict lib p r = .ok b ∧ evaluate lib lex r t = .ok b := by
  obtain ⟨p, b, h1, h2, h3, h4⟩ := convertible_same lib hl lex r h
  exact ⟨p, b, h1, (verdict_of lib p r h2).trans h3, h4⟩

/-- **C45** (fails): no filter made from NOT works: it raises on every record. -/
theorem C45_not_fails (lib : Lib) (t : Tree) (p : Pred) (h : toDnf lib (.not t) = .ok p) (r : Row) :
    verdict lib p r = .error .valueError := by
  rw [toDnf] at h
  obtain ⟨q, _, h⟩ := bind_ok h
  obtain rfl := Except.ok.inj h
  rfl

/-- **C45** (fails): `x AND y AND z` becomes a filter that is refused on every record. -/
theorem C45_three_fails (lib : Lib) (lex : Lex) (r : Row) (a b c : Tree) (hl : KeepsOperators lib)
    (ha : Numeric r a) (hb : Numeric r b) (hc : Numeric r c) :
    ∃ p, toDnf lib (.and (.and a b) c) = .ok p ∧ verdict lib p r = .error .invalidSyntax := by
  obtain ⟨p, x, h1, h2, _⟩ := numeric_same lib hl lex r ha
  obtain ⟨q, y, k1, k2, _⟩ := numeric_same lib hl lex r hb
  obtain ⟨s, z, l1, l2, l3, _⟩ := numeric_same lib hl lex r hc
  refine ⟨.list [.list [p, q], s], ?_, ?_⟩
  · rw [toDnf, toDnf, h1, k1, l1]; rfl
  · rw [verdict_list, Filters.evaluate, if_neg (by simp [Pred.isTuple]), if_neg (by simp [l3])]

/-- **C45** (fails): an AND of alternatives becomes alternatives: the filter accepts what the expression rejects. -/
theorem C45_and_of_ors_fails (lib : Lib) (hl : KeepsOperators lib) (lex : Lex) (r : Row) (a b c d : Tree)
    (ha : Numeric r a) (hb : Numeric r b) (hc : Numeric r c) (hd : Numeric r d)
    (h : evaluate lib lex r (.or a b) = .ok true) (h' : evaluate lib lex r (.or c d) = .ok false) :
    evaluate lib lex r (.and (.or a b) (.or c d)) = .ok false ∧
    ∃ p, toDnf lib (.and (.or a b) (.or c d)) = .ok p ∧ verdict lib p r = .ok true := by
  constructor
  · rw [evaluate, h, h']; rfl
  · obtain ⟨p, x, h1, h2, h3, h4⟩ := convertible_same lib hl lex r (.or (.one ha) (.one hb))
    obtain ⟨q, y, k1, k2, _, _⟩ := convertible_same lib hl lex r (.or (.one hc) (.one hd))
    refine ⟨.list [p, q], ?_, ?_⟩
    · rw [toDnf, h1, k1]; rfl
    · have hp : p.isTuple = false ∧ p.isList = true := by
        rw [toDnf] at h1
        obtain ⟨u, _, h1⟩ := bind_ok h1
        obtain ⟨v, _, h1⟩ := bind_ok h1
        obtain rfl := Except.ok.inj h1
        exact ⟨rfl, rfl⟩
      have hq : q.isList = true := by
        rw [toDnf] at k1
        obtain ⟨u, _, k1⟩ := bind_ok k1
        obtain ⟨v, _, k1⟩ := bind_ok k1
        obtain rfl := Except.ok.inj k1
        rfl
      rw [h4] at h
      obtain rfl := Except.ok.inj h
      rw [verdict_list, Filters.evaluate, if_neg (by simp [hp.1]), if_pos (by simp [hp.2, hq]), evalAny, h3]
      rfl

/-- **C45** (fails): a field that equals the text is rejected by the filter, which compares it with the text in quotes. -/
theorem C45_text_fails (lib : Lib) (hl : KeepsOperators lib) (lex : Lex) (r : Row) (k x : Str) (hk : Name k)
    (hx : r.lookup k = some (.one (.str x))) (hj : JustText lex x) :
    evaluate lib lex r (.cmp (.var k) "=".toList (.lit x)) = .ok true ∧
    ∃ p, toDnf lib (.cmp (.var k) "=".toList (.lit x)) = .ok p ∧ verdict lib p r = .ok false := by
  constructor
  · obtain ⟨b, hb, hp⟩ := C76_texts_partial lib lex r k k (Or.inl ⟨hk, rfl⟩) "=" x x (x = x) hx hj rfl
    rw [hb, hp.2 rfl]
  · refine ⟨_, rfl, ?_⟩
    refine (verdict_op lib hl k _ _ (.one (.str ("\"".toList ++ x ++ "\"".toList))) _ r hx (by simp) rfl).trans ?_
    show Except.ok (Scalar.eq (.str x) (.str _)) = _
    have : x ≠ "\"".toList ++ x ++ "\"".toList := by
      intro h
      have := congrArg List.length h
      simp at this
      omega
    simp only [Scalar.eq, Scalar.num]
    rw [decide_eq_false (by intro h; exact this (Scalar.str.inj h))]

/-- **C45** (fails): a field that is missing differs from a number in the expression, not in the filter. -/
theorem C45_missing_fails (lib : Lib) (lex : Lex) (r : Row) (k : Str) (hk : Name k) (hx : r.lookup k = none) (i : Int) :
    evaluate lib lex r (.cmp (.var k) "!=".toList (.int i)) = .ok true ∧
    ∃ p, toDnf lib (.cmp (.var k) "!=".toList (.int i)) = .ok p ∧ verdict lib p r = .ok false := by
  obtain ⟨h1, _, h3, _⟩ := bareName_names (Or.inl ⟨hk, rfl⟩ : Names k k)
  constructor
  · have hy : evalTerm lex r (.var k) = .ok (.one .none) := by rw [evalTerm, if_neg h3, h1, hx]
    rw [evaluate, hy]
    rfl
  · exact ⟨_, rfl, Filters.C42_null lib ⟨k, _, _⟩ r (Or.inl hx)⟩

/-! ## Cases -/

def isOne : Tree := .cmp (.var "a".toList) "=".toList (.int 1)
def isBig : Tree := .cmp (.var "b".toList) ">".toList (.float (5 / 2))

theorem isOne_numeric : Numeric sampleRecord isOne :=
  .mk (x := .int 1) name_a (by decide) (.int 1) (by decide +kernel) rfl
theorem isBig_numeric : Numeric sampleRecord isBig :=
  .mk (x := .int 3) name_b (by decide) (.float _) (by decide +kernel) rfl

example : ∃ p b, toDnf sampleLib (.or (.and isOne isBig) isBig) = .ok p ∧ verdict sampleLib p sampleRecord = .ok b ∧
    evaluate sampleLib sampleLex sampleRecord (.or (.and isOne isBig) isBig) = .ok b :=
  C45_same_partial sampleLib (fun _ _ => rfl) sampleLex sampleRecord _
    (.or (.pair isOne_numeric isBig_numeric) (.one isBig_numeric))

/-- `( a = 1 OR a = 1 ) AND ( a = 2 OR a = 2 )` on a record where `a` is 1. -/
example : ∃ p, toDnf sampleLib (.and (.or isOne isOne) (.or (.cmp (.var "a".toList) "=".toList (.int 2))
    (.cmp (.var "a".toList) "=".toList (.int 2)))) = .ok p ∧ verdict sampleLib p sampleRecord = .ok true :=
  (C45_and_of_ors_fails sampleLib (fun _ _ => rfl) sampleLex sampleRecord _ _ _ _ isOne_numeric isOne_numeric
    (.mk (x := .int 1) name_a (by decide) (.int 2) (by decide +kernel) rfl)
    (.mk (x := .int 1) name_a (by decide) (.int 2) (by decide +kernel) rfl) (by decide +kernel) (by decide +kernel)).2

example : ∃ p, toDnf sampleLib (.and (.and isOne isBig) isOne) = .ok p ∧
    verdict sampleLib p sampleRecord = .error .invalidSyntax :=
  C45_three_fails sampleLib sampleLex sampleRecord _ _ _ (fun _ _ => rfl) isOne_numeric isBig_numeric isOne_numeric

example : ∃ p, toDnf sampleLib (.not isOne) = .ok p := ⟨_, rfl⟩

example : evaluate sampleLib sampleLex [("a".toList, .one (.str "x".toList))]
    (.cmp (.var "a".toList) "=".toList (.lit "x".toList)) = .ok true :=
  (C45_text_fails sampleLib (fun _ _ => rfl) sampleLex _ _ _ name_a (by decide +kernel) just_x).1

example : evaluate sampleLib sampleLex [] (.cmp (.var "a".toList) "!=".toList (.int 1)) = .ok true :=
  (C45_missing_fails sampleLib sampleLex [] _ name_a rfl 1).1

end Mabel.Expression
