import Verif.Model.Expression

/-! # The bound of the parser is large enough -/

namespace Mabel.Expression
open Mabel.Py Mabel.Dates Mabel.Filters Mabel.Tokens

theorem bind_mono {α β : Type} {x x' : Except Err α} {f f' : α → Except Err β}
    (hx : x ≠ .error .overflow → x' = x) (hf : ∀ a, x = .ok a → f a ≠ .error .overflow → f' a = f a)
    (h : (x >>= f) ≠ .error .overflow) : (x' >>= f') = (x >>= f) := by
  cases x with
  | error e =>
    have : x' = .error e := hx (fun h' => h (by rw [h']; rfl))
    rw [this]; rfl
  | ok a =>
    have : x' = .ok a := hx (by intro h; cases h)
    rw [this]
    exact hf a rfl h

/-- With more fuel the result is the same, unless the fuel ran out. -/
theorem mono (lex : Lex) (n : Nat) :
    (∀ ts, parseExpr lex n ts ≠ .error .overflow → parseExpr lex (n + 1) ts = parseExpr lex n ts) ∧
    (∀ l ts, orLoop lex n l ts ≠ .error .overflow → orLoop lex (n + 1) l ts = orLoop lex n l ts) ∧
    (∀ ts, parseAnd lex n ts ≠ .error .overflow → parseAnd lex (n + 1) ts = parseAnd lex n ts) ∧
    (∀ l ts, andLoop lex n l ts ≠ .error .overflow → andLoop lex (n + 1) l ts = andLoop lex n l ts) ∧
    (∀ ts, parseCond lex n ts ≠ .error .overflow → parseCond lex (n + 1) ts = parseCond lex n ts) ∧
    (∀ ts, group lex n ts ≠ .error .overflow → group lex (n + 1) ts = group lex n ts) := by
  induction n with
  | zero =>
    refine ⟨fun ts h => absurd ?_ h, fun l ts h => absurd ?_ h, fun ts h => absurd ?_ h, fun l ts h => absurd ?_ h,
      fun ts h => absurd ?_ h, fun ts h => absurd ?_ h⟩
    · rw [parseExpr]
    · rw [orLoop]
    · rw [parseAnd]
    · rw [andLoop]
    · rw [parseCond]
    · rw [group]
  | succ n ih =>
    obtain ⟨h1, h2, h3, h4, h5, h6⟩ := ih
    refine ⟨fun ts h => ?_, fun l ts h => ?_, fun ts h => ?_, fun l ts h => ?_, fun ts h => ?_, fun ts h => ?_⟩
    · rw [parseExpr] at h ⊢
      rw [parseExpr]
      exact bind_mono (h3 ts) (fun a _ => h2 a.1 a.2) h
    · rw [orLoop] at h ⊢
      rw [orLoop]
      split
      · rename_i hc
        rw [if_pos hc] at h
        exact bind_mono (h3 _) (fun a _ => h2 _ a.2) h
      · rfl
    · rw [parseAnd] at h ⊢
      rw [parseAnd]
      exact bind_mono (h5 ts) (fun a _ => h4 a.1 a.2) h
    · rw [andLoop] at h ⊢
      rw [andLoop]
      split
      · rename_i hc
        rw [if_pos hc] at h
        exact bind_mono (h5 _) (fun a _ => h4 _ a.2) h
      · rfl
    · have e1 := parseCond.eq_2 lex ts n
      have e2 := parseCond.eq_2 lex ts (n + 1)
      rw [e1] at h ⊢
      rw [e2]
      split
      · rename_i hc
        rw [if_pos hc] at h
        exact bind_mono (h5 _) (fun a _ _ => rfl) h
      · rename_i hc
        rw [if_neg hc] at h
        split
        · rename_i hc2
          rw [if_pos hc2] at h
          refine bind_mono (fun _ => rfl) (fun a _ h' => ?_) h
          dsimp only at h' ⊢
          split
          · rename_i hc3
            rw [if_pos hc3] at h'
            exact h6 _ h'
          · rfl
        · rename_i hc2
          rw [if_neg hc2] at h
          split
          · rename_i hc3
            rw [if_pos hc3] at h
            exact h6 _ h
          · rfl
    · rw [group] at h ⊢
      rw [group]
      exact bind_mono (h1 _) (fun a _ _ => rfl) h

theorem mono_le (lex : Lex) {n m : Nat} (hnm : n ≤ m) (ts : List Str) (h : parseExpr lex n ts ≠ .error .overflow) :
    parseExpr lex m ts = parseExpr lex n ts := by
  induction hnm with
  | refl => rfl
  | step _ ih => rw [(mono lex _).1 ts (by rw [ih]; exact h), ih]

/-! ## Tokens are used up -/

theorem bind_ok {α β : Type} {x : Except Err α} {f : α → Except Err β} {b : β} (h : (x >>= f) = .ok b) :
    ∃ a, x = .ok a ∧ f a = .ok b := by
  cases x with
  | error e => cases h
  | ok a => exact ⟨a, rfl, h⟩

theorem listTerm_rest (lex : Lex) (ts : List Str) (acc : List Scalar) (t : Term) (rest : List Str)
    (h : listTerm lex ts acc = .ok (t, rest)) : rest.length ≤ ts.length := by
  induction ts generalizing acc with
  | nil => cases h
  | cons a ts ih =>
    rw [listTerm] at h
    split at h
    · obtain ⟨_, rfl⟩ := Prod.mk.inj (Except.ok.inj h)
      simp
    · split at h
      · have := ih _ h; simp; omega
      · have := ih _ h; simp; omega

theorem parseTerminal_rest (lex : Lex) (ts : List Str) (t : Term) (rest : List Str)
    (h : parseTerminal lex ts = .ok (t, rest)) : rest.length ≤ ts.length := by
  cases ts with
  | nil => cases h
  | cons a ts =>
    rw [parseTerminal] at h
    split at h
    · obtain ⟨i, _, h⟩ := bind_ok h
      obtain ⟨_, rfl⟩ := Prod.mk.inj (Except.ok.inj h)
      simp
    · split at h
      · obtain ⟨_, rfl⟩ := Prod.mk.inj (Except.ok.inj h)
        simp
      · cases h
    all_goals try (obtain ⟨_, rfl⟩ := Prod.mk.inj (Except.ok.inj h); simp; done)
    · split at h <;> (obtain ⟨_, rfl⟩ := Prod.mk.inj (Except.ok.inj h); simp)
    · have := listTerm_rest lex ts [] t rest h
      simp; omega
    · cases h

theorem callArgs_rest (lex : Lex) (ts : List Str) (n : Nat) (acc s : Str) (rest : List Str)
    (h : callArgs lex n ts acc = .ok (s, rest)) : rest.length ≤ ts.length := by
  induction ts generalizing n acc with
  | nil =>
    cases n with
    | zero =>
      rw [callArgs] at h
      obtain ⟨_, rfl⟩ := Prod.mk.inj (Except.ok.inj h); simp
    | succ n => cases h
  | cons a ts ih =>
    cases n with
    | zero =>
      rw [callArgs] at h
      obtain ⟨_, rfl⟩ := Prod.mk.inj (Except.ok.inj h); simp
    | succ n =>
      rw [callArgs] at h
      split at h
      · have := ih _ _ h; simp; omega
      · split at h
        · have := ih _ _ h; simp; omega
        · have := ih _ _ h; simp; omega

theorem functionCall_rest (lex : Lex) (f : Str) (ts : List Str) (t : Term) (rest : List Str)
    (h : functionCall lex f ts = .ok (t, rest)) : rest.length < ts.length := by
  cases ts with
  | nil => cases h
  | cons a ts =>
    rw [functionCall] at h
    split at h
    · cases h
    · obtain ⟨⟨s, r⟩, h1, h2⟩ := bind_ok h
      obtain ⟨_, rfl⟩ := Prod.mk.inj (Except.ok.inj h2)
      have := callArgs_rest lex ts 1 _ s r h1
      simp; omega

theorem comparison_rest (lex : Lex) (l : Term) (ts : List Str) (t : Tree) (rest : List Str)
    (h : comparison lex l ts = .ok (t, rest)) : rest.length < ts.length := by
  cases ts with
  | nil => cases h
  | cons a ts =>
    rw [comparison] at h
    split at h
    · obtain ⟨⟨s, r⟩, h1, h2⟩ := bind_ok h
      obtain ⟨_, rfl⟩ := Prod.mk.inj (Except.ok.inj h2)
      have := parseTerminal_rest lex ts s r h1
      simp; omega
    · cases h

theorem nextIs_length {lex : Lex} {l : Label} {ts : List Str} (h : nextIs lex l ts = true) : 1 ≤ ts.length := by
  cases ts with
  | nil => cases h
  | cons a ts => simp

theorem rest_lt (lex : Lex) (n : Nat) :
    (∀ ts t rest, parseExpr lex n ts = .ok (t, rest) → rest.length < ts.length) ∧
    (∀ l ts t rest, orLoop lex n l ts = .ok (t, rest) → rest.length ≤ ts.length) ∧
    (∀ ts t rest, parseAnd lex n ts = .ok (t, rest) → rest.length < ts.length) ∧
    (∀ l ts t rest, andLoop lex n l ts = .ok (t, rest) → rest.length ≤ ts.length) ∧
    (∀ ts t rest, parseCond lex n ts = .ok (t, rest) → rest.length < ts.length) ∧
    (∀ ts t rest, 1 ≤ ts.length → group lex n ts = .ok (t, rest) → rest.length < ts.length) := by
  induction n with
  | zero =>
    refine ⟨fun ts t rest h => ?_, fun l ts t rest h => ?_, fun ts t rest h => ?_, fun l ts t rest h => ?_,
      fun ts t rest h => ?_, fun ts t rest _ h => ?_⟩
    · rw [parseExpr] at h; cases h
    · rw [orLoop] at h; cases h
    · rw [parseAnd] at h; cases h
    · rw [andLoop] at h; cases h
    · rw [parseCond] at h; cases h
    · rw [group] at h; cases h
  | succ n ih =>
    obtain ⟨h1, h2, h3, h4, h5, h6⟩ := ih
    refine ⟨fun ts t rest h => ?_, fun l ts t rest h => ?_, fun ts t rest h => ?_, fun l ts t rest h => ?_,
      fun ts t rest h => ?_, fun ts t rest hl h => ?_⟩
    · rw [parseExpr] at h
      obtain ⟨⟨a, b⟩, ha, hb⟩ := bind_ok h
      have := h3 _ _ _ ha
      have := h2 _ _ _ _ hb
      omega
    · rw [orLoop] at h
      split at h
      · rename_i hc
        have := nextIs_length hc
        obtain ⟨⟨a, b⟩, ha, hb⟩ := bind_ok h
        have := h3 _ _ _ ha
        have := h2 _ _ _ _ hb
        simp only [List.length_drop] at *
        omega
      · obtain ⟨_, rfl⟩ := Prod.mk.inj (Except.ok.inj h); omega
    · rw [parseAnd] at h
      obtain ⟨⟨a, b⟩, ha, hb⟩ := bind_ok h
      have := h5 _ _ _ ha
      have := h4 _ _ _ _ hb
      omega
    · rw [andLoop] at h
      split at h
      · rename_i hc
        have := nextIs_length hc
        obtain ⟨⟨a, b⟩, ha, hb⟩ := bind_ok h
        have := h5 _ _ _ ha
        have := h4 _ _ _ _ hb
        simp only [List.length_drop] at *
        omega
      · obtain ⟨_, rfl⟩ := Prod.mk.inj (Except.ok.inj h); omega
    · rw [parseCond] at h
      split at h
      · rename_i hc
        have := nextIs_length hc
        obtain ⟨⟨a, b⟩, ha, hb⟩ := bind_ok h
        obtain ⟨_, rfl⟩ := Prod.mk.inj (Except.ok.inj hb)
        have := h5 _ _ _ ha
        simp only [List.length_drop] at *
        omega
      · split at h
        · obtain ⟨⟨a, b⟩, ha, hb⟩ := bind_ok h
          have := functionCall_rest lex _ _ _ _ ha
          simp only [List.length_drop] at this
          dsimp only at hb
          split at hb
          · have := h6 _ _ _ (nextIs_length (by assumption)) hb
            omega
          · have := comparison_rest lex _ _ _ _ hb
            omega
        · split at h
          · exact h6 _ _ _ (nextIs_length (by assumption)) h
          · obtain ⟨⟨a, b⟩, ha, hb⟩ := bind_ok h
            have := parseTerminal_rest lex _ _ _ ha
            have := comparison_rest lex _ _ _ _ hb
            omega
    · rw [group] at h
      obtain ⟨⟨a, b⟩, ha, hb⟩ := bind_ok h
      have := h1 _ _ _ ha
      simp only [List.length_drop] at this
      cases b with
      | nil => cases hb
      | cons c b =>
        dsimp only at hb
        split at hb
        · obtain ⟨_, rfl⟩ := Prod.mk.inj (Except.ok.inj hb)
          simp only [List.length_cons] at this
          omega
        · cases hb

/-! ## The fuel does not run out -/

theorem pyInt_not_overflow (s : Str) : pyInt s ≠ .error .overflow := by
  unfold pyInt
  simp only
  split <;> (intro h; cases h)

theorem listTerm_not_overflow (lex : Lex) (ts : List Str) (acc : List Scalar) : listTerm lex ts acc ≠ .error .overflow := by
  induction ts generalizing acc with
  | nil => intro h; cases h
  | cons a ts ih =>
    rw [listTerm]
    split
    · intro h; cases h
    · split
      · exact ih _
      · exact ih _

theorem parseTerminal_not_overflow (lex : Lex) (ts : List Str) : parseTerminal lex ts ≠ .error .overflow := by
  cases ts with
  | nil => intro h; cases h
  | cons a ts =>
    rw [parseTerminal]
    split
    · cases hp : pyInt a with
      | error e =>
        intro h
        have : Except.error e = Except.error Err.overflow := h
        exact pyInt_not_overflow a (by rw [hp]; injection this with h; rw [h])
      | ok i => intro h; cases h
    · split <;> (intro h; cases h)
    all_goals try (intro h; cases h; done)
    · split <;> (intro h; cases h)
    · exact listTerm_not_overflow lex ts []

theorem callArgs_not_overflow (lex : Lex) (ts : List Str) (n : Nat) (acc : Str) :
    callArgs lex n ts acc ≠ .error .overflow := by
  induction ts generalizing n acc with
  | nil => cases n <;> (rw [callArgs]; intro h; cases h)
  | cons a ts ih =>
    cases n with
    | zero => rw [callArgs]; intro h; cases h
    | succ n =>
      rw [callArgs]
      split
      · exact ih _ _
      · split
        · exact ih _ _
        · exact ih _ _

theorem bind_not_overflow {α β : Type} {x : Except Err α} {f : α → Except Err β} (hx : x ≠ .error .overflow)
    (hf : ∀ a, x = .ok a → f a ≠ .error .overflow) : (x >>= f) ≠ .error .overflow := by
  cases x with
  | error e => intro h; exact hx (by injection (h : Except.error e = _) with h; rw [h])
  | ok a => exact hf a rfl

theorem functionCall_not_overflow (lex : Lex) (f : Str) (ts : List Str) : functionCall lex f ts ≠ .error .overflow := by
  cases ts with
  | nil => intro h; cases h
  | cons a ts =>
    rw [functionCall]
    split
    · intro h; cases h
    · exact bind_not_overflow (callArgs_not_overflow lex ts 1 _) (fun a _ h => by cases h)

theorem comparison_not_overflow (lex : Lex) (l : Term) (ts : List Str) : comparison lex l ts ≠ .error .overflow := by
  cases ts with
  | nil => intro h; cases h
  | cons a ts =>
    rw [comparison]
    split
    · exact bind_not_overflow (parseTerminal_not_overflow lex ts) (fun a _ h => by cases h)
    · intro h; cases h

theorem enough (lex : Lex) (n : Nat) :
    (∀ ts : List Str, 5 * ts.length + 3 ≤ n → parseExpr lex n ts ≠ .error .overflow) ∧
    (∀ l, ∀ ts : List Str, 5 * ts.length + 1 ≤ n → orLoop lex n l ts ≠ .error .overflow) ∧
    (∀ ts : List Str, 5 * ts.length + 2 ≤ n → parseAnd lex n ts ≠ .error .overflow) ∧
    (∀ l, ∀ ts : List Str, 5 * ts.length + 1 ≤ n → andLoop lex n l ts ≠ .error .overflow) ∧
    (∀ ts : List Str, 5 * ts.length + 1 ≤ n → parseCond lex n ts ≠ .error .overflow) ∧
    (∀ ts : List Str, 1 ≤ ts.length → 5 * ts.length ≤ n → group lex n ts ≠ .error .overflow) := by
  induction n with
  | zero => refine ⟨?_, ?_, ?_, ?_, ?_, ?_⟩ <;> intros <;> omega
  | succ n ih =>
    obtain ⟨h1, h2, h3, h4, h5, h6⟩ := ih
    obtain ⟨r1, r2, r3, r4, r5, r6⟩ := rest_lt lex n
    refine ⟨fun ts hn => ?_, fun l ts hn => ?_, fun ts hn => ?_, fun l ts hn => ?_, fun ts hn => ?_,
      fun ts hl hn => ?_⟩
    · rw [parseExpr]
      refine bind_not_overflow (h3 ts (by omega)) (fun a ha => h2 _ _ ?_)
      have := r3 _ _ _ ha
      omega
    · rw [orLoop]
      split
      · rename_i hc
        have := nextIs_length hc
        refine bind_not_overflow (h3 _ (by simp only [List.length_drop]; omega)) (fun a ha => h2 _ _ ?_)
        have := r3 _ _ _ ha
        simp only [List.length_drop] at this
        omega
      · intro h; cases h
    · rw [parseAnd]
      refine bind_not_overflow (h5 ts (by omega)) (fun a ha => h4 _ _ ?_)
      have := r5 _ _ _ ha
      omega
    · rw [andLoop]
      split
      · rename_i hc
        have := nextIs_length hc
        refine bind_not_overflow (h5 _ (by simp only [List.length_drop]; omega)) (fun a ha => h4 _ _ ?_)
        have := r5 _ _ _ ha
        simp only [List.length_drop] at this
        omega
      · intro h; cases h
    · rw [parseCond]
      split
      · rename_i hc
        have := nextIs_length hc
        exact bind_not_overflow (h5 _ (by simp only [List.length_drop]; omega)) (fun a _ h => by cases h)
      · split
        · refine bind_not_overflow (functionCall_not_overflow lex _ _) (fun a ha => ?_)
          have := functionCall_rest lex _ _ _ _ ha
          simp only [List.length_drop] at this
          dsimp only
          split
          · exact h6 _ (nextIs_length (by assumption)) (by omega)
          · exact comparison_not_overflow lex _ _
        · split
          · exact h6 _ (nextIs_length (by assumption)) (by omega)
          · exact bind_not_overflow (parseTerminal_not_overflow lex _) (fun a _ => comparison_not_overflow lex _ _)
    · rw [group]
      refine bind_not_overflow (h1 _ (by simp only [List.length_drop]; omega)) (fun a _ => ?_)
      obtain ⟨t, rest⟩ := a
      cases rest with
      | nil => intro h; cases h
      | cons c rest =>
        dsimp only
        split <;> (intro h; cases h)

/-- The bound is enough: more gives the same. -/
theorem parse_bound (lex : Lex) (ts : List Str) :
    parseExpr lex (bound ts) ts ≠ .error .overflow ∧
    ∀ n, bound ts ≤ n → parseExpr lex n ts = parseExpr lex (bound ts) ts := by
  have h := (enough lex (bound ts)).1 ts (by unfold bound; omega)
  exact ⟨h, fun n hn => mono_le lex hn ts h⟩

/-- A result that holds with all large bounds is the result of `parse`. -/
theorem parse_eq (lex : Lex) (ts : List Str) (t : Tree) (rest : List Str)
    (h : ∃ N, ∀ n, N ≤ n → parseExpr lex n ts = .ok (t, rest)) : parse lex ts = .ok t := by
  obtain ⟨N, hN⟩ := h
  unfold parse
  rw [← (parse_bound lex ts).2 (max N (bound ts)) (Nat.le_max_right _ _), hN _ (Nat.le_max_left _ _)]
  rfl

end Mabel.Expression
