import Verif.Lemmas.Evaluator
import Verif.Props.Expression
import Verif.Props.Tokenizer

/-!
# C62: computed columns

A select list is written as items separated by commas (`Laid`): fields, literals, `*` and calls of functions, nested
to any depth, with or without AS and a name, in any case and with any white space.  `columns` says what the record for a
record must hold.
-/

namespace Mabel.Evaluator
open Mabel.Py Mabel.Dates Mabel.Tokens Mabel.Filters Mabel.Records Mabel.Evaluator.Spec
open Mabel.Tokenizer (Re asciiRe asciiRe_sane)
open Mabel.Tokenizer.Spec (SaneRe capitals)
open Mabel.Expression
open Mabel.Expression.Spec (Sane Name quote)

variable {lex : Lex}

/-! ## Values -/

theorem Name.ne_nil {n : Str} (h : Name n) : n ≠ [] := by
  obtain ⟨⟨c, cs, rfl, _⟩, _⟩ := h
  exact List.cons_ne_nil _ _

theorem given_filter {a : Option (Str × Str)} (h : GoodAlias a) : (a.map Prod.snd).filter (· ≠ []) = a.map Prod.snd := by
  rcases a with _ | ⟨k, n⟩
  · rfl
  · have := Name.ne_nil (h k n rfl).2
    simp [this]

theorem leaf_not_call (l : Leaf) : ¬ (leafLabel l = .function ∨ leafLabel l = .aggregator) := by
  rintro (h | h)
  · exact (leafLabel_ne l).1 h
  · exact (leafLabel_ne l).2.1 h

mutual
theorem functionName_tok : ∀ s : Sel, functionName (Sel.tok s) = s.heading
  | .leaf l a => by rw [Sel.tok, functionName, if_neg (leaf_not_call l), Sel.heading]
  | .call f args a => by rw [Sel.tok, functionName, if_pos (callLabel_cases f), Sel.heading, functionNames_toks args]

theorem functionNames_toks : ∀ ss : List Sel, functionNames (toks ss) = headings ss
  | [] => by rw [toks, functionNames, headings]
  | s :: ss => by rw [toks, functionNames, headings, functionName_tok s, functionNames_toks ss]
end

theorem quote_upper (hl : Sane lex) (b : Bool) (w : Str) (h : (Leaf.bool b w).Good) : (lex.upper w = "TRUE".toList) = (b = true) := by
  have ha : ∀ c ∈ w, c.toNat < 128 := by
    cases b
    · exact constant_ascii w (Or.inr (Or.inl h))
    · exact constant_ascii w (Or.inl h)
  rw [upper_ascii hl w ha]
  cases b
  · have h : capitals w = "FALSE".toList := h
    rw [show w.map Char.toUpper = "FALSE".toList from h]
    simp
  · have h : capitals w = "TRUE".toList := h
    rw [show w.map Char.toUpper = "TRUE".toList from h]
    simp

theorem evaluate_leaf (hl : Sane lex) (F : Funs) (r : Row) (l : Leaf) (h : l.Good) (a : Option Str) :
    (evaluateField F lex r (.mk l.token (leafLabel l) [] a)).1 = .ok (l.token, l.value r) := by
  match l, h with
  | .field n, h =>
    obtain ⟨⟨c, cs, rfl, hc⟩, _⟩ := h
    have : wrapped '`' (c :: cs) = false := by
      unfold wrapped
      have : c ≠ '`' := by rintro rfl; exact absurd hc (by decide)
      simp [this]
    rw [leafLabel, evaluateField]
    simp only [Leaf.token, Leaf.value, this]
    rfl
  | .quotedField n, _ =>
    rw [leafLabel, evaluateField]
    simp only [Leaf.token, Leaf.value, quote_wrapped, quote_inner]
    rfl
  | .int i, _ =>
    rw [leafLabel, evaluateField]
    simp only [Leaf.token, Leaf.value, pyInt_intStr]
  | .text q s, h =>
    rw [leafLabel, evaluateField]
    simp only [Leaf.token, Leaf.value, quote_inner]
  | .date q s d, h =>
    rw [leafLabel, evaluateField]
    simp only [Leaf.token, Leaf.value, quote_inner, h.2]
  | .bool b w, h =>
    have := quote_upper hl b w h
    rw [leafLabel, evaluateField]
    simp only [Leaf.token, this, Leaf.value]
    cases b <;> rfl
  | .null w, _ =>
    rw [leafLabel, evaluateField]
    · rfl
    all_goals (intro h; cases h)
  | .star, _ => rw [leafLabel, evaluateField]; rfl

/-- The name under which the value is put: the name given to a call, otherwise how it is written. -/
def putName : Sel → Str
  | .leaf l _ => l.token
  | s => s.name

theorem upper_idem (hl : Sane lex) (f : Str) (hf : capitals f ∈ functions) : lex.upper (capitals f) = capitals f := by
  have h3 := (functions_plain _ hf).2.2
  rw [upper_ascii hl _ h3]
  have : ∀ f ∈ functions, f.map Char.toUpper = f := by decide +kernel
  exact this _ hf

mutual
theorem evaluate_sel (hl : Sane lex) (F : Funs) (r : Row) : ∀ s : Sel, s.Good →
    (evaluateField F lex r (Sel.tok s)).1 = (s.value F r).map (fun v => (putName s, v))
  | .leaf l a, h => by
    rw [Sel.Good] at h
    rw [Sel.tok, evaluate_leaf hl F r l h.1, Sel.value]
    rfl
  | .call f args a, h => by
    rw [Sel.Good] at h
    have hn := functionName_tok (.call f args a)
    have hcl : callLabel f = .function := if_pos h.1
    rw [Sel.tok, hcl] at hn
    rw [Sel.tok, hcl, evaluateField, Sel.value, ← evaluate_sels hl F r args h.2.1]
    simp only [hn, upper_idem hl f h.1, given_filter h.2.2]
    cases (evaluateArgs F lex r (toks args)).1 with
    | error e => rfl
    | ok vs =>
      show (do let x ← F (capitals f) vs; Except.ok _) = Except.map _ (F (capitals f) vs)
      cases F (capitals f) vs <;> rfl

theorem evaluate_sels (hl : Sane lex) (F : Funs) (r : Row) : ∀ ss : List Sel, GoodArgs ss →
    (evaluateArgs F lex r (toks ss)).1 = values F r ss
  | [], _ => by rw [toks, evaluateArgs, values]
  | s :: ss, h => by
    rw [GoodArgs] at h
    have h1 := evaluate_sel hl F r s h.1
    have h2 := evaluate_sels hl F r ss h.2
    rw [toks, evaluateArgs, values]
    generalize evaluateField F lex r (Sel.tok s) = x at h1
    obtain ⟨x1, x2⟩ := x
    simp only at h1
    cases hv : s.value F r with
    | error e => rw [hv] at h1; subst h1; rfl
    | ok v =>
      rw [hv] at h1
      subst h1
      simp only [Except.map]
      rw [h2]
      cases values F r ss <;> rfl
end

/-- The record an item list gives, as it is built. -/
def putColumns (F : Funs) (r : Row) : List Sel → Except Err Row
  | [] => .ok []
  | s :: ss => do
    let v ← s.value F r
    let rest ← putColumns F r ss
    .ok ((putName s, v) :: rest)

theorem fill_sels (hl : Sane lex) (F : Funs) (r : Row) (ss : List Sel) (h : GoodArgs ss) : ∀ builder : Row,
    (fill F lex r builder (ss.map Sel.tok)).1 = (putColumns F r ss).map (fun cols => cols.foldl (fun d kv => put d kv.1 kv.2) builder) := by
  induction ss with
  | nil => intro b; rfl
  | cons s ss ih =>
    intro b
    rw [GoodArgs] at h
    have h1 := evaluate_sel hl F r s h.1
    rw [List.map_cons, fill, putColumns]
    generalize evaluateField F lex r (Sel.tok s) = x at h1
    obtain ⟨x1, x2⟩ := x
    simp only at h1
    cases hv : s.value F r with
    | error e => rw [hv] at h1; subst h1; rfl
    | ok v =>
      rw [hv] at h1
      subst h1
      simp only [Except.map]
      rw [ih h.2]
      cases putColumns F r ss <;> rfl

theorem any_star (ss : List Sel) : (ss.map Sel.tok).any (fun t => t.type = .everything) = ss.any Sel.isStar := by
  induction ss with
  | nil => rfl
  | cons s ss ih =>
    rw [List.map_cons, List.any_cons, List.any_cons, ih]
    congr 1
    cases s with
    | leaf l a => rw [Sel.tok]; cases l <;> rfl
    | call f args a => rw [Sel.tok]; exact decide_eq_false (callLabel_ne f).2.2.2

theorem putColumns_plain (F : Funs) (r : Row) (ss : List Sel) (h : ∀ s ∈ ss, s.Plain) : putColumns F r ss = columns F r ss := by
  induction ss with
  | nil => rfl
  | cons s ss ih =>
    have hn : putName s = s.name := by
      cases s with
      | call f args a => rfl
      | leaf l a =>
        have : a = none := h _ (List.mem_cons_self ..)
        subst this
        rw [putName, Sel.name, Sel.given, Sel.heading]
        rfl
    rw [putColumns, columns, ih (fun s hs => h s (List.mem_cons_of_mem _ hs)), hn]

/-! ## Evaluating leaves nothing behind -/

mutual
/-- A token with the names of its calls filled in. -/
def norm : Tok → Tok
  | .mk v ty ps as_ =>
    if ty = .function then .mk v ty (norms ps) (some ((as_.filter (· ≠ [])).getD (functionName (.mk v ty ps as_)))) else .mk v ty ps as_

def norms : List Tok → List Tok
  | [] => []
  | t :: ts => norm t :: norms ts
end

mutual
theorem functionName_norm : ∀ t : Tok, functionName (norm t) = functionName t
  | .mk v ty ps as_ => by
    rw [norm]
    split
    · rw [functionName, functionName, functionNames_norms ps]
    · rfl

theorem functionNames_norms : ∀ ts : List Tok, functionNames (norms ts) = functionNames ts
  | [] => by rw [norms]
  | t :: ts => by rw [norms, functionNames, functionNames, functionName_norm t, functionNames_norms ts]
end

theorem functionName_ne {v : Str} {ps : List Tok} {a : Option Str} : functionName (.mk v .function ps a) ≠ [] := by
  rw [functionName, if_pos (Or.inl rfl)]
  simp

theorem name_ne (v : Str) (ps : List Tok) (a : Option Str) : (a.filter (· ≠ [])).getD (functionName (.mk v .function ps a)) ≠ [] := by
  cases a with
  | none => exact functionName_ne (v := v) (ps := ps) (a := none)
  | some n =>
    rw [Option.filter_some]
    by_cases hn : n = []
    · subst hn
      exact functionName_ne (v := v) (ps := ps) (a := some [])
    · rw [if_pos (by simp [hn])]
      exact hn

mutual
theorem evaluate_norm (F : Funs) (r : Row) : ∀ t : Tok, (evaluateField F lex r (norm t)).1 = (evaluateField F lex r t).1
  | .mk v ty ps as_ => by
    rw [norm]
    split
    · next h =>
      subst h
      rw [evaluateField, evaluateField]
      simp only [evaluateArgs_norms F r ps]
      have : ((some ((as_.filter (· ≠ [])).getD (functionName (.mk v .function ps as_)))).filter (· ≠ [])) =
          some ((as_.filter (· ≠ [])).getD (functionName (.mk v .function ps as_))) := by
        rw [Option.filter_some, if_pos]
        exact decide_eq_true (name_ne v ps as_)
      rw [this]
      rfl
    · rfl

theorem evaluateArgs_norms (F : Funs) (r : Row) : ∀ ts : List Tok, (evaluateArgs F lex r (norms ts)).1 = (evaluateArgs F lex r ts).1
  | [] => by rw [norms]
  | t :: ts => by
    have h1 := evaluate_norm F r t
    have h2 := evaluateArgs_norms F r ts
    rw [norms, evaluateArgs, evaluateArgs]
    generalize evaluateField F lex r (norm t) = x at h1
    generalize evaluateField F lex r t = y at h1
    obtain ⟨x1, x2⟩ := x
    obtain ⟨y1, y2⟩ := y
    simp only at h1
    subst h1
    cases x1 with
    | error e => rfl
    | ok p => simp only [h2]
end

mutual
theorem norm_after (F : Funs) (r : Row) : ∀ t : Tok, norm (evaluateField F lex r t).2 = norm t
  | .mk v ty ps as_ => by
    by_cases h : ty = .function
    · subst h
      have hp := norms_after F r ps
      have hn : functionNames (evaluateArgs F lex r ps).2 = functionNames ps := by
        rw [← functionNames_norms, hp, functionNames_norms]
      rw [evaluateField]
      simp only
      rw [norm, norm, if_pos rfl, if_pos rfl, hp]
      have : ((some ((as_.filter (· ≠ [])).getD (functionName (.mk v .function ps as_)))).filter (· ≠ [])) =
          some ((as_.filter (· ≠ [])).getD (functionName (.mk v .function ps as_))) := by
        rw [Option.filter_some, if_pos]
        exact decide_eq_true (name_ne v ps as_)
      rw [this]
      rfl
    · have : (evaluateField F lex r (.mk v ty ps as_)).2 = .mk v ty ps as_ := by
        cases ty <;> first | rfl | exact absurd rfl h
      rw [this]

theorem norms_after (F : Funs) (r : Row) : ∀ ts : List Tok, norms (evaluateArgs F lex r ts).2 = norms ts
  | [] => by rw [evaluateArgs]
  | t :: ts => by
    have h1 := norm_after F r t
    have h2 := norms_after F r ts
    rw [evaluateArgs]
    generalize evaluateField F lex r t = x at h1
    obtain ⟨x1, x2⟩ := x
    simp only at h1
    cases x1 with
    | error e =>
      simp only
      rw [norms, norms, h1]
    | ok p =>
      simp only
      rw [norms, norms, h1, h2]
end

theorem norm_type (t : Tok) : (norm t).type = t.type := by
  obtain ⟨v, ty, ps, a⟩ := t
  rw [norm]
  split <;> rfl

theorem fill_norms (F : Funs) (r : Row) : ∀ (ts : List Tok) (b : Row),
    (fill F lex r b (norms ts)).1 = (fill F lex r b ts).1 ∧ norms (fill F lex r b ts).2 = norms ts := by
  intro ts
  induction ts with
  | nil => intro b; rw [norms, fill]; exact ⟨rfl, rfl⟩
  | cons t ts ih =>
    intro b
    have h1 := evaluate_norm (lex := lex) F r t
    have h3 := norm_after (lex := lex) F r t
    rw [norms, fill, fill]
    generalize evaluateField F lex r (norm t) = x at h1
    generalize evaluateField F lex r t = y at h1 h3
    obtain ⟨x1, x2⟩ := x
    obtain ⟨y1, y2⟩ := y
    simp only at h1 h3
    subst h1
    cases x1 with
    | error e =>
      refine ⟨rfl, ?_⟩
      simp only
      rw [norms, h3]
    | ok p =>
      obtain ⟨i1, i2⟩ := ih (put b p.1 p.2)
      refine ⟨i1, ?_⟩
      simp only
      rw [norms, h3, i2]

theorem norms_any (ts : List Tok) : (norms ts).any (fun t => t.type = .everything) = ts.any (fun t => t.type = .everything) := by
  induction ts with
  | nil => rw [norms]
  | cons t ts ih => rw [norms, List.any_cons, List.any_cons, ih, norm_type]

theorem call_norms (F : Funs) (ts : List Tok) (r : Row) : (call F lex (norms ts) r).1 = (call F lex ts r).1 ∧
    norms (call F lex ts r).2 = norms ts := by
  unfold call
  rw [norms_any]
  exact fill_norms F r ts _

theorem call_same (F : Funs) {ts ts' : List Tok} (h : norms ts = norms ts') (r : Row) : (call F lex ts r).1 = (call F lex ts' r).1 := by
  rw [← (call_norms F ts r).1, h, (call_norms F ts' r).1]

theorem callAll_same (F : Funs) (ts' : List Tok) : ∀ (rs : List Row) (ts : List Tok), norms ts = norms ts' →
    callAll F lex ts rs = rs.map (fun r => (call F lex ts' r).1) := by
  intro rs
  induction rs with
  | nil => intro ts _; rfl
  | cons r rs ih =>
    intro ts h
    rw [callAll, List.map_cons, call_same F h r, ih _ ((call_norms F ts r).2.trans h)]

/-- An evaluator has no memory: what it gives for a record does not depend on the records before it, whatever was
selected, also when some of them raised. -/
theorem C62_no_memory (F : Funs) (lex : Lex) (ts : List Tok) (rs : List Row) :
    callAll F lex ts rs = rs.map (fun r => (call F lex ts r).1) := callAll_same F ts rs ts rfl

/-! ## Looking up -/

theorem lookup_cons (x : Str) (y : Datum) (d : Row) (k : Str) : Row.lookup ((x, y) :: d) k = if k = x then some y else Row.lookup d k := by
  unfold Row.lookup
  rw [List.find?_cons]
  by_cases h : k = x
  · subst h; simp
  · have : (x == k) = false := by simp; exact fun e => h e.symm
    simp only [this, if_neg h]

theorem put_lookup_datum (d : Row) (k k' : Str) (v : Datum) : Row.lookup (put d k v) k' = if k' = k then some v else Row.lookup d k' := by
  induction d with
  | nil => rw [put, lookup_cons]
  | cons kv d ih =>
    obtain ⟨x, y⟩ := kv
    rw [put]
    by_cases hk : x = k
    · subst hk
      rw [if_pos rfl, lookup_cons, lookup_cons]
      by_cases h : k' = x
      · rw [if_pos h, if_pos h]
      · rw [if_neg h, if_neg h, if_neg h]
    · rw [if_neg hk, lookup_cons, lookup_cons, ih]
      by_cases h : k' = x
      · subst h
        rw [if_pos rfl, if_pos rfl, if_neg hk]
      · rw [if_neg h, if_neg h]

theorem lookup_append (k : Str) (a b : Row) : Row.lookup (a ++ b) k = (Row.lookup a k).or (Row.lookup b k) := by
  induction a with
  | nil => rfl
  | cons kv a ih =>
    obtain ⟨x, y⟩ := kv
    rw [List.cons_append, lookup_cons, lookup_cons, ih]
    split <;> rfl

theorem foldl_lookup_datum (cols d : Row) (k : Str) :
    Row.lookup (cols.foldl (fun d kv => put d kv.1 kv.2) d) k = (Row.lookup cols.reverse k).or (Row.lookup d k) := by
  induction cols generalizing d with
  | nil => rfl
  | cons kv cols ih =>
    obtain ⟨x, y⟩ := kv
    rw [List.foldl_cons, ih, put_lookup_datum, List.reverse_cons, lookup_append, Option.or_assoc, lookup_cons]
    congr 1
    split <;> rfl

/-! ## C62 -/

/-- A select list is read as its items, however it is laid out. -/
theorem C62_reads {re : Re} (hre : SaneRe re) (hl : Sane lex) {ss : List Sel} {text : Str} (h : ReadableArgs ss)
    (ht : Laid re (piecesOf ss) text) : init re lex text = .ok (ss.map Sel.tok) := init_sels hre hl h ht

/-- Each record gives the record of its columns: a field's value, a literal or a function's result under the item's name
(of two items with one name the later one counts), together with the record's own fields when `*` is selected; and when a
function raises, what it raises.  Only calls may have names given with AS.  This holds for every record of a sequence read
with one evaluator. -/
theorem C62_columns_partial {re : Re} (hre : SaneRe re) (hl : Sane lex) (F : Funs) {ss : List Sel} {text : Str} (h : GoodArgs ss)
    (hp : ∀ s ∈ ss, s.Plain) (ht : Laid re (piecesOf ss) text) :
    ∃ ts, init re lex text = .ok ts ∧ ∀ (rs : List Row) (i : Nat) (r : Row), rs[i]? = some r →
      ∃ res, (callAll F lex ts rs)[i]? = some res ∧
        match columns F r ss with
        | .error e => res = .error e
        | .ok cols => ∃ out, res = .ok out ∧
          ∀ k, out.lookup k = (Row.lookup cols.reverse k).or (if ss.any Sel.isStar then r.lookup k else none) := by
  refine ⟨ss.map Sel.tok, init_sels hre hl (readables_good ss h) ht, ?_⟩
  intro rs i r hr
  refine ⟨(call F lex (ss.map Sel.tok) r).1, ?_, ?_⟩
  · rw [C62_no_memory, List.getElem?_map, hr]
    rfl
  · unfold call
    rw [any_star, fill_sels hl F r ss h, putColumns_plain F r ss hp]
    cases columns F r ss with
    | error e => rfl
    | ok cols =>
      refine ⟨_, rfl, ?_⟩
      intro k
      refine (foldl_lookup_datum _ _ _).trans ?_
      cases ss.any Sel.isStar <;> rfl

theorem columns_names (F : Funs) (r : Row) (ss : List Sel) (cols : Row) (h : columns F r ss = .ok cols) :
    cols.map Prod.fst = ss.map Sel.name := by
  induction ss generalizing cols with
  | nil => cases h; rfl
  | cons s ss ih =>
    rw [columns] at h
    cases hv : s.value F r with
    | error e => rw [hv] at h; cases h
    | ok v =>
      rw [hv] at h
      cases hc : columns F r ss with
      | error e => rw [hc] at h; cases h
      | ok c =>
        rw [hc] at h
        cases h
        rw [List.map_cons, List.map_cons, ih c hc]

/-- Without `*`, and with different names, the record has exactly one field per item, in the order of the items. -/
theorem C62_one_each_partial {re : Re} (hre : SaneRe re) (hl : Sane lex) (F : Funs) {ss : List Sel} {text : Str} (h : GoodArgs ss)
    (hp : ∀ s ∈ ss, s.Plain) (hs : ss.any Sel.isStar = false) (hd : (ss.map Sel.name).Nodup) (ht : Laid re (piecesOf ss) text) :
    ∃ ts, init re lex text = .ok ts ∧ ∀ rs : List Row, callAll F lex ts rs = rs.map (fun r => columns F r ss) := by
  refine ⟨ss.map Sel.tok, init_sels hre hl (readables_good ss h) ht, ?_⟩
  intro rs
  rw [C62_no_memory]
  apply List.map_congr_left
  intro r _
  unfold call
  rw [any_star, fill_sels hl F r ss h, putColumns_plain F r ss hp, hs]
  cases hc : columns F r ss with
  | error e => rfl
  | ok cols =>
    have := columns_names F r ss cols hc
    show Except.ok (toDict cols) = _
    rw [toDict_of_nodup cols (by rw [this]; exact hd)]

/-- What `fields()` reports are the names of the items, when none of them is TRUE, FALSE or NULL. -/
theorem C62_fields_partial (ss : List Sel) (h : ReadableArgs ss)
    (hb : ∀ s ∈ ss, ∀ a, (∀ w, s ≠ .leaf (.null w) a) ∧ (∀ b w, s ≠ .leaf (.bool b w) a) ∧ (s = .leaf .star a → a = none)) :
    getFields (ss.map Sel.tok) = ss.map Sel.name := by
  unfold getFields
  induction ss with
  | nil => rfl
  | cons s ss ih =>
    rw [ReadableArgs] at h
    rw [List.map_cons, List.flatMap_cons, ih h.2 (fun t ht => hb t (List.mem_cons_of_mem _ ht)), List.map_cons]
    have hs := hb s (List.mem_cons_self ..)
    have : fieldOf (Sel.tok s) = [s.name] := by
      have hn := functionName_tok s
      cases s with
      | call f args a =>
        rw [Sel.Readable] at h
        rw [Sel.name, ← hn, Sel.given, Sel.tok]
        unfold fieldOf
        simp only [Tok.as_, Tok.type]
        rw [given_filter h.1.2.2]
        rcases callLabel_cases f with e | e <;> rw [e]
      | leaf l a =>
        rw [Sel.Readable] at h
        rw [Sel.name, Sel.given, Sel.heading, Sel.tok]
        unfold fieldOf
        simp only [Tok.as_, Tok.type, Tok.value]
        rw [given_filter h.1.2]
        cases l with
        | null w => exact absurd rfl ((hs a).1 w)
        | bool b w => exact absurd rfl ((hs a).2.1 b w)
        | star =>
          have := (hs a).2.2 rfl
          subst this
          rfl
        | _ => rfl
    rw [this]
    rfl

/-! ### What does not hold -/

theorem good_one {s : Sel} (h : s.Good) : GoodArgs [s] := by
  rw [GoodArgs, GoodArgs]
  exact ⟨h, trivial⟩

/-- A name given with AS to anything but a call is ignored: the column has the name the item has without it, though
`fields()` reports the name given. -/
theorem C62_alias_fails {re : Re} (hre : SaneRe re) (hl : Sane lex) (F : Funs) (l : Leaf) (kw name text : Str)
    (h : (Sel.leaf l (some (kw, name))).Good) (hs : l ≠ .star)
    (hb : (∀ w, l ≠ .null w) ∧ ∀ b w, l ≠ .bool b w) (ht : Laid re (piecesOf [.leaf l (some (kw, name))]) text) :
    ∃ ts, init re lex text = .ok ts ∧ getFields ts = [name] ∧ ∀ r, (call F lex ts r).1 = .ok [(l.token, l.value r)] := by
  refine ⟨_, init_sels hre hl (readables_good _ (good_one h)) ht, ?_, ?_⟩
  · rw [C62_fields_partial _ (readables_good _ (good_one h))]
    · rfl
    · intro s hm a
      rw [List.mem_singleton] at hm
      subst hm
      refine ⟨?_, ?_, ?_⟩
      · intro w e; injection e with e _; exact hb.1 w e
      · intro b w e; injection e with e _; exact hb.2 b w e
      · intro e; injection e with e _; exact absurd e hs
  · intro r
    unfold call
    rw [any_star, fill_sels hl F r _ (good_one h)]
    have : [Sel.leaf l (some (kw, name))].any Sel.isStar = false := by
      cases l <;> first | rfl | exact absurd rfl hs
    rw [this, putColumns, putColumns, Sel.value]
    rfl

/-- A constant TRUE, FALSE or NULL is computed, in any case of letters, but `fields()` does not report it, so that whoever selects the
reported fields (as SQL statements do) loses it. -/
theorem C62_constant_fails {re : Re} (hre : SaneRe re) (hl : Sane lex) (F : Funs) (l : Leaf) (text : Str) (h : l.Good)
    (hb : (∃ w, l = .null w) ∨ ∃ b w, l = .bool b w) (ht : Laid re (piecesOf [.leaf l none]) text) :
    ∃ ts, init re lex text = .ok ts ∧ getFields ts = [] ∧ ∀ r, (call F lex ts r).1 = .ok [(l.token, l.value r)] := by
  have hg : (Sel.leaf l none).Good := by rw [Sel.Good]; exact ⟨h, fun _ _ e => by cases e⟩
  refine ⟨_, init_sels hre hl (readables_good _ (good_one hg)) ht, ?_, ?_⟩
  · rcases hb with ⟨w, rfl⟩ | ⟨b, w, rfl⟩ <;> rfl
  · intro r
    unfold call
    have hs : [Sel.leaf l none].any Sel.isStar = false := by rcases hb with ⟨w, rfl⟩ | ⟨b, w, rfl⟩ <;> rfl
    rw [any_star, hs, fill_sels hl F r _ (good_one hg)]
    rfl

/-- `*` adds a field named `*` to every record. -/
theorem C62_star_fails {re : Re} (hre : SaneRe re) (hl : Sane lex) (F : Funs) (text : Str) (r : Row)
    (ht : Laid re (piecesOf [.leaf .star none]) text) :
    ∃ ts, init re lex text = .ok ts ∧ ∃ out, (call F lex ts r).1 = .ok out ∧ out.lookup "*".toList = some (.one (.str "*".toList)) ∧
      ∀ k, k ≠ "*".toList → out.lookup k = r.lookup k := by
  have hg : GoodArgs [.leaf .star none] := good_one (by rw [Sel.Good]; exact ⟨trivial, fun _ _ h => by cases h⟩)
  refine ⟨_, init_sels hre hl (readables_good _ hg) ht, put r "*".toList (.one (.str "*".toList)), ?_, ?_, ?_⟩
  · unfold call
    rw [any_star, fill_sels hl F r _ hg]
    rfl
  · rw [put_lookup_datum, if_pos rfl]
  · intro k hk
    rw [put_lookup_datum, if_neg hk]

/-- An aggregate is not evaluated: its column is None, under the name of the function alone. -/
theorem C62_aggregate_fails (F : Funs) (r : Row) : ∃ ts, init asciiRe sampleLex "COUNT(a), MAX(b) AS top".toList = .ok ts ∧
    (call F sampleLex ts r).1 = .ok [("COUNT".toList, .one .none), ("MAX".toList, .one .none)] ∧
    getFields ts = ["COUNT(a)".toList, "top".toList] := by
  refine ⟨[.mk "COUNT".toList .aggregator [.mk "a".toList .variable [] none] none,
    .mk "MAX".toList .aggregator [.mk "b".toList .variable [] none] (some "top".toList)], ?_, rfl, by decide +kernel⟩
  rfl

/-- A text with a comma in it is taken apart. -/
theorem C62_text_fails (F : Funs) (r : Row) (ha : r.lookup "x'".toList = none) :
    ∃ ts, init asciiRe sampleLex "'a,x'".toList = .ok ts ∧
    (call F sampleLex ts r).1 = .ok [("'a".toList, .one .none), ("x'".toList, .one .none)] := by
  refine ⟨[.mk "'a".toList .unknown [] none, .mk "x'".toList .variable [] none], rfl, ?_⟩
  show Except.ok (put (put [] "'a".toList (.one .none)) "x'".toList ((Row.lookup r "x'".toList).getD (.one .none))) = _
  rw [ha]
  rfl

/-- Parentheses that are not closed are refused. -/
theorem C62_unbalanced {re : Re} (hre : SaneRe re) (hl : Sane lex) (f : Str) (hf : capitals f ∈ Expression.Spec.functionNames ∨ capitals f ∈ Expression.Spec.aggregatorNames) (args : List Sel)
    (h : ReadableArgs args) (text : Str) (ht : Laid re (.word f :: .sym '(' :: piecesOf args) text) :
    init re lex text = .error .invalidExpression := by
  have ha : apart (.word f :: .sym '(' :: piecesOf args) = true :=
    apart_cons _ _ (apart_cons _ _ (piecesOf_apart args) (Or.inl rfl)) (Or.inr rfl)
  have hc : collect lex 1 (tokensOf args) = none := by
    have := collect_sels hl args 1 [] h (Nat.le_refl _)
    rw [List.append_nil] at this
    rw [this]
    rfl
  unfold init build
  rw [tokens_laid hre ht ha]
  have e : piecesTokens (.word f :: .sym '(' :: piecesOf args) = f :: "(".toList :: tokensOf args := by
    rw [← piecesOf_tokens]
    rfl
  rw [e, buildGo, (label_call hl f hf).1, if_pos (callLabel_cases f), withCall]
  simp only [(label_punctuation hl).1, ne_eq, not_true, if_false, hc]

theorem withAlias_error (hl : Sane lex) (next : List Str → Except Err (List Tok)) (v : Str) (ty : Label) (ps : List Tok)
    (a : Option (Str × Str)) (ha : GoodAlias a) (t : Str) (ts : List Str) (ht : label lex t ≠ .as) (hn : ∃ e, next (t :: ts) = .error e) :
    ∃ e, withAlias lex next v ty ps (aliasTokens a ++ t :: ts) = .error e := by
  obtain ⟨e, hn⟩ := hn
  refine ⟨e, ?_⟩
  rcases a with _ | ⟨k, nm⟩
  · rw [aliasTokens, List.nil_append]
    show (if label lex t = .as then _ else _) = _
    rw [if_neg ht, hn]
    rfl
  · rw [aliasTokens, List.cons_append, List.cons_append, withAlias, if_pos (label_as hl k (ha k nm rfl).1), List.nil_append, hn]
    rfl

theorem sel_start (hl : Sane lex) (s : Sel) (h : s.Readable) : ∃ t ts, Sel.tokens s = t :: ts ∧ label lex t ≠ .left := by
  cases s with
  | leaf l a =>
    rw [Sel.Readable] at h
    refine ⟨l.token, aliasTokens a, by rw [Sel.tokens], ?_⟩
    rw [label_leaf hl l h.1]
    exact (leafLabel_ne l).2.2.1
  | call f args a =>
    rw [Sel.Readable] at h
    refine ⟨f, _, by rw [Sel.tokens], ?_⟩
    rw [(label_call hl f h.1).1]
    exact (callLabel_ne f).1

/-- After readable items, a token that is neither AS nor can be read is an error. -/
theorem buildGo_error (hl : Sane lex) (t : Str) (ts : List Str) (ht : label lex t ≠ .as)
    (he : ∀ n, ts.length < n → ∃ e, buildGo lex n (t :: ts) = .error e) : ∀ (n : Nat) (ss : List Sel), ReadableArgs ss →
    (tokensOf ss ++ t :: ts).length < n → ∃ e, buildGo lex n (tokensOf ss ++ t :: ts) = .error e := by
  intro n
  induction n with
  | zero => intro ss _ h; omega
  | succ n ih =>
    intro ss hs hlen
    have hstep : ∀ ss, ReadableArgs ss → (tokensOf ss ++ t :: ts).length < n → ∃ t' ts', tokensOf ss ++ t :: ts = t' :: ts' ∧
        label lex t' ≠ .as ∧ ∃ e, buildGo lex n (t' :: ts') = .error e := by
      intro ss hs hlen
      have := ih ss hs hlen
      cases ss with
      | nil => rw [tokensOf] at this ⊢; exact ⟨t, ts, rfl, ht, this⟩
      | cons s ss =>
        rw [ReadableArgs] at hs
        obtain ⟨x, xs, h1, h2⟩ := sel_head hl s hs.1
        rw [tokensOf, h1, List.cons_append, List.cons_append] at this ⊢
        exact ⟨_, _, rfl, h2, this⟩
    match ss, hs, hlen with
    | [], _, hlen =>
      rw [tokensOf] at hlen ⊢
      exact he _ (by simpa using Nat.lt_of_succ_lt hlen)
    | .leaf l a :: ss, hs, hlen =>
      rw [ReadableArgs, Sel.Readable] at hs
      rw [tokensOf, Sel.tokens] at hlen ⊢
      simp only [List.cons_append, List.length_cons, List.length_append, List.append_assoc] at hlen ⊢
      have e := label_leaf hl l hs.1.1
      have ne := leafLabel_ne l
      rw [buildGo, e, if_neg (by intro h; rcases h with h | h; exact ne.1 h; exact ne.2.1 h)]
      obtain ⟨x, xs, h1, h2, h3⟩ := hstep ss hs.2 (by simp only [List.length_append, List.length_cons]; omega)
      rw [h1]
      exact withAlias_error hl _ _ _ _ a hs.1.2 x xs h2 h3
    | .call f args a :: ss, hs, hlen =>
      rw [ReadableArgs, Sel.Readable] at hs
      obtain ⟨⟨h1, h2, h3⟩, h4⟩ := hs
      obtain ⟨e, eu⟩ := label_call hl f h1
      obtain ⟨p1, p2, _⟩ := label_punctuation hl
      rw [tokensOf, Sel.tokens] at hlen ⊢
      simp only [List.cons_append, List.length_cons, List.length_append, List.append_assoc] at hlen ⊢
      have hc : collect lex 1 (tokensOf args ++ ")".toList :: (aliasTokens a ++ (tokensOf ss ++ t :: ts))) =
          some (tokensOf args, aliasTokens a ++ (tokensOf ss ++ t :: ts)) := by
        rw [collect_sels hl args 1 _ h2 (Nat.le_refl _), collect, p2, if_pos rfl, if_pos rfl]
        simp
      rw [buildGo, e, if_pos (callLabel_cases f), withCall]
      simp only [p1, ne_eq, not_true, if_false, hc]
      rw [buildGo_sels hl n args h2 (by omega)]
      show ∃ e, withAlias lex (buildGo lex n) (lex.upper f) (label lex f) (toks args) (aliasTokens a ++ (tokensOf ss ++ t :: ts)) = _
      obtain ⟨x, xs, h1, h2, h3'⟩ := hstep ss h4 (by simp only [List.length_append, List.length_cons]; omega)
      rw [h1]
      exact withAlias_error hl _ _ _ _ a h3 x xs h2 h3'

theorem init_error {re : Re} (hre : SaneRe re) (hl : Sane lex) {ss : List Sel} {text : Str} (h : ReadableArgs ss) (f : Str)
    (hf : capitals f ∈ functions ∨ capitals f ∈ aggregators) (ps ps' : List Piece) (hap : apart ps = true) (ht : Laid re ps text)
    (hps : piecesTokens ps = tokensOf ss ++ f :: piecesTokens ps')
    (hps' : ∀ t ts, piecesTokens ps' = t :: ts → label lex t ≠ .left) : ∃ e, init re lex text = .error e := by
  unfold init build
  rw [tokens_laid hre ht hap, hps]
  refine buildGo_error hl f _ (by rw [(label_call hl f hf).1]; exact (callLabel_ne f).2.2.1) ?_ _ ss h (Nat.lt_succ_self _)
  intro n hn
  obtain ⟨n, rfl⟩ : ∃ k, n = k + 1 := ⟨n - 1, by omega⟩
  rw [buildGo, (label_call hl f hf).1, if_pos (callLabel_cases f)]
  cases hp : piecesTokens ps' with
  | nil => exact ⟨_, rfl⟩
  | cons t ts =>
    refine ⟨.invalidExpression, ?_⟩
    rw [withCall, if_pos (hps' t ts hp)]

/-- A function or an aggregation without parentheses is refused: at the end of the list, before the next item, or with AS and a
name. -/
theorem C62_no_parentheses {re : Re} (hre : SaneRe re) (hl : Sane lex) (ss : List Sel) (h : ReadableArgs ss) (f : Str)
    (hf : capitals f ∈ Expression.Spec.functionNames ∨ capitals f ∈ Expression.Spec.aggregatorNames) (as_ : Option (Str × Str))
    (ha : GoodAlias as_) (more : List Sel) (hm : ReadableArgs more) (text : Str)
    (ht : Laid re (ss.flatMap (fun s => s.pieces ++ [.sym ',']) ++ .word f :: (aliasPieces as_ ++ morePieces more)) text) :
    ∃ e, init re lex text = .error e := by
  have hap : apart (ss.flatMap (fun s => s.pieces ++ [Piece.sym ',']) ++ .word f :: (aliasPieces as_ ++ morePieces more)) = true := by
    clear ht
    induction ss with
    | nil =>
      refine apart_cons _ _ (apart_append _ _ (alias_apart as_).1 (more_apart more) (more_head more)) (Or.inr ?_)
      rcases as_ with _ | ⟨k, n⟩
      · exact more_head more
      · rfl
    | cons s ss ih =>
      rw [ReadableArgs] at h
      rw [List.flatMap_cons, List.append_assoc, List.append_assoc]
      exact apart_append _ _ (pieces_apart s) (apart_cons _ _ (ih h.2) (Or.inl rfl)) rfl
  refine init_error hre hl h f hf _ (aliasPieces as_ ++ morePieces more) hap ht ?_ ?_
  · clear hap ht
    induction ss with
    | nil => rfl
    | cons s ss ih =>
      rw [ReadableArgs] at h
      rw [List.flatMap_cons, List.append_assoc, piecesTokens_append, ih h.2, piecesTokens_append, pieces_tokens, tokensOf]
      rw [show piecesTokens [Piece.sym ','] = [] from rfl]
      simp
  · intro t ts e
    rw [piecesTokens_append, aliasPieces_tokens, morePieces_tokens] at e
    rcases as_ with _ | ⟨k, n⟩
    · rw [aliasTokens, List.nil_append] at e
      cases more with
      | nil => rw [tokensOf] at e; cases e
      | cons s more =>
        rw [ReadableArgs] at hm
        obtain ⟨x, xs, h1, h2⟩ := sel_start hl s hm.1
        rw [tokensOf, h1, List.cons_append] at e
        obtain ⟨rfl, -⟩ := List.cons.inj e
        exact h2
    · rw [aliasTokens, List.cons_append] at e
      obtain ⟨rfl, -⟩ := List.cons.inj e
      rw [label_as hl _ (ha _ n rfl).1]
      decide

/-! ### A select list of every kind of item -/

/-- No AS is a word of its own in the text after `prev`. -/
def noAsGo (re : Re) : Option Char → Str → Bool
  | prev, x :: y :: b =>
    (!(re.same 'A' x && re.same 'S' y) || prev.any re.isWord || b.head?.any re.isWord) && noAsGo re (some x) (y :: b)
  | _, _ => true

theorem noAsGo_sound (re : Re) : ∀ (a : Str) (prev : Option Char) (x y : Char) (b : Str), noAsGo re prev (a ++ x :: y :: b) = true →
    re.same 'A' x = true → re.same 'S' y = true → (a.getLast?.or prev).any re.isWord = true ∨ b.head?.any re.isWord = true := by
  intro a
  induction a with
  | nil =>
    intro prev x y b h hx hy
    rw [List.nil_append, noAsGo, hx, hy] at h
    rw [Bool.and_eq_true, Bool.and_true, Bool.not_true, Bool.false_or, Bool.or_eq_true] at h
    exact h.1
  | cons c a ih =>
    intro prev x y b h hx hy
    have h' : noAsGo re (some c) (a ++ x :: y :: b) = true := by
      cases a with
      | nil => exact (Bool.and_eq_true _ _ ▸ h).2
      | cons d a => exact (Bool.and_eq_true _ _ ▸ h).2
    rcases ih (some c) x y b h' hx hy with h | h
    · left
      cases a with
      | nil => exact h
      | cons d a => rw [List.getLast?_cons_cons]; rw [List.getLast?_cons] at h ⊢; exact h
    · exact Or.inr h

theorem quiet_of (re : Re) (s : Str) (h : (!s.isEmpty && !(s.headD ' ' |> isSpace) && !((s.getLast?.getD ' ') |> isSpace) &&
    s.all (fun c => c ≠ '(' && c ≠ ')' && c ≠ ',') && noAsGo re none s) = true) : Quiet re s := by
  simp only [Bool.and_eq_true] at h
  obtain ⟨⟨⟨⟨h1, h2⟩, h3⟩, h4⟩, h5⟩ := h
  cases s with
  | nil => cases h1
  | cons c s =>
    refine ⟨⟨c, s, rfl, by simpa using h2⟩, ⟨(c :: s).getLast (List.cons_ne_nil _ _), List.getLast?_eq_some_getLast _, ?_⟩, ?_, ?_⟩
    · rw [List.getLast?_eq_some_getLast (List.cons_ne_nil _ _)] at h3
      simpa using h3
    · intro d hd
      have := List.all_eq_true.1 h4 d hd
      simpa [and_assoc] using this
    · intro a x y b e hx hy
      rcases noAsGo_sound re a none x y b (by rw [← e]; exact h5) hx hy with h | h
      · left
        rw [Option.or_none, Option.any_eq_true] at h
        exact h
      · right
        rw [Option.any_eq_true] at h
        exact h

def sampleList : List Sel :=
  [.call "Upper".toList [.call "LEFT".toList [.leaf (.field "name".toList) none, .leaf (.int 3) none] none] (some ("as".toList, "n".toList)),
   .leaf (.quotedField "has age".toList) none, .leaf (.text '\'' "x".toList) none]

def sampleText : Str := "Upper( LEFT(name , 3) ) as n,`has age`, 'x' ".toList

theorem sample_good : GoodArgs sampleList := by
  have hn : ∀ k n, none = some (k, n) → capitals k = "AS".toList ∧ Name n := fun _ _ h => by cases h
  have h1 : Name "name".toList := ⟨⟨'n', "ame".toList, rfl, by decide⟩, by decide, by decide +kernel⟩
  have h2 : GoodAlias (some ("as".toList, "n".toList)) := by
    intro k n e
    injection e with e
    injection e with e1 e2
    subst e1 e2
    exact ⟨by decide, ⟨'n', [], rfl, by decide⟩, by decide, by decide +kernel⟩
  simp only [sampleList, GoodArgs, Sel.Good, Leaf.Good]
  exact ⟨⟨by decide +kernel, ⟨⟨by decide +kernel, ⟨⟨h1, hn⟩, ⟨trivial, hn⟩, trivial⟩, hn⟩, trivial⟩, h2⟩, ⟨trivial, hn⟩,
    ⟨⟨by simp, by decide +kernel⟩, hn⟩, trivial⟩

theorem sample_laid : Laid asciiRe (piecesOf sampleList) sampleText := by
  have b0 : Spec.Blank [] := by unfold Spec.Blank; decide
  have b1 : Spec.Blank [' '] := by unfold Spec.Blank; decide
  exact .word (a := []) (b := []) (quiet_of _ _ (by decide +kernel)) b0 b0 <|
    .sym (a := []) (b := [' ']) (by decide) b0 b1 <|
    .word (a := []) (b := []) (quiet_of _ _ (by decide +kernel)) b0 b0 <|
    .sym (a := []) (b := []) (by decide) b0 b0 <|
    .word (a := []) (b := [' ']) (quiet_of _ _ (by decide +kernel)) b0 b1 <|
    .sym (a := []) (b := [' ']) (by decide) b0 b1 <|
    .word (a := []) (b := []) (quiet_of _ _ (by decide +kernel)) b0 b0 <|
    .sym (a := []) (b := [' ']) (by decide) b0 b1 <|
    .sym (a := []) (b := []) (by decide) b0 b0 <|
    .as (a := [' ']) (b := [' ']) (by decide) b1 b1 (by decide) (by decide) <|
    .word (a := []) (b := []) (quiet_of _ _ (by decide +kernel)) b0 b0 <|
    .sym (a := []) (b := []) (by decide) b0 b0 <|
    .word (a := []) (b := []) (quiet_of _ _ (by decide +kernel)) b0 b0 <|
    .sym (a := []) (b := [' ']) (by decide) b0 b1 <|
    .word (a := []) (b := [' ']) (quiet_of _ _ (by decide +kernel)) b0 b1 .nil

example (F : Funs) : ∃ ts, init asciiRe sampleLex sampleText = .ok ts ∧ ∀ rs : List Row,
    callAll F sampleLex ts rs = rs.map (fun r => columns F r sampleList) :=
  C62_one_each_partial asciiRe_sane sampleLex_sane F sample_good
    (by intro s hs
        simp only [sampleList, List.mem_cons, List.not_mem_nil, or_false] at hs
        rcases hs with rfl | rfl | rfl
        · exact trivial
        · rfl
        · rfl) rfl (by decide +kernel) sample_laid

example : columns (fun f args => .ok (if f = "LEFT".toList then .one (.str "mab".toList) else .one (.str ("MAB".toList ++ f))))
    [("name".toList, .one (.str "mabel".toList)), ("has age".toList, .one (.int 7))] sampleList =
    .ok [("n".toList, .one (.str "MABUPPER".toList)), ("`has age`".toList, .one (.int 7)), ("'x'".toList, .one (.str "x".toList))] := by
  rfl

example : init asciiRe sampleLex "LEN( a".toList = .error .invalidExpression :=
  C62_unbalanced asciiRe_sane sampleLex_sane "LEN".toList (by decide +kernel) [.leaf (.field "a".toList) none]
    (readables_good _ (good_one (by
      rw [Sel.Good]
      exact ⟨⟨⟨'a', [], rfl, by decide⟩, by decide, by decide +kernel⟩, fun _ _ h => by cases h⟩))) _
    (.word (a := []) (b := []) (quiet_of _ _ (by decide +kernel)) (by unfold Spec.Blank; decide) (by unfold Spec.Blank; decide) <|
      .sym (a := []) (b := [' ']) (by decide) (by unfold Spec.Blank; decide) (by unfold Spec.Blank; decide) <|
      .word (a := []) (b := []) (quiet_of _ _ (by decide +kernel)) (by unfold Spec.Blank; decide) (by unfold Spec.Blank; decide) .nil)

example (F : Funs) (r : Row) : ∃ ts, init asciiRe sampleLex "*".toList = .ok ts ∧ ∃ out, (call F sampleLex ts r).1 = .ok out ∧
    out.lookup "*".toList = some (.one (.str "*".toList)) ∧ ∀ k, k ≠ "*".toList → out.lookup k = r.lookup k :=
  C62_star_fails asciiRe_sane sampleLex_sane F _ r
    (.word (a := []) (b := []) (quiet_of _ _ (by decide +kernel)) (by unfold Spec.Blank; decide) (by unfold Spec.Blank; decide) .nil)

example (F : Funs) : ∃ ts, init asciiRe sampleLex " tRue".toList = .ok ts ∧ getFields ts = [] ∧
    ∀ r, (call F sampleLex ts r).1 = .ok [("tRue".toList, .one (.bool true))] :=
  C62_constant_fails asciiRe_sane sampleLex_sane F (.bool true "tRue".toList) _ (by show capitals "tRue".toList = _; decide)
    (Or.inr ⟨_, _, rfl⟩)
    (.word (a := [' ']) (b := []) (quiet_of _ _ (by decide +kernel)) (by unfold Spec.Blank; decide) (by unfold Spec.Blank; decide) .nil)

/-- `a AS b` gives the column `a`. -/
example (F : Funs) : ∃ ts, init asciiRe sampleLex "a AS b".toList = .ok ts ∧ getFields ts = ["b".toList] ∧
    ∀ r, (call F sampleLex ts r).1 = .ok [("a".toList, (Row.lookup r "a".toList).getD (.one .none))] :=
  C62_alias_fails asciiRe_sane sampleLex_sane F (.field "a".toList) "AS".toList "b".toList _
    (by
      rw [Sel.Good]
      refine ⟨⟨⟨'a', [], rfl, by decide⟩, by decide, by decide +kernel⟩, fun k n e => ?_⟩
      injection e with e
      injection e with e1 e2
      subst e1 e2
      exact ⟨by decide, ⟨'b', [], rfl, by decide⟩, by decide, by decide +kernel⟩) nofun ⟨nofun, nofun⟩
    (.word (a := []) (b := []) (quiet_of _ _ (by decide +kernel)) (by unfold Spec.Blank; decide) (by unfold Spec.Blank; decide) <|
      .as (a := [' ']) (b := [' ']) (by decide) (by unfold Spec.Blank; decide) (by unfold Spec.Blank; decide) (by decide) (by decide) <|
      .word (a := []) (b := []) (quiet_of _ _ (by decide +kernel)) (by unfold Spec.Blank; decide) (by unfold Spec.Blank; decide) .nil)

/-- `name, Upper, UPPER(name)`: the second item is the name of a function. -/
example : ∃ e, init asciiRe sampleLex "name, Upper, LEFT(name, 3)".toList = .error e := by
  have b0 : Spec.Blank [] := by unfold Spec.Blank; decide
  have b1 : Spec.Blank [' '] := by unfold Spec.Blank; decide
  have hn : ∀ k n, none = some (k, n) → capitals k = "AS".toList ∧ Name n := fun _ _ h => by cases h
  have h1 : Name "name".toList := ⟨⟨'n', "ame".toList, rfl, by decide⟩, by decide, by decide +kernel⟩
  refine C62_no_parentheses asciiRe_sane sampleLex_sane [.leaf (.field "name".toList) none]
    (by simp only [ReadableArgs, Sel.Readable, Leaf.Good]; exact ⟨⟨h1, hn⟩, trivial⟩) "Upper".toList (by decide +kernel) none hn
    [.call "LEFT".toList [.leaf (.field "name".toList) none, .leaf (.int 3) none] none]
    (by simp only [ReadableArgs, Sel.Readable, Leaf.Good]
        exact ⟨⟨by decide +kernel, ⟨⟨h1, hn⟩, ⟨trivial, hn⟩, trivial⟩, hn⟩, trivial⟩) _ ?_
  exact .word (a := []) (b := []) (quiet_of _ _ (by decide +kernel)) b0 b0 <|
    .sym (a := []) (b := [' ']) (by decide) b0 b1 <|
    .word (a := []) (b := []) (quiet_of _ _ (by decide +kernel)) b0 b0 <|
    .sym (a := []) (b := [' ']) (by decide) b0 b1 <|
    .word (a := []) (b := []) (quiet_of _ _ (by decide +kernel)) b0 b0 <|
    .sym (a := []) (b := []) (by decide) b0 b0 <|
    .word (a := []) (b := []) (quiet_of _ _ (by decide +kernel)) b0 b0 <|
    .sym (a := []) (b := [' ']) (by decide) b0 b1 <|
    .word (a := []) (b := []) (quiet_of _ _ (by decide +kernel)) b0 b0 <|
    .sym (a := []) (b := []) (by decide) b0 b0 .nil

end Mabel.Evaluator
