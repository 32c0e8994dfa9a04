import Verif.Model.FunctionTable
import Verif.Spec.FunctionTable
import Verif.Lemmas.Order
import Verif.Props.SqlStorage

/-! # The functions of SQL statements (C106) -/

namespace Mabel.FunctionTable
open Mabel.Py Mabel.Dates Mabel.Tokens Mabel.Filters Mabel.Functions Mabel.FunctionTable.Spec
open Mabel.Evaluator.Spec (Sel Leaf)
open Mabel.Order (AtMost Below Equal lt_ok_iff lt_true_iff lt_false_iff below_or)
open Mabel.Tokenizer.Spec (capitals)

variable (L : Lib)

/-- **C106**: each name that the tokeniser takes for a function has one. -/
theorem C106_names (u : Str) : u ∈ Expression.Spec.functionNames ↔ (names.lookup u).isSome = true := by
  have h : names.map Prod.fst = Expression.Spec.functionNames := by decide +kernel
  rw [← h]
  generalize names = l
  induction l with
  | nil => simp
  | cons x l ih =>
    rw [List.map_cons, List.mem_cons, List.lookup_cons]
    by_cases e : u = x.1
    · subst e; simp
    · have : (u == x.1) = false := by simpa using e
      rw [this]
      simp only [e, false_or]
      exact ih

theorem call_of {f : Str} {g : Fn} (h : names.lookup f = some g) (args : List Datum) : call L f args = g.call L f args := by
  simp only [call, h]

/-- The number of arguments, if it is fixed. -/
def Fn.arity : Fn → Option Nat
  | .now | .random | .round | .concat => none
  | .addDays | .daysDiff | .left | .right => some 2
  | .mid | .between => some 3
  | _ => some 1

theorem fn_arity (name : Str) (g : Fn) {n : Nat} (hg : g.arity = some n) (args : List Datum) (hn : args.length ≠ n) :
    g.call L name args = .error .typeError := by
  rcases args with _ | ⟨a, _ | ⟨b, _ | ⟨c, _ | ⟨d, t⟩⟩⟩⟩ <;>
  · cases g <;> cases hg <;> first | rfl | (exact absurd rfl hn) | (cases a <;> rfl) | (cases a with | one a => cases a <;> rfl | list l => rfl)

/-- **C106**: a number of arguments that a function does not take raises TypeError. -/
theorem C106_arity {f : String} {n : Nat} (h : (f, n) ∈ arity) (args : List Datum) (hn : args.length ≠ n) :
    call L f.toList args = .error .typeError := by
  have hall : ∀ x ∈ arity, (names.lookup x.1.toList).bind Fn.arity = some x.2 := by decide +kernel
  obtain ⟨g, hg, h2⟩ := Option.bind_eq_some_iff.1 (hall _ h)
  rw [call_of L hg]
  exact fn_arity L _ g h2 args hn

/-- **C106**: parts of dates, differences of dates and conversions to numbers have no value where there is none. -/
theorem C106_null (y : Datum) :
    (∀ f ∈ ["YEAR", "MONTH", "DAY", "QUARTER", "WEEK", "HOUR", "MINUTE", "SECOND", "TRUNC", "INTEGER", "DOUBLE"], call L f.toList [null] = .ok null) ∧
    call L "ADDDAYS".toList [null, y] = .ok null ∧ call L "DAYSDIFF".toList [null, y] = .ok null ∧
    call L "DAYSDIFF".toList [y, null] = .ok null := by
  have hd : names.lookup "DAYSDIFF".toList = some .daysDiff := by decide +kernel
  refine ⟨?_, rfl, ?_, ?_⟩
  · intro f hf
    simp only [List.mem_cons, List.not_mem_nil, or_false] at hf
    rcases hf with rfl | rfl | rfl | rfl | rfl | rfl | rfl | rfl | rfl | rfl | rfl <;> rfl
  · rw [call_of L hd]
    simp only [Fn.call, arg]
    unfold diffDays
    cases resolve (arg y) <;> rfl
  · rw [call_of L hd]
    show (diffDays (arg y) .none).map _ = _
    unfold diffDays
    cases resolve (arg y) <;> rfl

/-- **C106** (fails): where there is no value, the functions of texts take the word None for it, and BOOLEAN is true. -/
theorem C106_null_text_fails :
    call L "STRING".toList [null] = .ok (.one (.str "None".toList)) ∧
    call L "UPPER".toList [null] = .ok (.one (.str (L.lex.upper "None".toList))) ∧
    call L "LOWER".toList [null] = .ok (.one (.str (L.lib.lower "None".toList))) ∧
    call L "LEFT".toList [null, .one (.int 2)] = .ok (.one (.str "No".toList)) ∧
    (∀ s, call L "CONCAT".toList [null, .one (.str s)] = .ok (.one (.str ("None".toList ++ s)))) ∧
    (L.lex.upper "None".toList = "NONE".toList → call L "BOOLEAN".toList [null] = .ok (.one (.bool true))) := by
  refine ⟨rfl, rfl, rfl, rfl, fun s => ?_, fun h => ?_⟩
  · show text (join [] ["None".toList, s]) = _
    simp [text, join]
  · show Except.ok (Datum.one (.bool (L.lex.upper "None".toList != "FALSE".toList))) = _
    rw [h]
    rfl

/-- **C106** (fails): LEN, ROUND, SORT and BETWEEN raise where there is no value. -/
theorem C106_null_raises_fails :
    (∀ f ∈ ["LEN", "ROUND", "SORT"], call L f.toList [null] = .error .typeError) ∧
    ∀ low high, call L "BETWEEN".toList [null, low, high] = .error .typeError := by
  refine ⟨?_, ?_⟩
  · intro f hf
    simp only [List.mem_cons, List.not_mem_nil, or_false] at hf
    rcases hf with rfl | rfl | rfl <;> rfl
  · intro low high
    show (strictlyBetween null low high).map _ = _
    have : low.lt null = .error .typeError := by
      cases low with
      | list l => rfl
      | one a => cases a <;> rfl
    unfold strictlyBetween
    rw [this]
    rfl

/-- **C106**: ROUND gives the nearest whole number, and of two the even one. -/
theorem C106_round (q : Rat) : ∃ r : Int, call L "ROUND".toList [.one (.float q)] = .ok (.one (.int r)) ∧
    |q - r| ≤ 1 / 2 ∧ (|q - r| = 1 / 2 → r % 2 = 0) := by
  refine ⟨roundHalfEven q, rfl, ?_⟩
  have h1 := Int.floor_le q
  have h2 := Int.lt_floor_add_one q
  unfold roundHalfEven
  generalize ⌊q⌋ = f at h1 h2
  simp only
  split
  · rename_i h
    rw [abs_of_nonneg (by linarith)]
    exact ⟨by linarith, fun e => by linarith⟩
  split
  · rename_i h
    push_cast
    rw [abs_of_nonpos (by linarith)]
    exact ⟨by linarith, fun e => by linarith⟩
  split
  · rename_i h
    rw [abs_of_nonneg (by linarith)]
    exact ⟨by linarith, fun _ => h⟩
  · rename_i h
    push_cast
    rw [abs_of_nonpos (by linarith)]
    refine ⟨by linarith, fun _ => by omega⟩

/-- **C106**: TRUNC and INTEGER of a number leave out what is after the point. -/
theorem C106_truncate (q : Rat) (f : String) (hf : f = "TRUNC" ∨ f = "INTEGER") : ∃ r : Int,
    call L f.toList [.one (.float q)] = .ok (.one (.int r)) ∧ |q - r| < 1 ∧ |(r : Rat)| ≤ |q| ∧ 0 ≤ r * q := by
  refine ⟨truncate q, by rcases hf with rfl | rfl <;> rfl, ?_⟩
  unfold truncate
  split
  · rename_i h
    have h1 := Int.floor_le (-q)
    have h2 := Int.lt_floor_add_one (-q)
    have h3 : 0 ≤ ⌊-q⌋ := Int.floor_nonneg.2 (by linarith)
    have h3 : (0 : Rat) ≤ ⌊-q⌋ := by exact_mod_cast h3
    push_cast
    generalize (⌊-q⌋ : Rat) = z at h1 h2 h3
    refine ⟨by rw [abs_lt]; constructor <;> linarith, ?_, ?_⟩
    · rw [abs_neg, abs_of_nonneg h3, abs_of_neg h]; exact h1
    · nlinarith
  · rename_i h
    have h1 := Int.floor_le q
    have h2 := Int.lt_floor_add_one q
    have h0 : 0 ≤ q := by linarith
    have h3 : (0 : Rat) ≤ ⌊q⌋ := by exact_mod_cast Int.floor_nonneg.2 h0
    generalize (⌊q⌋ : Rat) = z at h1 h2 h3
    refine ⟨by rw [abs_lt]; constructor <;> linarith, ?_, by nlinarith⟩
    rw [abs_of_nonneg h3, abs_of_nonneg h0]; exact h1

/-- **C106**: texts that are numbers are converted. -/
theorem C106_double (s : Str) (q : Rat) (h : L.lex.float s = some q) : call L "DOUBLE".toList [.one (.str s)] = .ok (.one (.float q)) ∧
    call L "INTEGER".toList [.one (.str s)] = call L "INTEGER".toList [.one (.float q)] := by
  constructor
  · rw [call_of L (g := .double) (by decide +kernel)]
    show parseNumber L _ _ = _
    rw [parseNumber, if_neg (by simp), toFloat, h]
    rfl
  · rw [call_of L (g := .integer) (by decide +kernel), call_of L (g := .integer) (by decide +kernel)]
    show parseNumber L _ _ = parseNumber L _ _
    rw [parseNumber, if_neg (by simp), toFloat, h, parseNumber, if_neg (by simp), toFloat]

/-- **C106**: LEN of a text or of a list. -/
theorem C106_len (s : Str) (l : List Scalar) : call L "LEN".toList [.one (.str s)] = .ok (.one (.int s.length)) ∧
    call L "LEN".toList [.list l] = .ok (.one (.int l.length)) := ⟨rfl, rfl⟩

/-! ## SORT -/

theorem place_perm (a : Scalar) (l : List Scalar) : (place a l).Perm (a :: l) := by
  induction l with
  | nil => exact .refl _
  | cons b l ih =>
    unfold place
    split
    · exact (ih.cons b).trans (.swap _ _ _)
    · exact .refl _

theorem place_sorted {a : Scalar} {l : List Scalar} (hc : ∀ b ∈ l, Order.Comparable a b) (hl : l.Pairwise AtMost) :
    (place a l).Pairwise AtMost := by
  induction l with
  | nil => exact List.pairwise_singleton _ _
  | cons b l ih =>
    obtain ⟨h1, h2⟩ := List.pairwise_cons.1 hl
    unfold place
    split
    · rename_i hlt
      refine List.pairwise_cons.2 ⟨?_, ih (fun c hm => hc c (List.mem_cons_of_mem _ hm)) h2⟩
      intro c hm
      rcases List.mem_cons.1 ((place_perm a l).mem_iff.1 hm) with rfl | hm
      · exact (lt_true_iff.1 hlt).atMost
      · exact h1 c hm
    · rename_i hn
      have hab : AtMost a b := (below_or (hc b (List.mem_cons_self ..)).symm).resolve_left (fun h => hn (lt_true_iff.2 h))
      refine List.pairwise_cons.2 ⟨?_, hl⟩
      intro c hm
      rcases List.mem_cons.1 hm with rfl | hm
      · exact hab
      · exact hab.trans (h1 c hm)

theorem place_filter {x : Scalar} {keep : Scalar → Bool} (hk : ∀ y, keep y = true ↔ Equal x y) (a : Scalar) (l : List Scalar) :
    (place a l).filter keep = (a :: l).filter keep := by
  induction l with
  | nil => rfl
  | cons b l ih =>
    unfold place
    split
    · rename_i h
      rw [List.filter_cons, ih]
      by_cases hx : keep a = true
      · have : keep b = false := by
          rw [← Bool.not_eq_true, hk]
          exact Equal.not_below (lt_true_iff.1 h) ((hk a).1 hx)
        simp [hx, this]
      · simp [hx, List.filter_cons]
    · rfl

/-- **C106**: SORT gives the values of a list in ascending order, equal ones in the order they had, if they can be compared. -/
theorem C106_sort (l : List Scalar) (h : l.Pairwise Order.Comparable) : ∃ r, call L "SORT".toList [.list l] = .ok (.list r) ∧ r.Perm l ∧
    r.Pairwise AtMost ∧ ∀ (x : Scalar) (same : Scalar → Bool), (∀ y, same y = true ↔ Equal x y) → r.filter same = l.filter same := by
  refine ⟨l.foldr place [], ?_, ?_, ?_, ?_⟩
  · rw [call_of L (g := .sort) (by decide +kernel)]
    show (sorted l).map _ = _
    rw [sorted, if_pos (h.imp lt_ok_iff.2)]
    rfl
  · induction l with
    | nil => exact .refl _
    | cons a l ih => exact (place_perm a _).trans ((ih (List.pairwise_cons.1 h).2).cons a)
  · have hp : ∀ l : List Scalar, (l.foldr place []).Perm l := by
      intro l
      induction l with
      | nil => exact .refl _
      | cons a l ih => exact (place_perm a _).trans (ih.cons a)
    induction l with
    | nil => exact .nil
    | cons a l ih =>
      obtain ⟨h1, h2⟩ := List.pairwise_cons.1 h
      exact place_sorted (fun b hb => h1 b ((hp l).mem_iff.1 hb)) (ih h2)
  · intro x same hs
    clear h
    induction l with
    | nil => rfl
    | cons a l ih => rw [List.foldr_cons, place_filter hs, List.filter_cons, List.filter_cons, ih]

/-- **C106**: SORT of values that cannot all be compared raises TypeError. -/
theorem C106_sort_refused (l : List Scalar) (h : ¬ l.Pairwise Order.Comparable) : call L "SORT".toList [.list l] = .error .typeError := by
  rw [call_of L (g := .sort) (by decide +kernel)]
  show (sorted l).map _ = _
  rw [sorted, if_neg (fun hp => h (hp.imp lt_ok_iff.1))]
  rfl

/-- **C106**: BETWEEN is true exactly of what comes after one bound and before the other. -/
theorem C106_between (v low high : Scalar) (b : Bool) (h : call L "BETWEEN".toList [.one v, .one low, .one high] = .ok (.one (.bool b))) :
    b = true ↔ Below low v ∧ Below v high := by
  rw [call_of L (g := .between) (by decide +kernel)] at h
  have h : (strictlyBetween (.one v) (.one low) (.one high)).map (fun b => Datum.one (.bool b)) = .ok (.one (.bool b)) := h
  rw [← lt_true_iff, ← lt_true_iff]
  unfold strictlyBetween at h
  simp only [Datum.lt] at h
  cases h1 : low.lt v with
  | error e => rw [h1] at h; cases h
  | ok x =>
    rw [h1] at h
    cases x with
    | false => injection h with h; injection h with h; injection h with h; subst h; simp
    | true =>
      cases h2 : v.lt high with
      | error e => simp only [h2] at h; cases h
      | ok y => simp only [h2] at h; injection h with h; injection h with h; injection h with h; subst h; simp

/-- **C106**: BETWEEN of values that can be compared has a value. -/
theorem C106_between_value (v low high : Scalar) (h1 : Order.Comparable low v) (h2 : Order.Comparable v high) :
    ∃ b, call L "BETWEEN".toList [.one v, .one low, .one high] = .ok (.one (.bool b)) := by
  rw [call_of L (g := .between) (by decide +kernel)]
  show ∃ b, (strictlyBetween (.one v) (.one low) (.one high)).map (fun b => Datum.one (.bool b)) = .ok (.one (.bool b))
  have h1 := lt_ok_iff.2 h1
  have h2 := lt_ok_iff.2 h2
  unfold strictlyBetween
  simp only [Datum.lt]
  cases h3 : low.lt v with
  | error e => rw [h3] at h1; cases h1
  | ok x =>
    cases h4 : v.lt high with
    | error e => rw [h4] at h2; cases h2
    | ok y => cases x <;> exact ⟨_, rfl⟩

/-- **C106** (fails): unlike SQL's, BETWEEN does not count the bounds in. -/
theorem C106_between_bounds_fails (v high : Int) (h : v ≤ high) :
    call L "BETWEEN".toList [.one (.int v), .one (.int v), .one (.int high)] = .ok (.one (.bool false)) ∧
    call L "BETWEEN".toList [.one (.int high), .one (.int v), .one (.int high)] = .ok (.one (.bool false)) := by
  rw [call_of L (g := .between) (by decide +kernel), call_of L (g := .between) (by decide +kernel)]
  constructor
  · show (strictlyBetween _ _ _).map _ = _
    simp [strictlyBetween, Datum.lt, Scalar.lt, Scalar.num]
    rfl
  · show (strictlyBetween _ _ _).map _ = _
    by_cases e : v < high
    · simp [strictlyBetween, Datum.lt, Scalar.lt, Scalar.num, e]
      rfl
    · simp [strictlyBetween, Datum.lt, Scalar.lt, Scalar.num, e]
      rfl

/-! ## In statements -/

open Mabel.SqlReader Mabel.SqlReader.Spec Mabel.Evaluator.Spec
open Mabel.Sql.Spec (Query SaneChars GoodName)
open Mabel.Tokenizer.Spec (SaneRe)
open Mabel.Expression.Spec (Sane)

theorem harmless_fn {f : Str} (h : f ∈ harmless) (x : Datum) : ∃ v, call L f [x] = .ok v := by
  have hpart : ∀ p, ∃ v, (getPart p (arg x)).map ofPart = .ok v := by
    intro p
    unfold getPart
    cases hr : resolve (arg x) with
    | date t =>
      have : ∀ a : Arg, (∀ t, a ≠ .date t) → ∀ t, resolve a ≠ .date t := by
        intro a ha t
        cases a with
        | str s => simp only [resolve]; cases parseIso s <;> simp
        | date t' => exact absurd rfl (ha t')
        | _ => simp [resolve]
      refine absurd hr (this _ ?_ t)
      intro t
      unfold arg
      split <;> simp
    | _ => exact ⟨_, rfl⟩
  have hall : ∀ f ∈ harmless, names.lookup f ∈ [Fn.year, .month, .day, .quarter, .hour, .minute, .second, .upper, .lower, .trim, .string,
    .boolean, .isNone, .week].map some := by decide +kernel
  obtain ⟨g, hg, e⟩ := List.mem_map.1 (hall f h)
  rw [call_of L e.symm]
  simp only [List.mem_cons, List.not_mem_nil, or_false] at hg
  rcases hg with rfl | rfl | rfl | rfl | rfl | rfl | rfl | rfl | rfl | rfl | rfl | rfl | rfl | rfl
  · exact hpart _
  · exact hpart _
  · exact hpart _
  · exact hpart _
  · exact hpart _
  · exact hpart _
  · exact hpart _
  · exact ⟨_, rfl⟩
  · exact ⟨_, rfl⟩
  · exact ⟨_, rfl⟩
  · cases x with
    | one a => exact ⟨_, rfl⟩
    | list l => exact ⟨_, rfl⟩
  · exact ⟨_, rfl⟩
  · exact ⟨_, rfl⟩
  · exact ⟨_, rfl⟩

theorem concat_fn (xs : List Datum) : ∃ v, call L "CONCAT".toList xs = .ok v := by
  rw [call_of L (g := .concat) (by decide +kernel)]
  rcases xs with _ | ⟨a, _ | ⟨b, t⟩⟩
  · exact ⟨_, rfl⟩
  · cases a <;> exact ⟨_, rfl⟩
  · cases a <;> exact ⟨_, rfl⟩

theorem daysDiff_fn (x y : Datum) : ∃ v, call L "DAYSDIFF".toList [x, y] = .ok v := by
  rw [call_of L (g := .daysDiff) (by decide +kernel)]
  simp only [Fn.call]
  have hr : ∀ z : Datum, (∃ t, resolve (arg z) = .datetime t) ∨ resolve (arg z) = .none := by
    intro z
    unfold arg
    split
    · unfold resolve
      simp only
      split
      · exact Or.inl ⟨_, rfl⟩
      · exact Or.inr rfl
    · exact Or.inl ⟨_, rfl⟩
    · exact Or.inr rfl
  unfold diffDays
  rcases hr x with ⟨t, h1⟩ | h1 <;> rcases hr y with ⟨u, h2⟩ | h2 <;> rw [h1, h2] <;> exact ⟨_, rfl⟩

mutual
theorem harmless_value (r : Row) : ∀ s : Sel, Harmless s → ∃ v, s.value (call L) r = .ok v
  | .leaf l a, _ => ⟨_, by rw [Sel.value]⟩
  | .call f args a, h => by
    rw [Harmless] at h
    obtain ⟨vs, hv, hlen⟩ := harmless_values r args h.1
    rw [Sel.value, hv]
    show ∃ v, call L (capitals f) vs = .ok v
    rcases h.2 with ⟨h1, h2⟩ | h1 | ⟨h1, h2⟩
    · rw [h2] at hlen
      obtain ⟨x, rfl⟩ := List.length_eq_one_iff.1 hlen
      exact harmless_fn L h1 x
    · rw [h1]; exact concat_fn L vs
    · rw [h2] at hlen
      obtain ⟨x, y, rfl⟩ := List.length_eq_two.1 hlen
      rw [h1]
      exact daysDiff_fn L x y

theorem harmless_values (r : Row) : ∀ ss : List Sel, HarmlessArgs ss → ∃ vs, values (call L) r ss = .ok vs ∧ vs.length = ss.length
  | [], _ => ⟨[], by rw [values], rfl⟩
  | s :: ss, h => by
    rw [HarmlessArgs] at h
    obtain ⟨v, hv⟩ := harmless_value r s h.1
    obtain ⟨vs, h1, h2⟩ := harmless_values r ss h.2
    refine ⟨v :: vs, ?_, by simp [h2]⟩
    rw [values, hv, h1]
    rfl
end

theorem harmless_columns (r : Row) {ss : List Sel} (h : HarmlessArgs ss) : ∃ out, columns (call L) r ss = .ok out := by
  induction ss with
  | nil => exact ⟨_, by rw [columns]⟩
  | cons s ss ih =>
    rw [HarmlessArgs] at h
    obtain ⟨v, hv⟩ := harmless_value L r s h.1
    obtain ⟨out, ho⟩ := ih h.2
    exact ⟨_, by rw [columns, hv, ho]; rfl⟩

variable {env : Env}

/-- **C106**: a statement that uses only functions which have a value for every argument is answered with every record that meets the
condition, whatever fields the records lack and whatever is in them.

Missing for the full property: the other functions, see `C106_select_null_fails`. -/
theorem C106_select_partial (hF : env.funs = call L) (hre : SaneRe env.re) (hl : Sane env.lex) (hch : SaneChars env.ch) {raw : Str} {q : Query}
    (hq : Asks env raw q) {b d : Str} (hsel : q.select = some b) (hsrc : q.source = some (.dataset d)) (hd : GoodName env.ch d)
    {bs : List (List Row)} (hbs : env.blobs d = .ok bs) (hgb : q.groupBy = none) (hhv : q.having = none)
    {ss : List Sel} (hb : Laid env.re (piecesOf ss) b) (hg : GoodArgs ss) (hs : Selectable ss bs.flatten) (hh : HarmlessArgs ss)
    {cond : Row → Bool} (hw : Where env (Hidden ss) bs.flatten q.whereExpr cond)
    (ht : ∀ out : Row → Row, (∀ r, columns (call L) r ss = .ok (out r)) → Tame env q ((bs.flatten.filter cond).map out)) :
    ∃ (out : Row → Row) (g : Blobs.Gen Row), (∀ r, columns (call L) r ss = .ok (out r)) ∧ Answers env raw g ∧ g.raised = none ∧
      Result q ((bs.flatten.filter cond).map out) g.items := by
  choose out hout using fun r => harmless_columns L r hh
  obtain ⟨g, h1, h2, h3⟩ := C49_select_partial hre hl hch hq hsel hsrc hd hbs hgb hhv hb hg hs (out := out)
    (fun r _ => by rw [hF]; exact hout r) hw (ht out hout)
  exact ⟨out, g, hout, h1, h2, h3⟩

/-- **C106** (fails): LEN, ROUND or SORT of a field that a record lacks ends the blob without a word: the records after it are not
answered, whatever they are. -/
theorem C106_select_null_fails (hF : env.funs = call L) (hre : SaneRe env.re) (hl : Sane env.lex) (hch : SaneChars env.ch) {raw b d : Str}
    (hq : Asks env raw { select := some b, source := some (.dataset d) }) (hd : GoodName env.ch d) {bad : Row} {post : List Row}
    (hbs : env.blobs d = .ok [bad :: post]) {f n : Str} (hf : capitals f ∈ ["LEN", "ROUND", "SORT"].map String.toList)
    (hn : Expression.Spec.Name n) (hb : Laid env.re (piecesOf [.call f [.leaf (.field n) none] none]) b) (hlack : bad.lookup n = none) :
    Answers env raw (Blobs.Gen.of []) := by
  have hname : capitals f ∈ Expression.Spec.functionNames := by
    have h : ∀ x ∈ ["LEN", "ROUND", "SORT"].map String.toList, x ∈ Expression.Spec.functionNames := by decide +kernel
    exact h _ hf
  have hna : GoodAlias none := fun _ _ h => by cases h
  have hg : GoodArgs [.call f [.leaf (.field n) none] none] := by
    rw [GoodArgs, GoodArgs, Sel.Good, GoodArgs, GoodArgs, Sel.Good]
    exact ⟨⟨hname, ⟨⟨hn, hna⟩, trivial⟩, hna⟩, trivial⟩
  refine C49_raise_fails hre hl hch hq hd (pre := []) hbs hb hg
    ⟨⟨by simp, by intro s hs h; rw [List.mem_singleton] at hs; subst hs; exact absurd rfl h, by simp [Sel.given]⟩, by simp, by simp, nofun⟩
    (out := id) (by simp) (e := .typeError) ?_
  rw [columns, Sel.value, values, Sel.value, values, Leaf.value, hlack, hF]
  show (do let v ← call L (capitals f) [null]; _) = _
  obtain ⟨x, hx, e⟩ := List.mem_map.1 hf
  rw [← e, (C106_null_raises_fails L).1 x hx]
  rfl

/-! ## Non-vacuity -/

/-- The functions on a sample of libraries. -/
def sampleLib : Lib := ⟨sampleEnv.lib, sampleEnv.lex, fun _ _ => .error .attributeError⟩

/-- The sample of statements with these functions. -/
def tableEnv : Env := { sampleEnv with funs := call sampleLib }

example : call sampleLib "SORT".toList [.list [.int 3, .bool true, .float (1 / 2), .int 1]] =
    .ok (.list [.float (1 / 2), .bool true, .int 1, .int 3]) := by decide +kernel

example : call sampleLib "SORT".toList [.list [.int 3, .str "x".toList]] = .error .typeError :=
  C106_sort_refused _ _ (by
    intro h
    rcases (List.pairwise_cons.1 h).1 _ (List.mem_singleton.2 rfl) with ⟨h1, h2⟩ | _ | _
    cases h2)

example : call sampleLib "ROUND".toList [.one (.float (5 / 2))] = .ok (.one (.int 2)) ∧
    call sampleLib "INTEGER".toList [.one (.float (-5 / 2))] = .ok (.one (.int (-2))) := by decide +kernel

open Mabel.Tokenizer (asciiRe_sane)
open Mabel.Sql (asciiChars_sane good_of body_of)
open Mabel.Expression (sampleLex_sane)
open Mabel.Evaluator (quiet_of)

/-- Non-vacuity of `C106_select_partial`. -/
example : ∃ (out : Row → Row) (g : Blobs.Gen Row), Answers tableEnv rawStored2 g ∧ g.raised = none ∧
    g.items = [sampleRow 1 "x", sampleRow 3 "y"].map out ∧
    out (sampleRow 3 "y") = [("a".toList, .one (.int 3)), ("c".toList, .one (.str "Y".toList))] := by
  obtain ⟨out, g, h0, h1, h2, h3⟩ := C106_select_partial sampleLib (env := tableEnv) rfl asciiRe_sane sampleLex_sane asciiChars_sane
    asks_stored2 rfl rfl (good_of _ (by decide +kernel)) rfl rfl rfl sels_laid sels_good sels_selectable
    (by
      unfold sampleSels
      rw [HarmlessArgs, HarmlessArgs, HarmlessArgs, Harmless, Harmless, HarmlessArgs, HarmlessArgs, Harmless]
      exact ⟨trivial, ⟨⟨trivial, trivial⟩, Or.inl ⟨by decide +kernel, rfl⟩⟩, trivial⟩)
    (where_pos (by
      rintro (h | ⟨s, hs, h⟩)
      · exact absurd h (by decide)
      · simp only [sampleSels, List.mem_cons, List.not_mem_nil, or_false] at hs
        rcases hs with rfl | rfl
        · exact h
        · exact absurd (show "c".toList = "a".toList from h) (by decide)))
    (fun _ _ => ⟨nofun, nofun, fun h => absurd rfl h, nofun⟩)
  refine ⟨out, g, h1, h2, h3, ?_⟩
  have h4 : columns (call sampleLib) (sampleRow 3 "y") sampleSels =
    .ok [("a".toList, .one (.int 3)), ("c".toList, .one (.str "Y".toList))] := by decide +kernel
  rw [h0] at h4
  injection h4

def rawLen : Str := "SELECT LEN(b) FROM d".toList

/-- Non-vacuity of `C106_select_null_fails`: the second record is not answered because the first has no `b`. -/
example : Answers { tableEnv with blobs := fun _ => .ok [[[("a".toList, .one (.int 1))], sampleRow 2 "x"]] } rawLen (Blobs.Gen.of []) := by
  refine C106_select_null_fails sampleLib rfl asciiRe_sane sampleLex_sane asciiChars_sane (b := "LEN(b)".toList) (d := "d".toList)
    (f := "LEN".toList) (n := "b".toList) ?_ (good_of _ (by decide +kernel)) rfl (by decide +kernel) ⟨⟨_, _, rfl, by decide⟩, by decide, by decide⟩ ?_ rfl
  · refine ⟨[.select false "LEN(b)".toList, .dataset "d".toList], ?_, ⟨nofun, trivial⟩, by decide +kernel⟩
    have e : Tokenizer.clean (Sql.removeComments rawLen) = "SELECT".toList ++ ' ' :: "LEN(b)".toList ++ ' ' ::
      ("FROM".toList ++ ' ' :: "d".toList) := by decide +kernel
    rw [e]
    exact .more (.select (by decide) (body_of _ (by decide) (by decide) (by decide +kernel)))
      (.one (.dataset (by decide) (body_of _ (by decide) (by decide) (by decide +kernel)) (by decide) (by decide)))
  · exact .word (a := []) (b := []) (quiet_of _ _ (by decide +kernel)) b0 b0 <|
      .sym (a := []) (b := []) (by decide) b0 b0 <|
      .word (a := []) (b := []) (quiet_of _ _ (by decide +kernel)) b0 b0 <|
      .sym (a := []) (b := []) (by decide) b0 b0 .nil

end Mabel.FunctionTable
