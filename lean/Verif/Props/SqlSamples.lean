import Verif.Props.SqlFails

/-!
# C49: statements that meet the hypotheses of the theorems
-/

namespace Mabel.SqlReader
open Mabel.Py Mabel.Dates Mabel.Tokens Mabel.Filters Mabel.Records Mabel.Blobs Mabel.Expression Mabel.Expression.Spec Mabel.Evaluator
  Mabel.Evaluator.Spec Mabel.SqlReader.Spec
open Mabel.Sql (asciiChars asciiChars_sane good_of body_of)
open Mabel.Sql.Spec (Query Clause Statement OrderLast SaneChars GoodName Parses view)
open Mabel.Tokenizer (Re parseText asciiRe asciiRe_sane follows_iff)
open Mabel.Tokenizer.Spec (SaneRe capitals Lexeme)
open Mabel.GroupBy (Func extend)
open Mabel.GroupBy.Spec (nonNull)

def sampleRow (a : Int) (b : String) : Row := [("a".toList, .one (.int a)), ("b".toList, .one (.str b.toList))]

/-- UPPER of a text; other calls raise. -/
def sampleFuns : Funs := fun f args =>
  match args with
  | [.one (.str s)] => if f = "UPPER".toList then .ok (.one (.str (s.map Char.toUpper))) else .error .keyError
  | _ => .error .typeError

/-- Two blobs of three records. -/
def sampleEnv : Env where
  re := asciiRe
  lex := sampleLex
  ch := asciiChars
  lib := ⟨fun s => s.map Char.toLower, fun _ => [], fun _ => .error .reError, fun _ _ => false⟩
  funs := sampleFuns
  hash := fun s => BitVec.ofNat 64 (s.foldl (fun h c => h * 257 + c.toNat) 7)
  groupHash := fun s => s.foldl (fun h c => h * 257 + c.toNat) 7
  blobs := fun _ => .ok [[sampleRow 1 "x", sampleRow 3 "y"], [sampleRow 0 "z"]]

def rawSelect : Str := "SELECT a, UPPER(b) AS c FROM d.e WHERE a > 0 ORDER BY a DESC LIMIT 1 -- the greatest".toList

theorem asks_select : Asks sampleEnv rawSelect
    { select := some "a, UPPER(b) AS c".toList, source := some (.dataset "d/e".toList), whereExpr := some "a > 0".toList,
      orderBy := some "a".toList, descending := true, limit := some 1 } := by
  refine ⟨[.select false "a, UPPER(b) AS c".toList, .dataset "d.e".toList, .where_ "a > 0".toList, .orderBy "a".toList (some true), .limit 1], ?_,
    ⟨nofun, nofun, nofun, nofun, trivial⟩, by decide +kernel⟩
  have e : Tokenizer.clean (Sql.removeComments rawSelect) = "SELECT".toList ++ ' ' :: "a, UPPER(b) AS c".toList ++ ' ' ::
    ("FROM".toList ++ ' ' :: "d.e".toList ++ ' ' :: ("WHERE".toList ++ ' ' :: "a > 0".toList ++ ' ' ::
    ("ORDER BY".toList ++ ' ' :: ("a".toList ++ ' ' :: "DESC".toList) ++ ' ' :: ("LIMIT".toList ++ ' ' :: intStr 1)))) := by decide +kernel
  rw [e]
  exact .more (.select (by decide) (body_of _ (by decide) (by decide) (by decide +kernel)))
    (.more (.dataset (by decide) (body_of _ (by decide) (by decide) (by decide +kernel)) (by decide) (by decide))
    (.more (.where_ (by decide) (body_of _ (by decide) (by decide) (by decide +kernel)))
    (.more (.descending (by decide) (by decide) (body_of _ (by decide) (by decide) (by decide +kernel)))
    (.one (.limit (by decide))))))

theorem b0 : Spec.Blank [] := by unfold Spec.Blank; decide
theorem b1 : Spec.Blank [' '] := by unfold Spec.Blank; decide

def sampleSels : List Sel := [.leaf (.field "a".toList) none, .call "UPPER".toList [.leaf (.field "b".toList) none] (some ("AS".toList, "c".toList))]

theorem name_c : Name "c".toList := ⟨⟨_, _, rfl, by decide⟩, by decide, by decide⟩

theorem sels_laid : Laid asciiRe (piecesOf sampleSels) "a, UPPER(b) AS c".toList :=
  .word (a := []) (b := []) (quiet_of _ _ (by decide +kernel)) b0 b0 <|
  .sym (a := []) (b := [' ']) (by decide) b0 b1 <|
  .word (a := []) (b := []) (quiet_of _ _ (by decide +kernel)) b0 b0 <|
  .sym (a := []) (b := []) (by decide) b0 b0 <|
  .word (a := []) (b := []) (quiet_of _ _ (by decide +kernel)) b0 b0 <|
  .sym (a := []) (b := []) (by decide) b0 b0 <|
  .as (a := [' ']) (b := [' ']) (by decide) b1 b1 (by decide) (by decide) <|
  .word (a := []) (b := []) (quiet_of _ _ (by decide +kernel)) b0 b0 .nil

theorem sels_good : GoodArgs sampleSels := by
  unfold sampleSels
  rw [GoodArgs, GoodArgs, GoodArgs, Sel.Good, Sel.Good, GoodArgs, GoodArgs, Sel.Good]
  exact ⟨⟨name_a, fun _ _ h => by cases h⟩, ⟨by decide +kernel, ⟨⟨name_b, fun _ _ h => by cases h⟩, trivial⟩, by
    intro kw n h; cases h; exact ⟨by decide, name_c⟩⟩, trivial⟩

theorem sels_selectable : Selectable sampleSels [sampleRow 1 "x", sampleRow 3 "y", sampleRow 0 "z"] := by
  refine ⟨⟨by decide +kernel, by decide +kernel, by decide +kernel⟩, by simp [sampleSels], ?_, ?_⟩
  · intro a
    simp [sampleSels]
  · intro f args a h r hr
    simp only [sampleSels, List.mem_cons, List.not_mem_nil, or_false, reduceCtorEq, false_or, Sel.call.injEq, Option.some.injEq] at h
    obtain ⟨rfl, rfl, rfl⟩ := h
    have : ∀ r ∈ [sampleRow 1 "x", sampleRow 3 "y", sampleRow 0 "z"], r.lookup "UPPER(b)".toList = none := by decide +kernel
    exact this r hr

def posText : List Lexeme := [.word "a".toList, .key ">".toList, .word "0".toList]

theorem pos_laid : Tokenizer.Spec.Laid asciiRe posText "a > 0".toList := by
  have k1 : (Lexeme.key ">".toList).collapsed.Good asciiRe := by
    show _ ∨ _ ∨ _ ∨ _
    decide +kernel
  have w1 : (Lexeme.word "0".toList).collapsed.Good asciiRe := by
    show _ ∧ _ ∧ _
    decide +kernel
  have w2 : (Lexeme.word "a".toList).collapsed.Good asciiRe := by
    show _ ∧ _ ∧ _
    decide +kernel
  exact .mk (lead := []) (trail := []) (by decide) (by decide) w2
      (.cons (sep := [' ']) (by decide) (follows_iff (by decide +kernel)) k1
      (.cons (sep := [' ']) (by decide) (follows_iff (by decide +kernel)) w1 .nil))

def positive (r : Row) : Bool := match r.lookup "a".toList with | some (.one (.int i)) => decide (0 < i) | _ => false

theorem pos_simple : ∀ l ∈ posText, l.Simple asciiRe := by
  intro l hl
  simp only [posText, List.mem_cons, List.not_mem_nil, or_false] at hl
  rcases hl with rfl | rfl | rfl
  · exact Or.inl name_a
  · trivial
  · exact Or.inr (Or.inl ⟨0, by decide +kernel⟩)

theorem pos_written : Written .or (.cmp (.var "a".toList) ">".toList (.int 0)) (posText.map Lexeme.token) :=
  .oneAnd (.oneCond (.cmp (.plain (.name name_a)) (by decide) (.plain (.int 0))))

theorem pos_evaluate {r : Row} {i : Int} (h : r.lookup "a".toList = some (.one (.int i))) :
    evaluate sampleEnv.lib sampleEnv.lex r (.cmp (.var "a".toList) ">".toList (.int 0)) = .ok (positive r) := by
  unfold positive
  have e : evalTerm sampleLex r (.var "a".toList) = .ok (.one (.int i)) := by
    rw [evalTerm, if_neg (by decide), show bareName "a".toList = "a".toList by decide, h]
    rfl
  rw [h, Expression.evaluate, show sampleEnv.lex = sampleLex from rfl, e]
  show Except.ok (decide (((0 : Int) : Rat) < (i : Rat))) = Except.ok (decide (0 < i))
  rw [decide_eq_decide.2 Rat.intCast_lt_intCast]

theorem where_pos {hidden : Str → Prop} (h : ¬ hidden "a".toList) :
    Where sampleEnv hidden [sampleRow 1 "x", sampleRow 3 "y", sampleRow 0 "z"] (some "a > 0".toList) positive := by
  refine ⟨posText, _, pos_laid, pos_simple, pos_written, ?_, ?_, ?_⟩
  · intro c hc
    rw [comparisons, List.mem_singleton] at hc
    subst hc
    exact ⟨fun k e => ⟨_, Or.inl ⟨name_a, by injection e with e; exact e.symm⟩⟩, nofun⟩
  · rintro k ⟨c, hc, name, h1, h2⟩
    rw [comparisons, List.mem_singleton] at hc
    subst hc
    rcases h1 with h1 | h1
    · injection h1 with h1
      subst h1
      rcases h2 with ⟨_, rfl⟩ | ⟨_, _, h2⟩
      · exact h
      · cases h2
    · cases h1
  · intro r hr
    simp only [List.mem_cons, List.not_mem_nil, or_false] at hr
    rcases hr with rfl | rfl | rfl <;> rfl

def upperB (r : Row) : Row :=
  [("a".toList, (r.lookup "a".toList).getD (.one .none)),
    ("c".toList, match r.lookup "b".toList with | some (.one (.str s)) => .one (.str (s.map Char.toUpper)) | _ => .one .none)]

theorem perm_pair {α : Type} {x y : α} {s : List α} (h : s.Perm [x, y]) : s = [x, y] ∨ s = [y, x] := by
  have hl := h.length_eq
  match s, hl with
  | [u, v], _ =>
    have hu : u = x ∨ u = y := by simpa using h.mem_iff.1 (List.mem_cons_self ..)
    rcases hu with rfl | rfl
    · have := (List.perm_cons u).1 h
      rw [List.perm_singleton] at this
      exact Or.inl (by rw [this])
    · have := (List.perm_cons u).1 (h.trans (List.Perm.swap u x []))
      rw [List.perm_singleton] at this
      exact Or.inr (by rw [this])

/-- C49: the record with the greatest `a` above 0, from the text of the statement. -/
example : Answers sampleEnv rawSelect (Gen.of [[("a".toList, .one (.int 3)), ("c".toList, .one (.str "Y".toList))]]) := by
  obtain ⟨g, h1, h2, h3⟩ := C49_select_partial (env := sampleEnv) asciiRe_sane sampleLex_sane asciiChars_sane asks_select rfl rfl
    (good_of _ (by decide +kernel)) rfl rfl rfl sels_laid sels_good sels_selectable (out := upperB)
    (by
      intro r hr
      simp only [List.flatten_cons, List.flatten_nil, List.cons_append, List.nil_append, List.mem_cons, List.not_mem_nil, or_false] at hr
      rcases hr with rfl | rfl | rfl <;> rfl)
    (where_pos (by
      rintro (h | ⟨s, hs, h⟩)
      · exact absurd h (by decide)
      · simp only [sampleSels, List.mem_cons, List.not_mem_nil, or_false] at hs
        rcases hs with rfl | rfl
        · exact h
        · exact absurd (show "c".toList = "a".toList from h) (by decide)))
    ⟨nofun, by
      intro c hc
      injection hc with hc
      subst hc
      refine ⟨by decide, ?_⟩
      intro r hr s hs x y hx hy
      have : ∀ r ∈ ([[sampleRow 1 "x", sampleRow 3 "y"], [sampleRow 0 "z"]].flatten.filter positive).map upperB,
        value "a".toList r = some (.one (.int 1)) ∨ value "a".toList r = some (.one (.int 3)) := by decide +kernel
      have h1 := this r hr
      have h2 := this s hs
      rw [hx] at h1
      rw [hy] at h2
      rcases h1 with h1 | h1 <;> rcases h2 with h2 | h2 <;> cases h1 <;> cases h2 <;>
        exact ⟨_, _, rfl, rfl, .number (.whole _) (.whole _)⟩, nofun,
      by intro i hi; cases hi; decide⟩
  obtain ⟨s, ⟨hp, hs, _⟩, h4⟩ := h3
  have e : ([[sampleRow 1 "x", sampleRow 3 "y"], [sampleRow 0 "z"]].flatten.filter positive).map upperB =
    [[("a".toList, .one (.int 1)), ("c".toList, .one (.str "X".toList))], [("a".toList, .one (.int 3)), ("c".toList, .one (.str "Y".toList))]] := by
    decide +kernel
  have h5 : s = [_, _] ∨ s = [_, _] := perm_pair (hp.trans (by rw [if_neg (by decide)]; exact List.Perm.of_eq e))
  have h6 : s = [[("a".toList, .one (.int 3)), ("c".toList, .one (.str "Y".toList))], [("a".toList, .one (.int 1)), ("c".toList, .one (.str "X".toList))]] := by
    rcases h5 with h5 | h5
    · rw [h5] at hs
      have := (List.pairwise_cons.1 hs).1 _ (List.mem_singleton.2 rfl)
      have : (∃ s t, Datum.one (.int 3) = .one s ∧ Datum.one (.int 1) = .one t ∧ Order.AtMost s t) ∨
        (∃ l m, Datum.one (.int 3) = .list l ∧ Datum.one (.int 1) = .list m) := this
      rcases this with ⟨s, t, e1, e2, h⟩ | ⟨_, _, e1, _⟩
      · cases e1
        cases e2
        exact absurd (.number (.whole 1) (.whole 3) (by norm_num)) h.2
      · cases e1
    · exact h5
  rw [h6] at h4
  obtain ⟨items, raised⟩ := g
  have h2 : raised = none := h2
  have h4 : items = _ := h4
  rw [h2, h4] at h1
  exact h1

theorem gen_eq {g : Gen Row} {l : List Row} (h1 : g.raised = none) (h2 : g.items = l) : g = Gen.of l := by
  obtain ⟨items, raised⟩ := g
  have h1 : raised = none := h1
  have h2 : items = l := h2
  rw [h1, h2]
  rfl

theorem plain_query (q : Query) (rows : List Row) (h1 : q.distinct = false) (h2 : q.orderBy = none) (h3 : q.limit = none) : Tame sampleEnv q rows :=
  ⟨by rw [h1]; nofun, by rw [h2]; nofun, by rw [h2]; exact fun h => absurd rfl h, by rw [h3]; nofun⟩

def rawStar : Str := "SELECT * FROM d WHERE a > 0".toList

theorem asks_star : Asks sampleEnv rawStar { select := some "*".toList, source := some (.dataset "d".toList), whereExpr := some "a > 0".toList } := by
  refine ⟨[.select false "*".toList, .dataset "d".toList, .where_ "a > 0".toList], ?_, ⟨nofun, nofun, trivial⟩, by decide +kernel⟩
  have e : Tokenizer.clean (Sql.removeComments rawStar) = "SELECT".toList ++ ' ' :: "*".toList ++ ' ' ::
    ("FROM".toList ++ ' ' :: "d".toList ++ ' ' :: ("WHERE".toList ++ ' ' :: "a > 0".toList)) := by decide +kernel
  rw [e]
  exact .more (.select (by decide) (body_of _ (by decide) (by decide) (by decide +kernel)))
    (.more (.dataset (by decide) (body_of _ (by decide) (by decide) (by decide +kernel)) (by decide) (by decide))
    (.one (.where_ (by decide) (body_of _ (by decide) (by decide) (by decide +kernel)))))

/-- C49: `SELECT *` and WHERE. -/
theorem answers_star : Answers sampleEnv rawStar (Gen.of [sampleRow 1 "x", sampleRow 3 "y"]) := by
  obtain ⟨g, h1, h2, h3⟩ := C49_star_partial (env := sampleEnv) asciiRe_sane sampleLex_sane asciiChars_sane asks_star rfl rfl
    (good_of _ (by decide +kernel)) rfl rfl rfl nofun (where_pos (fun h => h)) (plain_query _ _ rfl rfl rfl)
  have : g.items = [sampleRow 1 "x", sampleRow 3 "y"] := by
    have e : ([[sampleRow 1 "x", sampleRow 3 "y"], [sampleRow 0 "z"]].flatten.filter positive) = [sampleRow 1 "x", sampleRow 3 "y"] := by
      decide +kernel
    rw [← e]
    exact h3
  rwa [gen_eq h2 this] at h1

/-! ## GROUP BY -/

def rawGroup : Str := "SELECT a, COUNT(*) FROM d GROUP BY a HAVING a > 0".toList

theorem asks_group : Asks sampleEnv rawGroup
    { select := some "a, COUNT(*)".toList, source := some (.dataset "d".toList), groupBy := some "a".toList, having := some "a > 0".toList } := by
  refine ⟨[.select false "a, COUNT(*)".toList, .dataset "d".toList, .groupBy "a".toList, .having "a > 0".toList], ?_,
    ⟨nofun, nofun, nofun, trivial⟩, by decide +kernel⟩
  have e : Tokenizer.clean (Sql.removeComments rawGroup) = "SELECT".toList ++ ' ' :: "a, COUNT(*)".toList ++ ' ' ::
    ("FROM".toList ++ ' ' :: "d".toList ++ ' ' :: ("GROUP BY".toList ++ ' ' :: "a".toList ++ ' ' ::
    ("HAVING".toList ++ ' ' :: "a > 0".toList))) := by decide +kernel
  rw [e]
  exact .more (.select (by decide) (body_of _ (by decide) (by decide) (by decide +kernel)))
    (.more (.dataset (by decide) (body_of _ (by decide) (by decide) (by decide +kernel)) (by decide) (by decide))
    (.more (.groupBy (by decide) (body_of _ (by decide) (by decide) (by decide +kernel)))
    (.one (.having (by decide) (body_of _ (by decide) (by decide) (by decide +kernel))))))

def groupSels : List Sel := [.leaf (.field "a".toList) none, .call "COUNT".toList [.leaf .star none] none]

theorem group_laid : Laid asciiRe (piecesOf groupSels) "a, COUNT(*)".toList :=
  .word (a := []) (b := []) (quiet_of _ _ (by decide +kernel)) b0 b0 <|
  .sym (a := []) (b := [' ']) (by decide) b0 b1 <|
  .word (a := []) (b := []) (quiet_of _ _ (by decide +kernel)) b0 b0 <|
  .sym (a := []) (b := []) (by decide) b0 b0 <|
  .word (a := []) (b := []) (quiet_of _ _ (by decide +kernel)) b0 b0 <|
  .sym (a := []) (b := []) (by decide) b0 b0 .nil

theorem none_alias : GoodAlias none := fun _ _ h => by cases h

theorem group_readable : ReadableArgs groupSels := by
  unfold groupSels
  rw [ReadableArgs, ReadableArgs, ReadableArgs, Sel.Readable, Sel.Readable, ReadableArgs, ReadableArgs, Sel.Readable]
  exact ⟨⟨name_a, none_alias⟩, ⟨by decide +kernel, ⟨⟨trivial, none_alias⟩, trivial⟩, none_alias⟩, trivial⟩

/-- The records with the fields that `SELECT a, COUNT(*) … GROUP BY a` is about. -/
def groupRecords : List Record := [[("a".toList, .int 1)], [("a".toList, .int 3)], [("a".toList, .int 0)]]

/-- The records with the fields that `SELECT COUNT(*)` is about: none. -/
def totalRecords : List Record := [[], [], []]

theorem few_of {columns : List Str} {rs : List Record} (h : rs.length < 4999999) : GroupBy.FewGroups columns rs := by
  intro l hsub hp
  have hn : l.Nodup := hp.imp (by
    rintro a b h rfl
    have : GroupBy.Spec.agree columns a a = true := by simp [GroupBy.Spec.agree]
    rw [h] at this
    cases this)
  exact Nat.lt_of_le_of_lt (hn.length_le_of_subset hsub) h

/-- C49: groups and HAVING. -/
example : ∃ g table, Answers sampleEnv rawGroup g ∧ g.raised = none ∧ Table ["a".toList] [(.count, "*".toList)] groupRecords table ∧
    g.items = (table.filter positive).map (shown groupSels) := by
  obtain ⟨g, table, h1, h2, h3, h4⟩ := C49_group_partial (env := sampleEnv) asciiRe_sane sampleLex_sane asciiChars_sane asks_group rfl rfl
    (good_of _ (by decide +kernel)) rfl rfl (.one (a := []) (b := []) name_a b0 b0) group_laid group_readable (by simp [groupSels])
    (aggs := [(.count, "*".toList)]) (.column (List.mem_singleton.2 rfl) (.agg (.star (by decide)) .nil))
    ⟨by decide +kernel, by decide +kernel, by decide +kernel⟩ (cond := fun _ => true) (fun _ _ => rfl) (rs := groupRecords) (by rfl)
    (by decide +kernel) (by unfold GroupBy.Spec.Faithful; decide +kernel) (few_of (rs := groupRecords) (by decide)) (by decide)
    (by
      intro r _ _ f c h
      rw [List.mem_singleton] at h
      cases h
      trivial)
    (keep := positive)
    (by
      intro table ht
      refine ⟨posText, _, pos_laid, by decide, pos_simple, pos_written, fun row hrow => ?_⟩
      obtain ⟨r, hr, hc, _⟩ := ht.right row hrow
      have hl : row.lookup "a".toList = some (datum (r.get "a".toList)) := by
        have := List.all_eq_true.1 hc _ (List.mem_singleton.2 rfl)
        simpa using this
      have hi : ∃ i, r.get "a".toList = .int i := by
        have : ∀ r ∈ groupRecords, r.get "a".toList = .int 1 ∨ r.get "a".toList = .int 3 ∨ r.get "a".toList = .int 0 := by decide +kernel
        rcases this r hr with h | h | h <;> exact ⟨_, h⟩
      obtain ⟨i, hi⟩ := hi
      rw [hi] at hl
      exact pos_evaluate hl)
    (fun _ _ => plain_query _ _ rfl rfl rfl)
  exact ⟨g, table, h1, h2, h3, h4⟩

/-- Records with fractions and lists in fields that the statement is not about. -/
def richEnv : Env :=
  { sampleEnv with blobs := fun _ => .ok [[("f".toList, .one (.float (1 / 2))) :: sampleRow 1 "x"],
      [("l".toList, .list [.int 1]) :: sampleRow 3 "y", ("f".toList, .one (.date ⟨2021, 2, 28, 0, 0, 0⟩)) :: sampleRow 0 "z"]] }

/-- C49: groups and HAVING, with other values in other fields. -/
example : ∃ g table, Answers richEnv rawGroup g ∧ g.raised = none ∧ Table ["a".toList] [(.count, "*".toList)] groupRecords table ∧
    g.items = (table.filter positive).map (shown groupSels) := by
  obtain ⟨g, table, h1, h2, h3, h4⟩ := C49_group_partial (env := richEnv) asciiRe_sane sampleLex_sane asciiChars_sane asks_group rfl rfl
    (good_of _ (by decide +kernel)) rfl rfl (.one (a := []) (b := []) name_a b0 b0) group_laid group_readable (by simp [groupSels])
    (aggs := [(.count, "*".toList)]) (.column (List.mem_singleton.2 rfl) (.agg (.star (by decide)) .nil))
    ⟨by decide +kernel, by decide +kernel, by decide +kernel⟩ (cond := fun _ => true) (fun _ _ => rfl) (rs := groupRecords) (by rfl)
    (by decide +kernel) (by unfold GroupBy.Spec.Faithful; decide +kernel) (few_of (rs := groupRecords) (by decide)) (by decide)
    (by
      intro r _ _ f c h
      rw [List.mem_singleton] at h
      cases h
      trivial)
    (keep := positive)
    (by
      intro table ht
      refine ⟨posText, _, pos_laid, by decide, pos_simple, pos_written, fun row hrow => ?_⟩
      obtain ⟨r, hr, hc, _⟩ := ht.right row hrow
      have hl : row.lookup "a".toList = some (datum (r.get "a".toList)) := by
        have := List.all_eq_true.1 hc _ (List.mem_singleton.2 rfl)
        simpa using this
      have hi : ∃ i, r.get "a".toList = .int i := by
        have : ∀ r ∈ groupRecords, r.get "a".toList = .int 1 ∨ r.get "a".toList = .int 3 ∨ r.get "a".toList = .int 0 := by decide +kernel
        rcases this r hr with h | h | h <;> exact ⟨_, h⟩
      obtain ⟨i, hi⟩ := hi
      rw [hi] at hl
      exact pos_evaluate hl)
    (fun _ _ => ⟨nofun, nofun, fun h => absurd rfl h, nofun⟩)
  exact ⟨g, table, h1, h2, h3, h4⟩

/-! ## Aggregations of everything -/

def rawTotal : Str := "SELECT COUNT(*) AS n FROM d".toList

theorem asks_total : Asks sampleEnv rawTotal { select := some "COUNT(*) AS n".toList, source := some (.dataset "d".toList) } := by
  refine ⟨[.select false "COUNT(*) AS n".toList, .dataset "d".toList], ?_, ⟨nofun, trivial⟩, by decide +kernel⟩
  have e : Tokenizer.clean (Sql.removeComments rawTotal) = "SELECT".toList ++ ' ' :: "COUNT(*) AS n".toList ++ ' ' ::
    ("FROM".toList ++ ' ' :: "d".toList) := by decide +kernel
  rw [e]
  exact .more (.select (by decide) (body_of _ (by decide) (by decide) (by decide +kernel)))
    (.one (.dataset (by decide) (body_of _ (by decide) (by decide) (by decide +kernel)) (by decide) (by decide)))

def totalSels : List Sel := [.call "COUNT".toList [.leaf .star none] (some ("AS".toList, "n".toList))]

theorem total_laid : Laid asciiRe (piecesOf totalSels) "COUNT(*) AS n".toList :=
  .word (a := []) (b := []) (quiet_of _ _ (by decide +kernel)) b0 b0 <|
  .sym (a := []) (b := []) (by decide) b0 b0 <|
  .word (a := []) (b := []) (quiet_of _ _ (by decide +kernel)) b0 b0 <|
  .sym (a := []) (b := []) (by decide) b0 b0 <|
  .as (a := [' ']) (b := [' ']) (by decide) b1 b1 (by decide) (by decide) <|
  .word (a := []) (b := []) (quiet_of _ _ (by decide +kernel)) b0 b0 .nil

theorem total_readable : ReadableArgs totalSels := by
  unfold totalSels
  rw [ReadableArgs, ReadableArgs, Sel.Readable, ReadableArgs, ReadableArgs, Sel.Readable]
  exact ⟨⟨by decide +kernel, ⟨⟨trivial, none_alias⟩, trivial⟩, by
    intro kw n h
    cases h
    exact ⟨by decide, ⟨_, _, rfl, by decide⟩, by decide, by decide⟩⟩, trivial⟩

/-- C49: the number of records. -/
example : Answers sampleEnv rawTotal (Gen.of [[("n".toList, .one (.int 3))]]) := by
  obtain ⟨g, table, h1, h2, h3, h4⟩ := C49_total_partial (env := sampleEnv) asciiRe_sane sampleLex_sane asciiChars_sane asks_total rfl rfl
    (good_of _ (by decide +kernel)) rfl rfl total_laid total_readable (by simp [totalSels])
    (aggs := [(.count, "*".toList)]) (.agg (.star (by decide)) .nil)
    ⟨by decide +kernel, by decide +kernel, by decide +kernel⟩ (cond := fun _ => true) (fun _ _ => rfl) (rs := totalRecords) (by rfl) (by decide)
    (by
      intro _ f c h
      rw [List.mem_singleton] at h
      cases h
      trivial)
    (keep := fun _ => true) (fun _ _ => fun _ _ => rfl) (fun _ _ => plain_query _ _ rfl rfl rfl)
  obtain ⟨row, rfl, h5⟩ := h3.one ⟨_, List.mem_singleton.2 rfl, by decide +kernel⟩
  obtain ⟨x, h6, h7⟩ := h5 _ _ (List.mem_singleton.2 rfl)
  have h7 : x = .val (.int 3) := h7
  have h4 : g.items = [shown totalSels row] := h4
  subst h7
  have h6 : row.lookup "COUNT(*)".toList = some (.one (.int 3)) := h6
  have : shown totalSels row = [("n".toList, .one (.int 3))] := by
    show [("n".toList, (row.lookup "COUNT(*)".toList).getD (.one .none))] = _
    rw [h6]
    rfl
  rw [this] at h4
  rwa [gen_eq h2 h4] at h1

/-- C49: COUNT of nothing. -/
example : Answers { sampleEnv with blobs := fun _ => .ok [[], []] } rawTotal (Gen.of []) :=
  C49_count_nothing_fails (env := { sampleEnv with blobs := fun _ => .ok [[], []] }) asciiRe_sane sampleLex_sane asciiChars_sane asks_total
    (good_of _ (by decide +kernel)) rfl rfl total_laid total_readable (by simp [totalSels]) (aggs := [(.count, "*".toList)])
    (.agg (.star (by decide)) .nil) ⟨by decide +kernel, by decide +kernel, by decide +kernel⟩ (by decide)

/-! ## Subqueries -/

def rawSub : Str := "SELECT b FROM (SELECT * FROM d WHERE a > 0) WHERE b = 'x'".toList

theorem asks_sub : Asks sampleEnv rawSub 
    { select := some "b".toList, source := some (.statement "SELECT * FROM d WHERE a > 0".toList), whereExpr := some "b = 'x'".toList } := by
  refine ⟨[.select false "b".toList, .subquery "SELECT * FROM d WHERE a > 0".toList, .where_ "b = 'x'".toList], ?_, ⟨nofun, nofun, trivial⟩, by decide +kernel⟩
  have e : Tokenizer.clean (Sql.removeComments rawSub) = "SELECT".toList ++ ' ' :: "b".toList ++ ' ' ::
    ("FROM".toList ++ ' ' :: '(' :: ("SELECT * FROM d WHERE a > 0".toList ++ [')']) ++ ' ' ::
    ("WHERE".toList ++ ' ' :: "b = 'x'".toList)) := by decide +kernel
  rw [e]
  exact .more (.select (by decide) (body_of _ (by decide) (by decide) (by decide +kernel)))
    (.more (.subquery (by decide) (by decide +kernel) (by decide) (by decide))
    (.one (.where_ (by decide) (body_of _ (by decide) (by decide) (by decide +kernel)))))

theorem b_laid : Laid asciiRe (piecesOf [.leaf (.field "b".toList) none]) "b".toList :=
  .word (a := []) (b := []) (quiet_of _ _ (by decide +kernel)) b0 b0 .nil

theorem b_good : GoodArgs [.leaf (.field "b".toList) none] := good_one (by rw [Sel.Good]; exact ⟨name_b, none_alias⟩)

theorem b_named : Named [.leaf (.field "b".toList) none] := ⟨by decide, by decide, by decide⟩

/-- C49: the condition of the outer statement is not applied. -/
example : Answers sampleEnv rawSub (Gen.of [[("b".toList, .one (.str "x".toList))], [("b".toList, .one (.str "y".toList))]]) := by
  obtain ⟨g, h1, h2, h3⟩ := C49_subquery_where_fails (env := sampleEnv) asciiRe_sane sampleLex_sane asciiChars_sane asks_sub rfl rfl rfl
    answers_star b_laid b_good b_named (by simp) (by intro _ _ s hs h; rw [List.mem_singleton] at hs; subst hs; exact absurd rfl h)
    (keep := fun _ => true) (fun _ _ => rfl) (plain_query _ _ rfl rfl rfl)
  rwa [gen_eq h2 h3] at h1

def rawSub2 : Str := "SELECT b AS c FROM (SELECT * FROM d WHERE a > 0)".toList

theorem asks_sub2 : Asks sampleEnv rawSub2 { select := some "b AS c".toList, source := some (.statement "SELECT * FROM d WHERE a > 0".toList) } := by
  refine ⟨[.select false "b AS c".toList, .subquery "SELECT * FROM d WHERE a > 0".toList], ?_, ⟨nofun, trivial⟩, by decide +kernel⟩
  have e : Tokenizer.clean (Sql.removeComments rawSub2) = "SELECT".toList ++ ' ' :: "b AS c".toList ++ ' ' ::
    ("FROM".toList ++ ' ' :: '(' :: ("SELECT * FROM d WHERE a > 0".toList ++ [')'])) := by decide +kernel
  rw [e]
  exact .more (.select (by decide) (body_of _ (by decide) (by decide) (by decide +kernel)))
    (.one (.subquery (by decide) (by decide +kernel) (by decide) (by decide)))

theorem bc_laid : Laid asciiRe (piecesOf [.leaf (.field "b".toList) (some ("AS".toList, "c".toList))]) "b AS c".toList :=
  .word (a := []) (b := []) (quiet_of _ _ (by decide +kernel)) b0 b0 <|
  .as (a := [' ']) (b := [' ']) (by decide) b1 b1 (by decide) (by decide) <|
  .word (a := []) (b := []) (quiet_of _ _ (by decide +kernel)) b0 b0 .nil

theorem bc_good : GoodArgs [.leaf (.field "b".toList) (some ("AS".toList, "c".toList))] :=
  good_one (by rw [Sel.Good]; exact ⟨name_b, by intro kw n h; cases h; exact ⟨by decide, name_c⟩⟩)

/-- C49: a column of a subquery under another name. -/
example : Answers sampleEnv rawSub2 (Gen.of [[("c".toList, .one (.str "x".toList))], [("c".toList, .one (.str "y".toList))]]) := by
  obtain ⟨g, h1, h2, h3⟩ := C49_subquery_partial (env := sampleEnv) asciiRe_sane sampleLex_sane asciiChars_sane asks_sub2 rfl rfl rfl rfl
    answers_star bc_laid bc_good ⟨by decide, by decide, by decide⟩ (by simp)
    (by
      intro row hrow s hs _
      rw [List.mem_singleton] at hs
      subst hs
      simp only [List.mem_cons, List.not_mem_nil, or_false] at hrow
      rcases hrow with rfl | rfl <;> decide)
    (keep := fun _ => true) (fun _ _ => rfl) (plain_query _ _ rfl rfl rfl)
  rwa [gen_eq h2 h3] at h1

def rawSub3 : Str := "SELECT * FROM (SELECT * FROM d WHERE a > 0) LIMIT 1".toList

theorem asks_sub3 : Asks sampleEnv rawSub3 
    { select := some "*".toList, source := some (.statement "SELECT * FROM d WHERE a > 0".toList), limit := some 1 } := by
  refine ⟨[.select false "*".toList, .subquery "SELECT * FROM d WHERE a > 0".toList, .limit 1], ?_, ⟨nofun, nofun, trivial⟩, by decide +kernel⟩
  have e : Tokenizer.clean (Sql.removeComments rawSub3) = "SELECT".toList ++ ' ' :: "*".toList ++ ' ' ::
    ("FROM".toList ++ ' ' :: '(' :: ("SELECT * FROM d WHERE a > 0".toList ++ [')']) ++ ' ' ::
    ("LIMIT".toList ++ ' ' :: intStr 1)) := by decide +kernel
  rw [e]
  exact .more (.select (by decide) (body_of _ (by decide) (by decide) (by decide +kernel)))
    (.more (.subquery (by decide) (by decide +kernel) (by decide) (by decide))
    (.one (.limit (by decide))))

/-- C49: the first record of a subquery. -/
example : Answers sampleEnv rawSub3 (Gen.of [sampleRow 1 "x"]) := by
  obtain ⟨g, h1, h2, h3⟩ := C49_subquery_star_partial (env := sampleEnv) asciiRe_sane sampleLex_sane asciiChars_sane asks_sub3 rfl rfl rfl rfl
    answers_star (keep := fun _ => true) (fun _ _ => rfl)
    ⟨nofun, nofun, fun h => absurd rfl h, by intro i hi; cases hi; decide⟩
  rwa [gen_eq h2 h3] at h1

def rawSub4 : Str := "SELECT UPPER(b) FROM (SELECT * FROM d WHERE a > 0)".toList

theorem asks_sub4 : Asks sampleEnv rawSub4 { select := some "UPPER(b)".toList, source := some (.statement "SELECT * FROM d WHERE a > 0".toList) } := by
  refine ⟨[.select false "UPPER(b)".toList, .subquery "SELECT * FROM d WHERE a > 0".toList], ?_, ⟨nofun, trivial⟩, by decide +kernel⟩
  have e : Tokenizer.clean (Sql.removeComments rawSub4) = "SELECT".toList ++ ' ' :: "UPPER(b)".toList ++ ' ' ::
    ("FROM".toList ++ ' ' :: '(' :: ("SELECT * FROM d WHERE a > 0".toList ++ [')'])) := by decide +kernel
  rw [e]
  exact .more (.select (by decide) (body_of _ (by decide) (by decide) (by decide +kernel)))
    (.one (.subquery (by decide) (by decide +kernel) (by decide) (by decide)))

theorem upper_laid : Laid asciiRe (piecesOf [.call "UPPER".toList [.leaf (.field "b".toList) none] none]) "UPPER(b)".toList :=
  .word (a := []) (b := []) (quiet_of _ _ (by decide +kernel)) b0 b0 <|
  .sym (a := []) (b := []) (by decide) b0 b0 <|
  .word (a := []) (b := []) (quiet_of _ _ (by decide +kernel)) b0 b0 <|
  .sym (a := []) (b := []) (by decide) b0 b0 .nil

theorem upper_good : GoodArgs [.call "UPPER".toList [.leaf (.field "b".toList) none] none] :=
  good_one (by rw [Sel.Good]; exact ⟨by decide +kernel, b_good, none_alias⟩)

/-- C49: functions over a subquery give None. -/
example : Answers sampleEnv rawSub4 (Gen.of [[("UPPER(b)".toList, .one .none)], [("UPPER(b)".toList, .one .none)]]) := by
  obtain ⟨g, h1, h2, h3⟩ := C49_subquery_call_fails (env := sampleEnv) asciiRe_sane sampleLex_sane asciiChars_sane asks_sub4 answers_star
    upper_laid upper_good
    (by
      intro row hrow
      simp only [List.mem_cons, List.not_mem_nil, or_false] at hrow
      rcases hrow with rfl | rfl <;> decide +kernel)
  rwa [gen_eq h2 h3] at h1

/-! ## A NOT in place of an operand -/

def rawNot : Str := "SELECT * FROM d WHERE a = NOT".toList

theorem asks_not : Asks sampleEnv rawNot { select := some "*".toList, source := some (.dataset "d".toList), whereExpr := some "a = NOT".toList } := by
  refine ⟨[.select false "*".toList, .dataset "d".toList, .where_ "a = NOT".toList], ?_, ⟨nofun, nofun, trivial⟩, by decide +kernel⟩
  have e : Tokenizer.clean (Sql.removeComments rawNot) = "SELECT".toList ++ ' ' :: "*".toList ++ ' ' ::
    ("FROM".toList ++ ' ' :: "d".toList ++ ' ' ::
    ("WHERE".toList ++ ' ' :: "a = NOT".toList)) := by decide +kernel
  rw [e]
  exact .more (.select (by decide) (body_of _ (by decide) (by decide) (by decide +kernel)))
    (.more (.dataset (by decide) (body_of _ (by decide) (by decide) (by decide +kernel)) (by decide) (by decide))
    (.one (.where_ (by decide) (body_of _ (by decide) (by decide) (by decide +kernel)))))

def notText : List Lexeme := [.word "a".toList, .key "=".toList, .key "NOT".toList]

theorem not_laid : Tokenizer.Spec.Laid asciiRe notText "a = NOT".toList := by
  have k1 : (Lexeme.key "=".toList).collapsed.Good asciiRe := by
    show _ ∨ _ ∨ _ ∨ _
    decide +kernel
  have k2 : (Lexeme.key "NOT".toList).collapsed.Good asciiRe := by
    show _ ∨ _ ∨ _ ∨ _
    decide +kernel
  have w2 : (Lexeme.word "a".toList).collapsed.Good asciiRe := by
    show _ ∧ _ ∧ _
    decide +kernel
  exact .mk (lead := []) (trail := []) (by decide) (by decide) w2
      (.cons (sep := [' ']) (by decide) (follows_iff (by decide +kernel)) k1
      (.cons (sep := [' ']) (by decide) (follows_iff (by decide +kernel)) k2 .nil))

/-- C49: `WHERE a = NOT` -/
example : Answers sampleEnv rawNot (Gen.fail .attributeError) :=
  C49_bare_not_fails (env := sampleEnv) asciiRe_sane sampleLex_sane asciiChars_sane asks_not (good_of _ (by decide +kernel)) rfl not_laid
    (by
      intro l hl
      simp only [notText, List.mem_cons, List.not_mem_nil, or_false] at hl
      rcases hl with rfl | rfl | rfl
      · exact Or.inl name_a
      · trivial
      · trivial)
    (.plain (.name name_a)) (op := "=".toList) (by decide) (by decide)

/-! ## LIMIT and ORDER BY -/

def rawLimit : Str := "SELECT * FROM d LIMIT 0".toList

theorem asks_limit : Asks sampleEnv rawLimit { select := some "*".toList, source := some (.dataset "d".toList), limit := some 0 } := by
  refine ⟨[.select false "*".toList, .dataset "d".toList, .limit 0], ?_, ⟨nofun, nofun, trivial⟩, by decide +kernel⟩
  have e : Tokenizer.clean (Sql.removeComments rawLimit) = "SELECT".toList ++ ' ' :: "*".toList ++ ' ' ::
    ("FROM".toList ++ ' ' :: "d".toList ++ ' ' ::
    ("LIMIT".toList ++ ' ' :: intStr 0)) := by decide +kernel
  rw [e]
  exact .more (.select (by decide) (body_of _ (by decide) (by decide) (by decide +kernel)))
    (.more (.dataset (by decide) (body_of _ (by decide) (by decide) (by decide +kernel)) (by decide) (by decide))
    (.one (.limit (by decide))))

/-- C49: LIMIT 0 gives everything. -/
example : Answers sampleEnv rawLimit (Gen.of [sampleRow 1 "x", sampleRow 3 "y", sampleRow 0 "z"]) :=
  C49_limit_zero_fails (env := sampleEnv) asciiRe_sane sampleLex_sane asciiChars_sane (by decide) asks_limit (good_of _ (by decide +kernel)) rfl
    (by decide +kernel)

/-- A dataset of so many records. -/
def bigEnv (n : Nat) : Env := { sampleEnv with blobs := fun _ => .ok [List.replicate n (sampleRow 1 "x")] }

def rawOrder : Str := "SELECT * FROM d ORDER BY a".toList

theorem asks_order (n : Nat) : Asks (bigEnv n) rawOrder { select := some "*".toList, source := some (.dataset "d".toList), orderBy := some "a".toList } := by
  refine ⟨[.select false "*".toList, .dataset "d".toList, .orderBy "a".toList none], ?_, ⟨nofun, nofun, trivial⟩, by decide +kernel⟩
  have e : Tokenizer.clean (Sql.removeComments rawOrder) = "SELECT".toList ++ ' ' :: "*".toList ++ ' ' ::
    ("FROM".toList ++ ' ' :: "d".toList ++ ' ' ::
    ("ORDER BY".toList ++ ' ' :: "a".toList)) := by decide +kernel
  rw [e]
  exact .more (.select (by decide) (body_of _ (by decide) (by decide) (by decide +kernel)))
    (.more (.dataset (by decide) (body_of _ (by decide) (by decide) (by decide +kernel)) (by decide) (by decide))
    (.one (.orderBy (by decide) (body_of _ (by decide) (by decide) (by decide +kernel)))))

/-- C49: a dataset of more than 10000 records is not ordered in full. -/
example (n : Nat) : ∃ g, Answers (bigEnv n) rawOrder g ∧ g.raised = none ∧ g.items.length ≤ 10000 :=
  C49_order_star_fails (env := bigEnv n) asciiRe_sane sampleLex_sane asciiChars_sane (by decide) (asks_order n) (good_of _ (by decide +kernel)) rfl (by
    intro a ha b hb x y hx hy
    have ha : a = sampleRow 1 "x" := by simpa using List.eq_of_mem_replicate (n := n) (by simpa using ha)
    have hb : b = sampleRow 1 "x" := by simpa using List.eq_of_mem_replicate (n := n) (by simpa using hb)
    subst ha hb
    cases hx
    cases hy
    exact ⟨.int 1, .int 1, rfl, rfl, .number (.whole 1) (.whole 1)⟩)

/-- A dataset with a text among the numbers of a column. -/
def mixedEnv : Env := { sampleEnv with blobs := fun _ => .ok [[sampleRow 1 "x"], [[("a".toList, .one (.str "t".toList))]]] }

/-- C49: it is not ordered. -/
example : ∃ g, Answers mixedEnv rawOrder g ∧ g.raised = some .typeError ∧ g.items = [] :=
  C49_order_mixed (env := mixedEnv) asciiRe_sane sampleLex_sane asciiChars_sane (by decide) (asks_order 0) (good_of _ (by decide +kernel)) rfl
    (by decide) ⟨sampleRow 1 "x", by decide +kernel, [("a".toList, .one (.str "t".toList))], by decide +kernel, .int 1, .str "t".toList, rfl, rfl, by
      intro h
      cases h with
      | number _ h => cases h⟩

def rawUnselected : Str := "SELECT b FROM d ORDER BY a".toList

theorem asks_unselected : Asks sampleEnv rawUnselected { select := some "b".toList, source := some (.dataset "d".toList), orderBy := some "a".toList } := by
  refine ⟨[.select false "b".toList, .dataset "d".toList, .orderBy "a".toList none], ?_, ⟨nofun, nofun, trivial⟩, by decide +kernel⟩
  have e : Tokenizer.clean (Sql.removeComments rawUnselected) = "SELECT".toList ++ ' ' :: "b".toList ++ ' ' ::
    ("FROM".toList ++ ' ' :: "d".toList ++ ' ' ::
    ("ORDER BY".toList ++ ' ' :: "a".toList)) := by decide +kernel
  rw [e]
  exact .more (.select (by decide) (body_of _ (by decide) (by decide) (by decide +kernel)))
    (.more (.dataset (by decide) (body_of _ (by decide) (by decide) (by decide +kernel)) (by decide) (by decide))
    (.one (.orderBy (by decide) (body_of _ (by decide) (by decide) (by decide +kernel)))))

def onlyB (r : Row) : Row := [("b".toList, (r.lookup "b".toList).getD (.one .none))]

theorem b_selectable (rows : List Row) : Selectable [.leaf (.field "b".toList) none] rows :=
  ⟨b_named, by simp, by simp, by simp⟩

/-- C49: the records are not in the order of `a`. -/
example : Answers sampleEnv rawUnselected
    (Gen.of [[("b".toList, .one (.str "x".toList))], [("b".toList, .one (.str "y".toList))], [("b".toList, .one (.str "z".toList))]]) := by
  obtain ⟨g, h1, h2, h3⟩ := C49_order_unselected_fails (env := sampleEnv) asciiRe_sane sampleLex_sane asciiChars_sane asks_unselected rfl rfl
    (good_of _ (by decide +kernel)) rfl rfl rfl b_laid b_good (b_selectable _) (out := onlyB) (fun _ _ => rfl) (cond := fun _ => true)
    (fun _ _ => rfl) rfl (by decide) (by decide) rfl (fun _ => by decide) nofun
  rwa [gen_eq h2 h3] at h1

/-! ## SELECT -/

def rawUpper : Str := "SELECT UPPER(b) FROM d".toList

/-- A blob with a record that has no text. -/
def badEnv : Env := { sampleEnv with blobs := fun _ => .ok [[sampleRow 1 "x"] ++ [("a".toList, .one (.int 2))] :: [sampleRow 3 "y"]] }

theorem asks_upper : Asks badEnv rawUpper { select := some "UPPER(b)".toList, source := some (.dataset "d".toList) } := by
  refine ⟨[.select false "UPPER(b)".toList, .dataset "d".toList], ?_, ⟨nofun, trivial⟩, by decide +kernel⟩
  have e : Tokenizer.clean (Sql.removeComments rawUpper) = "SELECT".toList ++ ' ' :: "UPPER(b)".toList ++ ' ' ::
    ("FROM".toList ++ ' ' :: "d".toList) := by decide +kernel
  rw [e]
  exact .more (.select (by decide) (body_of _ (by decide) (by decide) (by decide +kernel)))
    (.one (.dataset (by decide) (body_of _ (by decide) (by decide) (by decide +kernel)) (by decide) (by decide)))

/-- C49: the record after the one for which UPPER raises is lost. -/
example : Answers badEnv rawUpper (Gen.of [[("UPPER(b)".toList, .one (.str "X".toList))]]) :=
  C49_raise_fails (env := badEnv) asciiRe_sane sampleLex_sane asciiChars_sane asks_upper (good_of _ (by decide +kernel)) rfl upper_laid upper_good
    ⟨⟨by decide +kernel, by intro s hs h; rw [List.mem_singleton] at hs; subst hs; exact absurd rfl h, by decide +kernel⟩, by simp, by simp, by simp⟩
    (out := fun _ => [("UPPER(b)".toList, .one (.str "X".toList))])
    (by intro r hr; rw [List.mem_singleton] at hr; subst hr; rfl) (e := .typeError) rfl

def rawSwap : Str := "SELECT a AS b, b AS a FROM d".toList

def swapEnv : Env := { sampleEnv with blobs := fun _ => .ok [[sampleRow 1 "x"]] }

theorem asks_swap : Asks swapEnv rawSwap { select := some "a AS b, b AS a".toList, source := some (.dataset "d".toList) } := by
  refine ⟨[.select false "a AS b, b AS a".toList, .dataset "d".toList], ?_, ⟨nofun, trivial⟩, by decide +kernel⟩
  have e : Tokenizer.clean (Sql.removeComments rawSwap) = "SELECT".toList ++ ' ' :: "a AS b, b AS a".toList ++ ' ' ::
    ("FROM".toList ++ ' ' :: "d".toList) := by decide +kernel
  rw [e]
  exact .more (.select (by decide) (body_of _ (by decide) (by decide) (by decide +kernel)))
    (.one (.dataset (by decide) (body_of _ (by decide) (by decide) (by decide +kernel)) (by decide) (by decide)))

/-- C49: swapping two columns loses one. -/
example : Answers swapEnv rawSwap (Gen.of [[("b".toList, .one .none), ("a".toList, .one (.int 1))]]) :=
  C49_swap_fails (env := swapEnv) asciiRe_sane sampleLex_sane asciiChars_sane asks_swap (good_of _ (by decide +kernel)) (by decide) rfl name_a name_b
    (as1 := "AS".toList) (as2 := "AS".toList) (by decide) (by decide)
    (.word (a := []) (b := []) (quiet_of _ _ (by decide +kernel)) b0 b0 <|
      .as (a := [' ']) (b := [' ']) (by decide) b1 b1 (by decide) (by decide) <|
      .word (a := []) (b := []) (quiet_of _ _ (by decide +kernel)) b0 b0 <|
      .sym (a := []) (b := [' ']) (by decide) b0 b1 <|
      .word (a := []) (b := []) (quiet_of _ _ (by decide +kernel)) b0 b0 <|
      .as (a := [' ']) (b := [' ']) (by decide) b1 b1 (by decide) (by decide) <|
      .word (a := []) (b := []) (quiet_of _ _ (by decide +kernel)) b0 b0 .nil)

def rawShadow : Str := "SELECT UPPER(b) AS b FROM d WHERE b = 'x'".toList

theorem asks_shadow : Asks sampleEnv rawShadow
    { select := some "UPPER(b) AS b".toList, source := some (.dataset "d".toList), whereExpr := some "b = 'x'".toList } := by
  refine ⟨[.select false "UPPER(b) AS b".toList, .dataset "d".toList, .where_ "b = 'x'".toList], ?_, ⟨nofun, nofun, trivial⟩, by decide +kernel⟩
  have e : Tokenizer.clean (Sql.removeComments rawShadow) = "SELECT".toList ++ ' ' :: "UPPER(b) AS b".toList ++ ' ' ::
    ("FROM".toList ++ ' ' :: "d".toList ++ ' ' :: ("WHERE".toList ++ ' ' :: "b = 'x'".toList)) := by decide +kernel
  rw [e]
  exact .more (.select (by decide) (body_of _ (by decide) (by decide) (by decide +kernel)))
    (.more (.dataset (by decide) (body_of _ (by decide) (by decide) (by decide +kernel)) (by decide) (by decide))
    (.one (.where_ (by decide) (body_of _ (by decide) (by decide) (by decide +kernel)))))

def xText : List Lexeme := [.word "b".toList, .key "=".toList, .quoted '\'' "x".toList]

theorem x_laid : Tokenizer.Spec.Laid asciiRe xText "b = 'x'".toList := by
  have k1 : (Lexeme.key "=".toList).collapsed.Good asciiRe := by
    show _ ∨ _ ∨ _ ∨ _
    decide +kernel
  have w1 : (Lexeme.word "b".toList).collapsed.Good asciiRe := by
    show _ ∧ _ ∧ _
    decide +kernel
  have q1 : (Lexeme.quoted '\'' "x".toList).collapsed.Good asciiRe := by
    refine ⟨rfl, by decide +kernel, ?_⟩
    have h : ∀ x ∈ (Tokenizer.reSplit asciiRe keywords (quote '\'' (Tokenizer.collapse "x".toList))).tail,
      ((strip x).head?.elim false Tokenizer.isQuote) = false := by decide +kernel
    intro x hx c r hc hq
    have := h x hx
    rw [hc] at this
    have : Tokenizer.isQuote c = false := this
    rw [hq] at this
    cases this
  exact .mk (lead := []) (trail := []) (by decide) (by decide) w1
      (.cons (sep := [' ']) (by decide) (follows_iff (by decide +kernel)) k1
      (.cons (sep := [' ']) (by decide) (follows_iff (by decide +kernel)) q1 .nil))

/-- C49: no record is answered, though `b` is 'x' in one. -/
example : Answers sampleEnv rawShadow (Gen.of []) := by
  obtain ⟨g, h1, h2, h3⟩ := C49_shadow_fails (env := sampleEnv) asciiRe_sane sampleLex_sane asciiChars_sane asks_shadow rfl rfl
    (good_of _ (by decide +kernel)) rfl rfl rfl (f := "UPPER".toList) (kw := "AS".toList) (k := "b".toList) (args := [.leaf (.field "b".toList) none])
    (.word (a := []) (b := []) (quiet_of _ _ (by decide +kernel)) b0 b0 <|
      .sym (a := []) (b := []) (by decide) b0 b0 <|
      .word (a := []) (b := []) (quiet_of _ _ (by decide +kernel)) b0 b0 <|
      .sym (a := []) (b := []) (by decide) b0 b0 <|
      .as (a := [' ']) (b := [' ']) (by decide) b1 b1 (by decide) (by decide) <|
      .word (a := []) (b := []) (quiet_of _ _ (by decide +kernel)) b0 b0 .nil)
    (good_one (by rw [Sel.Good]; exact ⟨by decide +kernel, b_good, by intro kw n h; cases h; exact ⟨by decide, name_b⟩⟩))
    ⟨⟨by decide +kernel, by decide +kernel, by decide +kernel⟩, by simp, by simp, by
      intro f args a h r hr
      simp only [List.mem_cons, List.not_mem_nil, or_false, Sel.call.injEq, Option.some.injEq] at h
      obtain ⟨rfl, rfl, rfl⟩ := h
      have : ∀ r ∈ [[sampleRow 1 "x", sampleRow 3 "y"], [sampleRow 0 "z"]].flatten, r.lookup "UPPER(b)".toList = none := by decide +kernel
      exact this r hr⟩
    (v := fun r => match r.lookup "b".toList with | some (.one (.str s)) => .one (.str (s.map Char.toUpper)) | _ => .one .none)
    (by
      intro r hr
      simp only [List.flatten_cons, List.flatten_nil, List.cons_append, List.nil_append, List.mem_cons, List.not_mem_nil, or_false] at hr
      rcases hr with rfl | rfl | rfl <;> rfl)
    (cond := fun _ => false)
    (by
      refine ⟨xText, .cmp (.var "b".toList) "=".toList (.lit "x".toList), x_laid, ?_,
        .oneAnd (.oneCond (.cmp (.plain (.name name_b)) (by decide) (.plain (.text (q := '\'') (Or.inr rfl) (by decide +kernel))))), ?_, ?_, ?_⟩
      · intro l hl
        simp only [xText, List.mem_cons, List.not_mem_nil, or_false] at hl
        rcases hl with rfl | rfl | rfl
        · exact Or.inl name_b
        · trivial
        · exact ⟨Or.inr (by decide +kernel), by decide +kernel, by decide +kernel⟩
      · intro c hc
        rw [comparisons, List.mem_singleton] at hc
        subst hc
        exact ⟨fun k e => ⟨_, Or.inl ⟨name_b, by injection e with e; exact e.symm⟩⟩, nofun⟩
      · rintro k ⟨c, hc, name, h1, h2⟩
        rw [comparisons, List.mem_singleton] at hc
        subst hc
        rcases h1 with h1 | h1
        · injection h1 with h1
          subst h1
          rcases h2 with ⟨_, rfl⟩ | ⟨_, _, h2⟩
          · decide
          · cases h2
        · cases h1
      · intro r hr
        simp only [List.flatten_cons, List.flatten_nil, List.cons_append, List.nil_append, List.map_cons, List.map_nil, List.mem_cons,
          List.not_mem_nil, or_false] at hr
        rcases hr with rfl | rfl | rfl <;> rfl)
    (plain_query _ _ rfl rfl rfl)
  rwa [gen_eq h2 h3] at h1

/-- The first record has no columns. -/
def emptyEnv : Env := { sampleEnv with blobs := fun _ => .ok [[[], sampleRow 1 "x"]] }

def rawAll : Str := "SELECT * FROM d".toList

theorem asks_all : Asks emptyEnv rawAll { select := some "*".toList, source := some (.dataset "d".toList) } := by
  refine ⟨[.select false "*".toList, .dataset "d".toList], ?_, ⟨nofun, trivial⟩, by decide +kernel⟩
  have e : Tokenizer.clean (Sql.removeComments rawAll) = "SELECT".toList ++ ' ' :: "*".toList ++ ' ' ::
    ("FROM".toList ++ ' ' :: "d".toList) := by decide +kernel
  rw [e]
  exact .more (.select (by decide) (body_of _ (by decide) (by decide) (by decide +kernel)))
    (.one (.dataset (by decide) (body_of _ (by decide) (by decide) (by decide +kernel)) (by decide) (by decide)))

/-- C49: it is dropped. -/
example : Answers emptyEnv rawAll (Gen.of [sampleRow 1 "x"]) :=
  C49_star_empty_fails (env := emptyEnv) asciiRe_sane sampleLex_sane asciiChars_sane asks_all (good_of _ (by decide +kernel)) rfl

/-! ## Every statement -/

def rawDistinct : Str := "SELECT DISTINCT * FROM d ORDER BY a".toList

theorem asks_distinct (n : Nat) : Asks (bigEnv n) rawDistinct
    { select := some "*".toList, distinct := true, source := some (.dataset "d".toList), orderBy := some "a".toList } := by
  refine ⟨[.select true "*".toList, .dataset "d".toList, .orderBy "a".toList none], ?_, ⟨nofun, nofun, trivial⟩, by decide +kernel⟩
  have e : Tokenizer.clean (Sql.removeComments rawDistinct) = "SELECT".toList ++ ' ' :: ("DISTINCT".toList ++ ' ' :: "*".toList) ++ ' ' ::
    ("FROM".toList ++ ' ' :: "d".toList ++ ' ' :: ("ORDER BY".toList ++ ' ' :: "a".toList)) := by decide +kernel
  rw [e]
  exact .more (.distinct (by decide) (by decide) (body_of _ (by decide) (by decide) (by decide +kernel)))
    (.more (.dataset (by decide) (body_of _ (by decide) (by decide) (by decide +kernel)) (by decide) (by decide))
    (.one (.orderBy (by decide) (body_of _ (by decide) (by decide) (by decide +kernel)))))

/-- C49: different records, at most 10000 of them. -/
example (n : Nat) : ∃ g, Answers (bigEnv n) rawDistinct g ∧ g.items.Nodup ∧ g.items.length ≤ 10000 := by
  have h := star_run (env := bigEnv n) asciiRe_sane sampleLex_sane asciiChars_sane (asks_distinct n) rfl rfl (good_of _ (by decide +kernel))
    rfl rfl rfl rfl
  obtain ⟨p, hp, hv⟩ := asks_parses (env := bigEnv n) asciiRe_sane sampleLex_sane asciiChars_sane (asks_distinct n) (by simp) (by simp)
    (by
      intro d h
      simp only [Option.some.injEq, Mabel.Sql.Spec.Place.dataset.injEq] at h
      exact h ▸ good_of _ (by decide +kernel))
  exact ⟨_, h, C49_distinct h hp (by rw [hv]), C49_order_cap_fails h hp (by rw [hv]) (by decide) (by rw [hv])⟩

/-- Records with a repeat, and hashes that are independent for their texts. -/
def repeatEnv : Env := { sampleEnv with
  hash := fun s => if s = "0,1".toList then 1 else if s = "1,x".toList then 2 else if s = "1,1".toList then 4 else 0
  blobs := fun _ => .ok [[sampleRow 1 "x", sampleRow 1 "1"], [sampleRow 1 "x"]] }

def rawDifferent : Str := "SELECT DISTINCT * FROM d".toList

theorem asks_different : Asks repeatEnv rawDifferent
    { select := some "*".toList, distinct := true, source := some (.dataset "d".toList) } := by
  refine ⟨[.select true "*".toList, .dataset "d".toList], ?_, ⟨nofun, trivial⟩, by decide +kernel⟩
  have e : Tokenizer.clean (Sql.removeComments rawDifferent) = "SELECT".toList ++ ' ' :: ("DISTINCT".toList ++ ' ' :: "*".toList) ++ ' ' ::
    ("FROM".toList ++ ' ' :: "d".toList) := by decide +kernel
  rw [e]
  exact .more (.distinct (by decide) (by decide) (body_of _ (by decide) (by decide) (by decide +kernel)))
    (.one (.dataset (by decide) (body_of _ (by decide) (by decide) (by decide +kernel)) (by decide) (by decide)))

theorem repeat_separated : Separated repeatEnv [sampleRow 1 "x", sampleRow 1 "1", sampleRow 1 "x"] := by
  refine ⟨by decide +kernel, by decide +kernel, ?_⟩
  intro a ha b hb
  have hi : Hashes.Independent repeatEnv.hash ["0,1".toList, "1,x".toList, "1,1".toList] :=
    Hashes.independent_of (by decide) (by decide +kernel)
  refine hi.mono ?_
  revert a b
  decide +kernel

/-- C49: the repeat is given once. -/
example : Answers repeatEnv rawDifferent (Gen.of [sampleRow 1 "x", sampleRow 1 "1"]) := by
  obtain ⟨g, h1, h2, h3⟩ := C49_star_partial (env := repeatEnv) (cond := fun _ => true) asciiRe_sane sampleLex_sane asciiChars_sane asks_different rfl rfl
    (good_of _ (by decide +kernel)) rfl rfl rfl (by decide +kernel) (fun _ _ => rfl) ⟨fun _ => repeat_separated, nofun, fun h => absurd rfl h, nofun⟩
  have : g.items = [sampleRow 1 "x", sampleRow 1 "1"] := by
    have e : keepFirst ([[sampleRow 1 "x", sampleRow 1 "1"], [sampleRow 1 "x"]].flatten.filter (fun _ => true)) = [sampleRow 1 "x", sampleRow 1 "1"] := by
      decide +kernel
    rw [← e]
    exact h3
  rwa [gen_eq h2 this] at h1

/-- C49: LIMIT and ORDER BY of the first statement. -/
example (g : Gen Row) (h : Answers sampleEnv rawSelect g) :
    (g.items.length : Int) ≤ 1 ∧ g.items.Pairwise (fun a b => NotAfter "a".toList b a) := by
  obtain ⟨p, hp, hv⟩ := asks_parses (env := sampleEnv) asciiRe_sane sampleLex_sane asciiChars_sane asks_select (by simp) (by simp)
    (by
      intro d h
      simp only [Option.some.injEq, Mabel.Sql.Spec.Place.dataset.injEq] at h
      exact h ▸ good_of _ (by decide +kernel))
  have := C49_sorted h hp (c := "a".toList) (by rw [hv]) (by decide)
  rw [hv] at this
  exact ⟨C49_limit h hp (by rw [hv]) (by decide), this⟩

end Mabel.SqlReader
