import Verif.Lemmas.SqlRun
import Verif.Spec.SqlGroup
import Verif.Props.GroupBy
import Verif.Lemmas.Paths

/-! # Lemmas on GROUP BY in SQL statements -/

namespace Mabel.SqlReader
open Mabel.Py Mabel.Dates Mabel.Tokens Mabel.Filters Mabel.Records Mabel.Blobs Mabel.Expression Mabel.Expression.Spec Mabel.Evaluator
  Mabel.Evaluator.Spec Mabel.SqlReader.Spec
open Mabel.Tokenizer (Re parseText)
open Mabel.Tokenizer.Spec (SaneRe capitals)
open Mabel.GroupBy (Func Cell aggKey dget groupText)
open Mabel.GroupBy.Spec (nonNull groupOf Answer agree Faithful Fine)

/-! ## The text of GROUP BY -/

theorem name_chars {c : Str} (h : Name c) : (∃ x xs, c = x :: xs ∧ isSpace x = false) ∧ (∃ x, c.getLast? = some x ∧ isSpace x = false) ∧ ',' ∉ c := by
  obtain ⟨⟨x, xs, e, hx⟩, h2, _⟩ := h
  have hsp : ∀ y ∈ c, isSpace y = false := by
    intro y hy
    have := h2 y hy
    by_contra hn
    rw [Bool.not_eq_false] at hn
    have ha : y.toNat < 128 := by
      simp only [Bool.or_eq_true, beq_iff_eq] at this
      rcases this with ((h | h) | h) | h
      · exact alphanum_ascii y h
      all_goals (subst h; decide)
    exact absurd this (of_ascii (P := fun y => isSpace y = true → ¬ (y.isAlphanum || y == '_' || y == '-' || y == '.') = true) (by decide +kernel) y ha hn)
  refine ⟨⟨x, xs, e, hsp x (by rw [e]; exact List.mem_cons_self ..)⟩, ?_, fun hm => absurd (h2 _ hm) (by decide)⟩
  have hne : c ≠ [] := by rw [e]; simp
  exact ⟨c.getLast hne, List.getLast?_eq_some_getLast hne, hsp _ (List.getLast_mem hne)⟩

theorem blank_comma {a : Str} (h : Blank a) : ',' ∉ a := fun hm => absurd (h _ hm) (by decide)

theorem groupColumns_of {cs : List Str} {text : Str} (h : ColumnList cs text) : groupColumns (some text) = cs := by
  have hne : text ≠ [] := by
    cases h with
    | one hc _ _ => obtain ⟨⟨x, xs, e, _⟩, _⟩ := hc; intro e'; subst e; simp at e'
    | more hc _ _ _ => intro e'; simp at e'
  unfold groupColumns
  rw [Option.filter_some, if_pos (by simpa using hne)]
  simp only
  clear hne
  have key : ∀ {c a b : Str}, Name c → Blank a → Blank b → strip (a ++ c ++ b) = c ∧ c ≠ [] ∧ ',' ∉ a ++ c ++ b := by
    intro c a b hc ha hb
    obtain ⟨h1, h2, h3⟩ := name_chars hc
    refine ⟨Tokenizer.strip_pad a c b ha hb h1 h2, ?_, ?_⟩
    · obtain ⟨x, xs, e, _⟩ := h1; rw [e]; simp
    · simp only [List.mem_append, not_or]
      exact ⟨⟨blank_comma ha, h3⟩, blank_comma hb⟩
  induction h with
  | one hc ha hb =>
    obtain ⟨h1, h2, h3⟩ := key hc ha hb
    rw [split_of_not_mem h3, List.filter_cons_of_pos (by rw [h1]; simpa using h2), List.filter_nil, List.map_cons, h1, List.map_nil]
  | more hc ha hb _ ih =>
    obtain ⟨h1, h2, h3⟩ := key hc ha hb
    rw [split_append h3, List.filter_cons_of_pos (by rw [h1]; simpa using h2), List.map_cons, h1, ih]

theorem columnList_ne {cs : List Str} {text : Str} (h : ColumnList cs text) : text ≠ [] ∧ cs ≠ [] ∧ ∀ c ∈ cs, Name c := by
  induction h with
  | one hc _ _ =>
    refine ⟨?_, by simp, by intro c h; rw [List.mem_singleton] at h; exact h ▸ hc⟩
    obtain ⟨⟨x, xs, e, _⟩, _⟩ := hc
    subst e
    simp
  | more hc _ _ _ ih =>
    refine ⟨by simp, by simp, ?_⟩
    intro c h
    rcases List.mem_cons.1 h with rfl | h
    · exact hc
    · exact ih.2.2 c h

/-! ## The aggregations -/

theorem func_names (f : Func) : f.name ∈ aggregators ∧ f.name ∉ functions ∧ funcOf f.name = some f := by
  cases f <;> decide +kernel

theorem aggregation_tok {s : Sel} {f : Func} {c : Str} (h : Aggregation s f c) : ∃ p as_, Sel.tok s = .mk f.name .aggregator [p] as_ ∧ p.value = c ∧
    s.heading = aggKey f c := by
  cases h with
  | @column w _ _ as_ hw _ =>
    refine ⟨Sel.tok (.leaf (.field c) none), as_.map Prod.snd, ?_, ?_, ?_⟩
    · rw [show Sel.tok (.call w _ as_) = .mk (capitals w) (callLabel w) (toks _) (as_.map Prod.snd) by rw [Sel.tok], hw, show callLabel w = .aggregator by unfold callLabel; rw [hw, if_neg (func_names f).2.1], toks_map]; rfl
    · rw [Sel.tok]; rfl
    · rw [Sel.heading, hw]; rfl
  | @star w _ as_ hw =>
    refine ⟨Sel.tok (.leaf .star none), as_.map Prod.snd, ?_, ?_, ?_⟩
    · rw [show Sel.tok (.call w _ as_) = .mk (capitals w) (callLabel w) (toks _) (as_.map Prod.snd) by rw [Sel.tok], hw, show callLabel w = .aggregator by unfold callLabel; rw [hw, if_neg (func_names f).2.1], toks_map]; rfl
    · rw [Sel.tok]; rfl
    · rw [Sel.heading, hw]; rfl

theorem aggregations_of {columns : List Str} {ss : List Sel} {aggs : List (Func × Str)} (h : GroupList columns ss aggs) :
    aggregations columns (ss.map Sel.tok) = .ok aggs := by
  induction h with
  | nil => rfl
  | @column n as_ ss aggs hn _ ih =>
    rw [List.map_cons, Sel.tok, aggregations, if_neg (by simp [Tok.type, leafLabel]), if_neg (by simp [Tok.value, Leaf.token, hn]), ih]
  | @agg s f c ss aggs ha _ ih =>
    obtain ⟨p, as_, e, hp, _⟩ := aggregation_tok ha
    rw [List.map_cons, e, aggregations, if_pos (by rfl)]
    simp only [Tok.parameters, Tok.value, (func_names f).2.2]
    rw [ih, ← hp]
    rfl

/-- What an item puts in the record. -/
def gput (r : Row) : Sel → Str × Datum
  | .leaf l _ => (l.token, l.value r)
  | .call f _ _ => (capitals f, .one .none)

/-- A record with what the items put in it. -/
def gaug (ss : List Sel) (r : Row) : Row :=
  (ss.map (gput r) ++ [("*".toList, Datum.one (.str "*".toList))]).foldl (fun d kv => put d kv.1 kv.2) r

theorem fill_group {lex : Lex} (hl : Sane lex) (F : Funs) (r : Row) {columns : List Str} {ss : List Sel} {aggs : List (Func × Str)}
    (h : GroupList columns ss aggs) (hr : ReadableArgs ss) : ∀ b : Row, (fill F lex r b ((ss ++ [star]).map Sel.tok)).1 =
      .ok ((ss.map (gput r) ++ [("*".toList, Datum.one (.str "*".toList))]).foldl (fun d kv => put d kv.1 kv.2) b) := by
  induction h with
  | nil => intro b; rfl
  | @column n as_ ss aggs hn _ ih =>
    intro b
    rw [ReadableArgs, Sel.Readable] at hr
    have h1 := evaluate_leaf hl F r (.field n) hr.1.1 (as_.map Prod.snd)
    rw [List.cons_append, List.map_cons, Sel.tok, fill]
    generalize evaluateField F lex r (.mk (Leaf.field n).token (leafLabel (.field n)) [] (as_.map Prod.snd)) = x at h1
    obtain ⟨x1, x2⟩ := x
    simp only at h1
    subst h1
    simp only
    rw [ih hr.2]
    rfl
  | @agg s f c ss aggs ha _ ih =>
    intro b
    rw [ReadableArgs] at hr
    obtain ⟨p, as_, e, hp, _⟩ := aggregation_tok ha
    have h2 : gput r s = (f.name, .one .none) := by
      cases ha with
      | column hw _ => rw [gput, hw]
      | star hw => rw [gput, hw]
    have h3 : evaluateField F lex r (.mk f.name .aggregator [p] as_) = (.ok (f.name, .one .none), .mk f.name .aggregator [p] as_) := by
      rw [evaluateField] <;> exact nofun
    rw [List.cons_append, List.map_cons, e, fill, h3]
    simp only
    rw [ih hr.2, List.map_cons, h2]
    rfl

theorem call_gaug {lex : Lex} (hl : Sane lex) (F : Funs) (r : Row) {columns : List Str} {ss : List Sel} {aggs : List (Func × Str)}
    (h : GroupList columns ss aggs) (hr : ReadableArgs ss) : (call F lex ((ss ++ [star]).map Sel.tok) r).1 = .ok (gaug ss r) := by
  unfold call
  rw [any_star, List.any_append, if_pos (by simp [star, Sel.isStar]), fill_group hl F r h hr]
  rfl

theorem gput_value {columns : List Str} {ss : List Sel} {aggs : List (Func × Str)} (h : GroupList columns ss aggs) (r : Row) :
    ∀ kv ∈ ss.map (gput r), (∃ a ∈ aggs, kv = (a.1.name, .one .none)) ∨ kv.2 = (Row.lookup r kv.1).getD (.one .none) := by
  induction h with
  | nil => intro kv hkv; cases hkv
  | column hn _ ih =>
    intro kv hkv
    rcases List.mem_cons.1 hkv with rfl | hkv
    · exact Or.inr rfl
    · exact ih kv hkv
  | @agg s f c ss aggs ha _ ih =>
    intro kv hkv
    rcases List.mem_cons.1 hkv with rfl | hkv
    · left
      refine ⟨(f, c), List.mem_cons_self .., ?_⟩
      cases ha with
      | column hw _ => rw [gput, hw]
      | star hw => rw [gput, hw]
    · rcases ih kv hkv with ⟨a, h1, h2⟩ | h1
      · exact Or.inl ⟨a, List.mem_cons_of_mem _ h1, h2⟩
      · exact Or.inr h1

theorem lookup_entry {d : Row} {k : Str} {v : Datum} (h : Row.lookup d k = some v) : (k, v) ∈ d := by
  induction d with
  | nil => cases h
  | cons kv d ih =>
    obtain ⟨x, y⟩ := kv
    rw [lookup_cons] at h
    split at h
    · next e => subst e; injection h with h; subst h; exact List.mem_cons_self ..
    · exact List.mem_cons_of_mem _ (ih h)

theorem gaug_lookup {columns : List Str} {ss : List Sel} {aggs : List (Func × Str)} (h : GroupList columns ss aggs) (r : Row) {k : Str}
    (hs : k ≠ "*".toList) (ha : ∀ a ∈ aggs, k ≠ a.1.name) :
    Row.lookup (gaug ss r) k = Row.lookup r k ∨ Row.lookup (gaug ss r) k = some ((Row.lookup r k).getD (.one .none)) := by
  unfold gaug
  rw [foldl_lookup_datum, List.reverse_append, lookup_append]
  have : Row.lookup [("*".toList, Datum.one (.str "*".toList))].reverse k = none := by
    rw [List.reverse_singleton, lookup_cons, if_neg hs]
    rfl
  rw [this, Option.none_or]
  cases hl : Row.lookup (ss.map (gput r)).reverse k with
  | none => exact Or.inl rfl
  | some v =>
    right
    rcases gput_value h r _ (List.mem_reverse.1 (lookup_entry hl)) with ⟨a, h1, h2⟩ | h1
    · injection h2 with h2 _
      exact absurd h2 (ha a h1)
    · simp only at h1
      rw [h1]
      rfl

/-! ## Records -/

/-- The values can be grouped. -/
def Clean (r : Row) : Prop := ∀ kv ∈ r, (toValue kv.2).isSome = true

def valueOf (d : Datum) : Value := (toValue d).getD .none

def recOf (r : Row) : Record := r.map (fun kv => (kv.1, valueOf kv.2))

theorem toRecord_some {r : Row} (h : Clean r) : toRecord r = some (recOf r) := by
  unfold toRecord recOf
  induction r with
  | nil => rfl
  | cons kv r ih =>
    have h1 := h kv (List.mem_cons_self ..)
    obtain ⟨v, hv⟩ := Option.isSome_iff_exists.1 h1
    rw [List.mapM_cons, ih (fun x hx => h x (List.mem_cons_of_mem _ hx)), hv]
    simp [valueOf, hv]

theorem clean_of {r : Row} {rec : Record} (h : toRecord r = some rec) : Clean r ∧ rec = recOf r := by
  have hc : Clean r := by
    unfold toRecord at h
    induction r generalizing rec with
    | nil => intro kv hkv; cases hkv
    | cons kv r ih =>
      rw [List.mapM_cons] at h
      cases hv : toValue kv.2 with
      | none => rw [hv] at h; cases h
      | some v =>
        rw [hv] at h
        cases hm : List.mapM (fun kv : Str × Datum => (toValue kv.2).map (fun v => (kv.1, v))) r with
        | none => rw [hm] at h; cases h
        | some rec' =>
          intro x hx
          rcases List.mem_cons.1 hx with rfl | hx
          · rw [hv]; rfl
          · exact ih hm x hx
  refine ⟨hc, ?_⟩
  rw [toRecord_some hc] at h
  injection h with h
  exact h.symm

theorem toRecords_some {rows : List Row} (h : ∀ r ∈ rows, Clean r) : rows.mapM toRecord = some (rows.map recOf) := by
  induction rows with
  | nil => rfl
  | cons r rows ih =>
    rw [List.mapM_cons, toRecord_some (h r (List.mem_cons_self ..)), ih (fun x hx => h x (List.mem_cons_of_mem _ hx))]
    rfl

theorem cleans_of {rows : List Row} {rs : List Record} (h : rows.mapM toRecord = some rs) : (∀ r ∈ rows, Clean r) ∧ rs = rows.map recOf := by
  induction rows generalizing rs with
  | nil => cases h; exact ⟨fun r hr => (by cases hr), rfl⟩
  | cons r rows ih =>
    rw [List.mapM_cons] at h
    cases hr : toRecord r with
    | none => rw [hr] at h; cases h
    | some rec =>
      rw [hr] at h
      cases hm : rows.mapM toRecord with
      | none => rw [hm] at h; cases h
      | some rs' =>
        rw [hm] at h
        injection h with h
        obtain ⟨h1, h2⟩ := ih hm
        obtain ⟨h3, h4⟩ := clean_of hr
        refine ⟨?_, by rw [← h, h2, h4]; rfl⟩
        intro x hx
        rcases List.mem_cons.1 hx with rfl | hx
        · exact h3
        · exact h1 x hx

theorem recOf_lookup (r : Row) (k : Str) : Record.lookup (recOf r) k = (Row.lookup r k).map valueOf := by
  unfold recOf
  induction r with
  | nil => rfl
  | cons kv r ih =>
    obtain ⟨x, y⟩ := kv
    rw [List.map_cons, lookup_cons]
    unfold Record.lookup at ih ⊢
    rw [List.find?_cons]
    by_cases hx : k = x
    · subst hx
      rw [if_pos rfl]
      simp
    · rw [if_neg hx]
      have : (x == k) = false := beq_eq_false_iff_ne.2 (fun e => hx e.symm)
      simp only [this]
      exact ih

theorem recOf_get (r : Row) (k : Str) : Record.get (recOf r) k = valueOf ((Row.lookup r k).getD (.one .none)) := by
  unfold Record.get
  rw [recOf_lookup]
  cases Row.lookup r k <;> rfl

theorem looked_only : looked = only := by
  funext C r
  unfold looked only
  congr 1
  funext kv
  exact List.contains_eq_mem ..

theorem only_lookup {C : List Str} {k : Str} (hk : k ∈ C) (r : Row) : Row.lookup (only C r) k = Row.lookup r k := by
  unfold only
  induction r with
  | nil => rfl
  | cons kv r ih =>
    obtain ⟨x, y⟩ := kv
    rw [List.filter_cons, lookup_cons]
    split
    · rw [lookup_cons, ih]
    · rename_i hx
      rw [ih, if_neg]
      rintro rfl
      exact hx (by simpa using hk)

/-- The values in these fields can be grouped. -/
def CleanOn (C : List Str) (r : Row) : Prop := ∀ kv ∈ r, kv.1 ∈ C → (toValue kv.2).isSome = true

theorem clean_only {C : List Str} {r : Row} : Clean (only C r) ↔ CleanOn C r := by
  unfold Clean CleanOn only
  constructor
  · intro h kv hkv hc
    exact h kv (List.mem_filter.2 ⟨hkv, by simpa using hc⟩)
  · intro h kv hkv
    obtain ⟨h1, h2⟩ := List.mem_filter.1 hkv
    exact h kv h1 (by simpa using h2)

theorem mem_put {r : Row} {k : Str} {v : Datum} {kv : Str × Datum} (h : kv ∈ put r k v) : kv ∈ r ∨ kv = (k, v) := by
  induction r with
  | nil =>
    rw [put, List.mem_singleton] at h
    exact Or.inr h
  | cons x r ih =>
    obtain ⟨x, y⟩ := x
    rw [put] at h
    split at h
    · rename_i hx
      rcases List.mem_cons.1 h with rfl | h
      · exact Or.inr (by simpa using hx)
      · exact Or.inl (List.mem_cons_of_mem _ h)
    · rcases List.mem_cons.1 h with rfl | h
      · exact Or.inl (List.mem_cons_self ..)
      · rcases ih h with h | h
        · exact Or.inl (List.mem_cons_of_mem _ h)
        · exact Or.inr h

theorem cleanOn_gaug {columns C : List Str} {ss : List Sel} {aggs : List (Func × Str)} (h : GroupList columns ss aggs) {r : Row}
    (hr : CleanOn C r) : CleanOn C (gaug ss r) := by
  have hall : ∀ kv ∈ ss.map (gput r) ++ [("*".toList, Datum.one (.str "*".toList))], kv.1 ∈ C → (toValue kv.2).isSome = true := by
    intro kv hkv hc
    rcases List.mem_append.1 hkv with hkv | hkv
    · rcases gput_value h r kv hkv with ⟨a, _, e⟩ | e
      · rw [e]; rfl
      · rw [e]
        cases hl : Row.lookup r kv.1 with
        | none => rfl
        | some v => exact hr _ (lookup_entry hl) hc
    · rw [List.mem_singleton] at hkv
      subst hkv
      rfl
  unfold gaug
  generalize ss.map (gput r) ++ [("*".toList, Datum.one (.str "*".toList))] = l at hall
  clear h
  induction l generalizing r with
  | nil => exact hr
  | cons kv l ih =>
    rw [List.foldl_cons]
    refine ih ?_ (fun x hx => hall x (List.mem_cons_of_mem _ hx))
    intro x hx hc
    rcases mem_put hx with hx | rfl
    · exact hr x hx hc
    · exact hall kv (List.mem_cons_self ..) hc

/-! ## Records with more columns are grouped in the same way -/

section
variable {l : List Row} {f g : Row → Record} {columns : List Str} {aggs : List (Func × Str)}

theorem agree_same (h : ∀ r ∈ l, ∀ c ∈ columns, (g r).get c = (f r).get c) {r s : Row} (hr : r ∈ l) (hs : s ∈ l) :
    agree columns (g r) (g s) = agree columns (f r) (f s) := by
  unfold agree
  rw [Bool.eq_iff_iff, List.all_eq_true, List.all_eq_true]
  constructor
  · intro hh c hc
    have := hh c hc
    rwa [h r hr c hc, h s hs c hc] at this
  · intro hh c hc
    have := hh c hc
    rwa [h r hr c hc, h s hs c hc]

theorem nonNull_map {k : Str} {u v : Row → Record} {l : List Row} (h : k = "*".toList ∨ ∀ r ∈ l, (u r).get k = (v r).get k) :
    nonNull k (l.map u) = nonNull k (l.map v) := by
  unfold nonNull
  rcases h with h | h
  · rw [if_pos h, if_pos h, List.map_map, List.map_map]; rfl
  · split
    · rw [List.map_map, List.map_map]; rfl
    · rw [List.map_map, List.map_map, List.map_congr_left (f := (fun r => r.get k) ∘ u) (g := (fun r => r.get k) ∘ v)]
      intro r hr
      exact h r hr

theorem groupOf_map (r : Record) (u : Row → Record) : groupOf columns (l.map u) r = (l.filter (fun s => agree columns r (u s))).map u := by
  unfold groupOf
  rw [List.filter_map]
  rfl

theorem nonNull_same (h : ∀ r ∈ l, ∀ c ∈ columns, (g r).get c = (f r).get c) {k : Str}
    (hk : k = "*".toList ∨ ∀ r ∈ l, (g r).get k = (f r).get k) {r : Row} (hr : r ∈ l) :
    nonNull k (groupOf columns (l.map g) (g r)) = nonNull k (groupOf columns (l.map f) (f r)) := by
  rw [groupOf_map, groupOf_map, List.filter_congr (q := fun s => agree columns (f r) (f s)) (fun s hs => agree_same h hr hs)]
  refine nonNull_map ?_
  rcases hk with hk | hk
  · exact Or.inl hk
  · exact Or.inr (fun s hs => hk s (List.mem_filter.1 hs).1)

theorem faithful_same (h : ∀ r ∈ l, ∀ c ∈ columns, (g r).get c = (f r).get c)
    (ht : ∀ r ∈ l, GroupBy.Spec.texts columns (g r) = GroupBy.Spec.texts columns (f r)) {hash : Str → Nat} (hf : Faithful hash columns (l.map f)) :
    Faithful hash columns (l.map g) := by
  intro a ha b hb
  obtain ⟨r, hr, rfl⟩ := List.mem_map.1 ha
  obtain ⟨s, hs, rfl⟩ := List.mem_map.1 hb
  rw [ht r hr, ht s hs, agree_same h hr hs]
  exact hf _ (List.mem_map_of_mem hr) _ (List.mem_map_of_mem hs)

theorem preimages {u : Row → Record} {l : List Row} : ∀ {rs : List Record}, rs ⊆ l.map u → ∃ l' : List Row, l' ⊆ l ∧ rs = l'.map u
  | [], _ => ⟨[], List.nil_subset _, rfl⟩
  | r :: rs, h => by
    obtain ⟨x, hx, e⟩ := List.mem_map.1 (h (List.mem_cons_self ..))
    obtain ⟨l', h1, h2⟩ := preimages (rs := rs) (fun y hy => h (List.mem_cons_of_mem _ hy))
    exact ⟨x :: l', List.cons_subset.2 ⟨hx, h1⟩, by rw [List.map_cons, e, h2]⟩

theorem few_same (h : ∀ r ∈ l, ∀ c ∈ columns, (g r).get c = (f r).get c) (hf : GroupBy.FewGroups columns (l.map f)) :
    GroupBy.FewGroups columns (l.map g) := by
  intro rs hsub hp
  obtain ⟨l', h1, rfl⟩ := preimages hsub
  have := hf (l'.map f) (List.map_subset f h1) ?_
  · simpa using this
  · rw [List.pairwise_map] at hp ⊢
    refine hp.imp_of_mem ?_
    intro a b ha hb e
    rw [← agree_same h (h1 ha) (h1 hb)]
    exact e

theorem carries_same (h : ∀ r ∈ l, ∀ c ∈ columns, (g r).get c = (f r).get c) {r : Row} (hr : r ∈ l) : carries columns (g r) = carries columns (f r) := by
  funext row
  unfold carries
  rw [Bool.eq_iff_iff, List.all_eq_true, List.all_eq_true]
  constructor
  · intro hh c hc
    have := hh c hc
    rwa [h r hr c hc] at this
  · intro hh c hc
    have := hh c hc
    rwa [h r hr c hc]

theorem table_same (h : ∀ r ∈ l, ∀ c ∈ columns, (g r).get c = (f r).get c)
    (ha : ∀ a ∈ aggs, a.2 = "*".toList ∨ ∀ r ∈ l, (g r).get a.2 = (f r).get a.2) {table : List Row}
    (ht : Table columns aggs (l.map g) table) : Table columns aggs (l.map f) table where
  right := by
    intro row hrow
    obtain ⟨r', hr', h1, h2⟩ := ht.right row hrow
    obtain ⟨r, hr, rfl⟩ := List.mem_map.1 hr'
    refine ⟨f r, List.mem_map_of_mem hr, by rw [← carries_same h hr]; exact h1, ?_⟩
    intro fn c hc
    rw [← nonNull_same h (ha _ hc) hr]
    exact h2 fn c hc
  one := by
    intro r' hr' hv
    obtain ⟨r, hr, rfl⟩ := List.mem_map.1 hr'
    rw [← carries_same h hr]
    refine ht.one _ (List.mem_map_of_mem hr) ?_
    rcases hv with hv | ⟨a, hm, hv⟩
    · exact Or.inl hv
    · exact Or.inr ⟨a, hm, by rw [nonNull_same h (ha _ hm) hr]; exact hv⟩
  none := by
    intro r' hr' hne hv
    obtain ⟨r, hr, rfl⟩ := List.mem_map.1 hr'
    rw [← carries_same h hr]
    exact ht.none _ (List.mem_map_of_mem hr) hne (fun a hm => by rw [nonNull_same h (ha _ hm) hr]; exact hv a hm)

end

/-! ## The groups -/

theorem ofValue_datum : ofValue = datum := by funext v; cases v <;> rfl

theorem ofCell_answer : ofCell = answer := by
  funext x
  cases x with
  | val v => exact congrFun ofValue_datum v
  | ratio t c => rfl

/-- Records of values that can be grouped, as they are delivered. -/
theorem records_plain {rows : List Row} {rs : List Record} (h : rows = rs.map plain) : rows.mapM toRecord = some rs := by
  have hv : ∀ v, toValue (datum v) = some v := by intro v; cases v <;> rfl
  have hr : ∀ r : Record, toRecord (plain r) = some r := by
    intro r
    unfold toRecord plain
    induction r with
    | nil => rfl
    | cons kv r ih => rw [List.map_cons, List.mapM_cons, ih, hv]; rfl
  subst h
  induction rs with
  | nil => rfl
  | cons r rs ih => rw [List.map_cons, List.mapM_cons, ih, hr]; rfl

def cellRow (r : GroupBy.Row) : Row := r.map (fun kv => (kv.1, ofCell kv.2))

def valueRow (r : Record) : Row := r.map (fun kv => (kv.1, ofValue kv.2))

theorem cellRow_lookup (r : GroupBy.Row) (k : Str) : Row.lookup (cellRow r) k = (dget r k).map ofCell := by
  unfold cellRow dget Row.lookup
  rw [List.find?_map, Option.map_map, Option.map_map]
  simp only [Function.comp_def]
  congr 2
  funext x
  exact Bool.eq_iff_iff.2 (by simp only [beq_iff_eq])

theorem valueRow_lookup (r : Record) (k : Str) : Row.lookup (valueRow r) k = (dget r k).map ofValue := by
  unfold valueRow dget Row.lookup
  rw [List.find?_map, Option.map_map, Option.map_map]
  simp only [Function.comp_def]
  congr 2
  funext x
  exact Bool.eq_iff_iff.2 (by simp only [beq_iff_eq])

theorem ofValue_inj {a b : Value} (h : ofValue a = ofValue b) : a = b := by
  cases a <;> cases b <;> simp_all [ofValue]

theorem ofCell_val {x : Cell} {v : Value} (h : ofCell x = ofValue v) : x = .val v := by
  cases x with
  | val w => rw [ofValue_inj h]
  | ratio t c => cases v <;> simp [ofCell, ofValue] at h

theorem carries_cell (columns : List Str) (r : Record) (row : GroupBy.Row) : carries columns r (cellRow row) = GroupBy.Spec.carries columns r row := by
  unfold carries GroupBy.Spec.carries
  rw [← ofValue_datum]
  congr 1
  funext c
  rw [cellRow_lookup, Bool.eq_iff_iff, beq_iff_eq, beq_iff_eq]
  cases dget row c with
  | none => simp
  | some x =>
    simp only [Option.map_some, Option.some.injEq]
    exact ⟨ofCell_val, fun e => by rw [e]; rfl⟩

theorem table_rows {columns : List Str} {aggs : List (Func × Str)} (hne : aggs ≠ []) {rs : List Record} {rows : List GroupBy.Row}
    (h : GroupBy.Spec.Answers aggs columns rs rows) : Table columns aggs rs (rows.map cellRow) where
  right := by
    intro row hrow
    obtain ⟨x, hx, rfl⟩ := List.mem_map.1 hrow
    obtain ⟨r, hr, h1, h2⟩ := h.right x hx
    refine ⟨r, hr, by rw [carries_cell]; exact h1, ?_⟩
    intro f c hc
    obtain ⟨y, h3, h4⟩ := h2 f c hc
    exact ⟨y, by rw [cellRow_lookup, h3, ofCell_answer]; rfl, h4⟩
  one := by
    intro r hr hv
    rcases hv with hv | hv
    · exact absurd hv hne
    · rw [List.filter_map, List.length_map, ← h.one r hr hv]
      congr 2
      funext x
      exact carries_cell columns r x
  none := by
    intro r hr _ hv
    rw [List.filter_map, ← List.map_nil (f := cellRow), ← h.none r hr hv]
    congr 2
    funext x
    exact carries_cell columns r x

theorem carries_value (columns : List Str) (r : Record) (row : Record) :
    carries columns r (valueRow row) = columns.all (fun c => dget row c == some (r.get c)) := by
  unfold carries
  rw [← ofValue_datum]
  congr 1
  funext c
  rw [valueRow_lookup, Bool.eq_iff_iff, beq_iff_eq, beq_iff_eq]
  cases dget row c with
  | none => simp
  | some x =>
    simp only [Option.map_some, Option.some.injEq]
    exact ⟨ofValue_inj, fun e => by rw [e]⟩

/-- Grouping, with or without aggregations. -/
theorem groupRows_table (env : Env) {columns : List Str} {aggs : List (Func × Str)} {given rows : List Row}
    (hlk : given.map (looked (columns ++ aggs.map Prod.snd)) = rows) (hc : ∀ r ∈ rows, Clean r)
    (hf : Faithful env.groupHash columns (rows.map recOf)) (hfew : GroupBy.FewGroups columns (rows.map recOf))
    (hd : GroupBy.Spec.Apart aggs) (hname : ∀ a ∈ aggs, GroupBy.Spec.entryName a.1 a.2 ∉ columns)
    (hfine : ∀ r ∈ rows.map recOf, (∃ a ∈ aggs, nonNull a.2 (groupOf columns (rows.map recOf) r) ≠ []) →
      ∀ f c, (f, c) ∈ aggs → Fine f (nonNull c (groupOf columns (rows.map recOf) r))) :
    ∃ table, groupRows env columns aggs (Gen.of given) = Gen.of table ∧ Table columns aggs (rows.map recOf) table := by
  unfold groupRows
  simp only [Gen.of]
  rw [hlk, toRecords_some hc]
  simp only
  by_cases he : aggs = []
  · rw [if_pos he]
    obtain ⟨gs, h1, h2, h3⟩ := GroupBy.C41_groups env.groupHash (rows.map recOf) columns hf hfew
    rw [h1]
    refine ⟨gs.map valueRow, rfl, ?_, ?_, ?_⟩
    · intro row hrow
      obtain ⟨x, hx, rfl⟩ := List.mem_map.1 hrow
      obtain ⟨r, hr, h4⟩ := h2 x hx
      refine ⟨r, hr, ?_, fun f c hm => by rw [he] at hm; cases hm⟩
      rw [carries_value, List.all_eq_true]
      intro c hc
      rw [h4 c hc, beq_self_eq_true]
    · intro r hr _
      rw [List.filter_map, List.length_map, ← h3 r hr]
      congr 2
      funext x
      exact carries_value columns r x
    · intro r hr hne
      exact absurd he hne
  · rw [if_neg he]
    obtain ⟨rows', h1, h2⟩ := GroupBy.C39_aggregations_partial env.groupHash (rows.map recOf) columns aggs hf hfew hd hname hfine
    rw [h1]
    exact ⟨rows'.map cellRow, rfl, table_rows he h2⟩

end Mabel.SqlReader
