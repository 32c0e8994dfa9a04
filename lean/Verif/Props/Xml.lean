import Verif.Lemmas.XmlNs

/-! # Reading XML (C63) -/

namespace Mabel.Xml
open Mabel.Py Mabel.Dates Mabel.Records Mabel.Xml.Spec

theorem stripNs_dict {d : List (Str × XVal)} {w : XVal} (h : stripNs (.dict d) = .ok w) : ∃ e, w = .dict e := by
  rw [stripNs] at h
  cases h1 : renameKeys (stripItems d) with
  | error e => rw [h1] at h; cases h
  | ok e =>
    rw [h1] at h
    cases h2 : sequenceItems e with
    | error x =>
      have : (do Except.ok (XVal.dict (← sequenceItems e))) = Except.ok w := h
      rw [h2] at this
      cases this
    | ok x =>
      have : (do Except.ok (XVal.dict (← sequenceItems e))) = Except.ok w := h
      rw [h2] at this
      injection this with this
      exact ⟨x, this.symm⟩

/-- **C63**: reading a document whose names stay different without namespaces gives a dictionary that says, with those
names, exactly what the document says, each thing as many times: every element, every attribute and every text, except the
texts that come after an element inside another. -/
theorem C63_kept (t : Xml) (hw : Wf t) (ha : ApartIn t) :
    ∃ d, parse t = .ok (.dict d) ∧
      (readDict [] d ++ (tails [] t).map Fact.local).Perm ((facts [] t).map Fact.local) := by
  have hq : IsQName t.tag := by
    cases t
    rw [ApartIn] at ha
    exact ha.1
  have hok : NsOk (.dict (etreeToDict t)) := by
    rw [NsOk, etreeToDict, NsOkD, NsOkD]
    refine ⟨by simp, ?_, by simp, nsOk_valueOf t hw ha, Or.inl hq, trivial⟩
    intro k hk
    have : k = t.tag := by simpa using hk
    rw [this]
    exact .tag hq
  obtain ⟨w, hw', hp⟩ := strip_ok _ hok
  obtain ⟨d, rfl⟩ := stripNs_dict hw'
  refine ⟨d, hw', ?_⟩
  have h1 := hp []
  rw [Spec.read, Spec.read, List.map_cons] at h1
  have h2 := h1.cons_inv
  have h3 : readDict [] (etreeToDict t) = Spec.read ([] ++ [t.tag]) (valueOf t) := by
    rw [etreeToDict, readDict_cons]
    · exact List.append_nil _
    · cases t
      rw [Wf] at hw
      exact hw.1
  rw [h3] at h2
  have h4 := (kept [] t hw).map Fact.local
  rw [List.map_append] at h4
  exact (h2.append_right _).trans h4

/-- **C63** (partial: documents in which text never follows an element; names different without namespaces): nothing is lost
and nothing is added. -/
theorem C63_everything_partial (t : Xml) (hw : Wf t) (ha : ApartIn t) (ht : tails [] t = []) :
    ∃ d, parse t = .ok (.dict d) ∧ (readDict [] d).Perm ((facts [] t).map Fact.local) := by
  obtain ⟨d, h1, h2⟩ := C63_kept t hw ha
  rw [ht] at h2
  exact ⟨d, h1, by simpa using h2⟩

/-- **C63**: every fact can be looked for: it is in the dictionary if and only if it is in the document (outside the texts
after elements). -/
theorem C63_found (t : Xml) (hw : Wf t) (ha : ApartIn t) (ht : tails [] t = []) :
    ∃ d, parse t = .ok (.dict d) ∧ ∀ f, f ∈ readDict [] d ↔ ∃ g ∈ facts [] t, g.local = f := by
  obtain ⟨d, h1, h2⟩ := C63_everything_partial t hw ha ht
  exact ⟨d, h1, fun f => h2.mem_iff.trans List.mem_map⟩

/-! ## Where things are -/

theorem lookup_tagged (attrs : List (Str × Str)) (k : Str) (hk : k.head? ≠ some '@') :
    (attrs.map (fun a => (('@' :: a.1 : Str), XVal.text a.2))).lookup k = none := by
  rw [List.lookup_eq_none_iff]
  intro kv hkv
  obtain ⟨a, _, rfl⟩ := List.mem_map.1 hkv
  simp only [bne_iff_ne, ne_eq]
  intro e
  exact hk (by rw [e]; rfl)

theorem lookup_attr (attrs : List (Str × Str)) (n : Str) :
    (attrs.map (fun a => (('@' :: a.1 : Str), XVal.text a.2))).lookup ('@' :: n) = (attrs.lookup n).map .text := by
  induction attrs with
  | nil => rfl
  | cons a attrs ih =>
    rw [List.map_cons, List.lookup_cons, List.lookup_cons, ih]
    by_cases h : n = a.1
    · simp [h]
    · have h1 : (n == a.1) = false := by simpa using h
      have h2 : (('@' :: n : Str) == '@' :: a.1) = false := by simpa using h
      rw [h1, h2]

theorem lookup_none_of {β : Type} (d : List (Str × β)) (k : Str) (h : k ∉ d.map Prod.fst) : d.lookup k = none := by
  rw [List.lookup_eq_none_iff]
  intro kv hkv
  simp only [bne_iff_ne, ne_eq]
  intro e
  exact h (List.mem_map.2 ⟨kv, hkv, e.symm⟩)

theorem lookup_unwrap (dd : List (Str × List XVal)) (k : Str) :
    (dd.map (fun kv => (kv.1, unwrap kv.2))).lookup k = (dd.lookup k).map unwrap := by
  induction dd with
  | nil => rfl
  | cons a dd ih =>
    rw [List.map_cons, List.lookup_cons, List.lookup_cons, ih]
    split <;> rfl

/-- **C63**: the dictionary of an element that has children or attributes: for the name of children, the value of the only
child with that tag or the values of all of them in their order; for `@` and the name of an attribute, its value; for
`#text`, the text without white space at its ends, when there is any. -/
theorem C63_places (tag : Str) (attrs : List (Str × Str)) (text : Option Str) (children : List Xml) (tail : Option Str)
    (hw : Wf (.el tag attrs text children tail)) (h : children ≠ [] ∨ attrs ≠ []) :
    ∃ d, valueOf (.el tag attrs text children tail) = .dict d ∧
      (∀ k, IsName k → d.lookup k = match (children.filter (fun c => c.tag = k)).map valueOf with
        | [] => none
        | [v] => some v
        | l => some (.list l)) ∧
      (∀ n, d.lookup ('@' :: n) = (attrs.lookup n).map .text) ∧
      d.lookup "#text".toList = if strip (text.getD []) = [] then none else some (.text (strip (text.getD []))) := by
  rw [Wf] at hw
  have hname := wf_names children hw.2.2
  refine ⟨_, valueOf_content tag attrs text children tail hw.2.1 hw.2.2 h, ?_, ?_, ?_⟩
  · intro k hk
    have ht : (if strip (text.getD []) = [] then ([] : List (Str × XVal))
        else [("#text".toList, .text (strip (text.getD [])))]).lookup k = none := by
      apply lookup_none_of
      intro hm
      split at hm
      · cases hm
      · have : k = "#text".toList := by simpa using hm
        exact hk.2 (by rw [this]; rfl)
    have hv : valuesAt (entriesOf children) k = (children.filter (fun c => c.tag = k)).map valueOf := by
      rw [valuesAt, entriesOf_map, List.filter_map, List.map_map]
      rfl
    rw [content, List.lookup_append, List.lookup_append, lookup_tagged attrs k hk.1, ht, lookup_unwrap, group_lookup, hv]
    generalize (children.filter (fun c => c.tag = k)).map valueOf = l
    match l with
    | [] => rfl
    | [v] => rfl
    | a :: b :: l => rfl
  · intro n
    have hg : ((group (entriesOf children)).map (fun kv => (kv.1, unwrap kv.2))).lookup ('@' :: n) = none := by
      apply lookup_none_of
      rw [List.map_map]
      intro hm
      exact (hname _ ((group_names children _).1 hm)).1 rfl
    have ht : (if strip (text.getD []) = [] then ([] : List (Str × XVal))
        else [("#text".toList, .text (strip (text.getD [])))]).lookup ('@' :: n) = none := by
      apply lookup_none_of
      intro hm
      split at hm
      · cases hm
      · have : ('@' :: n : Str) = "#text".toList := by simpa using hm
        exact absurd (congrArg List.head? this) (by simp)
    rw [content, List.lookup_append, List.lookup_append, lookup_attr, ht, hg]
    simp
  · have hg : ((group (entriesOf children)).map (fun kv => (kv.1, unwrap kv.2))).lookup "#text".toList = none := by
      apply lookup_none_of
      rw [List.map_map]
      intro hm
      exact (hname _ ((group_names children _).1 hm)).2 rfl
    rw [content, List.lookup_append, List.lookup_append, lookup_tagged attrs _ (by decide), hg]
    by_cases hs : strip (text.getD []) = []
    · rw [if_pos hs, if_pos hs]; rfl
    · rw [if_neg hs, if_neg hs, List.lookup_cons_self]; rfl

/-- **C63**: an element without children and attributes is its text (without white space at its ends), or nothing. -/
theorem C63_leaf (tag : Str) (text tail : Option Str) :
    valueOf (.el tag [] text [] tail) = if text.getD [] = [] then .none else .text (strip (text.getD [])) := by
  match text with
  | none => rfl
  | some [] => rfl
  | some (c :: cs) => rfl

/-! ## What is lost -/

/-- **C63** (fails): text after an element inside another is not read: whatever it is, the result is the same. -/
theorem C63_tail_fails (tag : Str) (attrs : List (Str × Str)) (text tail : Option Str) (before after : List Xml)
    (a : Str) (b : List (Str × Str)) (c : Option Str) (d : List Xml) (x y : Option Str) :
    parse (.el tag attrs text (before ++ [.el a b c d x] ++ after) tail) =
    parse (.el tag attrs text (before ++ [.el a b c d y] ++ after) tail) := by
  have h : entriesOf (before ++ [.el a b c d x] ++ after) = entriesOf (before ++ [.el a b c d y] ++ after) := by
    simp only [entriesOf_map, List.map_append, List.map_cons, List.map_nil, valueOf, Xml.tag]
  have h2 : valueOf (.el tag attrs text (before ++ [.el a b c d x] ++ after) tail) =
      valueOf (.el tag attrs text (before ++ [.el a b c d y] ++ after) tail) := by
    rw [valueOf, valueOf, h]
    have e1 : (before ++ [.el a b c d x] ++ after ≠ []) := by simp
    have e2 : (before ++ [.el a b c d y] ++ after ≠ []) := by simp
    rw [if_pos e1, if_pos e2]
  rw [parse, parse, etreeToDict, etreeToDict, h2]
  rfl

/-- **C63** (fails): the order of elements with different tags is not kept. -/
theorem C63_order_fails (tag : Str) (attrs : List (Str × Str)) (text tail : Option Str) (x y z : Xml)
    (h1 : x.tag = z.tag) (h2 : y.tag ≠ x.tag) :
    parse (.el tag attrs text [x, y, z] tail) = parse (.el tag attrs text [x, z, y] tail) := by
  have h2' : ¬ x.tag = y.tag := fun e => h2 e.symm
  have hg : group (entriesOf [x, y, z]) = group (entriesOf [x, z, y]) := by
    simp only [entriesOf, group, List.foldl_cons, List.foldl_nil, addTo, ← h1, h2', if_true, if_false]
  have hv : valueOf (.el tag attrs text [x, y, z] tail) = valueOf (.el tag attrs text [x, z, y] tail) := by
    rw [valueOf, valueOf, hg]
    simp
  rw [parse, parse, etreeToDict, etreeToDict, hv]
  rfl

/-- **C63** (fails): of two elements whose tags differ only in their namespaces, the first is lost. -/
theorem C63_namespace_fails (a b : Str) (name s1 s2 : Str) (h : a ≠ b) (ha : '}' ∉ a) (hb : '}' ∉ b)
    (hn : name.head? ≠ some '{' ∧ name.head? ≠ some '@') (h1 : s1 ≠ []) (h2 : s2 ≠ []) :
    parse (.el "r".toList [] none [.el ('{' :: a ++ '}' :: name) [] (some s1) [] none, .el ('{' :: b ++ '}' :: name) [] (some s2) [] none] none) =
      .ok (.dict [("r".toList, .dict [(name, .text (strip s2))])]) := by
  have hv1 := C63_leaf ('{' :: a ++ '}' :: name) (some s1) none
  have hv2 := C63_leaf ('{' :: b ++ '}' :: name) (some s2) none
  simp only [Option.getD_some, if_neg h1, if_neg h2] at hv1 hv2
  have hne : ¬ ('{' :: a ++ '}' :: name) = ('{' :: b ++ '}' :: name) := by
    intro e
    simp at e
    exact h e
  have hdrop : ∀ x : Str, '}' ∉ x → ('{' :: x ++ '}' :: name).dropWhile (fun c : Char => decide (c ≠ '}')) = '}' :: name := by
    intro x hx
    rw [List.cons_append, List.dropWhile_cons_of_pos (by decide), List.dropWhile_append_of_pos, List.dropWhile_cons_of_neg (by decide)]
    intro c hc
    have : c ≠ '}' := fun e => hx (e ▸ hc)
    simpa using this
  have hb1 : ∀ x : Str, afterBrace ('{' :: x ++ '}' :: name) = .ok (if '}' ∈ x then [] else name) ∨ '}' ∈ x := by
    intro x
    by_cases hx : '}' ∈ x
    · exact Or.inr hx
    · left
      unfold afterBrace
      rw [hdrop x hx, if_neg hx]
  have hA : afterBrace ('{' :: a ++ '}' :: name) = .ok name := by
    have := (hb1 a).resolve_right ha
    rwa [if_neg ha] at this
  have hB : afterBrace ('{' :: b ++ '}' :: name) = .ok name := by
    have := (hb1 b).resolve_right hb
    rwa [if_neg hb] at this
  have hKA : startsWith "{".toList ('{' :: a ++ '}' :: name) = true := (startsWith_brace _).2 rfl
  have hKB : startsWith "{".toList ('{' :: b ++ '}' :: name) = true := (startsWith_brace _).2 rfl
  have hnB : ¬ ('{' :: b ++ '}' :: name) = name := fun e => hn.1 (by rw [← e]; rfl)
  have hat : startsWith "@{".toList name = false := by
    cases hx : startsWith "@{".toList name with
    | false => rfl
    | true =>
      obtain ⟨n, hn', _⟩ := (startsWith_at _).1 hx
      exact absurd (by rw [hn']; rfl) hn.2
  generalize ('{' :: a ++ '}' :: name : Str) = A at *
  generalize ('{' :: b ++ '}' :: name : Str) = B at *
  have hr : valueOf (.el "r".toList [] none [.el A [] (some s1) [] none, .el B [] (some s2) [] none] none) =
      .dict [(A, .text (strip s1)), (B, .text (strip s2))] := by
    rw [valueOf]
    simp only [entriesOf, Xml.tag, hv1, hv2, group, List.foldl_cons, List.foldl_nil, addTo, if_neg hne]
    rfl
  have h1 : ∀ {β : Type} (x y : β), renameKeys [(A, x), (B, y)] = .ok [(name, y)] := by
    intro β x y
    have hf : ([(A, x), (B, y)].map Prod.fst).filter (startsWith "{".toList) = [A, B] := by
      simp only [List.map_cons, List.map_nil, List.filter_cons, hKA, hKB, if_true, List.filter_nil]
    have hr1 : renames [] [A, B] [(A, x), (B, y)] = .ok [(name, y)] := by
      rw [renames, hA]
      show (match pop [(A, x), (B, y)] A with | none => _ | some (v, d) => _) = _
      rw [pop, if_pos rfl]
      show renames [] [B] (put [(B, y)] name x) = _
      rw [put, if_neg hnB, renames, hB]
      show (match pop [(B, y), (name, x)] B with | none => _ | some (v, d) => _) = _
      rw [pop, if_pos rfl]
      show renames [] [] (put [(name, x)] name y) = _
      rw [put, if_pos rfl]
      rfl
    rw [renameKeys, hf, hr1]
    show renames "@".toList (([(name, y)].map Prod.fst).filter (startsWith "@{".toList)) [(name, y)] = _
    simp only [List.map_cons, List.map_nil, List.filter_cons, hat, List.filter_nil]
    rfl
  have h2 : stripNs (.dict [(A, .text (strip s1)), (B, .text (strip s2))]) = .ok (.dict [(name, .text (strip s2))]) := by
    rw [stripNs, stripItems, stripItems, stripItems, h1]
    rfl
  rw [parse, etreeToDict, hr, stripNs, stripItems, h2]
  rfl

/-! ## A case -/

/-- `<list n="2"><item id="1">one</item><item><sub/></item><note> text </note></list>` with a namespace on an item and an
attribute -/
def sample : Xml :=
  .el "{urn:x}list".toList [("{urn:y}n".toList, "2".toList)] (some "\n ".toList)
    [.el "{urn:x}item".toList [("id".toList, "1".toList)] (some "one".toList) [] none,
     .el "{urn:x}item".toList [] none [.el "sub".toList [] none [] none] none,
     .el "note".toList [] (some " text ".toList) [] (some "\n".toList)] none

theorem sample_wf : Wf sample := by
  simp only [sample, Wf, WfIn, IsName]
  decide +kernel

instance (k : Str) : Decidable (IsQName k) := by unfold IsQName IsName; infer_instance

instance (l : List Str) : Decidable (Apart l) := by unfold Apart; infer_instance

theorem sample_apart : ApartIn sample := by
  simp only [sample, ApartIn, ApartAll]
  decide +kernel

example : ∃ d, parse sample = .ok (.dict d) ∧ (readDict [] d).Perm ((facts [] sample).map Fact.local) :=
  C63_everything_partial sample sample_wf sample_apart (by decide +kernel)

example : (facts [] sample).map Fact.local = [
    .element ["list".toList], .attribute ["list".toList] "n".toList "2".toList,
    .element ["list".toList, "item".toList], .attribute ["list".toList, "item".toList] "id".toList "1".toList,
    .text ["list".toList, "item".toList] "one".toList,
    .element ["list".toList, "item".toList], .element ["list".toList, "item".toList, "sub".toList],
    .element ["list".toList, "note".toList], .text ["list".toList, "note".toList] "text".toList] := by decide +kernel

example : ∃ d, parse sample = .ok (.dict d) ∧ ∀ f, f ∈ readDict [] d ↔ ∃ g ∈ facts [] sample, g.local = f :=
  C63_found sample sample_wf sample_apart (by decide +kernel)

/-- The two items are a list. -/
example : ∃ d, valueOf sample = .dict d ∧ (∃ l, d.lookup "{urn:x}item".toList = some (.list l) ∧ l.length = 2) ∧
    d.lookup "@{urn:y}n".toList = some (.text "2".toList) := by
  obtain ⟨d, h1, h2, h3, _⟩ := C63_places _ _ _ _ _ sample_wf (Or.inl (by simp))
  refine ⟨d, h1, ?_, (h3 "{urn:y}n".toList).trans rfl⟩
  exact ⟨_, (h2 "{urn:x}item".toList (by simp [IsName])).trans rfl, rfl⟩

/-- Text after an element. -/
example : parse (.el "p".toList [] none ([] ++ [.el "b".toList [] (some "bold".toList) [] (some " and not".toList)] ++ []) none) =
    parse (.el "p".toList [] none ([] ++ [.el "b".toList [] (some "bold".toList) [] none] ++ []) none) :=
  C63_tail_fails ..

example : parse (.el "p".toList [] none [.el "a".toList [] none [] none, .el "b".toList [] none [] none, .el "a".toList [] none [] none] none) =
    parse (.el "p".toList [] none [.el "a".toList [] none [] none, .el "a".toList [] none [] none, .el "b".toList [] none [] none] none) :=
  C63_order_fails _ _ _ _ _ _ _ rfl (by decide)

example : parse (.el "r".toList [] none [.el "{u}x".toList [] (some "1".toList) [] none, .el "{v}x".toList [] (some "2".toList) [] none] none) =
    .ok (.dict [("r".toList, .dict [("x".toList, .text "2".toList)])]) :=
  C63_namespace_fails "u".toList "v".toList "x".toList "1".toList "2".toList (by decide) (by decide) (by decide) (by decide) (by decide) (by decide)

end Mabel.Xml
