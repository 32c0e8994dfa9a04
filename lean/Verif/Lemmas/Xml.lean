import Verif.Spec.Xml
import Verif.Lemmas.Tokenizer
import Verif.Props.Records

/-! # Facts kept by the reader of XML -/

namespace Mabel.Xml
open Mabel.Py Mabel.Dates Mabel.Records Mabel.Xml.Spec

theorem readDict_append (p : List Str) (a b : List (Str × XVal)) : readDict p (a ++ b) = readDict p a ++ readDict p b := by
  induction a with
  | nil => rfl
  | cons kv a ih =>
    obtain ⟨k, v⟩ := kv
    simp only [List.cons_append, readDict, ih, List.append_assoc]

theorem readList_append (p : List Str) (a b : List XVal) : readList p (a ++ b) = readList p a ++ readList p b := by
  induction a with
  | nil => rfl
  | cons v a ih => simp only [List.cons_append, readList, ih, List.append_assoc]

theorem read_unwrap (p : List Str) (l : List XVal) : read p (unwrap l) = readList p l := by
  match l with
  | [] => rfl
  | [v] => simp [unwrap, readList]
  | _ :: _ :: _ => rfl

/-- An entry with an ordinary name. -/
theorem readDict_cons {p : List Str} {k : Str} {v : XVal} {d : List (Str × XVal)} (hk : IsName k) :
    readDict p ((k, v) :: d) = read (p ++ [k]) v ++ readDict p d := by
  rw [readDict, if_neg hk.1, if_neg]
  intro h
  exact hk.2 (by rw [h]; rfl)

/-! ## Grouping -/

theorem addTo_keys {β : Type} (dd : List (Str × List β)) (k : Str) (v : β) :
    ∀ x, x ∈ (addTo dd k v).map Prod.fst ↔ x ∈ dd.map Prod.fst ∨ x = k := by
  intro x
  induction dd with
  | nil => simp [addTo]
  | cons kv dd ih =>
    rw [addTo]
    by_cases h : kv.1 = k
    · rw [if_pos h, List.map_cons, List.map_cons, List.mem_cons, h]
      by_cases hx : x = k <;> simp [hx]
    · rw [if_neg h, List.map_cons, List.map_cons, List.mem_cons, List.mem_cons, ih, or_assoc]

theorem addTo_nodup {β : Type} (dd : List (Str × List β)) (k : Str) (v : β) (h : (dd.map Prod.fst).Nodup) :
    ((addTo dd k v).map Prod.fst).Nodup := by
  induction dd with
  | nil => simp [addTo]
  | cons kv dd ih =>
    rw [List.map_cons, List.nodup_cons] at h
    rw [addTo]
    by_cases hk : kv.1 = k
    · rw [if_pos hk, List.map_cons, List.nodup_cons]
      exact h
    · rw [if_neg hk, List.map_cons, List.nodup_cons]
      refine ⟨fun hm => ?_, ih h.2⟩
      rcases (addTo_keys dd k v kv.1).1 hm with h1 | h1
      · exact h.1 h1
      · exact hk h1

theorem addTo_lookup {β : Type} (dd : List (Str × List β)) (k : Str) (v : β) (x : Str) :
    (addTo dd k v).lookup x = if x = k then some ((dd.lookup x).getD [] ++ [v]) else dd.lookup x := by
  induction dd with
  | nil =>
    rw [addTo, List.lookup_cons]
    by_cases h : x = k
    · simp [h]
    · have : (x == k) = false := by simpa using h
      simp [this, h]
  | cons kv dd ih =>
    obtain ⟨a, l⟩ := kv
    rw [addTo]
    by_cases hk : a = k
    · rw [if_pos hk, List.lookup_cons, List.lookup_cons]
      by_cases h : x = a
      · subst h; subst hk; simp
      · have : (x == a) = false := by simpa using h
        rw [this, if_neg (fun e => h (e.trans hk.symm))]
    · rw [if_neg hk, List.lookup_cons, List.lookup_cons, ih]
      by_cases h : x = a
      · subst h
        simp [hk]
      · have : (x == a) = false := by simpa using h
        rw [this]

theorem fold_keys {β : Type} (items : List (Str × β)) : ∀ (dd : List (Str × List β)) (x : Str),
    x ∈ (items.foldl (fun d kv => addTo d kv.1 kv.2) dd).map Prod.fst ↔ x ∈ dd.map Prod.fst ∨ x ∈ items.map Prod.fst := by
  induction items with
  | nil => intro dd x; simp
  | cons kv items ih =>
    intro dd x
    rw [List.foldl_cons, ih, addTo_keys, List.map_cons, List.mem_cons, or_assoc]

theorem group_keys {β : Type} (items : List (Str × β)) (x : Str) :
    x ∈ (group items).map Prod.fst ↔ x ∈ items.map Prod.fst := by
  rw [group, fold_keys]
  simp

theorem group_nodup {β : Type} (items : List (Str × β)) : ((group items).map Prod.fst).Nodup := by
  have h : ∀ (items : List (Str × β)) (dd : List (Str × List β)), (dd.map Prod.fst).Nodup →
      ((items.foldl (fun d kv => addTo d kv.1 kv.2) dd).map Prod.fst).Nodup := by
    intro items
    induction items with
    | nil => intro dd h; exact h
    | cons kv items ih => intro dd h; exact ih _ (addTo_nodup dd _ _ h)
  exact h items [] List.nodup_nil

/-- The values of one key, in order. -/
def valuesAt {β : Type} (items : List (Str × β)) (k : Str) : List β := (items.filter (fun kv => kv.1 = k)).map Prod.snd

theorem group_lookup {β : Type} (items : List (Str × β)) (k : Str) :
    (group items).lookup k = if valuesAt items k = [] then none else some (valuesAt items k) := by
  have h : ∀ (items : List (Str × β)) (dd : List (Str × List β)),
      (items.foldl (fun d kv => addTo d kv.1 kv.2) dd).lookup k =
        if valuesAt items k = [] then dd.lookup k else some ((dd.lookup k).getD [] ++ valuesAt items k) := by
    intro items
    induction items with
    | nil => intro dd; rfl
    | cons kv items ih =>
      intro dd
      rw [List.foldl_cons, ih, addTo_lookup]
      by_cases hk : k = kv.1
      · have : valuesAt (kv :: items) k = kv.2 :: valuesAt items k := by simp [valuesAt, hk]
        rw [if_pos hk, this]
        by_cases h0 : valuesAt items k = []
        · simp [h0]
        · simp [h0]
      · have : valuesAt (kv :: items) k = valuesAt items k := by
          have : ¬ kv.1 = k := fun e => hk e.symm
          simp [valuesAt, this]
        rw [if_neg hk, this]
  have := h items []
  simpa [group] using this

/-! ## Facts of the groups -/

/-- The facts of children given with their tags. -/
def readItems (p : List Str) (items : List (Str × XVal)) : List Fact := items.flatMap (fun kv => read (p ++ [kv.1]) kv.2)

def readGroups (p : List Str) (dd : List (Str × List XVal)) : List Fact := dd.flatMap (fun kv => readList (p ++ [kv.1]) kv.2)

theorem readGroups_addTo (p : List Str) (dd : List (Str × List XVal)) (k : Str) (v : XVal) :
    (readGroups p (addTo dd k v)).Perm (readGroups p dd ++ read (p ++ [k]) v) := by
  induction dd with
  | nil => simp [addTo, readGroups, readList]
  | cons kv dd ih =>
    rw [addTo]
    by_cases h : kv.1 = k
    · rw [if_pos h]
      simp only [readGroups, List.flatMap_cons, readList_append, readList, h, List.append_nil, List.append_assoc]
      exact List.Perm.append_left _ List.perm_append_comm
    · rw [if_neg h]
      simp only [readGroups, List.flatMap_cons, List.append_assoc]
      exact List.Perm.append_left _ ih

theorem readGroups_group (p : List Str) (items : List (Str × XVal)) :
    (readGroups p (group items)).Perm (readItems p items) := by
  have h : ∀ (items : List (Str × XVal)) (dd : List (Str × List XVal)),
      (readGroups p (items.foldl (fun d kv => addTo d kv.1 kv.2) dd)).Perm (readGroups p dd ++ readItems p items) := by
    intro items
    induction items with
    | nil => intro dd; simp [readItems]
    | cons kv items ih =>
      intro dd
      rw [List.foldl_cons]
      refine (ih _).trans ?_
      simp only [readItems, List.flatMap_cons, ← List.append_assoc]
      exact List.Perm.append_right _ (readGroups_addTo p dd kv.1 kv.2)
  exact h items []

theorem readDict_groups (p : List Str) (dd : List (Str × List XVal)) (h : ∀ k ∈ dd.map Prod.fst, IsName k) :
    readDict p (dd.map (fun kv => (kv.1, unwrap kv.2))) = readGroups p dd := by
  induction dd with
  | nil => rfl
  | cons kv dd ih =>
    rw [List.map_cons, readDict_cons (h _ (by simp)), read_unwrap, ih (fun k hk => h k (by simp [hk]))]
    simp [readGroups]

/-! ## Attributes and text -/

theorem update_new {β : Type} (items : List (Str × β)) (d : List (Str × β)) (h : ((d ++ items).map Prod.fst).Nodup) :
    update d items = d ++ items := foldl_put items d h

theorem readDict_attrs (p : List Str) (attrs : List (Str × Str)) :
    readDict p (attrs.map (fun a => ('@' :: a.1, .text a.2))) = attrs.map (fun a => .attribute p a.1 a.2) := by
  induction attrs with
  | nil => rfl
  | cons a attrs ih => 
    rw [List.map_cons, readDict, if_pos (show ('@' :: a.1).head? = some '@' from rfl), ih]
    rfl

theorem said_strip (p : List Str) (s : Str) : said p (strip s) = said p s := by
  unfold said
  rw [Mabel.Tokenizer.strip_strip]

theorem said_nil (p : List Str) : said p [] = [] := rfl

theorem entriesOf_map (cs : List Xml) : entriesOf cs = cs.map (fun c => (c.tag, valueOf c)) := by
  induction cs with
  | nil => rfl
  | cons c cs ih => rw [entriesOf, ih]; rfl

/-- The names of the groups are the tags of the children. -/
theorem group_names (cs : List Xml) (k : Str) : k ∈ (group (entriesOf cs)).map Prod.fst ↔ k ∈ cs.map Xml.tag := by
  rw [group_keys, entriesOf_map, List.map_map]
  rfl

theorem wf_names (cs : List Xml) (h : WfIn cs) : ∀ k ∈ cs.map Xml.tag, IsName k := by
  induction cs with
  | nil => intro k hk; cases hk
  | cons c cs ih =>
    rw [WfIn] at h
    intro k hk
    rw [List.map_cons, List.mem_cons] at hk
    rcases hk with rfl | hk
    · cases c with
      | el tag _ _ _ _ => rw [Wf] at h; exact h.1.1
    · exact ih h.2 k hk

/-- The dictionary of an element that has children or attributes. -/
def content (attrs : List (Str × Str)) (text : Option Str) (children : List Xml) : List (Str × XVal) :=
  (group (entriesOf children)).map (fun kv => (kv.1, unwrap kv.2)) ++ attrs.map (fun a => ('@' :: a.1, .text a.2)) ++
    (if strip (text.getD []) = [] then [] else [("#text".toList, .text (strip (text.getD [])))])

theorem content_nodup (attrs : List (Str × Str)) (text : Option Str) (children : List Xml) (ha : (attrs.map Prod.fst).Nodup)
    (hc : WfIn children) : ((content attrs text children).map Prod.fst).Nodup := by
  have hg : ((group (entriesOf children)).map (fun kv => (kv.1, unwrap kv.2))).map Prod.fst = (group (entriesOf children)).map Prod.fst := by
    rw [List.map_map]; rfl
  have hm : (attrs.map (fun a => (('@' :: a.1, XVal.text a.2) : Str × XVal))).map Prod.fst = (attrs.map Prod.fst).map ('@' :: ·) := by
    rw [List.map_map, List.map_map]; rfl
  have hn : ∀ k ∈ (group (entriesOf children)).map Prod.fst, IsName k :=
    fun k hk => wf_names children hc k ((group_names children k).1 hk)
  rw [content, List.map_append, List.map_append, hg, hm, List.nodup_append, List.nodup_append]
  refine ⟨⟨group_nodup _, ?_, ?_⟩, ?_, ?_⟩
  · exact List.Pairwise.map _ (fun a b h e => h (by injection e)) ha
  · intro a h1 b h2 e
    subst e
    obtain ⟨c, _, rfl⟩ := List.mem_map.1 h2
    exact (hn _ h1).1 rfl
  · split
    · exact List.nodup_nil
    · simp
  · intro a h1 b h2 e
    subst e
    split at h2
    · cases h2
    · have h3 : a = "#text".toList := by simpa using h2
      subst h3
      rcases List.mem_append.1 h1 with h1 | h1
      · exact (hn _ h1).2 rfl
      · obtain ⟨c, _, hc⟩ := List.mem_map.1 h1
        injection hc with h4
        exact absurd h4 (by decide)

theorem valueOf_content (tag : Str) (attrs : List (Str × Str)) (text : Option Str) (children : List Xml) (tail : Option Str)
    (ha : (attrs.map Prod.fst).Nodup) (hc : WfIn children) (h : children ≠ [] ∨ attrs ≠ []) :
    valueOf (.el tag attrs text children tail) = .dict (content attrs text children) := by
  have hn := content_nodup attrs text children ha hc
  rw [content, List.map_append, List.nodup_append] at hn
  have hu : (if attrs ≠ [] then update ((group (entriesOf children)).map (fun kv => (kv.1, unwrap kv.2)))
      (attrs.map (fun a => ('@' :: a.1, XVal.text a.2))) else (group (entriesOf children)).map (fun kv => (kv.1, unwrap kv.2))) =
      (group (entriesOf children)).map (fun kv => (kv.1, unwrap kv.2)) ++ attrs.map (fun a => ('@' :: a.1, XVal.text a.2)) := by
    by_cases h0 : attrs = []
    · simp [h0]
    · rw [if_pos h0, update_new _ _ hn.1]
  have hd : (if children ≠ [] then some ((group (entriesOf children)).map (fun kv => (kv.1, unwrap kv.2)))
      else if attrs ≠ [] then some [] else none) = some ((group (entriesOf children)).map (fun kv => (kv.1, unwrap kv.2))) := by
    by_cases h0 : children = []
    · have h1 : attrs ≠ [] := by
        rcases h with h | h
        · exact absurd h0 h
        · exact h
      rw [if_neg (not_not_intro h0), if_pos h1, h0]
      rfl
    · rw [if_pos h0]
  rw [valueOf]
  simp only [hd, Option.map_some, hu]
  match text with
  | none => simp [content, strip, withText]
  | some [] => simp [content, strip, withText]
  | some (c :: cs) =>
    simp only [content, withText, Option.getD_some]
    by_cases hs : strip (c :: cs) = []
    · simp [hs]
    · rw [if_pos hs, if_neg hs, put_new]
      intro hm
      simp only [Option.getD_some, if_neg hs] at hn
      exact hn.2.2 _ hm _ (by simp) rfl

theorem readDict_content (p : List Str) (attrs : List (Str × Str)) (text : Option Str) (children : List Xml)
    (hc : WfIn children) :
    (readDict p (content attrs text children)).Perm
      (attrs.map (fun a => .attribute p a.1 a.2) ++ said p (text.getD []) ++ readItems p (entriesOf children)) := by
  have ht : readDict p (if strip (text.getD []) = [] then [] else [("#text".toList, .text (strip (text.getD [])))]) =
      said p (text.getD []) := by
    by_cases h : strip (text.getD []) = []
    · rw [if_pos h, said, if_pos h]; rfl
    · rw [if_neg h, readDict, if_neg (by decide), if_pos rfl, readText, said_strip, readDict, List.append_nil]
  rw [content, readDict_append, readDict_append, readDict_attrs, ht,
    readDict_groups p _ (fun k hk => wf_names children hc k ((group_names children k).1 hk))]
  rw [List.append_assoc]
  refine List.perm_append_comm.trans (List.Perm.append_left _ (readGroups_group p _))

mutual
/-- What is kept and the texts after elements are all that a document says. -/
theorem kept (p : List Str) : ∀ t : Xml, Wf t → (read (p ++ [t.tag]) (valueOf t) ++ tails p t).Perm (facts p t)
  | .el tag attrs text children tail, h => by
    rw [Wf] at h
    have hin := keptIn (p ++ [tag]) children h.2.2
    rw [tails, facts, ← List.append_assoc]
    refine List.Perm.append_right _ ?_
    show (Spec.read (p ++ [tag]) _ ++ _).Perm _
    by_cases h0 : children ≠ [] ∨ attrs ≠ []
    · rw [valueOf_content tag attrs text children tail h.2.1 h.2.2 h0, Spec.read]
      simp only [List.append_assoc, List.cons_append, List.nil_append]
      refine List.Perm.cons _ (((readDict_content (p ++ [tag]) attrs text children h.2.2).append_right _).trans ?_)
      simp only [List.append_assoc]
      exact List.Perm.append_left _ (List.Perm.append_left _ hin)
    · have hc : children = [] := by
        by_cases hc : children = []
        · exact hc
        · exact absurd (Or.inl hc) h0
      have ha : attrs = [] := by
        by_cases hc : attrs = []
        · exact hc
        · exact absurd (Or.inr hc) h0
      subst hc ha
      match text with
      | none => exact List.Perm.refl _
      | some [] => exact List.Perm.refl _
      | some (c :: cs) =>
        show (Spec.read (p ++ [tag]) (.text (strip (c :: cs))) ++ []).Perm _
        rw [Spec.read, said_strip]
        simp [factsIn]

theorem keptIn (p : List Str) : ∀ cs : List Xml, WfIn cs → (readItems p (entriesOf cs) ++ tailsIn p cs).Perm (factsIn p cs)
  | [], _ => List.Perm.refl _
  | c :: cs, h => by
    rw [WfIn] at h
    have h1 := kept p c h.1
    have h2 := keptIn p cs h.2
    rw [factsIn, tailsIn, entriesOf]
    simp only [readItems, List.flatMap_cons]
    refine List.Perm.trans ?_ (h1.append h2)
    simp only [List.append_assoc]
    refine List.Perm.append_left _ ?_
    rw [← List.append_assoc, ← List.append_assoc]
    exact List.Perm.append_right _ List.perm_append_comm
end

end Mabel.Xml
