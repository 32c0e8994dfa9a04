import Verif.Lemmas.Xml

/-! # Names without their namespaces -/

namespace Mabel.Xml
open Mabel.Py Mabel.Dates Mabel.Records Mabel.Xml.Spec

/-! ## Renaming keys -/

/-- What a key becomes. -/
def renamed (pre : Str) (k : Str) : Str := pre ++ (k.dropWhile (· ≠ '}')).drop 1

theorem dropWhile_ne_nil {k : Str} (h : '}' ∈ k) : k.dropWhile (· ≠ '}') ≠ [] := by
  induction k with
  | nil => cases h
  | cons c k ih =>
    by_cases hc : c = '}'
    · rw [List.dropWhile_cons_of_neg (by simp [hc])]
      exact List.cons_ne_nil _ _
    · rw [List.dropWhile_cons_of_pos (by simp [hc])]
      exact ih ((List.mem_cons.1 h).resolve_left (fun e => hc e.symm))

theorem afterBrace_ok {k : Str} (h : '}' ∈ k) : afterBrace k = .ok ((k.dropWhile (· ≠ '}')).drop 1) := by
  unfold afterBrace
  cases hd : k.dropWhile (· ≠ '}') with
  | nil =>
    exact absurd hd (dropWhile_ne_nil h)
  | cons c r => rfl

theorem pop_perm {β : Type} (d : List (Str × β)) (k : Str) (h : k ∈ d.map Prod.fst) :
    ∃ v d0, pop d k = some (v, d0) ∧ d.Perm ((k, v) :: d0) := by
  induction d with
  | nil => cases h
  | cons kv d ih =>
    rw [pop]
    by_cases hk : kv.1 = k
    · refine ⟨kv.2, d, by rw [if_pos hk], ?_⟩
      obtain ⟨a, b⟩ := kv
      simp only at hk
      subst hk
      exact List.Perm.refl _
    · have h1 : k ∈ d.map Prod.fst := by
        rw [List.map_cons, List.mem_cons] at h
        exact h.resolve_left (fun e => hk e.symm)
      obtain ⟨v, d0, h2, h3⟩ := ih h1
      refine ⟨v, kv :: d0, by rw [if_neg hk, h2]; rfl, (h3.cons kv).trans (List.Perm.swap ..)⟩

theorem renames_perm {β : Type} (pre : Str) (ks : List Str) : ∀ (d : List (Str × β)), ks.Nodup → (∀ k ∈ ks, k ∈ d.map Prod.fst) →
    (d.map Prod.fst).Nodup → (∀ k ∈ ks, '}' ∈ k) → (∀ k ∈ ks, renamed pre k ∉ ks) →
    (d.map (fun kv => if kv.1 ∈ ks then renamed pre kv.1 else kv.1)).Nodup →
    ∃ e, renames pre ks d = .ok e ∧ e.Perm (d.map (fun kv => (if kv.1 ∈ ks then renamed pre kv.1 else kv.1, kv.2))) := by
  induction ks with
  | nil => intro d _ _ _ _ _ _; exact ⟨d, rfl, by simp⟩
  | cons k ks ih =>
    intro d hks hin hd hb hf hn
    obtain ⟨v, d0, hp, hperm⟩ := pop_perm d k (hin k (by simp))
    have hk : k ∉ ks := (List.nodup_cons.1 hks).1
    have hd0 : ((k, v) :: d0).map Prod.fst |>.Nodup := (hperm.map Prod.fst).nodup_iff.1 hd
    rw [List.map_cons, List.nodup_cons] at hd0
    have hn0 := (hperm.map (fun kv => if kv.1 ∈ k :: ks then renamed pre kv.1 else kv.1)).nodup_iff.1 hn
    rw [List.map_cons, List.nodup_cons] at hn0
    have hk0 : (if k ∈ k :: ks then renamed pre k else k) = renamed pre k := if_pos (by simp)
    simp only [hk0] at hn0
    have hnew : renamed pre k ∉ d0.map Prod.fst := by
      intro hm
      obtain ⟨kv, hkv, he⟩ := List.mem_map.1 hm
      refine hn0.1 (List.mem_map.2 ⟨kv, hkv, ?_⟩)
      rw [if_neg, he]
      rw [he]
      exact hf k (by simp)
    -- what the entries that are left become
    have hsame : ∀ kv ∈ d0, (kv.1 ∈ k :: ks ↔ kv.1 ∈ ks) := by
      intro kv hkv
      rw [List.mem_cons]
      refine ⟨fun h => h.resolve_left (fun e => hd0.1 (List.mem_map.2 ⟨kv, hkv, e⟩)), Or.inr⟩
    have hr : renamed pre k ∉ ks := fun h => hf k (by simp) (List.mem_cons_of_mem _ h)
    have hmap : ∀ {γ : Type} (g : Str → Str × β → γ),
        (d0 ++ [(renamed pre k, v)]).map (fun kv => g (if kv.1 ∈ ks then renamed pre kv.1 else kv.1) kv) =
        d0.map (fun kv => g (if kv.1 ∈ k :: ks then renamed pre kv.1 else kv.1) kv) ++ [g (renamed pre k) (renamed pre k, v)] := by
      intro γ g
      rw [List.map_append]
      congr 1
      · apply List.map_congr_left
        intro kv hkv
        simp only [hsame kv hkv]
      · simp only [List.map_cons, List.map_nil, if_neg hr]
    have hnd1 : ((d0 ++ [(renamed pre k, v)]).map Prod.fst).Nodup := by
      rw [List.map_append, List.nodup_append]
      refine ⟨hd0.2, by simp, ?_⟩
      intro a ha b hb e
      simp only [List.map_cons, List.map_nil, List.mem_singleton] at hb
      subst e hb
      exact hnew ha
    obtain ⟨e, he, hep⟩ := ih (d0 ++ [(renamed pre k, v)]) (List.nodup_cons.1 hks).2 (by
        intro x hx
        have hx0 : x ≠ k := fun e => hk (e ▸ hx)
        have := (hperm.map Prod.fst).mem_iff.1 (hin x (List.mem_cons_of_mem _ hx))
        rw [List.map_cons, List.mem_cons] at this
        rw [List.map_append, List.mem_append]
        exact Or.inl (this.resolve_left hx0)) hnd1 (fun x hx => hb x (List.mem_cons_of_mem _ hx))
      (fun x hx h => hf x (List.mem_cons_of_mem _ hx) (List.mem_cons_of_mem _ h)) (by
        rw [hmap (fun a _ => a)]
        have h1 := List.nodup_cons.2 hn0
        exact (List.perm_append_singleton _ _).nodup_iff.2 h1)
    refine ⟨e, ?_, ?_⟩
    · rw [renames, afterBrace_ok (hb k (by simp))]
      show (match pop d k with | none => _ | some (v, d) => _) = _
      rw [hp]
      show renames pre ks (put d0 (renamed pre k) v) = _
      rw [put_new _ _ _ hnew, he]
    · refine hep.trans ?_
      rw [hmap (fun a kv => (a, kv.2))]
      refine (List.perm_append_singleton _ _).trans ?_
      refine List.Perm.trans ?_ (hperm.map _).symm
      rw [List.map_cons, if_pos (by simp)]

/-- What a key of an element's dictionary becomes. -/
def localKey : Str → Str
  | '@' :: n => '@' :: localName n
  | k => localName k

/-- The keys that there are. -/
inductive KeyOk : Str → Prop
  | attr {n : Str} (h : IsQName n) : KeyOk ('@' :: n)
  | text : KeyOk "#text".toList
  | tag {k : Str} (h : IsQName k) : KeyOk k

theorem localName_plain {k : Str} (h : k.head? ≠ some '{') : localName k = k := if_neg h

theorem qname_head {k : Str} (h : IsQName k) : k.head? ≠ some '@' ∧ k.head? ≠ some '#' := by
  by_cases hb : k.head? = some '{'
  · rw [hb]; decide
  · have := h.2.2
    rw [localName_plain hb] at this
    exact this

theorem localKey_tag {k : Str} (h : k.head? ≠ some '@') : localKey k = localName k := by
  unfold localKey
  split
  · exact absurd rfl h
  · rfl

theorem startsWith_brace (k : Str) : startsWith "{".toList k = true ↔ k.head? = some '{' := by
  cases k with
  | nil => simp [startsWith]
  | cons c k => 
    simp only [startsWith, List.head?_cons]
    show (List.isPrefixOf ['{'] (c :: k)) = true ↔ _
    simp [List.isPrefixOf, @eq_comm _ '{' c]

theorem startsWith_at (k : Str) : startsWith "@{".toList k = true ↔ ∃ n, k = '@' :: n ∧ n.head? = some '{' := by
  show (List.isPrefixOf ['@', '{'] k) = true ↔ _
  match k with
  | [] => simp
  | [c] => simp [List.isPrefixOf]
  | c :: x :: k => simp [List.isPrefixOf, @eq_comm _ '{' x, @eq_comm _ '@' c]

theorem renameKeys_perm {β : Type} (d : List (Str × β)) (hd : (d.map Prod.fst).Nodup) (hk : ∀ k ∈ d.map Prod.fst, KeyOk k)
    (hl : (d.map (fun kv => localKey kv.1)).Nodup) :
    ∃ e, renameKeys d = .ok e ∧ e.Perm (d.map (fun kv => (localKey kv.1, kv.2))) := by
  -- the first round
  let g : Str → Str := fun k => if k.head? = some '{' then localName k else k
  have hg : ∀ kv ∈ d, (if kv.1 ∈ (d.map Prod.fst).filter (startsWith "{".toList) then renamed [] kv.1 else kv.1) = g kv.1 := by
    intro kv hkv
    have hm : kv.1 ∈ d.map Prod.fst := List.mem_map.2 ⟨kv, hkv, rfl⟩
    by_cases hb : kv.1.head? = some '{'
    · rw [if_pos (List.mem_filter.2 ⟨hm, (startsWith_brace _).2 hb⟩)]
      simp [g, hb, localName, renamed]
    · rw [if_neg]
      · simp [g, hb]
      · intro h
        exact hb ((startsWith_brace _).1 (List.mem_filter.1 h).2)
  have hgl : ∀ k, KeyOk k → localKey (g k) = localKey k := by
    intro k hk
    by_cases hb : k.head? = some '{'
    · have h1 : k.head? ≠ some '@' := by rw [hb]; decide
      simp only [g, hb, if_true]
      rw [localKey_tag h1]
      cases hk with
      | attr h => exact absurd hb (by simp)
      | text => exact absurd hb (by decide)
      | tag h => rw [localKey_tag h.2.2.1, localName_plain h.2.1]
    · simp [g, hb]
  have hlg : (d.map (fun kv => g kv.1)).Nodup := by
    have h1 : d.map (fun kv => localKey kv.1) = (d.map (fun kv => g kv.1)).map localKey := by
      rw [List.map_map]
      apply List.map_congr_left
      intro kv hkv
      exact (hgl _ (hk _ (List.mem_map.2 ⟨kv, hkv, rfl⟩))).symm
    rw [h1] at hl
    exact List.Pairwise.of_map localKey (fun a b h e => h (congrArg localKey e)) hl
  have hq : ∀ k ∈ d.map Prod.fst, k.head? = some '{' → IsQName k := by
    intro k hkm hb
    cases hk k hkm with
    | attr h => exact absurd hb (by simp)
    | text => exact absurd hb (by decide)
    | tag h => exact h
  obtain ⟨e1, h1, p1⟩ := renames_perm [] ((d.map Prod.fst).filter (startsWith "{".toList)) d (hd.filter _)
    (fun k h => (List.mem_filter.1 h).1) hd
    (fun k h => by
      have h := List.mem_filter.1 h
      have hb := (startsWith_brace k).1 h.2
      exact (hq k h.1 hb).1 hb)
    (fun k h hr => by
      have h := List.mem_filter.1 h
      have hb := (startsWith_brace k).1 h.2
      have h2 := (startsWith_brace _).1 (List.mem_filter.1 hr).2
      have h3 := (hq k h.1 hb).2.1
      simp only [localName, hb, if_true] at h3
      exact h3 h2)
    (by rw [List.map_congr_left hg]; exact hlg)
  have p1' : e1.Perm (d.map (fun kv => (g kv.1, kv.2))) := by
    refine p1.trans (List.Perm.of_eq (List.map_congr_left ?_))
    intro kv hkv
    rw [hg kv hkv]
  -- the keys after it
  have hk1 : ∀ k ∈ e1.map Prod.fst, k.head? ≠ some '{' ∧ KeyOk k := by
    intro k hkm
    have := (p1'.map Prod.fst).mem_iff.1 hkm
    rw [List.map_map] at this
    obtain ⟨kv, hkv, rfl⟩ := List.mem_map.1 this
    have hm : kv.1 ∈ d.map Prod.fst := List.mem_map.2 ⟨kv, hkv, rfl⟩
    show (g kv.1).head? ≠ _ ∧ KeyOk (g kv.1)
    by_cases hb : kv.1.head? = some '{'
    · have h := hq _ hm hb
      simp only [g, hb, if_true]
      refine ⟨h.2.1, .tag ⟨fun h0 => absurd h0 h.2.1, ?_, ?_⟩⟩
      · rw [localName_plain h.2.1]; exact h.2.1
      · rw [localName_plain h.2.1]; exact h.2.2
    · simp only [g, hb, if_false]
      exact ⟨hb, hk _ hm⟩
  have hd1 : (e1.map Prod.fst).Nodup := by
    refine (p1'.map Prod.fst).nodup_iff.2 ?_
    rw [List.map_map]
    exact hlg
  have hl1 : (e1.map (fun kv => localKey kv.1)).Nodup := by
    refine (p1'.map (fun kv => localKey kv.1)).nodup_iff.2 ?_
    rw [List.map_map]
    refine (List.map_congr_left (fun kv hkv => ?_)) ▸ hl
    exact (hgl _ (hk _ (List.mem_map.2 ⟨kv, hkv, rfl⟩))).symm
  -- the second round
  have hr : ∀ n : Str, n.head? = some '{' → renamed "@".toList ('@' :: n) = '@' :: localName n := by
    intro n hn
    have : ('@' :: n).dropWhile (fun x : Char => decide (x ≠ '}')) = n.dropWhile (fun x : Char => decide (x ≠ '}')) := by
      rw [List.dropWhile_cons_of_pos (by decide)]
    simp only [renamed, localName, hn, if_true, this]
    rfl
  have h2 : ∀ kv ∈ e1, (if kv.1 ∈ (e1.map Prod.fst).filter (startsWith "@{".toList) then renamed "@".toList kv.1 else kv.1) =
      localKey kv.1 := by
    intro kv hkv
    have hm : kv.1 ∈ e1.map Prod.fst := List.mem_map.2 ⟨kv, hkv, rfl⟩
    by_cases hb : ∃ n, kv.1 = '@' :: n ∧ n.head? = some '{'
    · rw [if_pos (List.mem_filter.2 ⟨hm, (startsWith_at _).2 hb⟩)]
      obtain ⟨n, hn, hb⟩ := hb
      rw [hn, hr n hb]
      rfl
    · rw [if_neg]
      · by_cases ha : ∃ n, kv.1 = '@' :: n
        · obtain ⟨n, hn⟩ := ha
          have : n.head? ≠ some '{' := fun e => hb ⟨n, hn, e⟩
          rw [hn]
          show _ = '@' :: localName n
          rw [localName_plain this]
        · rw [localKey_tag, localName_plain (hk1 _ hm).1]
          intro h
          cases hc : kv.1 with
          | nil => rw [hc] at h; cases h
          | cons c r =>
            rw [hc] at h
            injection h with h
            exact ha ⟨r, by rw [hc, h]⟩
      · intro h
        exact hb ((startsWith_at _).1 (List.mem_filter.1 h).2)
  have hq2 : ∀ n, '@' :: n ∈ e1.map Prod.fst → IsQName n := by
    intro n hn
    have := (hk1 _ hn).2
    generalize hx : ('@' :: n : Str) = x at this
    cases this with
    | attr h => injection hx with _ hx; exact hx ▸ h
    | text => exact absurd hx (by simp)
    | tag h => exact absurd (by rw [← hx]; rfl) (qname_head h).1
  obtain ⟨e2, h3, p2⟩ := renames_perm "@".toList ((e1.map Prod.fst).filter (startsWith "@{".toList)) e1 (hd1.filter _)
    (fun k h => (List.mem_filter.1 h).1) hd1
    (fun k h => by
      have h := List.mem_filter.1 h
      obtain ⟨n, rfl, hb⟩ := (startsWith_at k).1 h.2
      exact List.mem_cons_of_mem _ ((hq2 n h.1).1 hb))
    (fun k h hr' => by
      have h := List.mem_filter.1 h
      obtain ⟨n, rfl, hb⟩ := (startsWith_at k).1 h.2
      rw [hr n hb] at hr'
      obtain ⟨m, hm, hb2⟩ := (startsWith_at _).1 (List.mem_filter.1 hr').2
      injection hm with _ hm
      exact (hq2 n h.1).2.1 (hm ▸ hb2))
    (by rw [List.map_congr_left h2]; exact hl1)
  refine ⟨e2, ?_, ?_⟩
  · rw [renameKeys, h1]
    exact h3
  · refine p2.trans ((List.Perm.of_eq (List.map_congr_left (fun kv hkv => by rw [h2 kv hkv]))).trans ?_)
    refine (p1'.map (fun kv => (localKey kv.1, kv.2))).trans ?_
    rw [List.map_map]
    refine List.Perm.of_eq (List.map_congr_left (fun kv hkv => ?_))
    show (localKey (g kv.1), kv.2) = _
    rw [hgl _ (hk _ (List.mem_map.2 ⟨kv, hkv, rfl⟩))]

/-! ## Values -/

/-- One entry. -/
def readEntry (p : List Str) (kv : Str × XVal) : List Fact :=
  if kv.1.head? = some '@' then readAttribute p (kv.1.drop 1) kv.2
  else if kv.1 = "#text".toList then readText p kv.2
  else Spec.read (p ++ [kv.1]) kv.2

theorem readDict_flatMap (p : List Str) (d : List (Str × XVal)) : readDict p d = d.flatMap (readEntry p) := by
  induction d with
  | nil => rfl
  | cons kv d ih =>
    obtain ⟨k, v⟩ := kv
    rw [readDict, ih]
    rfl

/-- A value that was read. -/
def got : Except Err XVal → XVal
  | .ok v => v
  | .error _ => .none

theorem sequenceItems_ok (e : List (Str × Except Err XVal)) (h : ∀ kv ∈ e, ∃ v, kv.2 = .ok v) :
    sequenceItems e = .ok (e.map (fun kv => (kv.1, got kv.2))) := by
  induction e with
  | nil => rfl
  | cons kv e ih =>
    obtain ⟨k, v⟩ := kv
    obtain ⟨w, hw⟩ := h (k, v) (by simp)
    simp only at hw
    subst hw
    rw [sequenceItems, ih (fun x hx => h x (by simp [hx]))]
    rfl

theorem stripItems_map (d : List (Str × XVal)) : stripItems d = d.map (fun kv => (kv.1, stripNs kv.2)) := by
  induction d with
  | nil => rfl
  | cons kv d ih =>
    obtain ⟨k, v⟩ := kv
    rw [stripItems, ih]
    rfl

mutual
/-- Values whose names can be stripped. -/
def NsOk : XVal → Prop
  | .none => True
  | .text _ => True
  | .dict d => (d.map Prod.fst).Nodup ∧ (∀ k ∈ d.map Prod.fst, KeyOk k) ∧ (d.map (fun kv => localKey kv.1)).Nodup ∧ NsOkD d
  | .list l => NsOkL l

def NsOkD : List (Str × XVal) → Prop
  | [] => True
  | (k, v) :: rest => NsOk v ∧ (IsQName k ∨ ∃ s, v = .text s) ∧ NsOkD rest

def NsOkL : List XVal → Prop
  | [] => True
  | v :: rest => NsOk v ∧ NsOkL rest
end

theorem said_local (p : List Str) (s : Str) : (said p s).map Fact.local = said (p.map localName) s := by
  unfold said
  split <;> rfl

/-- Stripping a value renames what it says. -/
def Renames (v : XVal) : Prop :=
  ∃ w, stripNs v = .ok w ∧ ∀ p, (Spec.read (p.map localName) w).Perm ((Spec.read p v).map Fact.local)

theorem qname_local {k : Str} (h : IsQName k) : IsName (localName k) := h.2.2

theorem readEntry_local (p : List Str) (k : Str) (v w : XVal) (hk : KeyOk k) (hv : IsQName k ∨ ∃ s, v = .text s)
    (hs : stripNs v = .ok w) (hp : ∀ p, (Spec.read (p.map localName) w).Perm ((Spec.read p v).map Fact.local)) :
    (readEntry (p.map localName) (localKey k, w)).Perm ((readEntry p (k, v)).map Fact.local) := by
  cases hk with
  | attr h =>
    rcases hv with hv | ⟨s, rfl⟩
    · exact absurd rfl (qname_head hv).1
    · rw [stripNs] at hs
      injection hs with hs
      subst hs
      exact List.Perm.refl _
  | text =>
    rcases hv with hv | ⟨s, rfl⟩
    · exact absurd rfl (qname_head hv).2
    · rw [stripNs] at hs
      injection hs with hs
      subst hs
      show (said _ s).Perm ((said p s).map _)
      rw [said_local]
  | tag h =>
    have h1 : localKey k = localName k := localKey_tag (qname_head h).1
    have h2 := qname_local h
    have h3 : readEntry p (k, v) = Spec.read (p ++ [k]) v := by
      unfold readEntry
      rw [if_neg (qname_head h).1, if_neg]
      intro e
      exact (qname_head h).2 (by rw [show k = "#text".toList from e]; rfl)
    have h4 : readEntry (p.map localName) (localName k, w) = Spec.read (p.map localName ++ [localName k]) w := by
      unfold readEntry
      rw [if_neg h2.1, if_neg]
      intro e
      exact h2.2 (by rw [show localName k = "#text".toList from e]; rfl)
    rw [h1, h3, h4]
    have := hp (p ++ [k])
    rw [List.map_append] at this
    exact this

theorem flatMap_perm {α β : Type} (l : List α) (f g : α → List β) (h : ∀ x ∈ l, (f x).Perm (g x)) :
    (l.flatMap f).Perm (l.flatMap g) := by
  induction l with
  | nil => exact List.Perm.refl _
  | cons x l ih =>
    rw [List.flatMap_cons, List.flatMap_cons]
    exact (h x (by simp)).append (ih (fun y hy => h y (by simp [hy])))

mutual
theorem strip_ok : ∀ v, NsOk v → Renames v
  | .none, _ => ⟨.none, rfl, fun _ => List.Perm.refl _⟩
  | .text s, _ => ⟨.text s, rfl, fun p => by rw [Spec.read, Spec.read, List.map_cons, said_local]; exact List.Perm.refl _⟩
  | .dict d, h => by
    rw [NsOk] at h
    have hin := items_ok d h.2.2.2
    have hmap := stripItems_map d
    obtain ⟨e, he, hp⟩ := renameKeys_perm (stripItems d) (by rw [hmap, List.map_map]; exact h.1)
      (by rw [hmap, List.map_map]; exact h.2.1) (by rw [hmap, List.map_map]; exact h.2.2.1)
    rw [hmap, List.map_map] at hp
    have hok : ∀ kv ∈ e, ∃ v, kv.2 = .ok v := by
      intro kv hkv
      obtain ⟨x, hx, rfl⟩ := List.mem_map.1 (hp.mem_iff.1 hkv)
      obtain ⟨w, hw, _⟩ := (hin x hx).1
      exact ⟨w, hw⟩
    refine ⟨.dict (e.map (fun kv => (kv.1, got kv.2))), ?_, ?_⟩
    · rw [stripNs, he]
      show (do Except.ok (XVal.dict (← sequenceItems e))) = _
      rw [sequenceItems_ok e hok]
      rfl
    · intro p
      rw [Spec.read, Spec.read, List.map_cons]
      refine List.Perm.cons _ ?_
      rw [readDict_flatMap, readDict_flatMap, List.flatMap_map, List.map_flatMap]
      refine (hp.flatMap_right _).trans ?_
      rw [List.flatMap_map]
      refine flatMap_perm d _ _ (fun kv hkv => ?_)
      obtain ⟨⟨w, hw, hwp⟩, hv⟩ := hin kv hkv
      have := readEntry_local p kv.1 kv.2 w (h.2.1 _ (List.mem_map.2 ⟨kv, hkv, rfl⟩)) hv hw hwp
      simp only [Function.comp, hw, got]
      exact this
  | .list l, h => by
    rw [NsOk] at h
    obtain ⟨w, hw, hp⟩ := list_ok l h
    refine ⟨.list w, by rw [stripNs, hw]; rfl, fun p => ?_⟩
    rw [Spec.read, Spec.read]
    exact hp p

theorem items_ok : ∀ d, NsOkD d → ∀ kv ∈ d, Renames kv.2 ∧ (IsQName kv.1 ∨ ∃ s, kv.2 = .text s)
  | [], _ => fun _ hkv => by cases hkv
  | (k, v) :: rest, h => by
    rw [NsOkD] at h
    have h1 := strip_ok v h.1
    have h2 := items_ok rest h.2.2
    intro kv hkv
    rcases List.mem_cons.1 hkv with rfl | hkv
    · exact ⟨h1, h.2.1⟩
    · exact h2 kv hkv

theorem list_ok : ∀ l, NsOkL l → ∃ w, stripList l = .ok w ∧
    ∀ p, (readList (p.map localName) w).Perm ((readList p l).map Fact.local)
  | [], _ => ⟨[], rfl, fun _ => List.Perm.refl _⟩
  | v :: rest, h => by
    rw [NsOkL] at h
    obtain ⟨w, hw, hp⟩ := strip_ok v h.1
    obtain ⟨ws, hws, hps⟩ := list_ok rest h.2
    refine ⟨w :: ws, by rw [stripList, hw, hws]; rfl, fun p => ?_⟩
    rw [readList, readList, List.map_append]
    exact (hp p).append (hps p)
end

/-! ## Elements -/

theorem group_mem {β : Type} (items : List (Str × β)) : ∀ kv ∈ group items, ∀ v ∈ kv.2, (kv.1, v) ∈ items := by
  have ha : ∀ (dd : List (Str × List β)) (k : Str) (v : β), ∀ kv ∈ addTo dd k v, ∀ x ∈ kv.2, (kv.1, x) = (k, v) ∨
      ∃ l, (kv.1, l) ∈ dd ∧ x ∈ l := by
    intro dd k v
    induction dd with
    | nil =>
      intro kv hkv x hx
      rw [addTo, List.mem_singleton] at hkv
      subst hkv
      rw [List.mem_singleton] at hx
      exact Or.inl (by rw [hx])
    | cons a dd ih =>
      intro kv hkv x hx
      rw [addTo] at hkv
      by_cases hk : a.1 = k
      · rw [if_pos hk] at hkv
        rcases List.mem_cons.1 hkv with rfl | hkv
        · rcases List.mem_append.1 hx with hx | hx
          · exact Or.inr ⟨a.2, List.mem_cons_self .., hx⟩
          · rw [List.mem_singleton] at hx
            exact Or.inl (by rw [hx]; exact congrArg (·, v) hk)
        · exact Or.inr ⟨kv.2, List.mem_cons_of_mem _ hkv, hx⟩
      · rw [if_neg hk] at hkv
        rcases List.mem_cons.1 hkv with rfl | hkv
        · exact Or.inr ⟨kv.2, List.mem_cons_self .., hx⟩
        · rcases ih kv hkv x hx with h | ⟨l, h1, h2⟩
          · exact Or.inl h
          · exact Or.inr ⟨l, List.mem_cons_of_mem _ h1, h2⟩
  have hf : ∀ (items : List (Str × β)) (dd : List (Str × List β)), ∀ kv ∈ items.foldl (fun d kv => addTo d kv.1 kv.2) dd, ∀ x ∈ kv.2,
      (kv.1, x) ∈ items ∨ ∃ l, (kv.1, l) ∈ dd ∧ x ∈ l := by
    intro items
    induction items with
    | nil => intro dd kv hkv x hx; exact Or.inr ⟨kv.2, hkv, hx⟩
    | cons a items ih =>
      intro dd kv hkv x hx
      rcases ih _ kv hkv x hx with h | ⟨l, h1, h2⟩
      · exact Or.inl (List.mem_cons_of_mem _ h)
      · rcases ha dd a.1 a.2 _ h1 x h2 with h | ⟨l2, h3, h4⟩
        · exact Or.inl (List.mem_cons.2 (Or.inl h))
        · exact Or.inr ⟨l2, h3, h4⟩
  intro kv hkv v hv
  rcases hf items [] kv hkv v hv with h | ⟨l, h1, _⟩
  · exact h
  · cases h1

theorem nsOkL_iff (l : List XVal) : NsOkL l ↔ ∀ v ∈ l, NsOk v := by
  induction l with
  | nil => simp [NsOkL]
  | cons v l ih => rw [NsOkL, ih]; simp

theorem nsOkD_iff (d : List (Str × XVal)) : NsOkD d ↔ ∀ kv ∈ d, NsOk kv.2 ∧ (IsQName kv.1 ∨ ∃ s, kv.2 = .text s) := by
  induction d with
  | nil => simp [NsOkD]
  | cons kv d ih =>
    obtain ⟨k, v⟩ := kv
    rw [NsOkD, ih]
    simp [and_assoc]

theorem nsOk_unwrap (l : List XVal) (h : ∀ v ∈ l, NsOk v) : NsOk (unwrap l) := by
  match l with
  | [] => simp [unwrap, NsOk, NsOkL]
  | [v] => exact h v (by simp)
  | a :: b :: l => exact (nsOkL_iff _).2 h

theorem apart_names (cs : List Xml) (h : ApartAll cs) : ∀ k ∈ cs.map Xml.tag, IsQName k := by
  induction cs with
  | nil => intro k hk; cases hk
  | cons c cs ih =>
    rw [ApartAll] at h
    intro k hk
    rw [List.map_cons, List.mem_cons] at hk
    rcases hk with rfl | hk
    · cases c with
      | el tag _ _ _ _ => rw [ApartIn] at h; exact h.1.1
    · exact ih h.2 k hk

theorem pairwise_map_mem {α β : Type} {l : List α} (f : α → β) (hl : l.Nodup)
    (h : ∀ a ∈ l, ∀ b ∈ l, f a = f b → a = b) : (l.map f).Nodup := by
  induction l with
  | nil => exact List.nodup_nil
  | cons a l ih =>
    rw [List.nodup_cons] at hl
    rw [List.map_cons, List.nodup_cons]
    refine ⟨fun hm => ?_, ih hl.2 (fun x hx y hy => h x (by simp [hx]) y (by simp [hy]))⟩
    obtain ⟨b, hb, he⟩ := List.mem_map.1 hm
    exact hl.1 (h b (by simp [hb]) a (by simp) he ▸ hb)

theorem content_keys (attrs : List (Str × Str)) (text : Option Str) (children : List Xml) :
    ∀ kv ∈ content attrs text children,
      (kv.1 ∈ children.map Xml.tag ∧ ∃ l, kv.2 = unwrap l ∧ ∀ v ∈ l, ∃ c ∈ children, v = valueOf c) ∨
      (∃ a ∈ attrs, kv = ('@' :: a.1, .text a.2)) ∨ (kv.1 = "#text".toList ∧ ∃ s, kv.2 = .text s) := by
  intro kv hkv
  rw [content, List.mem_append, List.mem_append] at hkv
  rcases hkv with (hkv | hkv) | hkv
  · obtain ⟨x, hx, rfl⟩ := List.mem_map.1 hkv
    refine Or.inl ⟨(group_names children x.1).1 (List.mem_map.2 ⟨x, hx, rfl⟩), x.2, rfl, fun v hv => ?_⟩
    have := group_mem _ x hx v hv
    rw [entriesOf_map] at this
    obtain ⟨c, hc, he⟩ := List.mem_map.1 this
    injection he with _ he
    exact ⟨c, hc, he.symm⟩
  · obtain ⟨a, ha, rfl⟩ := List.mem_map.1 hkv
    exact Or.inr (Or.inl ⟨a, ha, rfl⟩)
  · split at hkv
    · cases hkv
    · rw [List.mem_singleton] at hkv
      subst hkv
      exact Or.inr (Or.inr ⟨rfl, _, rfl⟩)

mutual
theorem nsOk_valueOf : ∀ t, Wf t → ApartIn t → NsOk (valueOf t)
  | .el tag attrs text children tail, hw, ha => by
    rw [Wf] at hw
    rw [ApartIn] at ha
    have hin := nsOk_children children hw.2.2 ha.2.2.2.2
    by_cases h0 : children ≠ [] ∨ attrs ≠ []
    · rw [valueOf_content tag attrs text children tail hw.2.1 hw.2.2 h0, NsOk]
      have hq := apart_names children ha.2.2.2.2
      have hk : ∀ kv ∈ content attrs text children, KeyOk kv.1 := by
        intro kv hkv
        rcases content_keys attrs text children kv hkv with h | ⟨a, h, rfl⟩ | h
        · exact .tag (hq _ h.1)
        · exact .attr (ha.2.1 a h)
        · rw [h.1]; exact .text
      refine ⟨content_nodup attrs text children hw.2.1 hw.2.2, ?_, ?_, ?_⟩
      · intro k hk'
        obtain ⟨kv, hkv, rfl⟩ := List.mem_map.1 hk'
        exact hk kv hkv
      · have : (content attrs text children).map (fun kv => localKey kv.1) =
            ((content attrs text children).map Prod.fst).map localKey := by rw [List.map_map]; rfl
        rw [this]
        refine pairwise_map_mem _ (content_nodup attrs text children hw.2.1 hw.2.2) ?_
        have hc : ∀ x ∈ (content attrs text children).map Prod.fst, (x ∈ children.map Xml.tag) ∨
            (∃ n ∈ attrs.map Prod.fst, x = '@' :: n) ∨ x = "#text".toList := by
          intro x hx
          obtain ⟨kv, hkv, rfl⟩ := List.mem_map.1 hx
          rcases content_keys attrs text children kv hkv with h | ⟨a, h, rfl⟩ | h
          · exact Or.inl h.1
          · exact Or.inr (Or.inl ⟨a.1, List.mem_map.2 ⟨a, h, rfl⟩, rfl⟩)
          · exact Or.inr (Or.inr h.1)
        have hlt : ∀ x ∈ children.map Xml.tag, localKey x = localName x := fun x hx => localKey_tag (qname_head (hq x hx)).1
        intro a ha' b hb' e
        rcases hc a ha' with h1 | ⟨n, h1, rfl⟩ | rfl <;> rcases hc b hb' with h2 | ⟨m, h2, rfl⟩ | rfl
        · rw [hlt a h1, hlt b h2] at e
          exact ha.2.2.2.1 a h1 b h2 e
        · rw [hlt a h1] at e
          exact absurd (by rw [e]; rfl) (qname_local (hq a h1)).1
        · rw [hlt a h1] at e
          exact absurd (by rw [e]; rfl) (qname_local (hq a h1)).2
        · rw [hlt b h2] at e
          exact absurd (by rw [← e]; rfl) (qname_local (hq b h2)).1
        · have e2 : '@' :: localName n = '@' :: localName m := e
          injection e2 with _ e2
          rw [ha.2.2.1 n h1 m h2 e2]
        · exact absurd e (by
            show '@' :: localName n ≠ _
            intro h
            have : some '@' = some '#' := congrArg List.head? h
            exact absurd this (by decide))
        · rw [hlt b h2] at e
          exact absurd (by rw [← e]; rfl) (qname_local (hq b h2)).2
        · exact absurd e (by
            show _ ≠ '@' :: localName m
            intro h
            have : some '#' = some '@' := congrArg List.head? h
            exact absurd this (by decide))
        · rfl
      · rw [nsOkD_iff]
        intro kv hkv
        rcases content_keys attrs text children kv hkv with ⟨h, l, h1, h2⟩ | ⟨a, h, rfl⟩ | ⟨h, s, h1⟩
        · refine ⟨?_, Or.inl (hq _ h)⟩
          rw [h1]
          refine nsOk_unwrap l (fun v hv => ?_)
          obtain ⟨c, hc, rfl⟩ := h2 v hv
          exact hin c hc
        · exact ⟨trivial, Or.inr ⟨_, rfl⟩⟩
        · rw [h1]
          exact ⟨trivial, Or.inr ⟨_, rfl⟩⟩
    · have hc : children = [] := by
        by_cases hc : children = []
        · exact hc
        · exact absurd (Or.inl hc) h0
      have hat : attrs = [] := by
        by_cases hc : attrs = []
        · exact hc
        · exact absurd (Or.inr hc) h0
      subst hc hat
      match text with
      | none => exact trivial
      | some [] => exact trivial
      | some (c :: cs) => exact trivial

theorem nsOk_children : ∀ cs, WfIn cs → ApartAll cs → ∀ c ∈ cs, NsOk (valueOf c)
  | [], _, _ => fun _ h => by cases h
  | c :: cs, hw, ha => by
    rw [WfIn] at hw
    rw [ApartAll] at ha
    have h1 := nsOk_valueOf c hw.1 ha.1
    have h2 := nsOk_children cs hw.2 ha.2
    intro x hx
    rcases List.mem_cons.1 hx with rfl | hx
    · exact h1
    · exact h2 x hx
end

end Mabel.Xml
