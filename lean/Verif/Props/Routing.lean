import Verif.Props.Targets
import Mathlib.Data.List.Nodup
import Mathlib.Algebra.BigOperators.Group.List.Basic

/-!
# Where stream records do go (C68)

A template is a path with named places.  The theorems say that the writer finds exactly the places,
and that a record goes to exactly the paths obtained by putting its values, sanitised, in the places: one
path for every combination of values of list fields.
-/

namespace Mabel.Targets
open Mabel.Py
variable {β : Type}

/-- A template: some text, then places, each with the text after it. -/
structure Template where
  head : Str
  places : List (Str × Str)

namespace Template

/-- How a template is written: places are names in braces. -/
def text (t : Template) : Str := t.head ++ t.places.flatMap fun p => '{' :: (p.1 ++ '}' :: p.2)

/-- The template with every place filled in. -/
def fill (t : Template) (value : Str → Str) : Str := t.head ++ t.places.flatMap fun p => value p.1 ++ p.2

/-- No stray braces, and names on one line. -/
structure Clean (t : Template) : Prop where
  head : '{' ∉ t.head ∧ '}' ∉ t.head
  text : ∀ p ∈ t.places, '{' ∉ p.2 ∧ '}' ∉ p.2
  names : ∀ p ∈ t.places, '{' ∉ p.1 ∧ '}' ∉ p.1 ∧ '\n' ∉ p.1

end Template

/-! ### finding the places -/

theorem closing_name (n rest : Str) (h1 : '}' ∉ n) (h2 : '\n' ∉ n) : closing (n ++ '}' :: rest) = some (n, rest) := by
  induction n with
  | nil => simp [closing]
  | cons c cs ih =>
    simp only [List.mem_cons, not_or] at h1 h2
    rw [List.cons_append]
    have hc : c ≠ '}' := fun hc => h1.1 hc.symm
    have hn : c ≠ '\n' := fun hc => h2.1 hc.symm
    rw [closing]
    · rw [ih h1.2 h2.2]
    · exact hc
    · exact hn

theorem placeholdersAux_lit (a rest : Str) (h : '{' ∉ a) : ∀ n,
    placeholdersAux (a.length + n) (a ++ rest) = placeholdersAux n rest := by
  induction a with
  | nil => intro n; simp
  | cons c cs ih =>
    intro n
    simp only [List.mem_cons, not_or] at h
    rw [List.length_cons, show cs.length + 1 + n = (cs.length + n) + 1 by omega, List.cons_append, placeholdersAux]
    · exact ih h.2 n
    · exact fun hc => h.1 hc.symm

theorem placeholdersAux_places (ps : List (Str × Str)) (ht : ∀ p ∈ ps, '{' ∉ p.2)
    (hn : ∀ p ∈ ps, '}' ∉ p.1 ∧ '\n' ∉ p.1) : ∀ n, (ps.flatMap fun p => '{' :: (p.1 ++ '}' :: p.2)).length ≤ n →
    placeholdersAux n (ps.flatMap fun p => '{' :: (p.1 ++ '}' :: p.2)) = ps.map (·.1) := by
  induction ps with
  | nil => intro n _; cases n <;> rfl
  | cons p ps ih =>
    intro n hlen
    rw [List.flatMap_cons] at hlen ⊢
    simp only [List.cons_append, List.append_assoc, List.length_cons, List.length_append] at hlen ⊢
    obtain ⟨m, rfl⟩ : ∃ m, n = m + 1 := ⟨n - 1, by omega⟩
    rw [placeholdersAux, closing_name _ _ (hn p List.mem_cons_self).1 (hn p List.mem_cons_self).2]
    simp only [List.map_cons, List.cons.injEq, true_and]
    have : ∃ k, m = p.2.length + k := ⟨m - p.2.length, by omega⟩
    obtain ⟨k, rfl⟩ := this
    rw [placeholdersAux_lit _ _ (ht p List.mem_cons_self)]
    exact ih (fun q hq => ht q (List.mem_cons_of_mem _ hq)) (fun q hq => hn q (List.mem_cons_of_mem _ hq)) _ (by omega)

/-- C68: the writer finds exactly the places of the template. -/
theorem C68_finds_places (t : Template) (h : t.Clean) : placeholders t.text = t.places.map (·.1) := by
  unfold placeholders Template.text
  rw [List.length_append, placeholdersAux_lit _ _ h.head.1]
  exact placeholdersAux_places _ (fun p hp => (h.text p hp).1) (fun p hp => (h.names p hp).2) _ (Nat.le_refl _)

/-! ### filling them in -/

theorem replaceGo_lit (k new a rest : Str) (h : '{' ∉ a) :
    replaceGo ('{' :: k) new 0 (a ++ rest) = a ++ replaceGo ('{' :: k) new 0 rest := by
  induction a with
  | nil => rfl
  | cons c cs ih =>
    simp only [List.mem_cons, not_or] at h
    rw [List.cons_append, replaceGo, if_neg, ih h.2, List.cons_append]
    simp only [List.isPrefixOf, Bool.and_eq_true, beq_iff_eq, not_and]
    exact fun hc => absurd hc h.1

theorem replaceGo_skip (old new rest : Str) : ∀ a : Str,
    replaceGo old new a.length (a ++ rest) = replaceGo old new 0 rest := by
  intro a
  induction a with
  | nil => rfl
  | cons c cs ih => rw [List.length_cons, List.cons_append, replaceGo]; exact ih

theorem replaceGo_place_eq (k new rest : Str) :
    replaceGo ('{' :: k ++ ['}']) new 0 ('{' :: (k ++ '}' :: rest)) = new ++ replaceGo ('{' :: k ++ ['}']) new 0 rest := by
  rw [replaceGo, if_pos]
  · congr 1
    have : k ++ '}' :: rest = (k ++ ['}']) ++ rest := by simp
    rw [this]
    have hl : ('{' :: k ++ ['}']).length - 1 = (k ++ ['}']).length := by simp
    rw [hl, replaceGo_skip]
  · rw [isPrefixOf_iff]; exact ⟨rest, by simp⟩

theorem prefix_names {k n rest : Str} (hk : '}' ∉ k) (hn : '}' ∉ n) (h : (k ++ ['}']).isPrefixOf (n ++ '}' :: rest) = true) :
    k = n := by
  induction k generalizing n with
  | nil =>
    cases n with
    | nil => rfl
    | cons c cs =>
      simp only [List.nil_append, List.cons_append, List.isPrefixOf, Bool.and_eq_true, beq_iff_eq] at h
      simp only [List.mem_cons, not_or] at hn
      exact absurd h.1 hn.1
  | cons d ds ih =>
    simp only [List.mem_cons, not_or] at hk
    cases n with
    | nil =>
      simp only [List.nil_append, List.cons_append, List.isPrefixOf, Bool.and_eq_true, beq_iff_eq] at h
      exact absurd h.1.symm hk.1
    | cons c cs =>
      simp only [List.mem_cons, not_or] at hn
      simp only [List.cons_append, List.isPrefixOf, Bool.and_eq_true, beq_iff_eq] at h
      rw [h.1, ih hk.2 hn.2 h.2]

theorem replaceGo_place_ne (k n new rest : Str) (hk : '}' ∉ k) (hn : '}' ∉ n) (hn' : '{' ∉ n) (hne : k ≠ n) :
    replaceGo ('{' :: k ++ ['}']) new 0 ('{' :: (n ++ '}' :: rest)) =
      '{' :: (n ++ '}' :: replaceGo ('{' :: k ++ ['}']) new 0 rest) := by
  rw [replaceGo, if_neg]
  · congr 1
    have : n ++ '}' :: rest = (n ++ ['}']) ++ rest := by simp
    rw [this]
    have := replaceGo_lit (k ++ ['}']) new (n ++ ['}']) rest (by simp [hn'])
    rw [List.cons_append, this]; simp
  · rw [List.cons_append]
    simp only [List.isPrefixOf, BEq.rfl, Bool.true_and]
    exact fun hc => hne (prefix_names hk hn hc)

/-- The template with some places filled in. -/
def partly (t : Template) (env : Str → Option Str) : Str :=
  t.head ++ t.places.flatMap fun p => (env p.1).getD ('{' :: (p.1 ++ ['}'])) ++ p.2

theorem replace_partly (t : Template) (h : t.Clean) (env : Str → Option Str) (hv : ∀ n v, env n = some v → '{' ∉ v)
    (k v : Str) (hk : '}' ∉ k) (hnew : env k = none) :
    replace ('{' :: k ++ ['}']) v (partly t env) = partly t fun n => if n = k then some v else env n := by
  unfold replace partly
  rw [List.cons_append, replaceGo_lit _ _ _ _ h.head.1]
  congr 1
  have ht := h.text
  have hn := h.names
  generalize t.places = ps at ht hn
  induction ps with
  | nil => rfl
  | cons p ps ih =>
    have ih' := ih (fun q hq => ht q (List.mem_cons_of_mem _ hq)) (fun q hq => hn q (List.mem_cons_of_mem _ hq))
    have htp := ht p List.mem_cons_self
    have hnp := hn p List.mem_cons_self
    rw [List.flatMap_cons, List.flatMap_cons]
    by_cases hpk : p.1 = k
    · subst hpk
      simp only [hnew, Option.getD_none, if_true, Option.getD_some]
      have e : '{' :: (p.1 ++ ['}']) ++ p.2 ++ ps.flatMap (fun p => (env p.1).getD ('{' :: (p.1 ++ ['}'])) ++ p.2) =
          '{' :: (p.1 ++ '}' :: (p.2 ++ ps.flatMap fun p => (env p.1).getD ('{' :: (p.1 ++ ['}'])) ++ p.2)) := by simp
      rw [e]
      have := replaceGo_place_eq p.1 v (p.2 ++ ps.flatMap fun p => (env p.1).getD ('{' :: (p.1 ++ ['}'])) ++ p.2)
      rw [List.cons_append] at this
      rw [this, replaceGo_lit _ _ _ _ htp.1, ih']
      simp
    · simp only [if_neg hpk]
      cases he : env p.1 with
      | some w =>
        simp only [Option.getD_some, List.append_assoc]
        rw [replaceGo_lit _ _ _ _ (hv _ _ he), replaceGo_lit _ _ _ _ htp.1, ih']
      | none =>
        simp only [Option.getD_none]
        have e : '{' :: (p.1 ++ ['}']) ++ p.2 ++ ps.flatMap (fun p => (env p.1).getD ('{' :: (p.1 ++ ['}'])) ++ p.2) =
            '{' :: (p.1 ++ '}' :: (p.2 ++ ps.flatMap fun p => (env p.1).getD ('{' :: (p.1 ++ ['}'])) ++ p.2)) := by simp
        rw [e]
        have := replaceGo_place_ne k p.1 v (p.2 ++ ps.flatMap fun p => (env p.1).getD ('{' :: (p.1 ++ ['}'])) ++ p.2)
          hk hnp.2.1 hnp.1 (fun hc => hpk hc.symm)
        rw [List.cons_append] at this
        rw [this, replaceGo_lit _ _ _ _ htp.1, ih']
        simp

theorem substitute_partly (str : β → Str) (t : Template) (h : t.Clean) : ∀ (kvs : List (Str × β)) (env : Str → Option Str),
    (kvs.map (·.1)).Nodup → (∀ kv ∈ kvs, env kv.1 = none) → (∀ kv ∈ kvs, '}' ∉ kv.1) →
    (∀ n v, env n = some v → '{' ∉ v) →
    substitute str (partly t env) kvs =
      partly t fun n => match kvs.find? (fun kv => kv.1 == n) with
        | some kv => some (Text.sanitize (str kv.2))
        | none => env n := by
  intro kvs
  induction kvs with
  | nil => intro env _ _ _ _; rfl
  | cons kv kvs ih =>
    intro env hn hnone hb hv
    obtain ⟨k, v⟩ := kv
    rw [List.map_cons, List.nodup_cons] at hn
    rw [substitute, replace_partly t h env hv k _ (hb _ List.mem_cons_self) (hnone _ List.mem_cons_self), ih _ hn.2]
    · unfold partly
      congr 2
      funext p
      congr 1
      beta_reduce
      rw [List.find?_cons]
      by_cases hp : k = p.1
      · subst hp
        have : kvs.find? (fun kv => kv.1 == p.1) = none := by
          rw [List.find?_eq_none]
          intro kv hkv hc
          simp only [beq_iff_eq] at hc
          exact hn.1 (List.mem_map.2 ⟨kv, hkv, hc⟩)
        simp [this]
      · have hb' : (k == p.1) = false := by simpa using hp
        have : ¬ p.1 = k := fun hc => hp hc.symm
        simp only [hb', this, if_false]
    · intro kv hkv
      have : kv.1 ≠ k := fun hc => hn.1 (List.mem_map.2 ⟨kv, hkv, hc⟩)
      rw [if_neg this]
      exact hnone kv (List.mem_cons_of_mem _ hkv)
    · exact fun kv hkv => hb kv (List.mem_cons_of_mem _ hkv)
    · intro n w hw
      by_cases hnk : n = k
      · rw [if_pos hnk] at hw
        have := Option.some.inj hw
        rw [← this]
        exact sanitize_not_mem (by unfold Safe; decide) _
      · rw [if_neg hnk] at hw
        exact hv n w hw

theorem partly_all (t : Template) (env : Str → Option Str) (value : Str → Str)
    (h : ∀ p ∈ t.places, env p.1 = some (value p.1)) : partly t env = t.fill value := by
  unfold partly Template.fill
  congr 1
  generalize t.places = ps at h
  induction ps with
  | nil => rfl
  | cons p ps ih =>
    rw [List.flatMap_cons, List.flatMap_cons, ih (fun q hq => h q (List.mem_cons_of_mem _ hq)), h p List.mem_cons_self]
    rfl

theorem product_eq (field : Str → Field β) (names : List Str) (hn : names.Nodup) (vs : List β) :
    vs ∈ product (names.map fun n => (field n).values) →
    ∃ choice : Str → Option β, vs.map some = names.map choice ∧
      (∀ n ∈ names, ∃ v ∈ (field n).values, choice n = some v) := by
  induction names generalizing vs with
  | nil =>
    intro h
    simp only [List.map_nil, product, List.mem_singleton] at h
    exact ⟨fun _ => none, by simp [h], by simp⟩
  | cons n ns ih =>
    intro h
    rw [List.nodup_cons] at hn
    simp only [List.map_cons, product, List.mem_flatMap, List.mem_map] at h
    obtain ⟨v, hv, ws, hws, rfl⟩ := h
    obtain ⟨ch, h1, h2⟩ := ih hn.2 ws hws
    refine ⟨fun m => if m = n then some v else ch m, ?_, ?_⟩
    · simp only [List.map_cons, if_true, List.cons.injEq, true_and]
      rw [h1]
      apply List.map_congr_left
      intro m hm
      have : m ≠ n := fun hc => hn.1 (hc ▸ hm)
      simp [this]
    · intro m hm
      by_cases hmn : m = n
      · subst hmn; exact ⟨v, hv, by simp⟩
      · simp only [if_neg hmn]
        exact h2 m (by rcases List.mem_cons.1 hm with h | h; exact absurd h hmn; exact h)

/-- The targets, one for each combination, as filled templates. -/
theorem targets_filled (str : β → Str) (t : Template) (ht : t.Clean) (field : Str → Field β) (names : List Str)
    (combos : List (List β)) (he : Enumerates t.text field names combos)
    (vs : List β) (choice : Str → Option β) (h1 : vs.map some = names.map choice) :
    substitute str t.text (names.zip vs) = t.fill fun n => ((choice n).map fun v => Text.sanitize (str v)).getD [] := by
  have hmem : ∀ n, n ∈ names ↔ ∃ p ∈ t.places, p.1 = n := by
    intro n; rw [he.namesMem, C68_finds_places t ht]; simp
  have hlen : names.length = vs.length := by
    have := congrArg List.length h1
    simpa using this.symm
  have e0 : t.text = partly t fun _ => none := by
    unfold partly Template.text; simp
  have hfst : (names.zip vs).map (·.1) = names := by
    rw [List.map_fst_zip]; omega
  rw [e0, substitute_partly str t ht (names.zip vs) (fun _ => none) (by rw [hfst]; exact he.namesNodup) (by simp) ?_ (by simp)]
  · apply partly_all
    intro p hp
    have hpn : p.1 ∈ names := (hmem p.1).2 ⟨p, hp, rfl⟩
    have key : ∀ (names : List Str) (vs : List β), vs.map some = names.map choice → p.1 ∈ names →
        ∃ v, (names.zip vs).find? (fun kv => kv.1 == p.1) = some (p.1, v) ∧ choice p.1 = some v := by
      intro names
      induction names with
      | nil => intro vs _ h; simp at h
      | cons n ns ih =>
        intro vs h hm
        cases vs with
        | nil => simp at h
        | cons v vs =>
          simp only [List.map_cons, List.cons.injEq] at h
          rw [List.zip_cons_cons, List.find?_cons]
          by_cases hn : n = p.1
          · subst hn; exact ⟨v, by simp, h.1.symm⟩
          · have hb : (n == p.1) = false := by simpa using hn
            simp only [hb]
            exact ih vs h.2 (by rcases List.mem_cons.1 hm with h | h; exact absurd h.symm hn; exact h)
    obtain ⟨v, hf, hc⟩ := key names vs h1 hpn
    simp [hf, hc]
  · intro kv hkv
    obtain ⟨p, hp, hpe⟩ := (hmem kv.1).1 (zip_fst_mem hkv)
    rw [← hpe]; exact (ht.names p hp).2.1

/-- C68: a record's targets are exactly the template with its values, sanitised, in the places: every
combination of values of its fields gives one, and there are no others. -/
theorem C68_targets (str : β → Str) (t : Template) (ht : t.Clean) (field : Str → Field β) (names : List Str)
    (combos : List (List β)) (he : Enumerates t.text field names combos) (target : Str) :
    target ∈ targets str t.text names combos ↔
      ∃ choice : Str → Option β, (∀ p ∈ t.places, ∃ v ∈ (field p.1).values, choice p.1 = some v) ∧
        target = t.fill fun n => ((choice n).map fun v => Text.sanitize (str v)).getD [] := by
  have hmem : ∀ n, n ∈ names ↔ ∃ p ∈ t.places, p.1 = n := by
    intro n; rw [he.namesMem, C68_finds_places t ht]; simp
  by_cases hp : t.places = []
  · have hnames : names = [] := by
      apply List.eq_nil_iff_forall_not_mem.2
      intro n hn
      obtain ⟨p, hp', -⟩ := (hmem n).1 hn
      simp [hp] at hp'
    simp [targets, hnames, hp, Template.text, Template.fill]
  · have hlen : ¬ names.length = 0 := by
      obtain ⟨p, hp'⟩ := List.exists_mem_of_ne_nil _ hp
      have := (hmem p.1).2 ⟨p, hp', rfl⟩
      intro hc
      rw [List.length_eq_zero_iff] at hc
      simp [hc] at this
    unfold targets
    rw [if_neg hlen, List.mem_map]
    constructor
    · rintro ⟨vs, hvs, rfl⟩
      obtain ⟨choice, h1, h2⟩ := product_eq field names he.namesNodup vs ((he.combosMem vs).1 hvs)
      exact ⟨choice, fun p hp => h2 p.1 ((hmem _).2 ⟨p, hp, rfl⟩), targets_filled str t ht field names combos he vs choice h1⟩
    · rintro ⟨choice, h1, rfl⟩
      -- the values in the order of the names
      have hch : ∀ n ∈ names, ∃ v ∈ (field n).values, choice n = some v := by
        intro n hn
        obtain ⟨p, hp', rfl⟩ := (hmem n).1 hn
        exact h1 p hp'
      have : ∃ vs : List β, vs.map some = names.map choice ∧ vs ∈ product (names.map fun n => (field n).values) := by
        clear hlen he hmem h1
        induction names with
        | nil => exact ⟨[], rfl, by simp [product]⟩
        | cons n ns ih =>
          obtain ⟨v, hv, hc⟩ := hch n List.mem_cons_self
          obtain ⟨vs, h2, h3⟩ := ih (fun m hm => hch m (List.mem_cons_of_mem _ hm))
          refine ⟨v :: vs, by simp [h2, hc], ?_⟩
          simp only [List.map_cons, product, List.mem_flatMap, List.mem_map]
          exact ⟨v, hv, vs, h3, rfl⟩
      obtain ⟨vs, h2, h3⟩ := this
      have hvs := (he.combosMem vs).2 h3
      exact ⟨vs, hvs, targets_filled str t ht field names combos he vs choice h2⟩

theorem product_length (ls : List (List β)) : (product ls).length = (ls.map List.length).prod := by
  induction ls with
  | nil => rfl
  | cons vs rest ih =>
    rw [product, List.map_cons, List.prod_cons, ← ih]
    induction vs with
    | nil => simp
    | cons v vs ihv => rw [List.flatMap_cons, List.length_append, ihv, List.length_map, List.length_cons, Nat.succ_mul, Nat.add_comm]

theorem product_nodup (ls : List (List β)) (h : ∀ l ∈ ls, l.Nodup) : (product ls).Nodup := by
  induction ls with
  | nil => simp [product]
  | cons vs rest ih =>
    have ih' := ih (fun l hl => h l (List.mem_cons_of_mem _ hl))
    have hv := h vs List.mem_cons_self
    rw [product]
    induction vs with
    | nil => simp
    | cons v vs ihv =>
      rw [List.nodup_cons] at hv
      rw [List.flatMap_cons, List.nodup_append]
      refine ⟨?_, ihv (fun l hl => ?_) hv.2, ?_⟩
      · exact List.Nodup.map (fun a b hab => (List.cons.inj hab).2) ih'
      · rcases List.mem_cons.1 hl with rfl | hl
        · exact hv.2
        · exact h l (List.mem_cons_of_mem _ hl)
      · intro a ha b hb hab
        subst hab
        obtain ⟨w, -, rfl⟩ := List.mem_map.1 ha
        obtain ⟨u, hu, hb⟩ := List.mem_flatMap.1 hb
        obtain ⟨w', -, he⟩ := List.mem_map.1 hb
        exact hv.1 ((List.cons.inj he).1 ▸ hu)

/-- C68: for fields without repeated values, the number of writes is the product of the numbers of values
of the fields the template names (each name counted once). -/
theorem C68_number_of_writes (str : β → Str) (t : Template) (ht : t.Clean) (field : Str → Field β) (names : List Str)
    (combos : List (List β)) (he : Enumerates t.text field names combos)
    (hd : ∀ n, (field n).values.Nodup) :
    (targets str t.text names combos).length =
      ((names.map fun n => (field n).values.length)).prod ∧ names.Nodup ∧
      ∀ n, n ∈ names ↔ n ∈ t.places.map (·.1) := by
  refine ⟨?_, he.namesNodup, fun n => by rw [he.namesMem, C68_finds_places t ht]⟩
  unfold targets
  split
  · rename_i hz
    rw [List.length_eq_zero_iff] at hz
    simp [hz]
  · rw [List.length_map]
    have hp : combos.Perm (product (names.map fun n => (field n).values)) :=
      (List.perm_ext_iff_of_nodup he.combosNodup (product_nodup _ (by
        intro l hl
        obtain ⟨n, -, rfl⟩ := List.mem_map.1 hl
        exact hd n))).2 he.combosMem
    rw [hp.length_eq, product_length, List.map_map]
    rfl

/-- Values that are different but sanitise to the same text make the record be written twice to the same
target. -/
theorem C68_same_target_twice_fails :
    ∃ (field : Str → Field Str) (names : List Str) (combos : List (List Str)),
      Enumerates "d/{r}".toList field names combos ∧
      targets id "d/{r}".toList names combos = ["d/x".toList, "d/x".toList] := by
  refine ⟨fun _ => .many ["x".toList, "x!".toList], ["r".toList], [["x".toList], ["x!".toList]],
    ⟨by decide, ?_, by decide, ?_⟩, by decide⟩
  · intro n
    have : placeholders "d/{r}".toList = ["r".toList] := by decide
    rw [this]
  · intro vs; simp [product, Field.values]

/-- Non-vacuity: a clean template with a place used twice. -/
example : (⟨"a/".toList, [("x".toList, "/".toList), ("y".toList, "-".toList), ("x".toList, [])]⟩ : Template).Clean :=
  ⟨by decide, by decide, by decide⟩
example : (⟨"a/".toList, [("x".toList, "/".toList), ("y".toList, [])]⟩ : Template).text = "a/{x}/{y}".toList := by decide
example : targets id "a/{x}/{y}".toList ["y".toList, "x".toList] [["1".toList, "p".toList], ["2".toList, "p".toList]] =
    ["a/p/1".toList, "a/p/2".toList] := by decide

end Mabel.Targets
