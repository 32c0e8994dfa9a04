import Verif.Model.Context

/-!
# The context of a job: C95
-/

namespace Mabel.Context
open Mabel.Py

variable {V : Type}

theorem lookup_cons (kv : Str × V) (d : Dict V) (j : Str) :
    List.lookup j (kv :: d) = if j = kv.1 then some kv.2 else List.lookup j d := by
  rw [List.lookup_cons]
  by_cases h : j = kv.1
  · rw [if_pos h, beq_iff_eq.2 h]
  · rw [if_neg h, beq_eq_false_iff_ne.2 h]

theorem lookup_put (d : Dict V) (k : Str) (v : V) (j : Str) :
    List.lookup j (Records.put d k v) = if j = k then some v else List.lookup j d := by
  induction d with
  | nil => rw [Records.put, lookup_cons]
  | cons kv d ih =>
    rw [Records.put]
    by_cases hk : kv.1 = k
    · rw [if_pos hk, lookup_cons, lookup_cons, hk]
      by_cases h : j = k
      · rw [if_pos h, if_pos h]
      · rw [if_neg h, if_neg h, if_neg h]
    · rw [if_neg hk, lookup_cons, lookup_cons, ih]
      by_cases h : j = kv.1
      · rw [if_pos h, if_pos h, if_neg (by rw [h]; exact hk)]
      · rw [if_neg h, if_neg h]

theorem lookup_merge (kwargs : Dict V) (hn : (kwargs.map Prod.fst).Nodup) (config : Dict V) (j : Str) :
    List.lookup j (merge config kwargs) = (List.lookup j kwargs).or (List.lookup j config) := by
  unfold merge
  induction kwargs generalizing config with
  | nil => rfl
  | cons kv kwargs ih =>
    rw [List.map_cons, List.nodup_cons] at hn
    rw [List.foldl_cons, ih hn.2, lookup_put, lookup_cons]
    by_cases h : j = kv.1
    · subst h
      have : List.lookup kv.1 kwargs = none := by
        rw [List.lookup_eq_none_iff]
        intro x hx
        apply bne_iff_ne.2
        intro he
        exact hn.1 (List.mem_map.2 ⟨x, hx, he.symm⟩)
      rw [this, if_pos rfl, if_pos rfl]; rfl
    · rw [if_neg h, if_neg h]

/-- The name of the configuration file that is asked for: `config.json` unless another is given. -/
def asksFor (w : World V) (kwargs : Dict V) (name : Str) : Prop :=
  (kwargs.lookup "config_file".toList = none ∧ name = "config.json".toList) ∨
  (∃ v, kwargs.lookup "config_file".toList = some v ∧ w.asText v = some name)

theorem build_of_asks {w : World V} {kwargs : Dict V} {name : Str} (h : asksFor w kwargs name) :
    buildContext w kwargs = match readConfig w name with
      | .error e => .error e
      | .ok .other => .error .attributeError
      | .ok (.object config) =>
        .ok (merge (match config.lookup "config".toList with
          | some v => if w.truthy v then config else Records.put config "config".toList w.empty
          | none => Records.put config "config".toList w.empty) kwargs) := by
  unfold buildContext
  rcases h with ⟨h1, rfl⟩ | ⟨v, h1, h2⟩
  · rw [h1]; rfl
  · rw [h1]; simp only [h2]; rfl

/-- **C95.** If a file of the name asked for is found, can be read and holds a JSON object, there is a context.  It has
what the caller gave, and for all other names what is in the object; under the name `config` an empty dictionary if
neither has anything there. -/
theorem C95_context {w : World V} {kwargs : Dict V} (hn : (kwargs.map Prod.fst).Nodup) {name file text : Str}
    {config : Dict V} (ha : asksFor w kwargs name) (hf : (w.glob name).getLast? = some file) (ht : w.file file = .ok text)
    (hl : w.loads text = .ok (.object config)) :
    ∃ context, buildContext w kwargs = .ok context ∧
      (∀ k v, kwargs.lookup k = some v → context.lookup k = some v) ∧
      (∀ k, k ≠ "config".toList → kwargs.lookup k = none → context.lookup k = config.lookup k) ∧
      (kwargs.lookup "config".toList = none →
        (∀ v, config.lookup "config".toList = some v → w.truthy v = true → context.lookup "config".toList = some v) ∧
        ((∀ v, config.lookup "config".toList = some v → w.truthy v = false) →
          context.lookup "config".toList = some w.empty)) := by
  have hr : readConfig w name = .ok (.object config) := by
    unfold readConfig locate
    rw [hf]
    simp only [ht, hl]
  rw [build_of_asks ha, hr]
  refine ⟨_, rfl, ?_, ?_, ?_⟩
  · intro k v hk
    rw [lookup_merge _ hn, hk]; rfl
  · intro k hk hnone
    rw [lookup_merge _ hn, hnone, Option.none_or]
    split
    · split
      · rfl
      · rw [lookup_put, if_neg hk]
    · rw [lookup_put, if_neg hk]
  · intro hnone
    rw [lookup_merge _ hn, hnone, Option.none_or]
    constructor
    · intro v hv htr
      rw [hv]
      simp only [htr, if_true]
      exact hv
    · intro h
      cases hc : config.lookup "config".toList with
      | none => simp only; rw [lookup_put, if_pos rfl]
      | some v => simp only [h v hc, Bool.false_eq_true, if_false]; rw [lookup_put, if_pos rfl]

/-- **C95.** If no file of the name is found, an IndexError is raised; if the one found cannot be read, the error of
reading it; if it is not JSON, the error of the JSON library. -/
theorem C95_errors {w : World V} {kwargs : Dict V} {name : Str} (ha : asksFor w kwargs name) :
    (w.glob name = [] → buildContext w kwargs = .error .indexError) ∧
    (∀ file e, (w.glob name).getLast? = some file → w.file file = .error e → buildContext w kwargs = .error e) ∧
    (∀ file text e, (w.glob name).getLast? = some file → w.file file = .ok text → w.loads text = .error e →
      buildContext w kwargs = .error e) := by
  rw [build_of_asks ha]
  refine ⟨?_, ?_, ?_⟩
  · intro h
    unfold readConfig locate
    rw [h]; rfl
  · intro file e hf he
    unfold readConfig locate
    rw [hf]; simp only [he]
  · intro file text e hf ht he
    unfold readConfig locate
    rw [hf]; simp only [ht, he]

/-- A world with one configuration file, of which the text tells what is in it. -/
def oneFile (loads : Str → Except Err (Json (Option Nat))) : World (Option Nat) :=
  { glob := fun n => if n = "config.json".toList then ["a/config.json".toList] else []
    file := fun _ => .ok []
    loads := loads
    truthy := fun v => v.isSome
    asText := fun _ => none
    empty := some 0 }

/-- The premises of `C95_context`: the file gives `x` and `y`, the caller another `x`. -/
example : ∃ context, buildContext (oneFile fun _ => .ok (.object [("x".toList, some 1), ("y".toList, some 2)]))
    [("x".toList, some 3)] = .ok context ∧ context.lookup "x".toList = some (some 3) ∧
    context.lookup "y".toList = some (some 2) ∧ context.lookup "config".toList = some (some 0) := by
  obtain ⟨c, h1, h2, h3, h4⟩ := C95_context (w := oneFile fun _ => .ok (.object [("x".toList, some 1), ("y".toList, some 2)]))
    (kwargs := [("x".toList, some 3)]) (by decide) (name := "config.json".toList) (Or.inl ⟨by decide, rfl⟩)
    (file := "a/config.json".toList) (by decide) rfl rfl
  exact ⟨c, h1, h2 _ _ (by decide), h3 _ (by decide) (by decide), (h4 (by decide)).2 (by decide)⟩

/-- **C95.** A file with JSON text that is not an object, such as a list, makes it raise an AttributeError. -/
theorem C95_not_object_fails : (buildContext (oneFile fun _ => .ok .other) []).toOption = none ∧
    ∃ e, buildContext (oneFile fun _ => .ok .other) [] = .error e ∧ e ≠ .valueError := by
  have h : buildContext (oneFile fun _ => .ok .other) [] = .error .attributeError := by
    unfold buildContext readConfig locate oneFile
    rfl
  rw [h]
  exact ⟨rfl, _, rfl, by decide⟩

/-- **C95.** The context may have nothing of use under `config`, although something is there in the file: a caller that
passes `config=None` on overrides it, and no empty dictionary is put in its place. -/
theorem C95_none_overrides_fails :
    ∃ context, buildContext (oneFile fun _ => .ok (.object [("config".toList, some 7)])) [("config".toList, none)] =
      .ok context ∧ context.lookup "config".toList = some none := by
  obtain ⟨c, h1, h2, -, -⟩ := C95_context (w := oneFile fun _ => .ok (.object [("config".toList, some 7)]))
    (kwargs := [("config".toList, none)]) (by decide) (name := "config.json".toList) (Or.inl ⟨by decide, rfl⟩)
    (file := "a/config.json".toList) (by decide) rfl rfl
  exact ⟨c, h1, h2 _ _ (by decide)⟩

/-- **C95.** Which file is read if several have the name asked for is not settled by what files there are: it depends on
the order in which the file system lists them. -/
theorem C95_which_file_fails : ∃ w w' : World (Option Nat), (∀ n, (w.glob n).Perm (w'.glob n)) ∧ w.file = w'.file ∧
    w.loads = w'.loads ∧ (buildContext w []).toOption.map (·.lookup "x".toList) ≠
      (buildContext w' []).toOption.map (·.lookup "x".toList) := by
  let loads : Str → Except Err (Json (Option Nat)) := fun t => .ok (.object [("x".toList, some t.length)])
  let file : Str → Except Err Str := fun f => .ok f
  refine ⟨{ oneFile loads with glob := fun _ => ["a/config.json".toList, "config.json".toList], file := file },
    { oneFile loads with glob := fun _ => ["config.json".toList, "a/config.json".toList], file := file },
    fun _ => List.Perm.swap _ _ _, rfl, rfl, ?_⟩
  decide +kernel

end Mabel.Context
