import Verif.Lemmas.Str
import Verif.Model.Targets

/-!
# Where stream records may go (C11, C12, C53)

The targets of a record are computed from the dataset template, the date, whether the record is
valid, and its field values; `Enumerates` says that `names` and `combos` are the elements of the two
Python sets the code iterates over, in whatever order.
-/

namespace Mabel.Targets
open Mabel.Py
variable {β : Type}

/-! ## C53 sanitize -/

/-- The safe characters of the documentation, spelled out. -/
def Safe (c : Char) : Prop :=
  c.isAlphanum = true ∨ c = ' ' ∨ c = '\t' ∨ c = '\n' ∨ c = '\r' ∨ c = '\x0b' ∨ c = '\x0c'

instance (c : Char) : Decidable (Safe c) := by unfold Safe; infer_instance

theorem safe_of_valid : ∀ c ∈ Text.validCharacters, Safe c := by decide
set_option maxRecDepth 4000 in
theorem valid_of_safe_ascii : ∀ n < 128, Safe (Char.ofNat n) → Char.ofNat n ∈ Text.validCharacters := by decide
theorem safe_ascii (c : Char) (h : Safe c) : c.toNat < 128 := by
  unfold Safe at h
  rcases h with h | h | h | h | h | h | h
  · simp only [Char.isAlphanum, Char.isAlpha, Char.isUpper, Char.isLower, Char.isDigit, Bool.or_eq_true, Bool.and_eq_true, decide_eq_true_eq, UInt32.le_iff_toNat_le, ge_iff_le] at h
    have : c.toNat = c.val.toNat := rfl
    rw [this]
    simp at h
    omega
  all_goals (subst h; decide)

theorem validCharacters_iff (c : Char) : c ∈ Text.validCharacters ↔ Safe c := by
  refine ⟨safe_of_valid c, fun h => ?_⟩
  have := valid_of_safe_ascii c.toNat (safe_ascii c h)
  rw [Char.ofNat_toNat] at this
  exact this h

/-- What is kept is exactly the safe characters, in order (with multiplicity). -/
theorem C53_keeps_exactly_safe (s safe : Str) :
    (Text.sanitize s safe).Sublist s ∧ (∀ c ∈ Text.sanitize s safe, c ∈ safe) ∧
    ∀ c ∈ safe, (Text.sanitize s safe).count c = s.count c := by
  refine ⟨List.filter_sublist, fun c hc => ?_, fun c hc => ?_⟩
  · simpa using (List.mem_filter.1 hc).2
  · unfold Text.sanitize
    rw [List.count_filter (by simpa using hc)]

/-- By default: letters, digits and whitespace. -/
theorem C53_default_alphabet (s : Str) : ∀ c ∈ Text.sanitize s, Safe c := fun c hc =>
  (validCharacters_iff c).1 ((C53_keeps_exactly_safe s _).2.1 c hc)

/-- Sanitising again changes nothing. -/
theorem C53_idempotent (s safe : Str) :
    Text.sanitize (Text.sanitize s safe) safe = Text.sanitize s safe := by
  simp [Text.sanitize, List.filter_filter]

example : Text.sanitize "../a{b} 9!".toList = "ab 9".toList := by decide

/-! ## C12 values cannot redirect -/

theorem sanitize_not_mem {ch : Char} (h : ¬ Safe ch) (s : Str) : ch ∉ Text.sanitize s :=
  fun hc => h (C53_default_alphabet s ch hc)

theorem substitute_count_le (str : β → Str) {ch : Char} (h : ¬ Safe ch) (kvs : List (Str × β)) :
    ∀ path : Str, (substitute str path kvs).count ch ≤ path.count ch := by
  induction kvs with
  | nil => intro p; exact Nat.le_refl _
  | cons kv kvs ih =>
    intro p
    obtain ⟨k, v⟩ := kv
    exact Nat.le_trans (ih _) (replace_count_le (sanitize_not_mem h _) p)

theorem substitute_count (str : β → Str) {ch : Char} (h : ¬ Safe ch) (hb : ch ≠ '{' ∧ ch ≠ '}')
    (kvs : List (Str × β)) (hk : ∀ kv ∈ kvs, ch ∉ kv.1) :
    ∀ path : Str, (substitute str path kvs).count ch = path.count ch := by
  induction kvs with
  | nil => intro p; rfl
  | cons kv kvs ih =>
    intro p
    obtain ⟨k, v⟩ := kv
    simp only [substitute]
    rw [ih (fun kv hkv => hk kv (List.mem_cons_of_mem _ hkv))]
    apply replace_count _ (sanitize_not_mem h _) (by simp)
    have := hk (k, v) List.mem_cons_self
    simp [hb.1, hb.2, this]

theorem zip_fst_mem {names : List Str} {vs : List β} {kv : Str × β} (h : kv ∈ names.zip vs) :
    kv.1 ∈ names := by
  obtain ⟨a, b⟩ := kv
  exact (List.of_mem_zip h).1

/-- No character that is not a letter, a digit or whitespace is ever added to the path by the values
of a record: in particular no separator, no dot, and no brace (so no new placeholder). -/
theorem C12_values_add_only_safe (str : β → Str) (path : Str) (field : Str → Field β)
    (names : List Str) (combos : List (List β)) (_ : Enumerates path field names combos)
    (ch : Char) (hch : ¬ Safe ch) (t : Str) (ht : t ∈ targets str path names combos) :
    t.count ch ≤ path.count ch := by
  unfold targets at ht
  split at ht
  · simp only [List.mem_singleton] at ht; subst ht; exact Nat.le_refl _
  · obtain ⟨vs, -, rfl⟩ := List.mem_map.1 ht
    exact substitute_count_le str hch _ _

/-- If the names in the template have no separator, the target has exactly as many folders as the
template, whatever the record says. -/
theorem C12_folder_depth (str : β → Str) (path : Str) (field : Str → Field β)
    (names : List Str) (combos : List (List β)) (he : Enumerates path field names combos)
    (hnames : ∀ n ∈ placeholders path, '/' ∉ n) (t : Str) (ht : t ∈ targets str path names combos) :
    (split '/' t).length = (split '/' path).length := by
  have hs : ¬ Safe '/' := by unfold Safe; decide
  rw [split_length, split_length]
  unfold targets at ht
  split at ht
  · simp only [List.mem_singleton] at ht; subst ht; rfl
  · obtain ⟨vs, -, rfl⟩ := List.mem_map.1 ht
    rw [substitute_count str hs (by decide) _ _ path]
    intro kv hkv
    exact hnames _ ((he.namesMem _).1 (zip_fst_mem hkv))

/-- Non-vacuity, and the point of it: a record whose field is `../../etc` stays in its folder. -/
example : Enumerates "ds/{r}/x".toList (fun _ => Field.one "../../etc".toList) ["r".toList] [["../../etc".toList]] ∧
    targets id "ds/{r}/x".toList ["r".toList] [["../../etc".toList]] = ["ds/etc/x".toList] := by
  refine ⟨⟨by decide, ?_, by decide, ?_⟩, by decide⟩
  · intro n; simp [placeholders, placeholdersAux, closing]
  · intro vs; simp [product, Field.values]

/-! ## C11 BACKOUT -/

theorem substitute_suffix (str : β → Str) (suf : Str) (hs : '}' ∉ suf) (kvs : List (Str × β)) :
    ∀ path : Str, ∃ p', substitute str (path ++ suf) kvs = p' ++ suf := by
  induction kvs with
  | nil => intro p; exact ⟨p, rfl⟩
  | cons kv kvs ih =>
    intro p
    obtain ⟨k, v⟩ := kv
    simp only [substitute]
    rw [show '{' :: k ++ ['}'] = ('{' :: k) ++ ['}'] from rfl, replace_append_suffix _ _ hs]
    exact ih _

/-- Every target of a record that fails validation is a BACKOUT folder. -/
theorem C11_invalid_to_backout (str : β → Str) (template : Str) (d : DateTime) (names : List Str)
    (combos : List (List β)) (t : Str)
    (ht : t ∈ targets str (identity template d false) names combos) :
    ∃ folder, t = folder ++ "/BACKOUT/".toList := by
  have hid : identity template d false = Paths.dateFormat template d ++ "/BACKOUT/".toList := by
    simp [identity]
  unfold targets at ht
  split at ht
  · simp only [List.mem_singleton] at ht; exact ⟨_, ht.trans hid⟩
  · obtain ⟨vs, -, rfl⟩ := List.mem_map.1 ht
    rw [hid]
    obtain ⟨p', hp⟩ := substitute_suffix str "/BACKOUT/".toList (by decide) (names.zip vs) (Paths.dateFormat template d)
    exact ⟨p', hp⟩

/-- A record that passes validation gets no folder that the template does not have. -/
theorem C11_valid_adds_no_folder (str : β → Str) (template : Str) (d : DateTime) (field : Str → Field β)
    (names : List Str) (combos : List (List β))
    (he : Enumerates (identity template d true) field names combos)
    (hnames : ∀ n ∈ placeholders (identity template d true), '/' ∉ n) (t : Str)
    (ht : t ∈ targets str (identity template d true) names combos) :
    (split '/' t).length = (split '/' (Paths.dateFormat template d)).length :=
  C12_folder_depth str _ field names combos he hnames t ht

/-- Without placeholders it goes exactly to the template's path for the date. -/
theorem C11_valid_target (str : β → Str) (template : Str) (d : DateTime) (field : Str → Field β)
    (names : List Str) (combos : List (List β))
    (he : Enumerates (identity template d true) field names combos)
    (hnone : placeholders (Paths.dateFormat template d) = []) :
    targets str (identity template d true) names combos = [Paths.dateFormat template d] := by
  have : names = [] := by
    apply List.eq_nil_iff_forall_not_mem.2
    intro n hn
    have := (he.namesMem n).1 hn
    simp [identity, hnone] at this
  simp [targets, this, identity]

/-- The separation is not complete, though: a valid record whose field value is the word BACKOUT is
put in a folder of that name. -/
theorem C11_valid_never_in_backout_fails :
    ∃ (template : Str) (field : Str → Field Str) (names : List Str) (combos : List (List Str)) (t : Str),
      contains "BACKOUT".toList template = false ∧
      Enumerates (identity template ⟨2024, 1, 1, 0, 0, 0⟩ true) field names combos ∧
      t ∈ targets id (identity template ⟨2024, 1, 1, 0, 0, 0⟩ true) names combos ∧
      t = "ds/BACKOUT".toList := by
  refine ⟨"ds/{r}".toList, fun _ => .one "BACKOUT".toList, ["r".toList], [["BACKOUT".toList]], _, by decide, ⟨by decide, ?_, by decide, ?_⟩, List.mem_singleton.2 rfl, by decide⟩
  · intro n
    have : placeholders (identity "ds/{r}".toList ⟨2024, 1, 1, 0, 0, 0⟩ true) = ["r".toList] := by decide
    rw [this]
  · intro vs; simp [product, Field.values]

/-- Non-vacuity of the invalid case, with a placeholder and a date. -/
example : targets id (identity "d/{yyyy}/{r}".toList ⟨2024, 1, 1, 0, 0, 0⟩ false) ["r".toList] [["x".toList], ["y".toList]] =
    ["d/2024/x/BACKOUT/".toList, "d/2024/y/BACKOUT/".toList] := by decide

end Mabel.Targets
