import Verif.Model.Words
import Verif.Spec.Words
import Verif.Props.Targets

/-!
# Words of a text and names of fields (C103)
-/

namespace Mabel.Text
open Mabel.Py Mabel.Text.Spec

theorem isBlank_iff (c : Char) : isBlank c = true ↔ Blank c := by
  simp [isBlank, Blank]

theorem valid_iff (c : Char) : validCharacters.contains c = true ↔ Plain c := by
  rw [List.contains_iff_mem, Targets.validCharacters_iff]
  rfl

/-- The words with what has been read of the first. -/
theorem splitGo_words : ∀ (s w : Str), (∀ c ∈ w, ¬ Blank c) → ∃ t ws, splitGo w s = ws ∧ t = w ++ s ∧ Words t ws := by
  intro s
  induction s with
  | nil =>
    intro w hw
    by_cases h : w = []
    · exact ⟨[], [], by simp [splitGo, h], by simp [h], .nil⟩
    · exact ⟨w, [w], by simp [splitGo, h], by simp, by simpa using Words.word h hw (Or.inl rfl) .nil⟩
  | cons c s ih =>
    intro w hw
    by_cases hc : Blank c
    · obtain ⟨t, ws, h1, h2, h3⟩ := ih [] nofun
      rw [List.nil_append] at h2
      subst h2
      by_cases h : w = []
      · exact ⟨c :: t, ws, by simp [splitGo, h, (isBlank_iff c).2 hc, h1], by simp [h], .blank hc h3⟩
      · exact ⟨w ++ c :: t, w :: ws, by simp [splitGo, h, (isBlank_iff c).2 hc, h1], rfl,
          .word h hw (Or.inr ⟨c, t, rfl, hc⟩) (.blank hc h3)⟩
    · obtain ⟨t, ws, h1, h2, h3⟩ := ih (w ++ [c]) (by simpa [or_imp, forall_and] using ⟨hw, hc⟩)
      exact ⟨t, ws, by simp [splitGo, mt (isBlank_iff c).1 hc, h1], by simpa using h2, h3⟩

/-- A text is the words of one list only. -/
theorem words_unique {s : Str} {ws : List Str} (h : Words s ws) : ∀ {vs : List Str}, Words s vs → vs = ws := by
  induction h with
  | nil =>
    intro vs hv
    generalize hs : ([] : Str) = s at hv
    cases hv with
    | nil => rfl
    | blank => simp at hs
    | word hne => simp at hs; exact absurd hs.1 hne
  | @blank c s ws hc h ih =>
    intro vs hv
    generalize hs : c :: s = t at hv
    cases hv with
    | nil => simp at hs
    | blank hc' h' => injection hs with h1 h2; subst h2; exact ih h'
    | @word w s' ws' hne hw _ _ =>
      obtain ⟨d, w, rfl⟩ := List.exists_cons_of_ne_nil hne
      injection hs with h1 _
      exact absurd (h1 ▸ hc) (hw d List.mem_cons_self)
  | @word w s ws hne hw hend h ih =>
    intro vs hv
    generalize hs : w ++ s = t at hv
    cases hv with
    | nil => simp at hs; exact absurd hs.1 hne
    | @blank c s' ws' hc' h' =>
      obtain ⟨d, w, rfl⟩ := List.exists_cons_of_ne_nil hne
      injection hs with h1 _
      exact absurd (h1 ▸ hc') (hw d List.mem_cons_self)
    | @word w' s' ws' hne' hw' hend' h' =>
      have key : ∀ (w w' s s' : Str), (∀ c ∈ w, ¬ Blank c) → (∀ c ∈ w', ¬ Blank c) → (s = [] ∨ ∃ c r, s = c :: r ∧ Blank c) →
          (s' = [] ∨ ∃ c r, s' = c :: r ∧ Blank c) → w ++ s = w' ++ s' → w = w' ∧ s = s' := by
        intro w
        induction w with
        | nil =>
          intro w' s s' _ hw' hs _ e
          cases w' with
          | nil => exact ⟨rfl, e⟩
          | cons d w' =>
            rcases hs with rfl | ⟨c, r, rfl, hc⟩
            · simp at e
            · injection e with e1 _
              exact absurd (e1 ▸ hc) (hw' d List.mem_cons_self)
        | cons a w ihw =>
          intro w' s s' hw hw' hs hs' e
          cases w' with
          | nil =>
            rcases hs' with rfl | ⟨c, r, rfl, hc⟩
            · simp at e
            · injection e with e1 _
              exact absurd (e1 ▸ hc) (hw a List.mem_cons_self)
          | cons d w' =>
            injection e with e1 e2
            obtain ⟨h1, h2⟩ := ihw w' s s' (fun c hc => hw c (List.mem_cons_of_mem _ hc)) (fun c hc => hw' c (List.mem_cons_of_mem _ hc)) hs hs' e2
            exact ⟨by rw [e1, h1], h2⟩
      obtain ⟨rfl, rfl⟩ := key w w' s s' hw hw' hend hend' hs
      rw [ih h']

/-- **C103**: the tokens of a text are the words, one after the other, of what is left of it in lower case if all but letters,
digits and white space is dropped; and no other list is. -/
theorem C103_tokens (lower : Str → Str) (text : Str) (ws : List Str) :
    tokenize lower text = ws ↔ Words ((lower text).filter (fun c => decide (Plain c))) ws := by
  have he : (lower text).filter (fun c => validCharacters.contains c) = (lower text).filter (fun c => decide (Plain c)) :=
    List.filter_congr (fun c _ => by rw [Bool.eq_iff_iff, valid_iff, decide_eq_true_eq])
  obtain ⟨t, vs, h1, h2, h3⟩ := splitGo_words ((lower text).filter (fun c => decide (Plain c))) [] nofun
  rw [List.nil_append] at h2
  subst h2
  rw [tokenize, he, h1]
  exact ⟨fun e => e ▸ h3, fun h => words_unique h h3⟩

/-- What the words of a text are made of. -/
theorem words_flatten {s : Str} {ws : List Str} (h : Words s ws) :
    ws.flatten = s.filter (fun c => decide (¬ Blank c)) ∧ ∀ w ∈ ws, w ≠ [] ∧ ∀ c ∈ w, ¬ Blank c := by
  induction h with
  | nil => exact ⟨rfl, nofun⟩
  | blank hc h ih => exact ⟨by rw [ih.1, List.filter_cons_of_neg (by simp [hc])], ih.2⟩
  | @word w s ws hne hw hend h ih =>
    refine ⟨?_, ?_⟩
    · have : w.filter (fun c => decide (¬ Blank c)) = w := List.filter_eq_self.2 (fun c hc => by simpa using hw c hc)
      rw [List.flatten_cons, ih.1, List.filter_append, this]
    · intro v hv
      rcases List.mem_cons.1 hv with rfl | hv
      · exact ⟨hne, hw⟩
      · exact ih.2 v hv

/-- **C103**: no letter or digit of the text in lower case is lost or moved; no token is empty, and each is made of letters and
digits only. -/
theorem C103_letters (lower : Str → Str) (text : Str) :
    (tokenize lower text).flatten = (lower text).filter (fun c => c.isAlphanum) ∧
    ∀ w ∈ tokenize lower text, w ≠ [] ∧ ∀ c ∈ w, c.isAlphanum = true := by
  obtain ⟨h1, h2⟩ := words_flatten ((C103_tokens lower text _).1 rfl)
  have hb : ∀ c : Char, c.isAlphanum = true → ¬ Blank c := by
    intro c hc hb
    rcases hb with rfl | rfl | rfl | rfl | rfl | rfl <;> exact absurd hc (by decide)
  have hflat : (tokenize lower text).flatten = (lower text).filter (fun c => c.isAlphanum) := by
    rw [h1, List.filter_filter]
    refine List.filter_congr (fun c _ => ?_)
    by_cases hc : c.isAlphanum = true
    · simp [hc, hb c hc, Plain]
    · simp [hc, Plain]
  refine ⟨hflat, fun w hw => ⟨(h2 w hw).1, fun c hc => ?_⟩⟩
  have : c ∈ (tokenize lower text).flatten := List.mem_flatten.2 ⟨w, hw, hc⟩
  rw [hflat] at this
  exact (List.mem_filter.1 this).2

/-- Words and blanks give the words back. -/
theorem words_join : ∀ {ws : List Str}, (∀ w ∈ ws, w ≠ [] ∧ ∀ c ∈ w, ¬ Blank c) → Words (join [' '] ws) ws
  | [], _ => .nil
  | [w], h => by
    have := h w List.mem_cons_self
    simpa [join] using Words.word this.1 this.2 (Or.inl rfl) .nil
  | w :: v :: ws, h => by
    have hw := h w List.mem_cons_self
    rw [show join [' '] (w :: v :: ws) = w ++ ' ' :: join [' '] (v :: ws) by simp [join]]
    exact .word hw.1 hw.2 (Or.inr ⟨' ', _, rfl, Or.inl rfl⟩)
      (.blank (Or.inl rfl) (words_join (ws := v :: ws) (fun u hu => h u (List.mem_cons_of_mem _ hu))))
  termination_by ws => ws.length

theorem mem_join : ∀ {ws : List Str} {c : Char}, c ∈ join [' '] ws → c = ' ' ∨ ∃ w ∈ ws, c ∈ w
  | [], _, h => by simp [join] at h
  | [w], c, h => by simp [join] at h; exact Or.inr ⟨w, by simp, h⟩
  | w :: v :: ws, c, h => by
    rw [show join [' '] (w :: v :: ws) = w ++ ' ' :: join [' '] (v :: ws) by simp [join]] at h
    rcases List.mem_append.1 h with h | h
    · exact Or.inr ⟨w, by simp, h⟩
    rcases List.mem_cons.1 h with h | h
    · exact Or.inl h
    · rcases mem_join h with h | ⟨u, hu, h⟩
      · exact Or.inl h
      · exact Or.inr ⟨u, List.mem_cons_of_mem _ hu, h⟩

/-- **C103**: tokens are their own tokens: the tokens of the tokens of a text, with a blank between each, are the same ones, if
lower case is what it is of characters in lower case. -/
theorem C103_again (lower : Str → Str) (hl : ∀ t s, (∀ c ∈ s, c = ' ' ∨ c.isAlphanum = true ∧ c ∈ lower t) → lower s = s)
    (text : Str) : tokenize lower (join [' '] (tokenize lower text)) = tokenize lower text := by
  obtain ⟨h1, h2⟩ := C103_letters lower text
  have hs : lower (join [' '] (tokenize lower text)) = join [' '] (tokenize lower text) := by
    refine hl text _ (fun c hc => ?_)
    rcases mem_join hc with h | ⟨w, hw, h⟩
    · exact Or.inl h
    · have : c ∈ (tokenize lower text).flatten := List.mem_flatten.2 ⟨w, hw, h⟩
      rw [h1] at this
      exact Or.inr ⟨(h2 w hw).2 c h, (List.mem_filter.1 this).1⟩
  rw [C103_tokens, hs, List.filter_eq_self.2]
  · refine words_join (fun w hw => ⟨(h2 w hw).1, fun c hc hb => ?_⟩)
    have := (h2 w hw).2 c hc
    rcases hb with rfl | rfl | rfl | rfl | rfl | rfl <;> exact absurd this (by decide)
  · intro c hc
    rcases mem_join hc with rfl | ⟨w, hw, h⟩
    · decide
    · exact decide_eq_true (Or.inl ((h2 w hw).2 c h))

/-- **C103** fails for words with punctuation between them, which become one, and for letters outside ASCII, which are dropped. -/
theorem C103_words_fails (lower : Str → Str)
    (h1 : lower "to be,or not".toList = "to be,or not".toList) (h2 : lower "café au".toList = "café au".toList) :
    tokenize lower "to be,or not".toList = ["to".toList, "beor".toList, "not".toList] ∧
    tokenize lower "café au".toList = ["caf".toList, "au".toList] := by
  unfold tokenize
  rw [h1, h2]
  decide +kernel

/-! ## Names of fields -/

/-- **C103**: a safe name is what is left of the name if all but letters, digits, `_` and `-` is dropped; it is its own safe
name. -/
theorem C103_field_name (name : Str) :
    safeFieldName name = name.filter (fun c => c.isAlphanum || c = '_' || c = '-') ∧
    safeFieldName (safeFieldName name) = safeFieldName name := by
  have hc : ∀ c : Char, safeCharacters.contains c = (c.isAlphanum || c = '_' || c = '-') := by
    intro c
    have h1 : ∀ c ∈ safeCharacters, (c.isAlphanum || c = '_' || c = '-') = true := by decide +kernel
    have h2 : ∀ c ∈ validCharacters, c.isAlphanum = true → c ∈ safeCharacters := by decide +kernel
    rw [Bool.eq_iff_iff, List.contains_iff_mem]
    refine ⟨h1 c, fun h => ?_⟩
    simp only [Bool.or_eq_true, decide_eq_true_eq] at h
    rcases h with (h | rfl) | rfl
    · exact h2 c ((Targets.validCharacters_iff c).2 (Or.inl h)) h
    · decide
    · decide
  refine ⟨List.filter_congr (fun c _ => hc c), ?_⟩
  rw [safeFieldName, safeFieldName, List.filter_filter]
  exact List.filter_congr (fun c _ => by rw [Bool.and_self])

/-- **C103** fails for distinctness: different names of fields can have the same safe name, and a name can be left empty. -/
theorem C103_field_name_fails :
    safeFieldName "total (net)".toList = safeFieldName "totalnet".toList ∧ safeFieldName "größe".toList = "gre".toList ∧
    safeFieldName "名".toList = [] := by decide +kernel

theorem lower_lower (c : Char) : c.toLower.toLower = c.toLower := by
  by_cases h : c.toNat < 128
  · have : ∀ n < 128, (Char.ofNat n).toLower.toLower = (Char.ofNat n).toLower := by decide +kernel
    have := this c.toNat h
    rwa [Char.ofNat_toNat] at this
  · have : c.toLower = c := by
      unfold Char.toLower
      rw [dif_neg]
      intro hc
      have hv : c.toNat = c.val.toNat := rfl
      simp only [UInt32.le_iff_toNat_le, ge_iff_le] at hc
      simp at hc
      omega
    rw [this, this]

/-- A `lower` for ASCII. -/
theorem lower_settled : (∀ t s : Str, (∀ c ∈ s, c = ' ' ∨ c.isAlphanum = true ∧ c ∈ t.map Char.toLower) → s.map Char.toLower = s) := by
  intro t s h
  refine (List.map_congr_left (fun c hc => ?_)).trans (List.map_id s)
  rcases h c hc with rfl | ⟨_, hc⟩
  · rfl
  · obtain ⟨d, _, rfl⟩ := List.mem_map.1 hc
    exact lower_lower d

/-- Non-vacuity of `C103_again`. -/
example : tokenize (fun s => s.map Char.toLower) (join [' '] (tokenize (fun s => s.map Char.toLower) "The  CAT sat\n".toList)) =
    tokenize (fun s => s.map Char.toLower) "The  CAT sat\n".toList :=
  C103_again _ lower_settled _

example : tokenize (fun s => s.map Char.toLower) "The  CAT sat\n".toList = ["the".toList, "cat".toList, "sat".toList] := by
  decide +kernel

end Mabel.Text
