import Verif.Spec.ErrorStack
import Verif.Lemmas.Num
import Verif.Lemmas.Str

/-!
# Rendering the error that is being handled: C93
-/

namespace Mabel.ErrorStack
open Mabel.Py

/-! ## The errors that led to one -/

theorem shown_iff {h : Heap} {j : Nat} : shown h j = true ↔ Raised h j := by
  unfold shown Raised
  rw [Bool.and_eq_true, Option.isSome_iff_ne_none]

theorem filter_shown {h : Heap} {o : Option Nat} {j : Nat} : o.filter (shown h) = some j ↔ o = some j ∧ Raised h j := by
  rw [Option.filter_eq_some_iff, shown_iff]

theorem next_some {h : Heap} {i j : Nat} {c : Bool} (hn : next h (h i) = some (j, c)) : LedTo h j i := by
  unfold next at hn
  cases hc : (h i).cause.filter (shown h) with
  | some k =>
    rw [hc] at hn
    cases hn
    exact Or.inl (filter_shown.1 hc)
  | none =>
    rw [hc] at hn
    cases hx : (h i).context.filter (shown h) with
    | none => rw [hx] at hn; cases hn
    | some k =>
      rw [hx] at hn
      simp only at hn
      split at hn
      · cases hn
      · rename_i hs
        cases hn
        obtain ⟨h1, h2⟩ := filter_shown.1 hx
        refine Or.inr ⟨?_, h1, h2, by simpa using hs⟩
        intro k hk hr
        rw [filter_shown.2 ⟨hk, hr⟩] at hc
        cases hc

theorem next_none {h : Heap} {i : Nat} (hn : next h (h i) = none) (j : Nat) : ¬ LedTo h j i := by
  unfold next at hn
  rintro (hj | ⟨h1, h2, h3, h4⟩)
  · rw [filter_shown.2 hj] at hn; cases hn
  · have : (h i).cause.filter (shown h) = none := by
      cases hc : (h i).cause.filter (shown h) with
      | none => rfl
      | some k => exact absurd (filter_shown.1 hc).2 (h1 k (filter_shown.1 hc).1)
    rw [this, filter_shown.2 ⟨h2, h3⟩] at hn
    simp [h4] at hn

theorem ledTo_unique {h : Heap} {i j k : Nat} (hj : LedTo h j i) (hk : LedTo h k i) : j = k := by
  rcases hj with ⟨a1, a2⟩ | ⟨a1, a2, a3, a4⟩ <;> rcases hk with ⟨b1, b2⟩ | ⟨b1, b2, b3, b4⟩
  · rw [a1] at b1; cases b1; rfl
  · exact absurd a2 (b1 j a1)
  · exact absurd b2 (a1 k b1)
  · rw [a2] at b2; cases b2; rfl

theorem story_unique {h : Heap} {i : Nat} {l l' : List Nat} (a : Story h i l) (b : Story h i l') : l = l' := by
  induction a generalizing l' with
  | first hn =>
    cases b with
    | first => rfl
    | later hj => exact absurd hj (hn _)
  | later hj _ ih =>
    cases b with
    | first hn => exact absurd hj (hn _)
    | later hk hs =>
      cases ledTo_unique hj hk
      rw [ih hs]

theorem walk_story {h : Heap} (lib : Lib) {i : Nat} {l : List Nat} (hs : Story h i l)
    (ht : ∀ i ∈ l, ∃ s, (h i).value = .ok s) (rounds : Nat) (hr : l.length ≤ rounds) (c : Bool) :
    ∃ stack, walk lib h rounds i c = some (.ok stack) ∧
      stack.map (·.frames) = l.map fun i => framesOf lib (h i).traceback := by
  induction hs generalizing rounds c with
  | @first i hn =>
    obtain ⟨v, hv⟩ := ht i (by simp)
    obtain ⟨n, rfl⟩ : ∃ n, rounds = n + 1 := ⟨rounds - 1, by simp at hr; omega⟩
    unfold walk
    rw [hv]
    cases hx : next h (h i) with
    | none => exact ⟨_, rfl, rfl⟩
    | some x => exact absurd (next_some (c := x.2) (j := x.1) hx) (hn _)
  | @later i j l hj hs ih =>
    obtain ⟨v, hv⟩ := ht i (by simp)
    obtain ⟨n, rfl⟩ : ∃ n, rounds = n + 1 := ⟨rounds - 1, by simp at hr; omega⟩
    unfold walk
    rw [hv]
    cases hx : next h (h i) with
    | none => exact absurd hj (next_none hx j)
    | some x =>
      obtain ⟨k, c'⟩ := x
      cases ledTo_unique hj (next_some hx)
      obtain ⟨stack, h1, h2⟩ := ih (fun i hi => ht i (by simp [hi])) n (by simp at hr; omega) c'
      simp only [h1]
      exact ⟨_, rfl, by rw [List.map_cons, List.map_cons, h2]⟩

theorem walk_ends {h : Heap} (lib : Lib) (rounds : Nat) : ∀ (i : Nat) (c : Bool) (stack : List Stack),
    walk lib h rounds i c = some (.ok stack) → ∃ l, Story h i l ∧ ∀ i ∈ l, ∃ s, (h i).value = .ok s := by
  induction rounds with
  | zero => intro i c stack hw; cases hw
  | succ n ih =>
    intro i c stack hw
    unfold walk at hw
    cases hv : (h i).value with
    | error e => rw [hv] at hw; cases hw
    | ok v =>
      rw [hv] at hw
      cases hx : next h (h i) with
      | none =>
        refine ⟨[i], .first (next_none hx), ?_⟩
        intro k hk
        rw [List.mem_singleton.1 hk]
        exact ⟨v, hv⟩
      | some x =>
        obtain ⟨j, c'⟩ := x
        rw [hx] at hw
        simp only at hw
        cases hj : walk lib h n j c' with
        | none => rw [hj] at hw; cases hw
        | some r =>
          rw [hj] at hw
          cases r with
          | error e => cases hw
          | ok s =>
            obtain ⟨l, h1, h2⟩ := ih j c' s hj
            refine ⟨i :: l, .later (next_some hx) h1, ?_⟩
            intro k hk
            rcases List.mem_cons.1 hk with rfl | hk
            · exact ⟨v, hv⟩
            · exact h2 k hk

/-! ## White space -/

theorem visible_break {c : Char} (h : isBreak c = true) : visible c = false := by
  unfold isBreak at h
  simp only [Bool.or_eq_true, decide_eq_true_eq] at h
  rcases h with ((((((((h | h) | h) | h) | h) | h) | h) | h) | h) | h <;> subst h <;> decide

theorem splitlinesGo_visible (n : Nat) : ∀ (cur s : Str), s.length ≤ n →
    ((splitlinesGo cur s).flatten).filter visible = (cur ++ s).filter visible := by
  induction n with
  | zero =>
    intro cur s hs
    cases s with
    | nil =>
      unfold splitlinesGo
      split
      · rename_i h; rw [h]; rfl
      · simp
    | cons c cs => simp at hs
  | succ n ih =>
    intro cur s hs
    cases s with
    | nil =>
      unfold splitlinesGo
      split
      · rename_i h; rw [h]; rfl
      · simp
    | cons c cs =>
      have hcs : cs.length ≤ n := by simpa using hs
      unfold splitlinesGo
      split
      · rename_i hb
        split
        · rename_i h2
          cases cs with
          | nil => cases h2.2
          | cons d ds =>
            have hd : d = '\n' := by simpa using h2.2
            subst hd
            rw [List.flatten_cons, List.filter_append, List.tail_cons, ih [] ds (by simp at hcs; omega), List.nil_append,
              List.filter_append, List.filter_cons_of_neg (by rw [visible_break hb]; decide),
              List.filter_cons_of_neg (by decide)]
        · rw [List.flatten_cons, List.filter_append, ih [] cs hcs, List.nil_append, List.filter_append,
            List.filter_cons_of_neg (by rw [visible_break hb]; decide)]
      · rw [ih _ cs hcs]
        simp

theorem splitlines_visible (s : Str) : ((splitlines s).flatten).filter visible = s.filter visible := by
  rw [splitlines, splitlinesGo_visible _ [] s (Nat.le_refl _), List.nil_append]

theorem join_visible (l : List Str) : (join ['\n'] l).filter visible = l.flatten.filter visible := by
  induction l with
  | nil => rfl
  | cons p l ih =>
    cases l with
    | nil => simp [join]
    | cons q l =>
      rw [join, List.filter_append, List.filter_append, ih, List.flatten_cons (l := p), List.filter_append]
      · rw [show (['\n'] : Str).filter visible = [] by decide, List.append_nil]
      · intro h; cases h

theorem flatten_visible {l : List Str} {f : Str → Str} (hf : ∀ s, (f s).filter visible = s.filter visible) :
    ((l.map f).flatten).filter visible = l.flatten.filter visible := by
  induction l with
  | nil => rfl
  | cons p l ih => rw [List.map_cons, List.flatten_cons, List.flatten_cons, List.filter_append, List.filter_append, ih, hf]

theorem wrap_visible {lib : Lib} (hf : Fills lib) (s : Str) : (wrapText lib s).filter visible = s.filter visible := by
  rw [wrapText, join_visible, flatten_visible hf.keeps, splitlines_visible]

theorem split_append (c : Char) (a b : Str) : ∃ init x y rest, split c a = init ++ [x] ∧ split c b = y :: rest ∧
    split c (a ++ b) = init ++ [x ++ y] ++ rest := by
  induction a with
  | nil =>
    cases hb : split c b with
    | nil => exact absurd hb (split_ne_nil c b)
    | cons y rest => exact ⟨[], [], y, rest, rfl, rfl, by rw [List.nil_append, hb]; rfl⟩
  | cons d a ih =>
    obtain ⟨init, x, y, rest, h1, h2, h3⟩ := ih
    by_cases hd : d = c
    · exact ⟨[] :: init, x, y, rest, by rw [split, if_pos hd, h1]; rfl, h2, by
        rw [List.cons_append, split, if_pos hd, h3]; rfl⟩
    · cases init with
      | nil =>
        refine ⟨[], d :: x, y, rest, ?_, h2, ?_⟩
        · rw [split, if_neg hd, h1]; rfl
        · rw [List.cons_append, split, if_neg hd, h3]; rfl
      | cons z init =>
        refine ⟨(d :: z) :: init, x, y, rest, ?_, h2, ?_⟩
        · rw [split, if_neg hd, h1]; rfl
        · rw [List.cons_append, split, if_neg hd, h3]; rfl

/-- The lines of texts joined by line breaks are those of the texts. -/
theorem split_join_mem (l : List Str) : ∀ x ∈ split '\n' (join ['\n'] l), x = [] ∨ ∃ y ∈ l, x ∈ split '\n' y := by
  induction l with
  | nil => intro x hx; exact Or.inl (by simpa [join, split] using hx)
  | cons p l ih =>
    intro x hx
    cases l with
    | nil => exact Or.inr ⟨p, by simp, hx⟩
    | cons q l =>
      rw [join, List.append_assoc] at hx
      · obtain ⟨init, u, v, rest, h1, h2, h3⟩ := split_append '\n' p (['\n'] ++ join ['\n'] (q :: l))
        rw [h3] at hx
        rw [show ['\n'] ++ join ['\n'] (q :: l) = '\n' :: join ['\n'] (q :: l) from rfl, split, if_pos rfl] at h2
        obtain ⟨rfl, rfl⟩ := List.cons.inj h2
        rw [List.append_nil, ← h1] at hx
        rcases List.mem_append.1 hx with hx | hx
        · exact Or.inr ⟨p, by simp, hx⟩
        · rcases ih x hx with h | ⟨y, hy, h⟩
          · exact Or.inl h
          · exact Or.inr ⟨y, by simp [hy], h⟩
      · intro h; cases h

theorem wrap_fits {lib : Lib} (hf : Fills lib) (s : Str) : ∀ x ∈ split '\n' (wrapText lib s), x.length ≤ 120 := by
  intro x hx
  rcases split_join_mem _ x hx with rfl | ⟨y, hy, h⟩
  · exact Nat.zero_le _
  · obtain ⟨z, -, rfl⟩ := List.mem_map.1 hy
    exact hf.fits z x h

/-! ## The lines for a place -/

theorem foldl_max (l : List Nat) (a : Nat) : a ≤ l.foldl max a ∧ ∀ x ∈ l, x ≤ l.foldl max a := by
  induction l generalizing a with
  | nil => exact ⟨Nat.le_refl _, by simp⟩
  | cons y l ih =>
    obtain ⟨h1, h2⟩ := ih (max a y)
    refine ⟨Nat.le_trans (Nat.le_max_left _ _) h1, ?_⟩
    intro x hx
    rcases List.mem_cons.1 hx with rfl | hx
    · exact Nat.le_trans (Nat.le_max_right _ _) h1
    · exact h2 x hx

theorem mapM_texts (width : Nat) (locals : List (Str × Except Err Str)) (h : ∀ kv ∈ locals, ∃ s, kv.2 = .ok s) :
    ∃ body, (locals.mapM fun (kv : Str × Except Err Str) =>
        kv.2.map fun v => "  ".toList ++ ljust width kv.1 ++ " : ".toList ++ v) = .ok body ∧
      List.Forall₂ (fun kv line => ∃ v, kv.2 = .ok v ∧
        line = "  ".toList ++ kv.1 ++ List.replicate (width - kv.1.length) ' ' ++ " : ".toList ++ v) locals body := by
  induction locals with
  | nil => exact ⟨[], rfl, .nil⟩
  | cons kv locals ih =>
    obtain ⟨body, h1, h2⟩ := ih (fun x hx => h x (by simp [hx]))
    obtain ⟨v, hv⟩ := h kv (by simp)
    refine ⟨("  ".toList ++ ljust width kv.1 ++ " : ".toList ++ v) :: body, ?_, .cons ⟨v, hv, ?_⟩ h2⟩
    · rw [List.mapM_cons, h1, hv]; rfl
    · simp [ljust]

theorem locals_lines (locals : List (Str × Except Err Str)) (h : ∀ kv ∈ locals, ∃ s, kv.2 = .ok s) :
    ∃ out, renderLocals locals = .ok out ∧ LocalLines locals out := by
  unfold renderLocals
  cases locals with
  | nil => exact ⟨[], rfl, fun _ => rfl, fun h => absurd rfl h⟩
  | cons kv locals =>
    obtain ⟨body, h1, h2⟩ := mapM_texts (((kv :: locals).map fun kv => kv.1.length).foldl max 0) (kv :: locals) h
    simp only [List.isEmpty_cons, Bool.false_eq_true, if_false]
    rw [h1]
    refine ⟨_, rfl, fun h => (by cases h), fun _ => ⟨_, body, rfl, ?_, h2⟩⟩
    intro x hx
    exact (foldl_max _ 0).2 _ (List.mem_map_of_mem (f := fun kv : Str × Except Err Str => kv.1.length) hx)

theorem index_ok {lines : List Str} {k : Nat} (h1 : 1 ≤ k) (h2 : k ≤ lines.length) :
    index lines ((k : Int) - 1) = .ok (lines.getD (k - 1) []) := by
  unfold index
  rw [if_neg (by omega), if_neg (by omega)]
  have : ((k : Int) - 1).toNat = k - 1 := by omega
  rw [this, List.getD_eq_getElem?_getD, List.getElem?_eq_getElem (by omega)]
  rfl

theorem codeLoop_ok (lines : List Str) (line : Nat) (ks : List Nat) (h : ∀ k ∈ ks, 1 ≤ k ∧ k ≤ lines.length) :
    codeLoop lines line ks = ks.map fun k => codeLine (k == line) k (lines.getD (k - 1) []) := by
  induction ks with
  | nil => rfl
  | cons k ks ih =>
    obtain ⟨h1, h2⟩ := h k (by simp)
    rw [codeLoop, index_ok h1 h2, List.map_cons, ih (fun k hk => h k (by simp [hk]))]
    simp only
    congr 1
    unfold codeLine rjust
    by_cases hk : k = line
    · simp [hk]
    · simp [hk]

theorem range_filter (n a b : Nat) (ha : a ≤ b) (hb : b ≤ n) :
    ((List.range n).filter fun k => decide (a ≤ k ∧ k < b)) = (List.range (b - a)).map (a + ·) := by
  obtain ⟨m, rfl⟩ : ∃ m, n = a + ((b - a) + m) := ⟨n - b, by omega⟩
  rw [List.range_add, List.range_add, List.map_append, List.filter_append, List.filter_append]
  rw [List.filter_eq_nil_iff.2 (by intro k hk; have := List.mem_range.1 hk; simp; omega), List.nil_append]
  rw [List.filter_eq_self.2 (by
    intro k hk
    obtain ⟨x, hx, rfl⟩ := List.mem_map.1 hk
    have := List.mem_range.1 hx
    simp; omega)]
  rw [List.filter_eq_nil_iff.2 (by
    intro k hk
    obtain ⟨x, hx, rfl⟩ := List.mem_map.1 hk
    obtain ⟨y, hy, rfl⟩ := List.mem_map.1 hx
    simp; omega), List.append_nil]

theorem code_around (lines : List Str) (line start : Nat) (h1 : 1 ≤ start) (h3 : line ≤ start + 3)
    (hs : start + 3 = line ∨ start = 1) :
    codeLoop lines line ((List.range (min (line + 3 + 1) (lines.length + 1) - start)).map (start + ·)) =
      around lines line := by
  rw [codeLoop_ok _ _ _ (by
    intro k hk
    obtain ⟨x, hx, rfl⟩ := List.mem_map.1 hk
    have := List.mem_range.1 hx
    omega)]
  unfold around
  have hg : ((List.range lines.length).filter fun k => decide (line ≤ k + 1 + 3 ∧ k + 1 ≤ line + 3)) =
      (List.range lines.length).filter fun k =>
        decide (start - 1 ≤ k ∧ k < max (start - 1) (min (line + 3) lines.length)) := by
    apply List.filter_congr
    intro k hk
    have := List.mem_range.1 hk
    congr 1
    apply propext
    omega
  rw [hg]
  by_cases hle : start ≤ min (line + 3) lines.length
  · rw [range_filter _ _ _ (by omega) (by omega), List.map_map, List.map_map]
    rw [show min (line + 3 + 1) (lines.length + 1) - start = max (start - 1) (min (line + 3) lines.length) - (start - 1) by
      omega]
    apply List.map_congr_left
    intro k _
    simp only [Function.comp]
    rw [show start + k = start - 1 + k + 1 by omega]
    rfl
  · rw [show min (line + 3 + 1) (lines.length + 1) - start = 0 by omega, List.filter_eq_nil_iff.2 (by
      intro k hk
      simp
      omega)]
    rfl

theorem code_lines (lines : List Str) (line : Nat) (h1 : 1 ≤ line) :
    codeLoop lines line ((List.range (min (line + 3 + 1) (lines.length + 1) - (line - 3))).map ((line - 3) + ·)) =
      lineZero lines line ++ around lines line := by
  unfold lineZero
  by_cases h4 : 4 ≤ line
  · rw [if_neg (by omega), List.nil_append]
    exact code_around lines line (line - 3) (by omega) (by omega) (by omega)
  · rw [if_pos (by omega), show line - 3 = 0 by omega]
    have hr : (List.range (min (line + 3 + 1) (lines.length + 1) - 0)).map (0 + ·) =
        0 :: (List.range (min (line + 3 + 1) (lines.length + 1) - 1)).map (1 + ·) := by
      rw [show min (line + 3 + 1) (lines.length + 1) - 0 = (min (line + 3 + 1) (lines.length + 1) - 1) + 1 by omega,
        List.range_succ_eq_map, List.map_cons, List.map_map]
      congr 1
      apply List.map_congr_left
      intro k _
      simp only [Function.comp]
      omega
    rw [hr, codeLoop]
    cases hl : lines.getLast? with
    | none =>
      rw [List.getLast?_eq_none_iff] at hl
      subst hl
      simp [index, around]
    | some x =>
      have hi : index lines (((0 : Nat) : Int) - 1) = .ok x := by
        have hne : lines ≠ [] := by rintro rfl; cases hl
        have hlen := List.length_pos_iff.2 hne
        unfold index
        rw [if_pos (show (((0 : Nat) : Int) - 1) < 0 by omega), if_neg (by omega)]
        rw [List.getLast?_eq_getElem?] at hl
        rw [show (((0 : Nat) : Int) - 1 + (lines.length : Int)).toNat = lines.length - 1 by omega, hl]
      rw [hi]
      simp only
      rw [code_around lines line 1 (by omega) (by omega) (by omega), if_neg (by omega)]
      rfl

/-! ## What is rendered -/

theorem frame_shows {lib : Lib} (ha : Absolute lib) (r : Raw) (ht : ∀ kv ∈ r.locals, ∃ s, kv.2 = .ok s) :
    ∃ block, renderFrame lib ⟨fileOf lib r, r.line, r.name, r.locals⟩ = .ok block ∧ Shows lib r block := by
  obtain ⟨locals, h1, h2⟩ := locals_lines r.locals ht
  unfold renderFrame
  have hf : (fileOf lib r).head? ≠ some '<' := by
    unfold fileOf
    split
    · decide
    · obtain ⟨s, hs⟩ := ha r.file
      rw [hs]
      simp
  rw [if_neg hf, h1]
  refine ⟨_, rfl, locals, readFromCode lib (fileOf lib r) r.line 3, h2, ?_, ?_, ?_⟩
  · intro hn
    unfold readFromCode
    rw [hn]
  · intro ls hl h1
    unfold readFromCode
    rw [hl]
    simp only
    rw [code_lines ls r.line h1]
  · simp [heading, barLabel, lineLength]

theorem mapM_frames {lib : Lib} (ha : Absolute lib) (rs : List Raw)
    (ht : ∀ r ∈ rs, ∀ kv ∈ r.locals, ∃ s, kv.2 = .ok s) :
    ∃ blocks, (rs.map fun r => (⟨fileOf lib r, r.line, r.name, r.locals⟩ : Frame)).mapM (renderFrame lib) = .ok blocks ∧
      List.Forall₂ (Shows lib) rs blocks := by
  induction rs with
  | nil => exact ⟨[], rfl, .nil⟩
  | cons r rs ih =>
    obtain ⟨blocks, h1, h2⟩ := ih (fun r hr => ht r (by simp [hr]))
    obtain ⟨b, h3, h4⟩ := frame_shows ha r (ht r (by simp))
    refine ⟨b :: blocks, ?_, .cons h4 h2⟩
    rw [List.map_cons, List.mapM_cons, h3, h1]
    rfl

theorem framesOf_eq (lib : Lib) (h : Heap) (i : Nat) :
    framesOf lib (h i).traceback = (placesOf h i).map fun r => ⟨fileOf lib r, r.line, r.name, r.locals⟩ := by
  unfold framesOf placesOf fileOf
  apply List.map_congr_left
  intro r _
  by_cases hr : r.file = [] <;> simp [hr]

/-- **C93.** Rendering comes to an end, without an error of its own, exactly if the errors that led to the one being
handled can be followed back to a first one and each has a text. -/
theorem C93_ends_iff (lib : Lib) (h : Heap) (i : Nat) :
    (∃ rounds stack, build lib h rounds (some i) = some (.ok stack)) ↔
      ∃ l, Story h i l ∧ ∀ j ∈ l, ∃ s, (h j).value = .ok s := by
  constructor
  · rintro ⟨rounds, stack, hb⟩
    exact walk_ends lib rounds i false stack hb
  · rintro ⟨l, hs, ht⟩
    obtain ⟨stack, h1, -⟩ := walk_story lib hs ht l.length (Nat.le_refl _) false
    exact ⟨l.length, stack, h1⟩

/-- **C93 (partial).** What is rendered of an error: for it and each that led to it, in that order, for each place it
passed through, in order, the place, the local variables and the code around it.  Line breaks and white space apart,
that is what the text says, and no line of it is longer than 120.

What is missing: for a place within the first three lines of a file the code is not what it should be
(`C93_first_lines_fails`); the type and text of an error are not shown at all (`C93_message_fails`); a value that has
no text makes rendering fail (`C93_local_fails`); and errors that led to one another make it never return
(`C93_circle_fails`). -/
theorem C93_text_partial {lib : Lib} {h : Heap} {i : Nat} {l : List Nat} (hs : Story h i l) (ht : Texts h l)
    (ha : Absolute lib) (hf : Fills lib) {rounds : Nat} (hr : l.length ≤ rounds) :
    ∃ text blocks, render lib h rounds (some i) = some (.ok text) ∧
      List.Forall₂ (Shows lib) (l.flatMap (placesOf h)) blocks ∧
      text.filter visible = blocks.flatten.flatten.filter visible ∧
      ∀ line ∈ split '\n' text, line.length ≤ 120 := by
  obtain ⟨stack, h1, h2⟩ := walk_story lib hs ht.errors rounds hr false
  have hframes : stack.flatMap (·.frames) =
      (l.flatMap (placesOf h)).map fun r => (⟨fileOf lib r, r.line, r.name, r.locals⟩ : Frame) := by
    rw [List.flatMap_def, h2, List.map_flatMap, List.flatMap_def]
    congr 1
    apply List.map_congr_left
    intro j _
    exact framesOf_eq lib h j
  obtain ⟨blocks, h3, h4⟩ := mapM_frames ha (l.flatMap (placesOf h)) (by
    intro r hr kv hkv
    obtain ⟨j, hj, hr⟩ := List.mem_flatMap.1 hr
    exact ht.locals j hj r hr kv hkv)
  refine ⟨join ['\n'] (blocks.flatten.map (wrapText lib)), blocks, ?_, h4, ?_, ?_⟩
  · unfold render build
    simp only [h1, Option.map_some]
    unfold renderLines
    rw [hframes, h3]
    rfl
  · rw [join_visible, flatten_visible (wrap_visible hf)]
  · intro x hx
    rcases split_join_mem _ x hx with rfl | ⟨y, hy, h⟩
    · exact Nat.zero_le _
    · obtain ⟨z, -, rfl⟩ := List.mem_map.1 hy
      exact wrap_fits hf z x h

/-- **C93.** If no error is being handled the text is empty. -/
theorem C93_no_error (lib : Lib) (h : Heap) (rounds : Nat) : render lib h rounds none = some (.ok []) := rfl

/-- **C93.** Of the code around a line of a file, that line and no other is marked. -/
theorem C93_marked {code : List Str} {line : Nat} (h1 : 1 ≤ line) (hn : line ≤ code.length) :
    (around code line).filter (fun l => l.head? == some '>') = [codeLine true line (code.getD (line - 1) [])] := by
  unfold around
  rw [List.filter_map, List.filter_filter]
  have hp : ((List.range code.length).filter fun k =>
      ((fun l : Str => l.head? == some '>') ∘ fun k => codeLine (k + 1 == line) (k + 1) (code.getD k [])) k &&
        decide (line ≤ k + 1 + 3 ∧ k + 1 ≤ line + 3)) =
      (List.range code.length).filter fun k => decide (line - 1 ≤ k ∧ k < line) := by
    apply List.filter_congr
    intro k hk
    by_cases hkl : k + 1 = line
    · subst hkl
      simp [codeLine]
    · have hneg : ¬ (line - 1 ≤ k ∧ k < line) := by omega
      rw [decide_eq_false hneg]
      simp [codeLine, hkl]
  rw [hp, range_filter _ _ _ (by omega) hn, show line - (line - 1) = 1 by omega]
  obtain ⟨k, rfl⟩ : ∃ k, line = k + 1 := ⟨line - 1, by omega⟩
  simp [List.range_succ]

example : (around ["a".toList, "b".toList, "c".toList] 2).filter (fun l => l.head? == some '>') = [">   2 | b".toList] :=
  C93_marked (by decide) (by decide)

/-- **C93.** A label that fits in a line and has no space and no star in it stands in the middle of a bar as wide as a
line. -/
theorem C93_label {label : Str} (hne : label ≠ []) (hl : label.length ≤ 116) (hs : ' ' ∉ label) (hstar : '*' ∉ label) :
    ∃ a b, barLabel label = List.replicate a '=' ++ "  ".toList ++ label ++ "  ".toList ++ List.replicate b '=' ∧
      a + label.length + 4 + b = 120 ∧ a ≤ b ∧ b ≤ a + 1 := by
  have hlen : ("**".toList ++ label ++ "**".toList).length = label.length + 4 := by simp
  refine ⟨(116 - label.length) / 2, 116 - label.length - (116 - label.length) / 2, ?_, by omega, by omega, by omega⟩
  unfold barLabel center lineLength
  rw [if_pos (List.length_pos_iff.2 hne), hlen, show 120 - (label.length + 4) = 116 - label.length by omega]
  simp only [List.map_append, List.map_replicate]
  have h1 : (label.map fun c => if c = ' ' then '=' else c) = label := by
    conv => rhs; rw [← List.map_id label]
    apply List.map_congr_left
    intro c hc
    rw [if_neg (by rintro rfl; exact hs hc)]
    rfl
  have h2 : (label.map fun c => if c = '*' then ' ' else c) = label := by
    conv => rhs; rw [← List.map_id label]
    apply List.map_congr_left
    intro c hc
    rw [if_neg (by rintro rfl; exact hstar hc)]
    rfl
  rw [h1, h2]
  simp

example : ∃ a b, barLabel "main.py".toList =
    List.replicate a '=' ++ "  ".toList ++ "main.py".toList ++ "  ".toList ++ List.replicate b '=' ∧
      a + "main.py".toList.length + 4 + b = 120 ∧ a ≤ b ∧ b ≤ a + 1 :=
  C93_label (by decide) (by decide) (by decide) (by decide)

/-! ## What goes wrong -/

/-- **C93.** A space in the name of a file is shown as an equals sign. -/
theorem C93_label_fails : ¬ ∀ label : Str, label ≠ [] → label.length ≤ 116 → label <:+: barLabel label := by
  intro h
  have := h "a b".toList (by decide) (by decide)
  revert this
  decide +kernel

/-- An error raised at one place. -/
def errorAt (r : Raw) (cause : Option Nat) : Exc := { type := "E".toList, value := .ok [], traceback := some [r], cause := cause }

/-- A file system with one file and a library that puts each visible character in a line. -/
def smallLib : Lib :=
  { abspath := fun s => if s.head? = some '/' then s else '/' :: s
    lines := fun f => if f = "/a.py".toList then some ["first".toList, "last".toList] else none
    base := fun f => f.tail
    fill := fun s => join ['\n'] ((s.filter visible).map ([·])) }

theorem smallLib_absolute : Absolute smallLib := by
  intro s
  unfold smallLib
  simp only
  split
  · rename_i h
    cases s with
    | nil => cases h
    | cons c cs => simp only [List.head?_cons, Option.some.injEq] at h; exact ⟨cs, by rw [h]⟩
  · exact ⟨s, rfl⟩

theorem flatten_single (s : Str) : (s.map ([·])).flatten = s := by
  induction s with
  | nil => rfl
  | cons c s ih => rw [List.map_cons, List.flatten_cons, ih]; rfl

theorem smallLib_fills : Fills smallLib := by
  constructor
  · intro s
    unfold smallLib
    simp only
    rw [join_visible, flatten_single, List.filter_filter]
    simp
  · intro s x hx
    unfold smallLib at hx
    simp only at hx
    rcases split_join_mem _ x hx with rfl | ⟨y, hy, h⟩
    · exact Nat.zero_le _
    · obtain ⟨c, -, rfl⟩ := List.mem_map.1 hy
      unfold split at h
      split at h
      · simp [split] at h
        simp [h]
      · simp [split] at h
        simp [h]

/-- **C93.** For a place within the first three lines of a file, a line 0 is shown, and it has the text of the last line:
of an error in line 1 of a file of two lines, three lines are shown. -/
theorem C93_first_lines_fails : ∃ block, renderFrame smallLib ⟨"/a.py".toList, 1, "f".toList, []⟩ = .ok block ∧
    smallLib.lines "/a.py".toList = some ["first".toList, "last".toList] ∧
    "    0 | last".toList ∈ block ∧ ">   1 | first".toList ∈ block ∧ "    2 | last".toList ∈ block := by
  refine ⟨_, rfl, by decide +kernel, ?_⟩
  decide +kernel

/-- **C93.** If an error is raised again from the one that it led to, each is the cause of the other, and rendering never
returns. -/
theorem C93_circle_fails (lib : Lib) (r : Raw) :
    ∃ h : Heap, (∀ i, ∃ s, (h i).value = .ok s) ∧ LedTo h 1 0 ∧ LedTo h 0 1 ∧
      ∀ rounds, render lib h rounds (some 0) = none := by
  let h : Heap := fun i => errorAt r (some (1 - i))
  have hn : ∀ i, next h (h i) = some (1 - i, true) := by
    intro i
    rfl
  refine ⟨h, fun i => ⟨[], rfl⟩, Or.inl ⟨rfl, rfl, by simp [h, errorAt]⟩, Or.inl ⟨rfl, rfl, by simp [h, errorAt]⟩, ?_⟩
  have hw : ∀ rounds i c, walk lib h rounds i c = none := by
    intro rounds
    induction rounds with
    | zero => intro i c; rfl
    | succ n ih =>
      intro i c
      unfold walk
      rw [show (h i).value = .ok [] from rfl, hn i]
      simp only [ih]
      rfl
  intro rounds
  unfold render build
  simp only [hw]
  rfl

theorem walk_same {h h' : Heap} (lib : Lib) (hs : ∀ i, (h i).truthy = (h' i).truthy ∧ (h i).traceback = (h' i).traceback ∧
      (h i).cause = (h' i).cause ∧ (h i).context = (h' i).context ∧ (h i).suppress = (h' i).suppress)
    (h1 : ∀ i, ∃ s, (h i).value = .ok s) (h2 : ∀ i, ∃ s, (h' i).value = .ok s) (rounds : Nat) :
    ∀ i c, (walk lib h rounds i c).map (fun r => r.map fun l => l.map Stack.frames) =
      (walk lib h' rounds i c).map (fun r => r.map fun l => l.map Stack.frames) ∧
      ∀ e, walk lib h rounds i c ≠ some (.error e) ∧ walk lib h' rounds i c ≠ some (.error e) := by
  have hsh : shown h = shown h' := by
    funext i
    unfold shown
    rw [(hs i).1, (hs i).2.1]
  induction rounds with
  | zero => intro i c; exact ⟨rfl, fun e => ⟨by simp [walk], by simp [walk]⟩⟩
  | succ n ih =>
    intro i c
    obtain ⟨s, hv⟩ := h1 i
    obtain ⟨s', hv'⟩ := h2 i
    obtain ⟨-, ht, hc, hx, hsup⟩ := hs i
    have hn : next h (h i) = next h' (h' i) := by
      unfold next
      rw [hsh, hc, hx, hsup]
    unfold walk
    rw [hv, hv', hn]
    simp only
    cases next h' (h' i) with
    | none => exact ⟨by simp [ht, Except.map], fun e => ⟨by simp, by simp⟩⟩
    | some x =>
      obtain ⟨j, c'⟩ := x
      obtain ⟨h3, h4⟩ := ih j c'
      simp only
      cases ha : walk lib h n j c' with
      | none =>
        cases hb : walk lib h' n j c' with
        | none => exact ⟨rfl, fun e => ⟨by simp, by simp⟩⟩
        | some y => rw [ha, hb] at h3; cases h3
      | some y =>
        cases hb : walk lib h' n j c' with
        | none => rw [ha, hb] at h3; cases h3
        | some z =>
          cases y with
          | error e => exact absurd ha (h4 e).1
          | ok y =>
            cases z with
            | error e => exact absurd hb (h4 e).2
            | ok z =>
              rw [ha, hb] at h3
              have h5 : y.map Stack.frames = z.map Stack.frames := by simpa [Except.map] using h3
              refine ⟨?_, fun e => ⟨by simp [Except.map], by simp [Except.map]⟩⟩
              simp [Except.map, h5, ht]

/-- **C93.** What an error says, and of what type it is, is not shown: errors that differ in nothing else are rendered
alike. -/
theorem C93_message_fails {h h' : Heap} (lib : Lib)
    (hs : ∀ i, (h i).truthy = (h' i).truthy ∧ (h i).traceback = (h' i).traceback ∧
      (h i).cause = (h' i).cause ∧ (h i).context = (h' i).context ∧ (h i).suppress = (h' i).suppress)
    (h1 : ∀ i, ∃ s, (h i).value = .ok s) (h2 : ∀ i, ∃ s, (h' i).value = .ok s) (rounds : Nat) (current : Option Nat) :
    render lib h rounds current = render lib h' rounds current := by
  unfold render build
  cases current with
  | none => rfl
  | some i =>
    obtain ⟨h3, h4⟩ := walk_same lib hs h1 h2 rounds i false
    simp only
    cases ha : walk lib h rounds i false with
    | none =>
      cases hb : walk lib h' rounds i false with
      | none => rfl
      | some y => rw [ha, hb] at h3; cases h3
    | some y =>
      cases hb : walk lib h' rounds i false with
      | none => rw [ha, hb] at h3; cases h3
      | some z =>
        cases y with
        | error e => exact absurd ha (h4 e).1
        | ok y =>
          cases z with
          | error e => exact absurd hb (h4 e).2
          | ok z =>
            rw [ha, hb] at h3
            have h5 : y.map Stack.frames = z.map Stack.frames := by simpa [Except.map] using h3
            simp only [Option.map_some]
            unfold renderLines
            rw [List.flatMap_def, List.flatMap_def, show y.map (·.frames) = z.map (·.frames) from h5]

/-- The premises of `C93_message_fails`: two errors that say different things. -/
example (r : Raw) : ∃ h h' : Heap,
    (∀ i, (h i).truthy = (h' i).truthy ∧ (h i).traceback = (h' i).traceback ∧ (h i).cause = (h' i).cause ∧
      (h i).context = (h' i).context ∧ (h i).suppress = (h' i).suppress) ∧
    (∀ i, ∃ s, (h i).value = .ok s) ∧ (∀ i, ∃ s, (h' i).value = .ok s) ∧ (h 0).value.toOption ≠ (h' 0).value.toOption ∧
    (h 0).type ≠ (h' 0).type :=
  ⟨fun _ => { type := "KeyError".toList, value := .ok "no such key".toList, traceback := some [r] },
   fun _ => { type := "OSError".toList, value := .ok "disk full".toList, traceback := some [r] },
   fun _ => ⟨rfl, rfl, rfl, rfl, rfl⟩, fun _ => ⟨_, rfl⟩, fun _ => ⟨_, rfl⟩, by
     simp [Except.toOption], by simp⟩

theorem mapM_error {α β : Type} (f : α → Except Err β) (l : List α) (h : ∃ x ∈ l, ∃ e, f x = .error e) :
    ∃ e, l.mapM f = .error e := by
  induction l with
  | nil => obtain ⟨x, hx, -⟩ := h; cases hx
  | cons y l ih =>
    rw [List.mapM_cons]
    cases hy : f y with
    | error e => exact ⟨e, rfl⟩
    | ok v =>
      obtain ⟨x, hx, e, he⟩ := h
      rcases List.mem_cons.1 hx with rfl | hx
      · rw [hy] at he; cases he
      · obtain ⟨e', he'⟩ := ih ⟨x, hx, e, he⟩
        rw [he']
        exact ⟨e', rfl⟩

/-- **C93.** If any local variable at any place an error passed through has a value without a text, nothing is shown of
the error: rendering raises an error itself. -/
theorem C93_local_fails {lib : Lib} (ha : Absolute lib) {h : Heap} {i : Nat} {l : List Nat} (hs : Story h i l)
    (ht : ∀ j ∈ l, ∃ s, (h j).value = .ok s) {j : Nat} (hj : j ∈ l) {r : Raw} (hr : r ∈ placesOf h j)
    {kv : Str × Except Err Str} (hkv : kv ∈ r.locals) {e : Err} (he : kv.2 = .error e) {rounds : Nat}
    (hrounds : l.length ≤ rounds) : ∃ e', render lib h rounds (some i) = some (.error e') := by
  obtain ⟨stack, h1, h2⟩ := walk_story lib hs ht rounds hrounds false
  have hl : ∃ e', renderLocals r.locals = .error e' := by
    unfold renderLocals
    cases hloc : r.locals with
    | nil => rw [hloc] at hkv; cases hkv
    | cons x xs =>
      simp only [List.isEmpty_cons, Bool.false_eq_true, if_false]
      obtain ⟨e', he'⟩ := mapM_error (fun (kv : Str × Except Err Str) => kv.2.map fun v =>
        "  ".toList ++ ljust (((x :: xs).map fun kv => kv.1.length).foldl max 0) kv.1 ++ " : ".toList ++ v) (x :: xs)
        ⟨kv, by rw [← hloc]; exact hkv, e, by rw [he]; rfl⟩
      rw [he']
      exact ⟨e', rfl⟩
  have hf : (fileOf lib r).head? ≠ some '<' := by
    unfold fileOf
    split
    · decide
    · obtain ⟨s, hs⟩ := ha r.file
      rw [hs]
      simp
  have hframe : ∃ e', renderFrame lib ⟨fileOf lib r, r.line, r.name, r.locals⟩ = .error e' := by
    obtain ⟨e', he'⟩ := hl
    refine ⟨e', ?_⟩
    unfold renderFrame
    rw [if_neg hf, he']
  have hmem : (⟨fileOf lib r, r.line, r.name, r.locals⟩ : Frame) ∈ stack.flatMap (·.frames) := by
    rw [List.flatMap_def, h2, List.mem_flatten]
    refine ⟨_, List.mem_map_of_mem hj, ?_⟩
    rw [framesOf_eq]
    exact List.mem_map_of_mem (f := fun r : Raw => (⟨fileOf lib r, r.line, r.name, r.locals⟩ : Frame)) hr
  obtain ⟨e', he'⟩ := mapM_error (renderFrame lib) _ ⟨_, hmem, hframe⟩
  refine ⟨e', ?_⟩
  unfold render build
  simp only [h1, Option.map_some]
  unfold renderLines
  rw [he']
  rfl

/-- Two errors: the second was raised from the first, in line 1 of a file with two lines, and a third was being handled
meanwhile but is not shown. -/
def twoErrors : Heap := fun i =>
  if i = 0 then errorAt ⟨"a.py".toList, 1, "f".toList, [("x".toList, .ok "1".toList)]⟩ (some 1)
  else { errorAt ⟨"b.py".toList, 7, "g".toList, []⟩ none with context := some 2, suppress := true }

theorem twoErrors_story : Story twoErrors 0 [0, 1] := by
  refine .later (j := 1) (Or.inl ⟨rfl, rfl, by decide⟩) (.first ?_)
  rintro j (⟨h, -⟩ | ⟨-, -, -, h⟩)
  · cases h
  · cases h

theorem twoErrors_texts : Texts twoErrors [0, 1] := by
  constructor
  · intro i _
    unfold twoErrors
    split <;> exact ⟨[], rfl⟩
  · intro i hi r hr kv hkv
    simp only [List.mem_cons, List.not_mem_nil, or_false] at hi
    rcases hi with rfl | rfl
    · have : r = ⟨"a.py".toList, 1, "f".toList, [("x".toList, .ok "1".toList)]⟩ := by simpa [twoErrors, errorAt] using hr
      subst this
      have : kv = ("x".toList, .ok "1".toList) := by simpa using hkv
      subst this
      exact ⟨_, rfl⟩
    · have : r = ⟨"b.py".toList, 7, "g".toList, []⟩ := by simpa [twoErrors, errorAt] using hr
      subst this
      cases hkv

/-- The premises of `C93_text_partial`. -/
example : Story twoErrors 0 [0, 1] ∧ Texts twoErrors [0, 1] ∧ Absolute smallLib ∧ Fills smallLib :=
  ⟨twoErrors_story, twoErrors_texts, smallLib_absolute, smallLib_fills⟩

/-- The premises of `C93_local_fails`. -/
example : ∃ (h : Heap) (r : Raw), Story h 0 [0] ∧ (∃ s, (h 0).value = .ok s) ∧ r ∈ placesOf h 0 ∧
    ∃ kv ∈ r.locals, ∃ e, kv.2 = .error e :=
  ⟨fun _ => errorAt ⟨"a.py".toList, 1, "f".toList, [("x".toList, .error .valueError)]⟩ none, _,
    .first (by rintro j (⟨h, -⟩ | ⟨-, h, -, -⟩) <;> cases h), ⟨_, rfl⟩, List.mem_singleton.2 rfl, _,
    List.mem_singleton.2 rfl, _, rfl⟩

end Mabel.ErrorStack
