import Verif.Model.WriterInit
import Verif.Lemmas.Naming

/-!
# Lemmas about the construction of writers
-/

namespace Mabel.WriterInit
open Mabel.Py Mabel.Paths Mabel.Naming Mabel.Listing

/-- Folders that can be split and joined without loss: at least two, the last without a dot. -/
structure Folders (cs : List Str) : Prop where
  comp : ∀ c ∈ cs, Comp c
  two : 2 ≤ cs.length
  dot : ∀ c ∈ cs.getLast?, '.' ∉ c

theorem Folders.ne {cs : List Str} (h : Folders cs) : cs ≠ [] := by
  intro e
  have := h.two
  rw [e] at this
  simp at this

theorem join_ne_nil {cs : List Str} (h : Folders cs) : join ['/'] cs ≠ [] := by
  have := h.two
  match cs, this with
  | a :: b :: cs, _ => rw [join_cons _ _ (by simp)]; simp

theorem join_last {cs : List Str} (h : Folders cs) : (join ['/'] cs).getLast? ≠ some '/' := by
  obtain ⟨init, last, rfl⟩ : ∃ init last, cs = init ++ [last] :=
    ⟨cs.dropLast, cs.getLast h.ne, (List.dropLast_concat_getLast h.ne).symm⟩
  have hl := h.comp last (by simp)
  have e : ∃ p, join ['/'] (init ++ [last]) = p ++ last := by
    cases init with
    | nil => exact ⟨[], rfl⟩
    | cons x xs => exact ⟨_, by rw [← join_snoc' (x :: xs) last (by simp)]⟩
  obtain ⟨p, e⟩ := e
  rw [e, List.getLast?_append_of_ne_nil _ hl.1]
  intro h2
  exact hl.2.2 (List.mem_of_getLast? h2)

theorem getParts_folders {s : Str} {cs : List Str} (h : Folders cs) (hs : s ≠ [])
    (hp : Posix.parse s = ⟨[], cs⟩) :
    ∃ b p, getParts s = .ok (b, p, none, none) ∧ b ++ '/' :: p = join ['/'] cs ++ ['/'] ∧
      b ≠ ['/'] ∧ p ≠ ['/'] := by
  rw [getParts_congr hs (join_ne_nil h) (hp.trans (parse_join h.ne h.comp).symm)]
  have h2 := h.two
  match cs, h2, h with
  | a :: b :: cs, _, h =>
    refine ⟨_, _, C52_parts_folder a (b :: cs) (h.comp a (by simp))
      (fun f hf => h.comp f (List.mem_cons_of_mem _ hf)) (by simp)
      (fun f hf => h.dot f (by rw [List.getLast?_cons_cons]; exact hf)), ?_, ?_, ?_⟩
    · rw [join_cons a _ (by simp)]; simp
    · intro e
      exact (h.comp a (by simp)).2.2 (by rw [e]; simp)
    · intro e
      have e2 := congrArg List.length e
      have hb : 0 < b.length := List.length_pos_iff.2 (h.comp b (by simp)).1
      cases cs with
      | nil => simp only [join, List.length_append, List.length_cons, List.length_nil] at e2; omega
      | cons c cs =>
        rw [join_cons _ _ (by simp)] at e2
        simp only [List.length_append, List.length_cons, List.length_nil] at e2
        omega

/-- The name of a blob in a folder. -/
theorem blobName_folders {s : Str} {cs : List Str} (h : Folders cs) (hs : s ≠ [])
    (hp : Posix.parse s = ⟨[], cs⟩) (hb : '{' ∉ join ['/'] cs) (format i : Str) :
    blobName s format i = .ok (join ['/'] cs ++ '/' :: (i ++ extension format)) := by
  obtain ⟨b, p, hg, e, hb1, hp1⟩ := getParts_folders h hs hp
  unfold blobName
  rw [hg]
  simp only
  rw [if_neg hb1, if_neg hp1]
  have e1 : b ++ ['/'] ++ p ++ "{stem}".toList ++ extension format
      = (join ['/'] cs ++ ['/']) ++ ("{stem}".toList ++ extension format) := by
    rw [← e]; simp
  have hs : '{' ∉ join ['/'] cs ++ ['/'] := by
    simp only [List.mem_append, List.mem_singleton, not_or]
    exact ⟨hb, by decide⟩
  rw [e1]
  unfold replace
  have r1 := replaceGo_lit (tok := "stem}".toList) (new := i) _ ("{stem}".toList ++ extension format) hs
  have r2 := replaceGo_tok (tok := "stem}".toList) (new := i) (extension format)
  have r3 := replaceGo_lit (tok := "stem}".toList) (new := i) (extension format) []
    (extension_no_brace format).1
  simp only [List.append_nil] at r3
  have e2 : "{stem}".toList = '{' :: "stem}".toList := rfl
  rw [e2] at r1 ⊢
  rw [r1, r2, r3]
  simp [replaceGo]

/-- A template of folders, filled in. -/
theorem buildPath_folders {s : Str} {ls : List (List Piece)} (hf : ∀ l ∈ ls, Folder l)
    (h : Folders (ls.map template)) (hs : s ≠ []) (hl : s.getLast? ≠ some '/')
    (hp : Posix.parse s = ⟨[], ls.map template⟩) {d : DateTime} (hd : d.valid = true) (rnd : Str) :
    buildPath s d rnd = .ok (join ['/'] (ls.map (filled d)) ++ ['/']) := by
  obtain ⟨b, p, hg, e, hb1, hp1⟩ := getParts_folders h hs hp
  have hne : ls ≠ [] := by intro e; exact h.ne (by rw [e]; rfl)
  unfold buildPath
  rw [if_neg hs, if_pos hl, hg]
  simp only
  rw [if_pos hp1]
  have e1 : b ++ ['/'] ++ p = template (pathPieces (ls ++ [[]])) := by
    rw [template_path]
    simp only [List.map_append, List.map_cons, List.map_nil, template]
    rw [join_snoc _ _ (by simpa using hne), ← e]
    simp
  have hpl : Plain (pathPieces (ls ++ [[]])) := by
    apply plain_path
    intro m hm
    rcases List.mem_append.1 hm with hm | hm
    · exact (hf m hm).plain
    · rw [List.mem_singleton.1 hm]; intro s hs; simp at hs
  rw [e1, C52_template _ hpl _ hd, replace_stem_none (filled_no_brace hd hpl), filled_path]
  simp only [List.map_append, List.map_cons, List.map_nil, filled]
  rw [join_snoc _ _ (by simpa using hne)]

/-- Repeated slashes are one. -/
theorem parse_slashes {a b : Str} (ha : a ≠ []) (hh : a.head? ≠ some '/') :
    Posix.parse (a ++ '/' :: '/' :: b) = Posix.parse (a ++ '/' :: b) := by
  cases a with
  | nil => exact absurd rfl ha
  | cons c a =>
    have hc : c ≠ '/' := by intro e; apply hh; rw [e]; rfl
    have key : ∀ t : Str, Posix.parse (c :: a ++ '/' :: t)
        = ⟨[], (split '/' (c :: a ++ '/' :: t)).filter (fun c => c != [] && c != ['.'])⟩ := by
      intro t
      unfold Posix.parse
      simp only [List.cons_append]
      split
      · rename_i e; simp only [List.cons.injEq] at e; exact absurd e.1 hc
      · rename_i e; simp only [List.cons.injEq] at e; exact absurd e.1 hc
      · rename_i e; simp only [List.cons.injEq] at e; exact absurd e.1 hc
      · rfl
    rw [key, key, split_slash, split_slash]
    congr 1
    rw [List.filter_append, List.filter_append]
    simp [split]

/-- A name without a dot stays without one when the date is filled in. -/
theorem filled_dot {l : List Piece} (h : '.' ∉ template l) {d : DateTime} (hd : d.valid = true) :
    '.' ∉ filled d l := by
  intro hc
  rcases mem_filled hc with ⟨s, hs, hc'⟩ | ⟨f, hc⟩
  · apply h
    clear h hc
    induction l with
    | nil => simp at hs
    | cons p l ih =>
      rcases List.mem_cons.1 hs with rfl | hs2
      · rw [template]; exact List.mem_append_left _ hc'
      · cases p with
        | lit t => rw [template]; exact List.mem_append_right _ (ih hs2)
        | field f => rw [template]; exact List.mem_append_right _ (ih hs2)
  · obtain ⟨k, hk, e⟩ := (text_digit d hd f).2 _ hc
    have : ∀ k, k < 10 → digitChar k ≠ '.' := by decide
    exact this k hk e.symm

end Mabel.WriterInit
