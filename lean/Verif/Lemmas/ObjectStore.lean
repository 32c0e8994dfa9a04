import Verif.Model.ObjectStore
import Verif.Props.Naming

/-! # Facts about object storage -/

namespace Mabel.ObjectStore
open Mabel.Py Mabel.Paths Mabel.Naming Mabel.Listing Mabel.Spec

variable {β : Type}

/-! ## Storing -/

def Obj.key (o : Obj β) : Str × Str := (o.bucket, o.name)

theorem put_eq (s : List (Obj β)) (o : Obj β) : put s o = s.filter (fun x => !decide (x.key = o.key)) ++ [o] := by
  unfold put Obj.key
  congr 2
  funext x
  simp [Prod.mk.injEq, ← Bool.decide_and]

theorem mem_put {s : List (Obj β)} {o x : Obj β} : x ∈ put s o ↔ (x ∈ s ∧ x.key ≠ o.key) ∨ x = o := by
  rw [put_eq]; simp

theorem put_unique {s : List (Obj β)} (o : Obj β) (h : (s.map Obj.key).Nodup) : ((put s o).map Obj.key).Nodup := by
  rw [put_eq, List.map_append, List.nodup_append]
  refine ⟨h.sublist (List.filter_sublist.map _), by simp, ?_⟩
  intro a ha b hb
  obtain ⟨x, hx, rfl⟩ := List.mem_map.1 ha
  simp only [List.map_cons, List.map_nil, List.mem_singleton] at hb
  have := (List.mem_filter.1 hx).2
  rw [hb]
  simpa using this

def puts (s os : List (Obj β)) : List (Obj β) := os.foldl put s

theorem puts_append (s a b : List (Obj β)) : puts s (a ++ b) = puts (puts s a) b := List.foldl_append

theorem puts_unique {s : List (Obj β)} (os : List (Obj β)) (h : (s.map Obj.key).Nodup) :
    ((puts s os).map Obj.key).Nodup := by
  induction os generalizing s with
  | nil => exact h
  | cons o os ih => exact ih (put_unique o h)

theorem mem_puts {s os : List (Obj β)} {x : Obj β} (h : x ∈ puts s os) : x ∈ s ∨ x ∈ os := by
  induction os generalizing s with
  | nil => exact Or.inl h
  | cons o os ih =>
    rcases ih (s := put s o) h with h | h
    · rcases mem_put.1 h with h | h
      · exact Or.inl h.1
      · exact Or.inr (by simp [h])
    · exact Or.inr (by simp [h])

theorem key_puts {s os : List (Obj β)} {k : Str × Str} :
    (∃ x ∈ puts s os, x.key = k) ↔ (∃ x ∈ s, x.key = k) ∨ ∃ x ∈ os, x.key = k := by
  induction os generalizing s with
  | nil => simp [puts]
  | cons o os ih =>
    have := ih (s := put s o)
    rw [show puts s (o :: os) = puts (put s o) os from rfl, this]
    constructor
    · rintro (⟨x, hx, rfl⟩ | ⟨x, hx, rfl⟩)
      · rcases mem_put.1 hx with h | h
        · exact Or.inl ⟨x, h.1, rfl⟩
        · exact Or.inr ⟨x, by simp [h], rfl⟩
      · exact Or.inr ⟨x, by simp [hx], rfl⟩
    · rintro (⟨x, hx, rfl⟩ | ⟨x, hx, rfl⟩)
      · by_cases e : x.key = o.key
        · exact Or.inl ⟨o, mem_put.2 (Or.inr rfl), e.symm⟩
        · exact Or.inl ⟨x, mem_put.2 (Or.inl ⟨hx, e⟩), rfl⟩
      · rcases List.mem_cons.1 hx with rfl | hx
        · exact Or.inl ⟨x, mem_put.2 (Or.inr rfl), rfl⟩
        · exact Or.inr ⟨x, hx, rfl⟩

theorem puts_keep {s os : List (Obj β)} {o : Obj β} (hm : o ∈ os) (hu : ∀ x ∈ os, x.key = o.key → x = o) :
    o ∈ puts s os := by
  have key : ∀ (s os : List (Obj β)) (o : Obj β), (∀ x ∈ os, x.key = o.key → x = o) → (o ∈ s ∨ o ∈ os) →
      o ∈ puts s os := by
    intro s os
    induction os generalizing s with
    | nil => intro o _ h; simpa [puts] using h
    | cons a os ih =>
      intro o hu h
      apply ih (put s a) o (fun x hx => hu x (by simp [hx]))
      rcases h with h | h
      · by_cases e : a.key = o.key
        · exact Or.inl (mem_put.2 (Or.inr (hu a (by simp) e).symm))
        · exact Or.inl (mem_put.2 (Or.inl ⟨h, fun e' => e e'.symm⟩))
      · rcases List.mem_cons.1 h with rfl | h
        · exact Or.inl (mem_put.2 (Or.inr rfl))
        · exact Or.inr h
  exact key s os o hu (Or.inr hm)

theorem get_of_mem {s : List (Obj β)} (h : (s.map Obj.key).Nodup) {o : Obj β} (ho : o ∈ s) :
    get s o.bucket o.name = some o.data := by
  unfold get
  induction s with
  | nil => simp at ho
  | cons a s ih =>
    rw [List.map_cons, List.nodup_cons] at h
    rw [List.find?_cons]
    rcases List.mem_cons.1 ho with rfl | ho
    · simp
    · have : (decide (a.bucket = o.bucket) && decide (a.name = o.name)) = false := by
        rw [← Bool.not_eq_true]
        intro e
        simp only [Bool.and_eq_true, decide_eq_true_eq] at e
        exact h.1 (List.mem_map.2 ⟨o, ho, by simp [Obj.key, e.1, e.2]⟩)
      rw [this]
      exact ih h.2 ho

/-! ## Names -/

theorem join_append_slash {a b : List Str} (ha : a ≠ []) (hb : b ≠ []) :
    join ['/'] (a ++ b) = join ['/'] a ++ '/' :: join ['/'] b := by
  induction a with
  | nil => exact absurd rfl ha
  | cons x a ih =>
    cases a with
    | nil => rw [List.singleton_append, join_cons _ _ hb]; rfl
    | cons y a =>
      rw [List.cons_append, join_cons _ _ (by simp), ih (by simp), join_cons x _ (by simp)]
      simp

/-- The names beginning with a folder and a slash are the names beneath the folder. -/
theorem prefix_join {cs ds : List Str} (hc : ∀ c ∈ cs, Comp c) (hd : ∀ d ∈ ds, Comp d) (hcn : cs ≠ []) (hdn : ds ≠ []) :
    startsWith (join ['/'] cs ++ ['/']) (join ['/'] ds) = true ↔ cs <+: ds ∧ cs.length < ds.length := by
  unfold startsWith
  rw [isPrefixOf_iff]
  constructor
  · rintro ⟨t, ht⟩
    have h2 := congrArg (split '/') ht
    rw [split_join hdn (fun p hp => (hd p hp).2.2), List.append_assoc, List.singleton_append, split_slash,
      split_join hcn (fun p hp => (hc p hp).2.2)] at h2
    have := List.length_pos_iff.2 (split_ne_nil '/' t)
    exact ⟨⟨_, h2.symm⟩, by rw [h2, List.length_append]; omega⟩
  · rintro ⟨⟨t, rfl⟩, hl⟩
    have ht : t ≠ [] := by
      rintro rfl
      simp at hl
    exact ⟨join ['/'] t, by rw [join_append_slash hcn ht]; simp⟩

theorem endsWith_slash {s : Str} : endsWith ['/'] s = true ↔ s.getLast? = some '/' := by
  unfold endsWith
  rw [List.isSuffixOf_iff_suffix]
  constructor
  · rintro ⟨t, rfl⟩; simp
  · intro h
    obtain ⟨hne, e⟩ := List.getLast?_eq_some_iff.1 h
    exact ⟨_, e.symm⟩

theorem join_last {cs : List Str} (hc : ∀ c ∈ cs, Comp c) (hn : cs ≠ []) : endsWith ['/'] (join ['/'] cs) = false := by
  rw [← Bool.not_eq_true, endsWith_slash]
  obtain ⟨init, last, rfl⟩ : ∃ init last, cs = init ++ [last] :=
    ⟨cs.dropLast, cs.getLast hn, (List.dropLast_concat_getLast hn).symm⟩
  have hl := hc last (by simp)
  obtain ⟨a, ha⟩ := join_mem_last init last
  rw [ha, List.getLast?_append_of_ne_nil _ hl.1]
  intro e
  exact hl.2.2 (List.mem_of_getLast? e)

theorem dirname_append {x n : Str} (hx : x ≠ []) (hl : endsWith ['/'] x = false) (hn : '/' ∉ n) :
    dirname (x ++ '/' :: n) = x := by
  unfold dirname
  rw [rsplitSlash_append hn]
  obtain ⟨init, last, rfl⟩ : ∃ init last, x = init ++ [last] :=
    ⟨x.dropLast, x.getLast hx, (List.dropLast_concat_getLast hx).symm⟩
  have hne : last ≠ '/' := by
    rintro rfl
    rw [← Bool.not_eq_true, endsWith_slash] at hl
    exact hl (by simp)
  simp only
  rw [if_neg (by simp [hne])]
  simp [hne]

/-- What the inner writer makes of the folder of a frame. -/
theorem make_eq {c : Str} {cs : List Str} (hc : Comp c) (hcs : ∀ d ∈ cs, Comp d) (hn : cs ≠ [])
    (hdot : ∀ f ∈ cs.getLast?, '.' ∉ f) (format : Str) :
    Inner.make (join ['/'] (c :: cs) ++ ['/']) format = .ok ⟨c,
      c ++ '/' :: (join ['/'] cs ++ '/' :: ("{stem}".toList ++ extension format)),
      join ['/'] cs ++ '/' :: ("{stem}".toList ++ extension format)⟩ := by
  have hall : ∀ d ∈ c :: cs, Comp d := by
    intro d hd
    rcases List.mem_cons.1 hd with rfl | hd
    · exact hc
    · exact hcs d hd
  have hgp := getParts_congr (s := join ['/'] (c :: cs) ++ ['/']) (t := join ['/'] (c :: cs)) (by simp)
    (by rw [join_cons _ _ hn]; simp)
    (by rw [parse_slash (by simp) hall, parse_join (by simp) hall])
  unfold Inner.make
  rw [hgp, C52_parts_folder c cs hc hcs hn hdot]
  simp only
  have hbk : c ≠ ['/'] := by
    rintro rfl
    exact hc.2.2 (by simp)
  rw [if_neg hbk, if_neg (by
    intro e
    have h1 : join ['/'] cs = [] := by
      have e2 := congrArg List.length e
      rw [List.length_append] at e2
      simp only [List.length_cons, List.length_nil] at e2
      exact List.length_eq_zero_iff.1 (by omega)
    obtain ⟨d, ds, rfl⟩ := List.exists_cons_of_ne_nil hn
    have hd := (hcs d (by simp)).1
    cases ds with
    | nil => exact hd h1
    | cons e ds => rw [join_cons _ _ (by simp)] at h1; simp at h1)]
  simp

theorem replace_stem {x i format : Str} (h : '{' ∉ x) :
    replace "{stem}".toList i (x ++ '/' :: ("{stem}".toList ++ extension format)) = x ++ '/' :: (i ++ extension format) := by
  have r1 := replaceGo_lit (tok := "stem}".toList) (new := i) (x ++ ['/']) ("{stem}".toList ++ extension format)
    (by simp only [List.mem_append, List.mem_singleton, not_or]; exact ⟨h, by decide⟩)
  have r2 := replaceGo_tok (tok := "stem}".toList) (new := i) (extension format)
  have r3 := replaceGo_lit (tok := "stem}".toList) (new := i) (extension format) [] (extension_no_brace format).1
  simp only [List.append_nil] at r3
  have e2 : "{stem}".toList = '{' :: "stem}".toList := rfl
  have e3 : x ++ '/' :: ("{stem}".toList ++ extension format) = x ++ ['/'] ++ ("{stem}".toList ++ extension format) := by simp
  rw [e3]
  unfold replace
  rw [e2] at r1 ⊢
  rw [r1, r2, r3]
  simp [replaceGo]

/-! ## Runs -/

/-- The objects of a run in the folder `x` of bucket `c`. -/
def objsIn (c x format : Str) (nothing : β) (r : Run β) : List (Obj β) :=
  r.blobs.map (fun b => ⟨c, x ++ '/' :: (b.1 ++ extension format), b.2⟩) ++
    (if r.complete then [⟨c, x ++ '/' :: "frame.complete".toList, nothing⟩] else [])

theorem commits_minio (w : Inner) (s : List (Obj β)) (bs : List (Str × β)) :
    commits minioCommit w s bs = (w, puts s (bs.map (fun b => ⟨w.bucket, w.buildPath b.1, b.2⟩))) := by
  induction bs generalizing s with
  | nil => rfl
  | cons b bs ih =>
    obtain ⟨i, d⟩ := b
    rw [commits, minioCommit, ih]
    rfl

theorem commits_gcs (w : Inner) (s : List (Obj β)) (bs : List (Str × β)) :
    commits gcsCommit w s bs = (if bs = [] then w else { w with filename := w.withoutBucket },
      puts s (bs.map (fun b => ⟨w.bucket, Inner.buildPath { w with filename := w.withoutBucket } b.1, b.2⟩))) := by
  induction bs generalizing s w with
  | nil => rfl
  | cons b bs ih =>
    obtain ⟨i, d⟩ := b
    rw [commits, gcsCommit, ih]
    simp [puts, Inner.chooseName]

theorem completion_ne (f : Str) : ∃ c cs, completionPath f = c :: cs := by
  unfold completionPath
  cases h : dirname f with
  | nil => exact ⟨_, _, rfl⟩
  | cons c cs => exact ⟨c, _, rfl⟩

theorem choose_completion (w : Inner) (f i : Str) : w.chooseName (some (completionPath f)) i = completionPath f := by
  obtain ⟨c, cs, e⟩ := completion_ne f
  rw [e]; rfl

theorem batch_minio (w : Inner) (s : List (Obj β)) (bs : List (Str × β)) (complete : Bool) (nothing : β) :
    batch minioCommit w s bs complete nothing = puts s (bs.map (fun b => ⟨w.bucket, w.buildPath b.1, b.2⟩) ++
      (if complete then [⟨w.bucket, completionPath w.filename, nothing⟩] else [])) := by
  unfold batch
  rw [commits_minio, puts_append]
  cases complete with
  | false => rfl
  | true => simp only [if_true, minioCommit, choose_completion]; rfl

/-- The two kinds of storage are given the same objects, if a completed run has a blob. -/
theorem batch_gcs (w : Inner) (s : List (Obj β)) (bs : List (Str × β)) (complete : Bool) (nothing : β)
    (h : complete = true → bs ≠ []) :
    batch gcsCommit w s bs complete nothing =
      batch minioCommit { w with filename := w.withoutBucket } s bs complete nothing := by
  rw [batch_minio]
  unfold batch
  rw [commits_gcs, puts_append]
  cases complete with
  | false => rfl
  | true =>
    simp only [if_true, if_neg (h rfl), gcsCommit, choose_completion]
    rfl

theorem gcsBatch_eq (frame format : Str) (s : List (Obj β)) (bs : List (Str × β)) (complete : Bool) (nothing : β)
    (h : complete = true → bs ≠ []) :
    gcsBatch frame format s bs complete nothing = minioBatch frame format s bs complete nothing := by
  unfold gcsBatch minioBatch minioMake
  cases Inner.make frame format with
  | error e => rfl
  | ok w => simp only [Except.map, batch_gcs w s bs complete nothing h]

theorem gcsRuns_eq (w : Job) (nothing : β) (s : List (Obj β)) (rs : List (Run β))
    (h : ∀ r ∈ rs, r.complete = true → r.blobs ≠ []) :
    runsOn gcsBatch w nothing s rs = runsOn minioBatch w nothing s rs := by
  induction rs generalizing s with
  | nil => rfl
  | cons r rs ih =>
    have e : runOn gcsBatch w nothing s r = runOn minioBatch w nothing s r := by
      unfold runOn
      split
      · rfl
      · exact gcsBatch_eq _ _ _ _ _ _ (h r (by simp))
    rw [runsOn, runsOn, e]
    split
    · rfl
    · exact ih _ (fun x hx => h x (by simp [hx]))

theorem minioBatch_eq {c : Str} {cs : List Str} (hc : Comp c) (hcs : ∀ d ∈ cs, Comp d) (hn : cs ≠ [])
    (hdot : ∀ f ∈ cs.getLast?, '.' ∉ f) (hb : '{' ∉ join ['/'] cs) (format : Str) (s : List (Obj β)) (r : Run β)
    (nothing : β) :
    minioBatch (join ['/'] (c :: cs) ++ ['/']) format s r.blobs r.complete nothing
      = .ok (puts s (objsIn c (join ['/'] cs) format nothing r)) := by
  unfold minioBatch minioMake
  rw [make_eq hc hcs hn hdot]
  simp only [Except.map, batch_minio]
  congr 2
  unfold objsIn
  have hne : join ['/'] cs ≠ [] := by
    obtain ⟨d, ds, rfl⟩ := List.exists_cons_of_ne_nil hn
    have hd := (hcs d (by simp)).1
    cases ds with
    | nil => exact hd
    | cons e ds => rw [join_cons _ _ (by simp)]; simp
  congr 1
  · apply List.map_congr_left
    intro b _
    simp only [Inner.buildPath, replace_stem hb]
  · split
    · have : completionPath (join ['/'] cs ++ '/' :: ("{stem}".toList ++ extension format))
          = join ['/'] cs ++ '/' :: "frame.complete".toList := by
        unfold completionPath
        rw [dirname_append hne (join_last hcs hn) (by
          rw [List.mem_append, not_or]; exact ⟨by decide, (extension_no_brace _).2⟩)]
        rfl
      rw [this]
    · rfl

end Mabel.ObjectStore
