import Verif.Lemmas.ObjectStore

/-!
# Properties of object storage: C79
-/

namespace Mabel.ObjectStore
open Mabel.Py Mabel.Paths Mabel.Naming Mabel.Listing Mabel.Spec

variable {β : Type}

/-! ## The specification -/

/-- Object storage as the writers leave it: no bucket or folder has an empty name, no name is used twice.  An object
whose name ends with a slash (some consoles make them for folders) may be there. -/
structure Tidy (s : List (Obj β)) : Prop where
  bucket : ∀ o ∈ s, Comp o.bucket
  name : ∀ o ∈ s, endsWith ['/'] o.name = true ∨ ∃ cs, cs ≠ [] ∧ (∀ c ∈ cs, Comp c) ∧ o.name = join ['/'] cs
  once : (s.map (fun o => (o.bucket, o.name))).Nodup

/-- An object as a file. -/
def Obj.file (o : Obj β) : Posix := Posix.parse (o.bucket ++ '/' :: o.name)

/-- The disk with the same files. -/
def files (s : List (Obj β)) : List Posix := (s.filter (fun o => !endsWith ['/'] o.name)).map Obj.file

/-- A run, without what its blobs hold. -/
def Run.batch (r : Run β) : Batch := ⟨r.now, r.blobs.map Prod.fst, r.complete, false⟩

/-! ## Listing -/

theorem file_eq {o : Obj β} (hb : Comp o.bucket) {cs : List Str} (hn : cs ≠ []) (hc : ∀ c ∈ cs, Comp c)
    (he : o.name = join ['/'] cs) : o.file = ⟨[], o.bucket :: cs⟩ ∧ o.file.str = o.bucket ++ '/' :: o.name := by
  have e : o.file = ⟨[], o.bucket :: cs⟩ := by
    unfold Obj.file
    rw [he, ← join_cons _ _ hn]
    apply parse_join (by simp)
    intro d hd
    rcases List.mem_cons.1 hd with rfl | hd
    · exact hb
    · exact hc d hd
  refine ⟨e, ?_⟩
  rw [e, he, ← join_cons _ _ hn]
  simp [Posix.str]

/-- **C79 (listing).**  A reader of a folder on Google Cloud Storage is given the names a disk with the same files
would give: those beneath the folder, and not those of a folder whose name only begins alike.  What is missing: a last
folder with a dot, and a whole bucket, where it fails. -/
theorem C79_listing_partial (s : List (Obj β)) (ht : Tidy s) (c : Str) (cs : List Str) (hc : Comp c) (hcs : ∀ d ∈ cs, Comp d)
    (hn : cs ≠ []) (hdot : ∀ f ∈ cs.getLast?, '.' ∉ f) :
    gcsBlobsAt s ⟨[], c :: cs⟩ = .ok (diskBlobsAt (files s) ⟨[], c :: cs⟩) := by
  have hstr : (Posix.mk [] (c :: cs)).str = join ['/'] (c :: cs) := by simp [Posix.str]
  unfold gcsBlobsAt
  rw [hstr, C52_parts_folder c cs hc hcs hn hdot]
  simp only [Except.ok.injEq]
  unfold listPrefix diskBlobsAt files
  have h1 := ht.bucket
  have h2 := ht.name
  clear ht
  induction s with
  | nil => rfl
  | cons o s ih =>
    have ih := ih (fun x hx => h1 x (by simp [hx])) (fun x hx => h2 x (by simp [hx]))
    have hb := h1 o (by simp)
    rcases h2 o (by simp) with he | ⟨ds, hdn, hds, he⟩
    · rw [List.filter_cons, List.filter_cons]
      simp only [he, Bool.not_true, Bool.false_eq_true, if_false]
      rw [← ih]
      split
      · rw [List.map_cons, List.filter_cons]
        simp [he]
      · rfl
    · obtain ⟨hf, hs⟩ := file_eq hb hdn hds he
      have hl : endsWith ['/'] o.name = false := by rw [he]; exact join_last hds hdn
      have hbe : beneath ⟨[], c :: cs⟩ o.file
          = (decide (o.bucket = c) && startsWith (join ['/'] cs ++ ['/']) o.name) := by
        rw [Bool.eq_iff_iff, hf]
        simp only [beneath, Bool.and_eq_true, decide_eq_true_eq, List.isPrefixOf_iff_prefix, true_and]
        rw [he, prefix_join hcs hds hn hdn, List.cons_prefix_cons]
        simp only [List.length_cons]
        constructor
        · rintro ⟨⟨e, h⟩, h'⟩; exact ⟨e.symm, h, by omega⟩
        · rintro ⟨e, h, h'⟩; exact ⟨⟨e.symm, h⟩, by omega⟩
      rw [List.filter_cons, List.filter_cons, hl]
      simp only [Bool.not_false, if_true, List.map_cons]
      rw [List.filter_cons, hbe]
      split
      · rename_i hcond
        rw [List.map_cons, List.filter_cons, hl]
        simp only [Bool.not_false, if_true, List.map_cons]
        rw [ih, hs]
        have : o.bucket = c := by
          simp only [Bool.and_eq_true, decide_eq_true_eq] at hcond
          exact hcond.1
        simp [this]
      · exact ih

theorem tidy_file {s : List (Obj β)} (ht : Tidy s) {q : Posix} (hq : q ∈ files s) :
    ∃ o ∈ s, o.file = q ∧ ∃ cs, cs ≠ [] ∧ (∀ c ∈ cs, Comp c) ∧ o.name = join ['/'] cs ∧ q = ⟨[], o.bucket :: cs⟩ ∧
      q.str = o.bucket ++ '/' :: o.name := by
  obtain ⟨o, ho, rfl⟩ := List.mem_map.1 hq
  obtain ⟨ho, hl⟩ := List.mem_filter.1 ho
  rcases ht.name o ho with he | ⟨ds, hdn, hds, he⟩
  · rw [he] at hl; cases hl
  · obtain ⟨hf, hs⟩ := file_eq (ht.bucket o ho) hdn hds he
    exact ⟨o, ho, rfl, ds, hdn, hds, he, hf, hs⟩

/-- **C79 (listed once).**  No name is listed twice. -/
theorem C79_listing_once (s : List (Obj β)) (ht : Tidy s) (p : Posix) : (diskBlobsAt (files s) p).Nodup := by
  have key : ((s.filter (fun o => !endsWith ['/'] o.name)).map (fun o => o.file.str)).Nodup := by
    have hsub := ht.once.sublist ((List.filter_sublist (p := fun o : Obj β => !endsWith ['/'] o.name)).map _)
    rw [List.Nodup, List.pairwise_map] at hsub ⊢
    refine List.Pairwise.imp_of_mem ?_ hsub
    intro a b ha hb hne he
    apply hne
    obtain ⟨ha, hla⟩ := List.mem_filter.1 ha
    obtain ⟨hb, hlb⟩ := List.mem_filter.1 hb
    rcases ht.name a ha with h | ⟨ds, hdn, hds, h⟩
    · rw [h] at hla; cases hla
    rcases ht.name b hb with h' | ⟨es, hen, hes, h'⟩
    · rw [h'] at hlb; cases hlb
    rw [(file_eq (ht.bucket a ha) hdn hds h).2, (file_eq (ht.bucket b hb) hen hes h').2] at he
    obtain ⟨e1, e2⟩ := slash_inj (ht.bucket a ha).2.2 (ht.bucket b hb).2.2 he
    rw [e1, e2]
  unfold diskBlobsAt files
  rw [List.filter_map, List.map_map]
  exact key.sublist (List.filter_sublist.map _)

theorem dateFormat_none {s : Str} (h : '{' ∉ s) (d : DateTime) : dateFormat s d = s := by
  unfold dateFormat
  have e : ∀ tok new, replace ('{' :: tok) new s = s := by
    intro tok new
    have := replaceGo_lit (tok := tok) (new := new) s [] h
    simp only [List.append_nil] at this
    exact this.trans (by simp [replaceGo])
  rw [show "{yyyy}".toList = '{' :: "yyyy}".toList from rfl, show "{mm}".toList = '{' :: "mm}".toList from rfl,
    show "{dd}".toList = '{' :: "dd}".toList from rfl, show "{HH}".toList = '{' :: "HH}".toList from rfl,
    show "{MM}".toList = '{' :: "MM}".toList from rfl, show "{SS}".toList = '{' :: "SS}".toList from rfl]
  simp only [e]

/-- **On MinIO everything is listed again for every date of the reader** (24 times for one day): the listing is the one
above, as many times as the reader has dates. -/
theorem C79_minio_listing_partial (s : List (Obj β)) (ht : Tidy s) (c : Str) (cs : List Str) (hc : Comp c)
    (hcs : ∀ d ∈ cs, Comp d) (hn : cs ≠ []) (hdot : ∀ f ∈ cs.getLast?, '.' ∉ f) (hb : '{' ∉ join ['/'] cs) (rnd : Str)
    (dates : List DateTime) :
    minioBlobsAt s rnd dates ⟨[], c :: cs⟩
      = .ok (List.replicate dates.length (diskBlobsAt (files s) ⟨[], c :: cs⟩)).flatten := by
  have h := C79_listing_partial s ht c cs hc hcs hn hdot
  have hstr : (Posix.mk [] (c :: cs)).str = join ['/'] (c :: cs) := by simp [Posix.str]
  unfold gcsBlobsAt at h
  unfold minioBlobsAt
  rw [hstr, C52_parts_folder c cs hc hcs hn hdot] at h ⊢
  simp only [Except.ok.injEq] at h ⊢
  have hb' : '{' ∉ join ['/'] cs ++ ['/'] := by
    simp only [List.mem_append, List.mem_singleton, not_or]; exact ⟨hb, by decide⟩
  simp only [dateFormat_none hb', replace_stem_none hb']
  rw [h]
  generalize diskBlobsAt (files s) ⟨[], c :: cs⟩ = L
  induction dates with
  | nil => rfl
  | cons d dates ih => rw [List.flatMap_cons, ih, List.length_cons, List.replicate_succ, List.flatten_cons]

/-! ## Writing -/

/-- The objects of a run. -/
def objsOf (w : Job) (ls : List (List Piece)) (nothing : β) (r : Run β) : List (Obj β) :=
  objsIn ((ls.map (filled w.date)).headD []) (join ['/'] ((ls.map (filled w.date)).tail ++ [asAtName r.now])) w.format nothing r

theorem runOn_eq {w : Job} {ls : List (List Piece)} (h : w.OK ls) (nothing : β) (s : List (Obj β)) (r : Run β)
    (hv : r.now.valid = true) : runOn minioBatch w nothing s r = .ok (puts s (objsOf w ls nothing r)) := by
  unfold runOn
  rw [frameId_eq h hv]
  have hc : ∀ c ∈ ls.map (filled w.date), Comp c := by
    intro c hc
    obtain ⟨l, hl, rfl⟩ := List.mem_map.1 hc
    exact folder_filled (h.folders l hl) h.date
  have ha : Comp (asAtName r.now) := ⟨by rw [asAtName_eq]; simp, by rw [asAtName_eq]; simp, asAtName_flat hv⟩
  have hbr : ∀ c ∈ ls.map (filled w.date), '{' ∉ c := by
    intro c hc
    obtain ⟨l, hl, rfl⟩ := List.mem_map.1 hc
    exact filled_no_brace h.date (h.folders l hl).plain
  obtain ⟨l, ls, rfl⟩ := List.exists_cons_of_ne_nil h.ne
  simp only [objsOf, List.map_cons, List.headD_cons, List.tail_cons, List.cons_append] at hc hbr ⊢
  apply minioBatch_eq (hc _ (by simp))
  · intro d hd
    rcases List.mem_append.1 hd with hd | hd
    · exact hc d (by simp [hd])
    · rw [List.mem_singleton.1 hd]; exact ha
  · simp
  · intro f hf
    rw [List.getLast?_append] at hf
    simp only [List.getLast?_singleton, Option.some_or, Option.mem_def, Option.some.injEq] at hf
    exact hf ▸ asAtName_dot hv
  · have : ∀ cs : List Str, (∀ c ∈ cs, '{' ∉ c) → '{' ∉ join ['/'] cs := by
      intro cs
      induction cs with
      | nil => intro _; simp [join]
      | cons c cs ih =>
        intro h
        cases cs with
        | nil => exact h c (by simp)
        | cons d cs =>
          rw [join_cons _ _ (by simp)]
          simp only [List.mem_append, List.mem_cons (a := '{') (b := '/'), not_or]
          exact ⟨h c (by simp), by decide, ih (fun x hx => h x (by simp [hx]))⟩
    apply this
    intro c hc
    rcases List.mem_append.1 hc with hc | hc
    · exact hbr c (by simp [hc])
    · rw [List.mem_singleton.1 hc]; exact asAtName_brace hv

theorem runsOn_eq {w : Job} {ls : List (List Piece)} (h : w.OK ls) (nothing : β) (s : List (Obj β)) (rs : List (Run β))
    (hv : ∀ r ∈ rs, r.now.valid = true) :
    runsOn minioBatch w nothing s rs = .ok (puts s (rs.flatMap (objsOf w ls nothing))) := by
  induction rs generalizing s with
  | nil => rfl
  | cons r rs ih =>
    rw [runsOn, runOn_eq h nothing s r (hv r (by simp)), List.flatMap_cons, puts_append]
    exact ih _ (fun x hx => hv x (by simp [hx]))

theorem objsOf_framed {w : Job} {ls : List (List Piece)} (h : w.OK ls) (nothing : β) {r : Run β} :
    (∀ o ∈ objsOf w ls nothing r, ∃ x ∈ r.batch.framed w ls, o.bucket ++ '/' :: o.name = x.path) ∧
    (∀ x ∈ r.batch.framed w ls, ∃ o ∈ objsOf w ls nothing r, o.bucket ++ '/' :: o.name = x.path) := by
  obtain ⟨l, ls, rfl⟩ := List.exists_cons_of_ne_nil h.ne
  have e : ∀ n, filled w.date l ++ '/' :: (join ['/'] (ls.map (filled w.date) ++ [asAtName r.now]) ++ '/' :: n)
      = Framed.path ⟨w.base (l :: ls), asAtName r.now, n⟩ := by
    intro n
    unfold Framed.path Job.base
    have := join_snoc ((l :: ls).map (filled w.date)) (asAtName r.now) (by simp)
    rw [← this, List.map_cons, List.cons_append, join_cons _ _ (by simp)]
    simp
  constructor
  · intro o ho
    simp only [objsOf, objsIn, List.map_cons, List.headD_cons, List.tail_cons, List.mem_append, List.mem_map] at ho
    rcases ho with ⟨b, hb, rfl⟩ | ho
    · exact ⟨⟨w.base (l :: ls), asAtName r.now, b.1 ++ extension w.format⟩,
        List.mem_append_left _ (List.mem_map.2 ⟨b.1, List.mem_map.2 ⟨b, hb, rfl⟩, rfl⟩), e _⟩
    · split at ho
      · rename_i hc
        rw [List.mem_singleton.1 ho]
        exact ⟨_, mem_framed_complete (b := r.batch) hc, e _⟩
      · simp at ho
  · intro x hx
    simp only [Batch.framed, Run.batch, List.mem_append, List.mem_map, Bool.false_eq_true, if_false, List.not_mem_nil,
      or_false] at hx
    simp only [objsOf, objsIn, List.map_cons, List.headD_cons, List.tail_cons]
    rcases hx with ⟨i, ⟨b, hb, rfl⟩, rfl⟩ | hx
    · exact ⟨_, List.mem_append_left _ (List.mem_map.2 ⟨b, hb, rfl⟩), e _⟩
    · by_cases hc : r.complete = true
      · simp only [hc, if_true] at hx
        rw [List.mem_singleton.1 hx]
        refine ⟨⟨filled w.date l, join ['/'] (ls.map (filled w.date) ++ [asAtName r.now]) ++ '/' :: "frame.complete".toList,
          nothing⟩, List.mem_append_right _ ?_, e _⟩
        rw [if_pos hc]
        exact List.mem_singleton.2 rfl
      · simp [hc] at hx

theorem objsOf_tidy {w : Job} {ls : List (List Piece)} (h : w.OK ls) (nothing : β) {r : Run β}
    (hv : r.now.valid = true) (hi : ∀ b ∈ r.blobs, HexId b.1) {o : Obj β} (ho : o ∈ objsOf w ls nothing r) :
    Comp o.bucket ∧ ∃ cs, cs ≠ [] ∧ (∀ c ∈ cs, Comp c) ∧ o.name = join ['/'] cs := by
  have hb : Comp o.bucket := by
    have : o.bucket = (ls.map (filled w.date)).headD [] := by
      simp only [objsOf, objsIn, List.mem_append, List.mem_map] at ho
      rcases ho with ⟨b, _, rfl⟩ | ho
      · rfl
      · split at ho
        · rw [List.mem_singleton.1 ho]
        · simp at ho
    rw [this]
    obtain ⟨l, ls, rfl⟩ := List.exists_cons_of_ne_nil h.ne
    exact folder_filled (h.folders l (by simp)) h.date
  refine ⟨hb, ?_⟩
  obtain ⟨x, hx, e⟩ := (objsOf_framed h nothing).1 o ho
  have hi' : ∀ i ∈ r.batch.ids, HexId i := by
    intro i hi'
    obtain ⟨b, hb, rfl⟩ := List.mem_map.1 hi'
    exact hi b hb
  obtain ⟨hp, hs⟩ := framed_parse h (b := r.batch) hv hi' hx
  have hcomp : ∀ c ∈ (Posix.parse x.path).comps, Comp c := by
    intro c hc
    unfold Posix.parse at hc
    have key : c ∈ (split '/' x.path).filter (fun c => c != [] && c != ['.']) := by
      revert hc
      split <;> exact id
    obtain ⟨h1, h2⟩ := List.mem_filter.1 key
    simp only [Bool.and_eq_true, bne_iff_ne] at h2
    exact ⟨h2.1, h2.2, not_mem_split h1⟩
  rw [hp] at hcomp hs
  simp only at hcomp
  have hjoin : x.path = join ['/'] (ls.map (filled w.date) ++ [x.frame, x.name]) := by
    rw [← hs]; simp [Posix.str]
  obtain ⟨l, ls, rfl⟩ := List.exists_cons_of_ne_nil h.ne
  rw [List.map_cons, List.cons_append] at hjoin hcomp
  rw [hjoin, join_cons _ _ (by simp)] at e
  have hc0 := hcomp (filled w.date l) (by simp)
  obtain ⟨_, e2⟩ := slash_inj hb.2.2 hc0.2.2 e
  exact ⟨_, by simp, fun c hc => hcomp c (by simp only [List.mem_cons]; exact Or.inr hc), e2⟩

theorem puts_tidy {s : List (Obj β)} (ht : Tidy s) {os : List (Obj β)}
    (ho : ∀ o ∈ os, Comp o.bucket ∧ ∃ cs, cs ≠ [] ∧ (∀ c ∈ cs, Comp c) ∧ o.name = join ['/'] cs) : Tidy (puts s os) where
  bucket := by
    intro o h
    rcases mem_puts h with h | h
    · exact ht.bucket o h
    · exact (ho o h).1
  name := by
    intro o h
    rcases mem_puts h with h | h
    · exact ht.name o h
    · exact Or.inr (ho o h).2
  once := puts_unique os ht.once

/-- The store after the runs holds the blobs and markers of the runs. -/
theorem runs_hold {w : Job} {ls : List (List Piece)} (h : w.OK ls) (nothing : β) {s : List (Obj β)} (ht : Tidy s)
    (rs : List (Run β)) (hv : ∀ r ∈ rs, r.now.valid = true) (hi : ∀ r ∈ rs, ∀ b ∈ r.blobs, HexId b.1)
    (h0 : ∀ q ∈ files s, beneath ⟨[], ls.map (filled w.date)⟩ q = false) :
    Tidy (puts s (rs.flatMap (objsOf w ls nothing))) ∧
    Holds w (rs.map Run.batch) (files (puts s (rs.flatMap (objsOf w ls nothing)))) ⟨[], ls.map (filled w.date)⟩ := by
  have hos : ∀ o ∈ rs.flatMap (objsOf w ls nothing),
      Comp o.bucket ∧ ∃ cs, cs ≠ [] ∧ (∀ c ∈ cs, Comp c) ∧ o.name = join ['/'] cs := by
    intro o ho
    obtain ⟨r, hr, ho⟩ := List.mem_flatMap.1 ho
    exact objsOf_tidy h nothing (hv r hr) (hi r hr) ho
  have ht' := puts_tidy ht hos
  refine ⟨ht', ?_, ?_⟩
  · intro q hq
    obtain ⟨o, ho, e, cs, hn, hc, _, e2, e3⟩ := tidy_file ht' hq
    rw [e3, ← e]
    rfl
  · intro q
    have hfiles : ∀ q, q ∈ files (puts s (rs.flatMap (objsOf w ls nothing))) ↔
        q ∈ files s ∨ ∃ o ∈ rs.flatMap (objsOf w ls nothing), o.file = q := by
      intro q
      unfold files
      simp only [List.mem_map, List.mem_filter]
      constructor
      · rintro ⟨o, ⟨ho, hl⟩, rfl⟩
        rcases mem_puts ho with ho | ho
        · exact Or.inl ⟨o, ⟨ho, hl⟩, rfl⟩
        · exact Or.inr ⟨o, ho, rfl⟩
      · have hk : ∀ a b : Obj β, a.key = b.key → a.file = b.file ∧ a.name = b.name := by
          intro a b e
          simp only [Obj.key, Prod.mk.injEq] at e
          exact ⟨by unfold Obj.file; rw [e.1, e.2], e.2⟩
        rintro (⟨o, ⟨ho, hl⟩, rfl⟩ | ⟨o, ho, rfl⟩)
        · obtain ⟨x, hx, e⟩ := (key_puts (os := rs.flatMap (objsOf w ls nothing))).2 (Or.inl ⟨o, ho, rfl⟩)
          exact ⟨x, ⟨hx, by rw [(hk _ _ e).2]; exact hl⟩, (hk _ _ e).1⟩
        · obtain ⟨x, hx, e⟩ := (key_puts (s := s)).2 (Or.inr ⟨o, ho, rfl⟩)
          obtain ⟨_, cs, hn, hc, hnm⟩ := hos o ho
          refine ⟨x, ⟨hx, ?_⟩, (hk _ _ e).1⟩
          rw [(hk _ _ e).2, hnm, join_last hc hn]
          rfl
    have hi' : ∀ r ∈ rs, ∀ i ∈ r.batch.ids, HexId i := by
      intro r hr i hi'
      obtain ⟨b, hb, rfl⟩ := List.mem_map.1 hi'
      exact hi r hr b hb
    rw [hfiles]
    constructor
    · rintro ⟨hq | ⟨o, ho, rfl⟩, hbe⟩
      · rw [h0 q hq] at hbe; cases hbe
      · obtain ⟨r, hr, ho⟩ := List.mem_flatMap.1 ho
        obtain ⟨x, hx, e⟩ := (objsOf_framed h nothing).1 o ho
        refine ⟨r.batch, List.mem_map.2 ⟨r, hr, rfl⟩, (paths_eq h r.batch (hv r hr) _).2 ⟨x, hx, ?_⟩⟩
        unfold Obj.file
        rw [e]
    · rintro ⟨b, hb, hq⟩
      obtain ⟨r, hr, rfl⟩ := List.mem_map.1 hb
      obtain ⟨x, hx, rfl⟩ := (paths_eq h r.batch (hv r hr) _).1 hq
      obtain ⟨o, ho, e⟩ := (objsOf_framed h nothing).2 x hx
      refine ⟨Or.inr ⟨o, List.mem_flatMap.2 ⟨r, hr, ho⟩, ?_⟩, ?_⟩
      · unfold Obj.file; rw [e]
      · rw [(framed_parse h (b := r.batch) (hv r hr) (hi' r hr) hx).1]
        simp [beneath]

/-! ## Writing and reading together -/

theorem listBlobs_congr {dataset rnd : Str} {f g : Posix → List Str} {dates : List DateTime}
    (h : ∀ d ∈ dates, f (cyclePath dataset rnd d) = g (cyclePath dataset rnd d)) :
    listBlobs dataset rnd none f dates = listBlobs dataset rnd none g dates := by
  have key : ∀ ps : List Posix, (∀ p ∈ ps, f p = g p) →
      ps.mapM (fun p => cycleBlobs none (f p)) = ps.mapM (fun p => cycleBlobs none (g p)) := by
    intro ps
    induction ps with
    | nil => intro _; rfl
    | cons p ps ih =>
      intro hp
      rw [List.mapM_cons, List.mapM_cons, hp p (by simp), ih (fun q hq => hp q (by simp [hq]))]
  unfold listBlobs
  rw [key]
  intro p hp
  obtain ⟨d, hd, rfl⟩ := List.mem_map.1 (dedup_mem.1 hp)
  exact h d hd

/-- The folder of a dataset and date, as the reader's path: a bucket and folders in it. -/
theorem reader_path {w : Job} {ls : List (List Piece)} (h : w.OK ls) (h2 : 2 ≤ ls.length)
    (hdot : ∀ l ∈ ls.getLast?, ∀ t, Piece.lit t ∈ l → '.' ∉ t) (rnd : Str) {d : DateTime} (hd : d.valid = true) :
    ∃ c cs, cyclePath (readerDataset w.dataset w.partitions) rnd d = ⟨[], c :: cs⟩ ∧ c :: cs = ls.map (filled d) ∧
      Comp c ∧ (∀ x ∈ cs, Comp x) ∧ cs ≠ [] ∧ (∀ f ∈ cs.getLast?, '.' ∉ f) ∧ '{' ∉ join ['/'] cs := by
  have hp := cyclePath_eq (job_date h hd) rnd
  simp only at hp
  have hc : ∀ c ∈ ls.map (filled d), Comp c := by
    intro c hc
    obtain ⟨l, hl, rfl⟩ := List.mem_map.1 hc
    exact folder_filled (h.folders l hl) hd
  match ls, h2 with
  | l :: m :: ls, _ =>
    refine ⟨filled d l, (m :: ls).map (filled d), hp, rfl, hc _ (by simp), fun x hx => hc x (by
      rw [List.map_cons]; exact List.mem_cons_of_mem _ hx), by simp, ?_, ?_⟩
    · intro f hf
      rw [List.getLast?_map] at hf
      obtain ⟨k, hk, rfl⟩ := Option.map_eq_some_iff.1 hf
      intro hm
      rcases mem_filled hm with ⟨t, ht, hm⟩ | ⟨f, hm⟩
      · exact hdot k (by rw [List.getLast?_cons_cons]; exact hk) t ht hm
      · obtain ⟨k, hk, e⟩ := (text_digit d hd f).2 _ hm
        exact (digitChar_plain k hk).2.2.2.2.2.2.1 e.symm
    · rw [← filled_path]
      exact filled_no_brace hd (plain_path (fun l hl => (h.folders l (by simp [List.mem_cons.1 hl])).plain))

/-- **C79.**  Start with any object storage that has nothing beneath the folder of the dataset and date.  Whatever runs
of batch writers there then are on Google Cloud Storage (completed or not; a completed one with at least one blob), a
reader of the dataset whose dates include that date can list it, and lists, of the blobs beneath the folder of the date,
exactly the blobs of the latest completed run.  What is missing: a completed run without blobs (`C79_empty_run_fails`), a
last folder with a dot (`C79_dotted_folder_fails`) and a dataset that is a whole bucket (`C79_whole_bucket_fails`). -/
theorem C79_stored_is_listed_partial (w : Job) (ls : List (List Piece)) (h : w.OK ls) (hb : PlainBase (w.base ls))
    (h2 : 2 ≤ ls.length) (hdot : ∀ l ∈ ls.getLast?, ∀ t, Piece.lit t ∈ l → '.' ∉ t) (nothing : β) (s₀ : List (Obj β))
    (ht : Tidy s₀) (rnd : Str)
    (h0 : ∀ q ∈ files s₀, beneath (cyclePath (readerDataset w.dataset w.partitions) rnd w.date) q = false)
    (rs : List (Run β)) (hv : ∀ r ∈ rs, r.now.valid = true) (hi : ∀ r ∈ rs, ∀ b ∈ r.blobs, HexId b.1)
    (hne : ∀ r ∈ rs, r.complete = true → r.blobs ≠ []) (dates : List DateTime) (hdv : ∀ d ∈ dates, d.valid = true)
    (hmem : w.date ∈ dates) :
    ∃ s, runsOn gcsBatch w nothing s₀ rs = .ok s ∧
      ∃ blobsAt : Posix → List Str, (∀ d ∈ dates, gcsBlobsAt s (cyclePath (readerDataset w.dataset w.partitions) rnd d)
          = .ok (blobsAt (cyclePath (readerDataset w.dataset w.partitions) rnd d))) ∧
      ∃ l, listBlobs (readerDataset w.dataset w.partitions) rnd none blobsAt dates = .ok l ∧
        ∀ x, beneath (cyclePath (readerDataset w.dataset w.partitions) rnd w.date) (Posix.parse x) = true →
          (x ∈ l ↔ ∃ t, Latest (rs.map Run.batch) t ∧ ∃ r ∈ rs, r.now = t ∧ ∃ b ∈ r.blobs,
            batchBlob w.dataset w.partitions (asAtName r.now) w.date w.rnd w.format b.1 = .ok x) := by
  refine ⟨_, (gcsRuns_eq w nothing s₀ rs hne).trans (runsOn_eq h nothing s₀ rs hv), ?_⟩
  rw [cyclePath_eq h rnd] at h0
  obtain ⟨ht', hold⟩ := runs_hold h nothing ht rs hv hi h0
  generalize puts s₀ (rs.flatMap (objsOf w ls nothing)) = s at ht' hold ⊢
  refine ⟨diskBlobsAt (files s), ?_, ?_⟩
  · intro d hd
    obtain ⟨c, cs, e, _, hc, hcs, hn, hdt, _⟩ := reader_path h h2 hdot rnd (hdv d hd)
    rw [e]
    exact C79_listing_partial s ht' c cs hc hcs hn hdt
  · rw [← cyclePath_eq h rnd] at hold
    have hv' : ∀ b ∈ rs.map Run.batch, b.now.valid = true := by
      intro b hb
      obtain ⟨r, hr, rfl⟩ := List.mem_map.1 hb
      exact hv r hr
    have hi' : ∀ b ∈ rs.map Run.batch, ∀ i ∈ b.ids, HexId i := by
      intro b hb i hib
      obtain ⟨r, hr, rfl⟩ := List.mem_map.1 hb
      obtain ⟨b, hb, rfl⟩ := List.mem_map.1 hib
      exact hi r hr b hb
    obtain ⟨l, hl, hx⟩ := C22_completed_is_read w ls h hb _ hv' hi' (files s) rnd hold dates hdv hmem
    refine ⟨l, hl, fun x hbx => (hx x hbx).trans ?_⟩
    constructor
    · rintro ⟨t, hlat, b, hb, e, i, hib, hbl⟩
      obtain ⟨r, hr, rfl⟩ := List.mem_map.1 hb
      obtain ⟨b, hb, rfl⟩ := List.mem_map.1 hib
      exact ⟨t, hlat, r, hr, e, b, hb, hbl⟩
    · rintro ⟨t, hlat, r, hr, e, b, hb, hbl⟩
      exact ⟨t, hlat, r.batch, List.mem_map.2 ⟨r, hr, rfl⟩, e, b.1, List.mem_map.2 ⟨b, hb, rfl⟩, hbl⟩

theorem disk_repeat (files : List Posix) (n : Nat) (p : Posix) :
    (List.replicate n (diskBlobsAt files p)).flatten = diskBlobsAt (List.replicate n files).flatten p := by
  induction n with
  | zero => rfl
  | succ n ih =>
    rw [List.replicate_succ, List.replicate_succ, List.flatten_cons, List.flatten_cons, ih]
    simp [diskBlobsAt]

/-- **C79 (MinIO).**  The same on MinIO, for every history of runs, completed ones without blobs included: the blobs
listed are those of the latest completed run.  How often each is listed is another matter (`C79_minio_repeats_fails`).
What is missing: dotted folders and whole buckets, as above. -/
theorem C79_minio_stored_is_listed_partial (w : Job) (ls : List (List Piece)) (h : w.OK ls) (hb : PlainBase (w.base ls))
    (h2 : 2 ≤ ls.length) (hdot : ∀ l ∈ ls.getLast?, ∀ t, Piece.lit t ∈ l → '.' ∉ t) (nothing : β) (s₀ : List (Obj β))
    (ht : Tidy s₀) (rnd : Str)
    (h0 : ∀ q ∈ files s₀, beneath (cyclePath (readerDataset w.dataset w.partitions) rnd w.date) q = false)
    (rs : List (Run β)) (hv : ∀ r ∈ rs, r.now.valid = true) (hi : ∀ r ∈ rs, ∀ b ∈ r.blobs, HexId b.1)
    (dates : List DateTime) (hdv : ∀ d ∈ dates, d.valid = true) (hmem : w.date ∈ dates) :
    ∃ s, runsOn minioBatch w nothing s₀ rs = .ok s ∧
      ∃ blobsAt : Posix → List Str, (∀ d ∈ dates,
        minioBlobsAt s rnd dates (cyclePath (readerDataset w.dataset w.partitions) rnd d)
          = .ok (blobsAt (cyclePath (readerDataset w.dataset w.partitions) rnd d))) ∧
      ∃ l, listBlobs (readerDataset w.dataset w.partitions) rnd none blobsAt dates = .ok l ∧
        ∀ x, beneath (cyclePath (readerDataset w.dataset w.partitions) rnd w.date) (Posix.parse x) = true →
          (x ∈ l ↔ ∃ t, Latest (rs.map Run.batch) t ∧ ∃ r ∈ rs, r.now = t ∧ ∃ b ∈ r.blobs,
            batchBlob w.dataset w.partitions (asAtName r.now) w.date w.rnd w.format b.1 = .ok x) := by
  refine ⟨_, runsOn_eq h nothing s₀ rs hv, ?_⟩
  rw [cyclePath_eq h rnd] at h0
  obtain ⟨ht', hold⟩ := runs_hold h nothing ht rs hv hi h0
  generalize puts s₀ (rs.flatMap (objsOf w ls nothing)) = s at ht' hold ⊢
  have hlen : 0 < dates.length := List.length_pos_of_mem hmem
  have hfm : ∀ q, q ∈ (List.replicate dates.length (files s)).flatten ↔ q ∈ files s := by
    intro q
    rw [List.mem_flatten]
    constructor
    · rintro ⟨l, hl, hq⟩
      rw [(List.mem_replicate.1 hl).2] at hq
      exact hq
    · intro hq
      exact ⟨_, List.mem_replicate.2 ⟨by omega, rfl⟩, hq⟩
  refine ⟨diskBlobsAt (List.replicate dates.length (files s)).flatten, ?_, ?_⟩
  · intro d hd
    obtain ⟨c, cs, e, _, hc, hcs, hn, hdt, hbr⟩ := reader_path h h2 hdot rnd (hdv d hd)
    rw [e, C79_minio_listing_partial s ht' c cs hc hcs hn hdt hbr, disk_repeat]
  · rw [← cyclePath_eq h rnd] at hold
    have hold' : Holds w (rs.map Run.batch) (List.replicate dates.length (files s)).flatten
        (cyclePath (readerDataset w.dataset w.partitions) rnd w.date) :=
      ⟨fun q hq => hold.normal q ((hfm q).1 hq), fun q => by rw [hfm]; exact hold.beneath_iff q⟩
    have hv' : ∀ b ∈ rs.map Run.batch, b.now.valid = true := by
      intro b hb
      obtain ⟨r, hr, rfl⟩ := List.mem_map.1 hb
      exact hv r hr
    have hi' : ∀ b ∈ rs.map Run.batch, ∀ i ∈ b.ids, HexId i := by
      intro b hb i hib
      obtain ⟨r, hr, rfl⟩ := List.mem_map.1 hb
      obtain ⟨b, hb, rfl⟩ := List.mem_map.1 hib
      exact hi r hr b hb
    obtain ⟨l, hl, hx⟩ := C22_completed_is_read w ls h hb _ hv' hi' _ rnd hold' dates hdv hmem
    refine ⟨l, hl, fun x hbx => (hx x hbx).trans ?_⟩
    constructor
    · rintro ⟨t, hlat, b, hb, e, i, hib, hbl⟩
      obtain ⟨r, hr, rfl⟩ := List.mem_map.1 hb
      obtain ⟨b, hb, rfl⟩ := List.mem_map.1 hib
      exact ⟨t, hlat, r, hr, e, b, hb, hbl⟩
    · rintro ⟨t, hlat, r, hr, e, b, hb, hbl⟩
      exact ⟨t, hlat, r.batch, List.mem_map.2 ⟨r, hr, rfl⟩, e, b.1, List.mem_map.2 ⟨b, hb, rfl⟩, hbl⟩

/-- **C79 (each once).**  On Google Cloud Storage no blob is in the reader's list twice, whatever its dates, unless the
data is divided into `by_` partitionings (for which see C20). -/
theorem C79_listed_once_partial (w : Job) (ls : List (List Piece)) (h : w.OK ls) (h2 : 2 ≤ ls.length)
    (hdot : ∀ l ∈ ls.getLast?, ∀ t, Piece.lit t ∈ l → '.' ∉ t) (s : List (Obj β)) (ht : Tidy s) (rnd : Str)
    (hby : ∀ o ∈ s, contains "/by_".toList (o.bucket ++ '/' :: o.name) = false) (dates : List DateTime)
    (hdv : ∀ d ∈ dates, d.valid = true) (blobsAt : Posix → List Str)
    (hat : ∀ d ∈ dates, gcsBlobsAt s (cyclePath (readerDataset w.dataset w.partitions) rnd d)
      = .ok (blobsAt (cyclePath (readerDataset w.dataset w.partitions) rnd d)))
    (l : List Str) (hl : listBlobs (readerDataset w.dataset w.partitions) rnd none blobsAt dates = .ok l) :
    l.Nodup := by
  classical
  let ok : Posix → Prop := fun p => p.root = [] ∧ p.comps.length = ls.length
  have hok : ∀ d ∈ dates, ok (cyclePath (readerDataset w.dataset w.partitions) rnd d) ∧
      blobsAt (cyclePath (readerDataset w.dataset w.partitions) rnd d)
        = diskBlobsAt (files s) (cyclePath (readerDataset w.dataset w.partitions) rnd d) := by
    intro d hd
    obtain ⟨c, cs, e, e2, hc, hcs, hn, hdt, _⟩ := reader_path h h2 hdot rnd (hdv d hd)
    have := hat d hd
    rw [e, C79_listing_partial s ht c cs hc hcs hn hdt] at this
    refine ⟨?_, ?_⟩
    · rw [e]; exact ⟨rfl, by simp only; rw [e2]; simp⟩
    · rw [e]; exact (Except.ok.inj this).symm
  have hcongr := listBlobs_congr (f := blobsAt) (g := fun p => if ok p then diskBlobsAt (files s) p else [])
    (dataset := readerDataset w.dataset w.partitions) (rnd := rnd) (dates := dates) (by
      intro d hd
      obtain ⟨h1, h3⟩ := hok d hd
      rw [h3]
      simp only [h1, if_true])
  rw [hcongr] at hl
  have hdisk : ∀ p b, b ∈ diskBlobsAt (files s) p → ∃ o ∈ s, b = o.bucket ++ '/' :: o.name ∧
      ∃ q ∈ files s, beneath p q = true ∧ q = Posix.parse b := by
    intro p b hb
    obtain ⟨q, hq, rfl⟩ := List.mem_map.1 hb
    obtain ⟨hq, hbe⟩ := List.mem_filter.1 hq
    obtain ⟨o, ho, e, cs, _, _, _, _, e3⟩ := tidy_file ht hq
    refine ⟨o, ho, e3, q, hq, hbe, ?_⟩
    rw [e3, ← e]
    rfl
  refine C18_no_duplicates_partial _ _ _ _ _ hl ?_ ?_ ?_
  · intro p
    split
    · exact C79_listing_once s ht p
    · exact List.nodup_nil
  · intro p b hb
    split at hb
    · obtain ⟨o, ho, rfl, _⟩ := hdisk p b hb
      exact hby o ho
    · simp at hb
  · intro p q hpq b hb hb'
    split at hb
    · rename_i h1
      split at hb'
      · rename_i h2'
        obtain ⟨_, _, _, x, _, hx, ex⟩ := hdisk p b hb
        obtain ⟨_, _, _, y, _, hy, ey⟩ := hdisk q b hb'
        rw [ey, ← ex] at hy
        simp only [beneath, Bool.and_eq_true, decide_eq_true_eq, List.isPrefixOf_iff_prefix] at hx hy
        apply hpq
        have hcomps : p.comps = q.comps := by
          have := List.prefix_of_prefix_length_le hx.1.2 hy.1.2 (by rw [h1.2, h2'.2])
          exact this.eq_of_length (by rw [h1.2, h2'.2])
        cases p; cases q
        simp only [Posix.mk.injEq]
        exact ⟨h1.1.trans h2'.1.symm, hcomps⟩
      · simp at hb'
    · simp at hb

theorem extension_parts (format : Str) : ∃ a e, extension format = a ++ '.' :: e ∧ e ≠ [] ∧ '.' ∉ e ∧ '/' ∉ e ∧ '/' ∉ a := by
  unfold extension
  split
  · exact ⟨[], "txt".toList, rfl, by decide, by decide, by decide, by decide⟩
  · split
    · rename_i hf
      rcases hf with rfl | rfl
      · exact ⟨".jsonl".toList, "zstd".toList, rfl, by decide, by decide, by decide, by decide⟩
      · exact ⟨".jsonl".toList, "parquet".toList, rfl, by decide, by decide, by decide, by decide⟩
    · exact ⟨[], "jsonl".toList, rfl, by decide, by decide, by decide, by decide⟩

/-- **C79 (fetching).**  After the runs, asking for a blob by the name it is listed under gives what was written, if
the identifiers of the blobs of one moment differ. -/
theorem C79_fetched (w : Job) (ls : List (List Piece)) (h : w.OK ls) (nothing : β) (s₀ : List (Obj β))
    (ht : Tidy s₀) (rs : List (Run β)) (hv : ∀ r ∈ rs, r.now.valid = true)
    (hi : ∀ r ∈ rs, ∀ b ∈ r.blobs, HexId b.1 ∧ b.1 ≠ [])
    (hu : ∀ r ∈ rs, ∀ b ∈ r.blobs, ∀ r' ∈ rs, ∀ b' ∈ r'.blobs, r.now = r'.now → b.1 = b'.1 → b.2 = b'.2)
    (r : Run β) (hr : r ∈ rs) (b : Str × β) (hb : b ∈ r.blobs) (x : Str)
    (hx : batchBlob w.dataset w.partitions (asAtName r.now) w.date w.rnd w.format b.1 = .ok x) :
    (∃ s, runsOn minioBatch w nothing s₀ rs = .ok s ∧ blobBytes s x = .ok b.2) ∧
    ((∀ r ∈ rs, r.complete = true → r.blobs ≠ []) →
      ∃ s, runsOn gcsBatch w nothing s₀ rs = .ok s ∧ blobBytes s x = .ok b.2) := by
  have key : blobBytes (puts s₀ (rs.flatMap (objsOf w ls nothing))) x = .ok b.2 := by
    rw [batchBlob_eq h (hv r hr)] at hx
    cases hx
    obtain ⟨l, ls, rfl⟩ := List.exists_cons_of_ne_nil h.ne
    let X : Run β → Str := fun r => join ['/'] (ls.map (filled w.date) ++ [asAtName r.now])
    let o : Obj β := ⟨filled w.date l, X r ++ '/' :: (b.1 ++ extension w.format), b.2⟩
    have hXinj : ∀ r ∈ rs, ∀ r' ∈ rs, ∀ n n', '/' ∉ n → '/' ∉ n' → X r ++ '/' :: n = X r' ++ '/' :: n' →
        r.now = r'.now ∧ n = n' := by
      intro r hr r' hr' n n' hn hn' e
      have e1 := congrArg rsplitSlash e
      rw [rsplitSlash_append hn, rsplitSlash_append hn'] at e1
      simp only [Option.some.injEq, Prod.mk.injEq] at e1
      refine ⟨?_, e1.2⟩
      apply asAtName_inj (hv r hr) (hv r' hr')
      have e2 := congrArg (split '/') e1.1
      have hf : ∀ r ∈ rs, ∀ p ∈ ls.map (filled w.date) ++ [asAtName r.now], '/' ∉ p := by
        intro r hr p hp
        rcases List.mem_append.1 hp with hp | hp
        · obtain ⟨m, hm, rfl⟩ := List.mem_map.1 hp
          exact (folder_filled (h.folders m (by simp [hm])) h.date).2.2
        · rw [List.mem_singleton.1 hp]; exact asAtName_flat (hv r hr)
      rw [split_join (by simp) (hf r hr), split_join (by simp) (hf r' hr')] at e2
      simpa using List.append_cancel_left e2
    have ho : o ∈ rs.flatMap (objsOf w (l :: ls) nothing) :=
      List.mem_flatMap.2 ⟨r, hr, List.mem_append_left _ (List.mem_map.2 ⟨b, hb, rfl⟩)⟩
    have hkeep : o ∈ puts s₀ (rs.flatMap (objsOf w (l :: ls) nothing)) := by
      apply puts_keep ho
      intro y hy e
      obtain ⟨r', hr', hy⟩ := List.mem_flatMap.1 hy
      simp only [objsOf, objsIn, List.map_cons, List.headD_cons, List.tail_cons, List.mem_append, List.mem_map] at hy
      rcases hy with ⟨b', hb', rfl⟩ | hy
      · simp only [Obj.key, Prod.mk.injEq, o] at e
        obtain ⟨e1, e2⟩ := hXinj r' hr' r hr _ _ (name_plain (hi r' hr' b' hb').1).1 (name_plain (hi r hr b hb).1).1 e.2
        have e3 := List.append_cancel_right e2
        have e4 := hu r' hr' b' hb' r hr b hb e1 e3
        simp only [o, X, e1, e3, e4]
      · exfalso
        split at hy
        · rw [List.mem_singleton.1 hy] at e
          simp only [Obj.key, Prod.mk.injEq, o] at e
          obtain ⟨_, e2⟩ := hXinj r' hr' r hr _ _ (by decide) (name_plain (hi r hr b hb).1).1 e.2
          exact name_no_marker (format := w.format) (hi r hr b hb).1 (m := "frame.complete".toList) (by decide)
            (by rw [e2]; exact List.prefix_rfl)
        · simp at hy
    have hget := get_of_mem (puts_unique (rs.flatMap (objsOf w (l :: ls) nothing)) ht.once) hkeep
    obtain ⟨a, e, hext, he, hd, hs1, hs2⟩ := extension_parts w.format
    have hcomp : ∀ f ∈ ls.map (filled w.date) ++ [asAtName r.now], Comp f := by
      intro f hf
      rcases List.mem_append.1 hf with hf | hf
      · obtain ⟨m, hm, rfl⟩ := List.mem_map.1 hf
        exact folder_filled (h.folders m (by simp [hm])) h.date
      · rw [List.mem_singleton.1 hf]
        exact ⟨by rw [asAtName_eq]; simp, by rw [asAtName_eq]; simp, asAtName_flat (hv r hr)⟩
    have hparts := C52_parts_file (filled w.date l) (ls.map (filled w.date) ++ [asAtName r.now]) (b.1 ++ a) e
      (folder_filled (h.folders l (by simp)) h.date) hcomp (by simp)
      (by intro e0; exact (hi r hr b hb).2 (List.append_eq_nil_iff.1 e0).1)
      (by
        rw [List.mem_append, not_or]
        exact ⟨hex_not (hi r hr b hb).1 (by decide), hs2⟩)
      he hs1 hd
    have hpath : Framed.path ⟨w.base (l :: ls), asAtName r.now, b.1 ++ extension w.format⟩
        = join ['/'] (filled w.date l :: (ls.map (filled w.date) ++ [asAtName r.now]) ++ [b.1 ++ a ++ '.' :: e]) := by
      unfold Framed.path Job.base
      have := join_snoc ((l :: ls).map (filled w.date)) (asAtName r.now) (by simp)
      rw [join_snoc _ _ (by simp), ← this, hext]
      simp
    unfold blobBytes
    rw [hpath, hparts]
    simp only
    have hname : join ['/'] (ls.map (filled w.date) ++ [asAtName r.now]) ++ ['/'] ++ (b.1 ++ a) ++ '.' :: e = o.name := by
      simp only [o, X, hext]
      simp
    rw [hname]
    show (match get _ o.bucket o.name with | some d => .ok d | none => .error Err.attributeError) = Except.ok b.2
    rw [hget]
  exact ⟨⟨_, runsOn_eq h nothing s₀ rs hv, key⟩,
    fun hne => ⟨_, (gcsRuns_eq w nothing s₀ rs hne).trans (runsOn_eq h nothing s₀ rs hv), key⟩⟩

/-! ## What fails, and concrete cases -/

/-- An object of another dataset whose name begins alike, and a folder made by a console. -/
def demoStore : List (Obj Nat) :=
  [⟨"tests".toList, "data2/year_2024/month_02/day_29/x.jsonl".toList, 7⟩, ⟨"tests".toList, "data/".toList, 0⟩]

theorem demoStore_tidy : Tidy demoStore where
  bucket := by
    intro o ho
    simp only [demoStore, List.mem_cons, List.not_mem_nil, or_false] at ho
    rcases ho with rfl | rfl <;> exact ⟨by decide, by decide, by decide⟩
  name := by
    intro o ho
    simp only [demoStore, List.mem_cons, List.not_mem_nil, or_false] at ho
    rcases ho with rfl | rfl
    · refine Or.inr ⟨["data2".toList, "year_2024".toList, "month_02".toList, "day_29".toList, "x.jsonl".toList],
        by decide, ?_, by decide⟩
      intro c hc
      simp only [List.mem_cons, List.not_mem_nil, or_false] at hc
      rcases hc with rfl | rfl | rfl | rfl | rfl <;> exact ⟨by decide, by decide, by decide⟩
    · exact Or.inl (by decide)
  once := by decide

/-- A completed run of two blobs, and a later one that was not completed. -/
def demoRuns : List (Run Nat) :=
  [⟨⟨2024, 3, 1, 11, 30, 0⟩, [("ab-1-1".toList, 1), ("ac-1-1".toList, 2)], true⟩,
   ⟨⟨2024, 3, 1, 12, 0, 0⟩, [("ad-1-1".toList, 3)], false⟩]

set_option maxRecDepth 8000 in
/-- The hypotheses of the theorems above are met by the demonstration. -/
example : Tidy demoStore ∧ (∀ q ∈ files demoStore,
      beneath (cyclePath (readerDataset demoJob.dataset demoJob.partitions) [] demoJob.date) q = false) ∧
    (∀ r ∈ demoRuns, r.now.valid = true) ∧ (∀ r ∈ demoRuns, ∀ b ∈ r.blobs, HexId b.1 ∧ b.1 ≠ []) ∧
    (∀ r ∈ demoRuns, r.complete = true → r.blobs ≠ []) ∧ 2 ≤ demoFolders.length ∧
    (∀ l ∈ demoFolders.getLast?, ∀ t, Piece.lit t ∈ l → '.' ∉ t) ∧ demoJob.OK demoFolders ∧
    PlainBase (demoJob.base demoFolders) ∧
    (∀ r ∈ demoRuns, ∀ b ∈ r.blobs, ∀ r' ∈ demoRuns, ∀ b' ∈ r'.blobs, r.now = r'.now → b.1 = b'.1 → b.2 = b'.2) := by
  refine ⟨demoStore_tidy, by decide +kernel, by decide, ?_, ?_, by decide, ?_, demo_ok, demo_base, by decide⟩
  · unfold HexId; decide
  · decide
  · intro l hl t ht
    simp only [demoFolders, List.getLast?_cons_cons, List.getLast?_singleton, Option.mem_def, Option.some.injEq] at hl
    subst hl
    simp only [List.mem_cons, List.not_mem_nil, or_false, Piece.lit.injEq, reduceCtorEq] at ht
    subst ht
    decide

/-- What is stored and listed in the demonstration. -/
example : ((runsOn gcsBatch demoJob 0 demoStore demoRuns).toOption.bind (fun s => (gcsBlobsAt s
      (cyclePath (readerDataset demoJob.dataset demoJob.partitions) [] demoJob.date)).toOption)) = some
    ["tests/data/year_2024/month_02/day_29/as_at_20240301-113000/ab-1-1.jsonl.parquet".toList,
      "tests/data/year_2024/month_02/day_29/as_at_20240301-113000/ac-1-1.jsonl.parquet".toList,
      "tests/data/year_2024/month_02/day_29/as_at_20240301-113000/frame.complete".toList,
      "tests/data/year_2024/month_02/day_29/as_at_20240301-120000/ad-1-1.jsonl.parquet".toList] := by
  decide +kernel

/-- **A completed run without blobs does not count on Google Cloud Storage**: its marker is stored under a name that has
the bucket in it once more, so the reader goes on reading the run before it.  On MinIO (and on disk) the reader finds that
the data is now empty. -/
theorem C79_empty_run_fails :
    let runs : List (Run Nat) := [⟨⟨2024, 3, 1, 11, 30, 0⟩, [("ab-1-1".toList, 1)], true⟩,
      ⟨⟨2024, 3, 2, 11, 30, 0⟩, [], true⟩]
    let p := cyclePath (readerDataset demoJob.dataset demoJob.partitions) [] demoJob.date
    (∃ s, runsOn gcsBatch demoJob 0 [] runs = .ok s ∧ s.map (fun o => (o.bucket, o.name)) =
        [("tests".toList, "data/year_2024/month_02/day_29/as_at_20240301-113000/ab-1-1.jsonl.parquet".toList),
         ("tests".toList, "data/year_2024/month_02/day_29/as_at_20240301-113000/frame.complete".toList),
         ("tests".toList, "tests/data/year_2024/month_02/day_29/as_at_20240302-113000/frame.complete".toList)] ∧
      ∃ bs, gcsBlobsAt s p = .ok bs ∧ cycleBlobs none bs =
        .ok ["tests/data/year_2024/month_02/day_29/as_at_20240301-113000/ab-1-1.jsonl.parquet".toList]) ∧
    (∃ s, runsOn minioBatch demoJob 0 [] runs = .ok s ∧
      ∃ bs, minioBlobsAt s [] [demoJob.date] p = .ok bs ∧ cycleBlobs none bs = .ok []) := by
  refine ⟨⟨_, rfl, by decide +kernel, _, rfl, by decide +kernel⟩, ⟨_, rfl, _, rfl, by decide +kernel⟩⟩

/-- **On MinIO a blob is listed once for every date of the reader**: here twice. -/
theorem C79_minio_repeats_fails :
    let p := cyclePath (readerDataset demoJob.dataset demoJob.partitions) [] demoJob.date
    let runs : List (Run Nat) := [⟨⟨2024, 3, 1, 11, 30, 0⟩, [("ab-1-1".toList, 1)], true⟩]
    ∃ s, runsOn minioBatch demoJob 0 [] runs = .ok s ∧
      ∃ bs, minioBlobsAt s [] [demoJob.date, { demoJob.date with hour := 1 }] p = .ok bs ∧ cycleBlobs none bs =
        .ok ["tests/data/year_2024/month_02/day_29/as_at_20240301-113000/ab-1-1.jsonl.parquet".toList,
          "tests/data/year_2024/month_02/day_29/as_at_20240301-113000/ab-1-1.jsonl.parquet".toList] := by
  exact ⟨_, rfl, _, rfl, by decide +kernel⟩

/-- **A dataset whose last folder has a dot in it is not told from its neighbours**: a reader of `lake/logs/api.v1` is
given the blobs of `lake/logs/api.v2` too. -/
theorem C79_dotted_folder_fails :
    gcsBlobsAt [⟨"lake".toList, "logs/api.v1/a.jsonl".toList, 1⟩, ⟨"lake".toList, "logs/api.v2/b.jsonl".toList, 2⟩]
        (cyclePath (readerDataset "lake/logs/api.v1".toList []) [] demoJob.date)
      = .ok ["lake/logs/api.v1/a.jsonl".toList, "lake/logs/api.v2/b.jsonl".toList] := by
  rfl

/-- **A dataset that is a whole bucket is looked for in a folder called `partitions`.** -/
theorem C79_whole_bucket_fails :
    gcsBlobsAt [⟨"lake".toList, "a.jsonl".toList, 1⟩, ⟨"lake".toList, "partitions/b.jsonl".toList, 2⟩]
        (cyclePath (readerDataset "lake".toList []) [] demoJob.date)
      = .ok ["lake/partitions/b.jsonl".toList] := by
  rfl

end Mabel.ObjectStore
