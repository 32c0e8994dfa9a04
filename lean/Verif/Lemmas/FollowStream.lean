import Verif.Lemmas.ManyReach
import Verif.Props.Follow
import Verif.Spec.FollowStream

/-!
# What a reader finds at a moment of a stream, and sitting after sitting
-/

namespace Mabel.StreamStorage
open Mabel.Py Mabel.Paths Mabel.Naming Mabel.Spec Mabel.Listing Mabel.EndToEnd Mabel.Dates Mabel.History
open Mabel.Blobs (Lib Faithful Torn delivered Item readBlob readSerial Names formatOf BlobName)
open Mabel.WriterInit (Folders Nested)
open Mabel.Stream (Conf Machine Reach Pool run)
open Mabel.Stream.Spec (blobsAt routed)
open Mabel.Cursor (Doc session readAll follow handOut inOrder Grows)
open Mabel.Disk hiding Bytes
variable {ρ β : Type}

/-! ## What is in blobs that are not listed does not matter -/

theorem deliver_readable (c : Cursor.Cursor) (n : Nat) (l : List ρ) : ∀ x ∈ Cursor.deliver c n l, x.2.readable = c.readable := by
  induction l generalizing n with
  | nil => intro x hx; cases hx
  | cons r l ih =>
    intro x hx
    rcases List.mem_cons.1 hx with rfl | hx
    · rfl
    · exact ih _ x hx

theorem finished_readable (c : Cursor.Cursor) (p : Option Str) : (Cursor.finished c p).readable = c.readable := by
  cases p with
  | none => rfl
  | some p => cases p <;> rfl

theorem nextBlob_readable {c c' : Cursor.Cursor} {p b : Option Str} (h : Cursor.nextBlob c p = .ok (b, c')) :
    c'.readable = c.readable ∧ ∀ x, b = some x → x ∈ c.readable := by
  have e := finished_readable c p
  unfold Cursor.nextBlob at h
  simp only at h
  rw [← e]
  split at h
  · split at h
    · rename_i h2
      cases h
      exact ⟨rfl, fun x hx => by cases hx; exact h2⟩
    · cases h
  · split at h
    · rename_i u r hu
      cases h
      refine ⟨rfl, fun x hx => ?_⟩
      cases hx
      exact (List.mem_filter.1 (by rw [hu]; exact List.mem_cons_self)).1
    · cases h
      exact ⟨rfl, fun x hx => by cases hx⟩

theorem rounds_congr {f g : Str → List ρ} (n : Nat) (c : Cursor.Cursor) (p : Option Str) (h : ∀ b ∈ c.readable, f b = g b) :
    Cursor.rounds f n c p = Cursor.rounds g n c p := by
  induction n generalizing c p with
  | zero => rfl
  | succ n ih =>
    unfold Cursor.rounds
    cases hn : Cursor.nextBlob c p with
    | error e => rfl
    | ok r =>
      obtain ⟨b, c'⟩ := r
      obtain ⟨h1, h2⟩ := nextBlob_readable hn
      cases b with
      | none => rfl
      | some b =>
        cases b with
        | nil => rfl
        | cons x xs =>
          simp only
          rw [h _ (h2 _ rfl)]
          rw [ih]
          intro y hy
          apply h
          rw [← h1]
          cases hl : (Cursor.deliver c' (Cursor.skip c') ((g (x :: xs)).drop (Cursor.skip c'))).getLast? with
          | none => rw [hl] at hy; exact hy
          | some z =>
            rw [hl] at hy
            rw [← deliver_readable c' _ _ z (List.mem_of_getLast? hl)]
            exact hy

theorem init_readable {hash : Str → Nat} {blobs : List Str} {doc : Option Doc} {c : Cursor.Cursor}
    (h : Cursor.init hash blobs doc = .ok c) : c.readable = sorted strLe blobs := by
  unfold Cursor.init at h
  cases doc with
  | none => cases h; rfl
  | some doc =>
    simp only [Cursor.load] at h
    split at h
    · split at h
      · cases h
      · split at h
        · cases h
        · cases h; rfl
    · cases h

theorem readAll_congr {f g : Str → List ρ} {blobs : List Str} (h : ∀ b ∈ blobs, f b = g b) (hash : Str → Nat) (doc : Option Doc) :
    readAll hash f blobs doc = readAll hash g blobs doc := by
  unfold readAll
  cases hi : Cursor.init hash blobs doc with
  | error e => rfl
  | ok c => exact rounds_congr _ _ _ (fun b hb => h b (mem_sorted.1 (by rw [← init_readable hi]; exact hb)))

theorem session_congr {f g : Str → List ρ} {blobs : List Str} (h : ∀ b ∈ blobs, f b = g b) (hash : Str → Nat) (doc : Option Doc)
    (k : Nat) : session hash f blobs doc k = session hash g blobs doc k := by
  unfold session
  rw [readAll_congr h]

/-! ## Sitting after sitting -/

/-- A disk on which a reader with these parameters finds these blobs, with this in them. -/
structure Finds (lib : Lib ρ) (a : Reader.Config) (content : Str → List (Item ρ)) (d : Disk) (names : List Str) : Prop where
  opened : ∀ now rnd, Reader.openReader a now rnd (diskBlobsAt d.names)
    = if names = [] then .error .dataNotFound else .ok (0, names)
  read : ∀ b ∈ names, readBlob lib {} b (Disk.read d b) = content b

theorem sitOut_finds {lib : Lib ρ} {a : Reader.Config} {content : Str → List (Item ρ)} {d : Disk} {names : List Str}
    (h : Finds lib a content d names) (hn : names.Nodup) (he : [] ∉ names) (hash : Str → Nat) (now : DateTime) (rnd : Str) :
    sitOut hash lib a now rnd d none = .ok (inOrder content names) := by
  unfold sitOut
  rw [h.opened]
  by_cases h0 : names = []
  · rw [if_pos h0, h0]; rfl
  · rw [if_neg h0]
    obtain ⟨h1, c, h2⟩ := Mabel.Blobs.delivered_eq hash lib {} (Disk.read d) names ⟨hn, he⟩
    unfold delivered at h1
    simp only
    rw [h2]
    simp only
    rw [h1]
    congr 1
    exact List.flatMap_congr fun b hb => h.read b (mem_sorted.1 hb)

theorem sitAll_follow {lib : Lib ρ} {a : Reader.Config} {content : Str → List (Item ρ)} (hash : Str → Nat)
    (sits : List (Disk × List Str × Sitting)) (h : ∀ s ∈ sits, Finds lib a content s.1 s.2.1 ∧ s.2.1 ≠ []) (doc : Option Doc) :
    sitAll hash lib a (sits.map fun s => (s.1, s.2.2)) doc
      = follow hash content (sits.map fun s => (s.2.1, s.2.2.take)) doc := by
  induction sits generalizing doc with
  | nil => rfl
  | cons s sits ih =>
    obtain ⟨d, names, s⟩ := s
    obtain ⟨h1, h2⟩ := h (d, names, s) (by simp)
    rw [List.map_cons, List.map_cons, sitAll, follow, sit, h1.opened, if_neg h2]
    simp only
    rw [session_congr h1.read]
    cases session hash content names doc s.take with
    | error e => rfl
    | ok r =>
      simp only
      rw [ih (fun s hs => h s (by simp [hs]))]

/-- Sittings at disks on which blobs are added after those that are there. -/
theorem sit_following {lib : Lib ρ} {a : Reader.Config} {content : Str → List (Item ρ)} (hash : Str → Nat)
    (sits : List (Disk × List Str × Sitting)) (d : Disk) (last : List Str) (h : ∀ s ∈ sits, Finds lib a content s.1 s.2.1)
    (hl : Finds lib a content d last)
    (hg : (sits.map (·.2.1) ++ [last]).Pairwise fun x y => sorted strLe x <+: sorted strLe y)
    (hlen : ∀ s ∈ sits, s.2.1 = [] ∨ last.length ≤ 8 * ((s.2.1.length + 7) / 8))
    (hn : last.Nodup) (he : [] ∉ last) (hi : ∀ x ∈ last, ∀ y ∈ last, hash x = hash y → x = y) (now : DateTime) (rnd : Str) :
    ∃ got doc rest, sitAll hash lib a (sits.map fun s => (s.1, s.2.2)) none = .ok (got, doc) ∧
      sitOut hash lib a now rnd d doc = .ok rest ∧
      got = handOut 0 (sits.map fun s => (inOrder content s.2.1, s.2.2.take)) ∧
      got.flatten ++ rest = inOrder content last := by
  have fin : ∀ sits : List (Disk × List Str × Sitting), (∀ s ∈ sits, Finds lib a content s.1 s.2.1) →
      (sits.map (·.2.1) ++ [last]).Pairwise Grows → last ≠ [] → (∀ s ∈ sits, s.2.1 ≠ []) →
      ∃ got doc rest, sitAll hash lib a (sits.map fun s => (s.1, s.2.2)) none = .ok (got, doc) ∧
        sitOut hash lib a now rnd d doc = .ok rest ∧
        got = handOut 0 (sits.map fun s => (inOrder content s.2.1, s.2.2.take)) ∧
        got.flatten ++ rest = inOrder content last := by
    intro sits h hg hne hne'
    obtain ⟨got, doc, c, g1, g2, g3, g4⟩ := Cursor.C92_following_partial hash content
      (sits.map fun s => (s.2.1, s.2.2.take)) last (by rw [List.map_map]; exact hg) hn he hi
    refine ⟨got, doc, (readAll hash content last doc).yields.map (·.1), ?_, ?_, ?_, g3⟩
    · rw [sitAll_follow hash sits (fun s hs => ⟨h s hs, hne' s hs⟩)]; exact g1
    · unfold sitOut
      rw [hl.opened, if_neg hne]
      simp only
      unfold readSerial
      rw [readAll_congr hl.read, g4]
    · rw [g2, List.map_map]; rfl
  have pre : ∀ {x y : List Str}, sorted strLe x <+: sorted strLe y → x ≠ [] → y ≠ [] := by
    intro x y hxy hx hy
    rw [hy] at hxy
    have := hxy.length_le
    rw [(sorted_perm strLe x).length_eq] at this
    exact hx (List.eq_nil_of_length_eq_zero (by simpa using this))
  have le : ∀ {x y : List Str}, sorted strLe x <+: sorted strLe y → x.length ≤ y.length := by
    intro x y hxy
    have := hxy.length_le
    rwa [(sorted_perm strLe x).length_eq, (sorted_perm strLe y).length_eq] at this
  clear hi
  induction sits with
  | nil =>
    by_cases h0 : last = []
    · refine ⟨[], none, [], rfl, ?_, rfl, by rw [h0]; rfl⟩
      unfold sitOut
      rw [hl.opened, if_pos h0]
    · exact fin [] (by simp) (by simp) h0 (by simp)
  | cons s sits ih =>
    have hg' := List.pairwise_cons.1 (show (s.2.1 :: (sits.map (·.2.1) ++ [last])).Pairwise _ from hg)
    by_cases h0 : s.2.1 = []
    · obtain ⟨got, doc, rest, g1, g2, g3, g4⟩ := ih (fun s hs => h s (by simp [hs])) hg'.2 (fun s hs => hlen s (by simp [hs]))
      refine ⟨[] :: got, doc, rest, ?_, g2, ?_, ?_⟩
      · rw [List.map_cons, sitAll, sit, (h s (by simp)).opened, if_pos h0]
        simp only
        rw [g1]
        rfl
      · rw [List.map_cons, handOut, h0, g3, show inOrder content [] = [] from rfl, List.drop_nil, List.take_nil, List.length_nil,
          Nat.min_zero]
      · rw [List.flatten_cons, List.nil_append, g4]
    · have hne : ∀ y ∈ sits.map (·.2.1) ++ [last], y ≠ [] := fun y hy => pre (hg'.1 y hy) h0
      refine fin (s :: sits) h ?_ (hne last (by simp)) ?_
      · have hall : ∀ x ∈ (s :: sits).map (·.2.1) ++ [last], x ≠ [] ∧ last.length ≤ 8 * ((x.length + 7) / 8) := by
          intro x hx
          rcases List.mem_append.1 hx with hx | hx
          · obtain ⟨s', hs', rfl⟩ := List.mem_map.1 hx
            have hne' : s'.2.1 ≠ [] := by
              rcases List.mem_cons.1 hs' with rfl | hs'
              · exact h0
              · exact hne _ (List.mem_append_left _ (List.mem_map_of_mem hs'))
            exact ⟨hne', (hlen s' hs').resolve_left hne'⟩
          · rw [List.mem_singleton.1 hx]
            exact ⟨hne last (by simp), by omega⟩
        have hle : ∀ y ∈ (s :: sits).map (·.2.1) ++ [last], y.length ≤ last.length := by
          intro y hy
          rcases List.mem_append.1 hy with hy' | hy'
          · exact le ((List.pairwise_append.1 hg).2.2 y hy' last (by simp))
          · rw [List.mem_singleton.1 hy']
        refine List.Pairwise.imp_of_mem ?_ hg
        intro x y hx hy hxy
        exact ⟨hxy, Nat.le_trans (hle y hy) (hall x hx).2⟩
      · intro s' hs'
        rcases List.mem_cons.1 hs' with rfl | hs'
        · exact h0
        · exact hne _ (List.mem_append_left _ (List.mem_map_of_mem hs'))

/-! ## What a reader finds at a moment -/

section
variable {w : Job} {ls : List (List Piece)} {n : Nat} {flt : Option PartitionFilter} {subs : List (List Str)}
  {S : DateTime → Prop}

/-- What has been sent to a place. -/
abbrev sentTo (ls : List (List Piece)) (t : DateTime) (sb : List Str) (ids : List Str) (store : List (Str × Writer.Stored)) :
    List Sent := (ids.zip (handed store)).filter (fun x => fold x.2.1 = folderOf ls t ++ sb)

theorem sentTo_bytes {sb : List Str} {chosen : List (List Str)} (hy : Layout w ls n flt subs chosen) (hsb : sb ∈ subs)
    (hS : ∀ t, S t → Day t) {t : DateTime} (ht : Day t)
    (store : List (Str × Writer.Stored)) (hgo : ∀ x ∈ handed store, Goes ls subs S x.1)
    (ids : List Str) (hlen : (handed store).length ≤ ids.length) :
    (sentTo ls t sb ids store).map (fun x => x.2.2) = blobsAt store (place ls t sb) := by
  have e1 : sentTo ls t sb ids store
      = (ids.zip (handed store)).filter ((fun x : Str × Mabel.Disk.Bytes => x.1 == place ls t sb) ∘ (·.2)) := by
    apply List.filter_congr
    intro x hx
    have := fold_place hS hy (hgo _ (List.of_mem_zip hx).2) ht hsb
    simp only [Function.comp]
    by_cases h : fold x.2.1 = folderOf ls t ++ sb
    · rw [decide_eq_true h, this.1 h]; simp
    · rw [decide_eq_false h]
      symm
      rw [beq_eq_false_iff_ne]
      exact fun h' => h (this.2 h')
  rw [e1, blobsAt_handed]
  conv_rhs => rw [← zip_snd ids (handed store) hlen]
  rw [List.filter_map, List.map_map]
  rfl

theorem sentTo_grows {a b : List (Str × Writer.Stored)} (hab : a <+: b) (t : DateTime) (sb : List Str) (ids : List Str) :
    sentTo ls t sb ids a <+: sentTo ls t sb ids b := by
  obtain ⟨m, hm⟩ : ∃ m, handed a = (handed b).take m := ⟨_, List.prefix_iff_eq_take.1 (handed_prefix hab)⟩
  unfold sentTo
  rw [hm, zip_take_right]
  exact (List.take_prefix _ _).filter _

/-- All that is stored has been written: a reader of one day, with one folder of it, finds the blobs sent there. -/
theorem moment {sb : List Str} (hw : Daily w ls) (hy : Layout w ls n flt subs [sb]) (s : Setup) (hsf : s.format = w.format)
    (hS : ∀ t, S t → Day t) {t : DateTime} (ht : S t) (d : Disk) (hd : ∀ t, S t → Fresh (folderOf ls t) d) (hnd : d.names.Nodup)
    (store : List (Str × Writer.Stored)) (hgo : ∀ x ∈ handed store, Goes ls subs S x.1)
    (ids : List Str) (hids : ∀ i ∈ ids, Id i) (hord : ids.Pairwise Before) (prefixes : List Str)
    (hallow : Reader.allowed prefixes w.dataset = true) :
    ∃ ops d', diskOps s ids store = .ok ops ∧ exec d ops = .ok d' ∧
      (∀ now rnd, Reader.openReader (rangeReader w t t prefixes flt) now rnd (diskBlobsAt d'.names)
        = if (sentTo ls t sb ids store).map (nameFor w.format) = [] then .error .dataNotFound
          else .ok (0, (sentTo ls t sb ids store).map (nameFor w.format))) ∧
      ((sentTo ls t sb ids store).map (nameFor w.format)).Pairwise (fun x y => x < y) ∧
      Names ((sentTo ls t sb ids store).map (nameFor w.format)) ∧
      ∀ x ∈ sentTo ls t sb ids store, Disk.read d' (nameFor w.format x) = .ok x.2.2 ∧ BlobName w.format (nameFor w.format x) := by
  have hT : ∀ x ∈ handed store, Target x.1 := fun x hx => (goes_fold hy hS (hgo x hx)).1
  let z : List Sent := ids.zip (handed store)
  have hz1 : ∀ x ∈ z, x.2 ∈ handed store ∧ x.1 ∈ ids := fun x hx => ⟨(List.of_mem_zip hx).2, (List.of_mem_zip hx).1⟩
  have hzgo : ∀ x ∈ z, Goes ls subs S x.2.1 := fun x hx => hgo _ (hz1 x hx).1
  have hzid : ∀ x ∈ z, Id x.1 := fun x hx => hids _ (hz1 x hx).2
  have hzT : ∀ x ∈ z, Target x.2.1 := fun x hx => hT _ (hz1 x hx).1
  have hzord : z.Pairwise (fun x y => Before x.1 y.1) := by
    have : (z.map (·.1)).Pairwise Before := by
      refine hord.sublist ?_
      show ((ids.zip (handed store)).map (·.1)).Sublist ids
      exact zip_fst_sublist _ _
    rw [List.pairwise_map] at this
    exact this
  obtain ⟨j, d', hj, he, hfiles, -, -, hm, -⟩ := stored_files hy hS hd hzgo hzord ((z.map (put w.format)).flatMap Put.ops).length
  obtain ⟨hzj, hfull⟩ := hm z.length (Nat.le_refl _) (by rw [List.take_length])
  rw [List.take_of_length_le hzj] at hfiles
  rw [List.take_length] at he hfull
  have hn' : d'.names.Nodup := exec_nodup he hnd
  have hdays : DaysOf t t [t] := by
    refine ⟨fun u => ?_, by simp⟩
    rw [List.mem_singleton]
    constructor
    · rintro rfl; exact ⟨hS _ ht, Nat.le_refl _, Nat.le_refl _⟩
    · rintro ⟨hu, h1, h2⟩
      exact hu.eq_of_seconds (hS _ ht) (by omega)
  have hlist : DayList w ls d'.names t (([sb] : List (List Str)).flatMap fun sb =>
      (z.filter (fun x => fold x.2.1 = folderOf ls t ++ sb)).map (nameFor w.format)) flt :=
    day_list hw hy hS (hS t ht) (hd t ht) hzgo hzid hzord hn' hfiles
  rw [List.flatMap_cons, List.flatMap_nil, List.append_nil] at hlist
  have key := fun now rnd => range_open (ρ := Unit) hw (hS t ht) (hS t ht) (Nat.le_refl _) hdays d'
    (fun _ => (sentTo ls t sb ids store).map (nameFor w.format))
    (fun u hu => by rw [List.mem_singleton.1 hu]; exact hlist) now rnd prefixes hallow
  simp only [List.flatMap_cons, List.flatMap_nil, List.append_nil] at key
  refine ⟨_, d', diskOps_puts hT hids, by rw [hsf]; exact he, fun now rnd => (key now rnd).1, hlist.order, (key t []).2.1, ?_⟩
  intro x hx
  have hx := (List.mem_filter.1 hx).1
  refine ⟨?_, name_blob (hzT x hx) (hzid x hx)⟩
  unfold Disk.read
  rw [put_path_parse (hzT x hx).folders (hzid x hx), if_pos, hfull x hx]
  exact List.contains_iff_mem.2 ((hfiles _).2 (Or.inr ⟨x, hx, rfl⟩))

end

end Mabel.StreamStorage
