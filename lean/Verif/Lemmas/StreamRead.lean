import Verif.Lemmas.StreamStorage
import Verif.Spec.StreamStorage

/-!
# What is read of what a stream writer has stored
-/

namespace Mabel.StreamStorage
open Mabel.Py Mabel.Paths Mabel.Naming Mabel.Spec Mabel.Listing Mabel.EndToEnd Mabel.Dates Mabel.History
open Mabel.Blobs (Lib Faithful Torn delivered Item readBlob Names formatOf BlobName)
open Mabel.WriterInit (Folders Nested)
open Mabel.Stream.Spec (blobsAt routed)
open Mabel.Disk hiding Bytes
variable {ρ β : Type}

theorem name_blob {format : Str} {x : Sent} (hT : Target x.2.1) (hi : Id x.1) : BlobName format (nameFor format x) := by
  refine ⟨join ['/'] (fold x.2.1), x.1, rfl, hi.2, hex_not hi.1 (by decide), hex_not hi.1 (by decide), ?_⟩
  have hf := hT.folders
  rw [split_join hf.ne (fun p hp => (hf.comp p hp).2.2)]
  obtain ⟨c, hc⟩ := List.exists_mem_of_ne_nil _ hf.ne
  exact ⟨c, hc, (hf.comp c hc).1, (hf.comp c hc).2.1⟩

/-- Reading blobs of which the last may be torn. -/
theorem read_torn {codec : Writer.Codec ρ} {lib : Lib ρ} {fmt : Str} (hfmt : fmt ≠ "text".toList) {records : List ρ}
    (hl : Faithful codec lib records) (ht : Torn codec lib records) (htr : ∀ r ∈ records, lib.truthy r = true)
    (rd : Str → Except Err Mabel.Blobs.Bytes) (content : Sent → Mabel.Blobs.Bytes) (l : List Sent) (gs : List (List ρ))
    (hpre : l.map (fun x => x.2.2) <+: gs.map (Writer.Spec.encode codec (formatOf fmt))) (hgs : gs.flatten ⊆ records)
    (hbn : ∀ x ∈ l, BlobName fmt (nameFor fmt x)) (hrd : ∀ x ∈ l, rd (nameFor fmt x) = .ok (content x))
    (hlast : ∀ x ∈ l.dropLast, content x = x.2.2) (hc : ∀ x ∈ l, content x <+: x.2.2) :
    ∃ rows, rows <+: gs.flatten ∧
      (l.map (nameFor fmt)).flatMap (fun n => readBlob lib {} n (rd n)) = rows.map .row := by
  induction l generalizing gs with
  | nil => exact ⟨[], List.nil_prefix, rfl⟩
  | cons x l ih =>
    cases gs with
    | nil => simp at hpre
    | cons g gs =>
      rw [List.map_cons, List.map_cons, List.cons_prefix_cons] at hpre
      obtain ⟨hx, hpre⟩ := hpre
      have hg : g ⊆ records := fun r hr => hgs (by rw [List.flatten_cons]; exact List.mem_append_left _ hr)
      have hgs' : gs.flatten ⊆ records := fun r hr => hgs (by rw [List.flatten_cons]; exact List.mem_append_right _ hr)
      cases l with
      | nil =>
        obtain ⟨rows, h1, h2⟩ := Mabel.Blobs.torn_read codec lib fmt _ hfmt (hbn x (by simp)) g (hl.mono hg) (ht.mono hg)
          (c := content x) (by rw [← hx]; exact hc x (by simp))
        refine ⟨rows, h1.trans (by rw [List.flatten_cons]; exact List.prefix_append _ _), ?_⟩
        rw [List.map_cons, List.flatMap_cons, hrd x (by simp), h2]
        rw [List.filter_eq_self.2 (fun r hr => htr r (hg (h1.subset hr)))]
        simp
      | cons y l =>
        obtain ⟨rows, h1, h2⟩ := ih gs hpre hgs' (fun x hx => hbn x (by simp [hx])) (fun x hx => hrd x (by simp [hx]))
          (fun x hx => hlast x (by simp [hx])) (fun x hx => hc x (by simp [hx]))
        refine ⟨g ++ rows, by rw [List.flatten_cons]; exact (List.prefix_append_right_inj g).2 h1, ?_⟩
        rw [List.map_cons, List.flatMap_cons, h2, hrd x (by simp), hlast x (by simp), hx,
          Mabel.Blobs.C25_blob_round_trip codec lib fmt _ hfmt (hbn x (by simp)) g (hl.mono hg),
          List.filter_eq_self.2 (fun r hr => htr r (hg hr))]
        simp

/-- Reading blobs that are complete. -/
theorem read_full {codec : Writer.Codec ρ} {lib : Lib ρ} {fmt : Str} (hfmt : fmt ≠ "text".toList) {records : List ρ}
    (hl : Faithful codec lib records) (htr : ∀ r ∈ records, lib.truthy r = true)
    (rd : Str → Except Err Mabel.Blobs.Bytes) (l : List Sent) (gs : List (List ρ))
    (hpre : l.map (fun x => x.2.2) = gs.map (Writer.Spec.encode codec (formatOf fmt))) (hgs : gs.flatten ⊆ records)
    (hbn : ∀ x ∈ l, BlobName fmt (nameFor fmt x)) (hrd : ∀ x ∈ l, rd (nameFor fmt x) = .ok x.2.2) :
    (l.map (nameFor fmt)).flatMap (fun n => readBlob lib {} n (rd n)) = gs.flatten.map .row := by
  induction l generalizing gs with
  | nil =>
    have : gs = [] := by simpa using hpre.symm
    subst this
    rfl
  | cons x l ih =>
    cases gs with
    | nil => simp at hpre
    | cons g gs =>
      rw [List.map_cons, List.map_cons, List.cons.injEq] at hpre
      obtain ⟨hx, hpre⟩ := hpre
      have hg : g ⊆ records := fun r hr => hgs (by rw [List.flatten_cons]; exact List.mem_append_left _ hr)
      have hgs' : gs.flatten ⊆ records := fun r hr => hgs (by rw [List.flatten_cons]; exact List.mem_append_right _ hr)
      rw [List.map_cons, List.flatMap_cons, ih gs hpre hgs' (fun x hx => hbn x (by simp [hx]))
        (fun x hx => hrd x (by simp [hx])), hrd x (by simp), hx,
        Mabel.Blobs.C25_blob_round_trip codec lib fmt _ hfmt (hbn x (by simp)) g (hl.mono hg),
        List.filter_eq_self.2 (fun r hr => htr r (hg hr))]
      simp

theorem dropLast_filter_take {α : Type} (p : α → Bool) (z : List α) (j : Nat) :
    ∀ x ∈ ((z.take j).filter p).dropLast, x ∈ z.take (j - 1) := by
  intro x hx
  cases j with
  | zero => simp at hx
  | succ j =>
    simp only [Nat.add_sub_cancel]
    rw [List.take_add, List.filter_append] at hx
    have hone : ((z.drop j).take 1).filter p = [] ∨ ∃ y, ((z.drop j).take 1).filter p = [y] := by
      cases z.drop j with
      | nil => simp
      | cons y ys =>
        by_cases hy : p y = true
        · right; exact ⟨y, by simp [hy]⟩
        · left; simp [hy]
    rcases hone with h | ⟨y, h⟩
    · rw [h, List.append_nil] at hx
      exact (List.mem_filter.1 (List.dropLast_subset _ hx)).1
    · rw [h, List.dropLast_concat] at hx
      exact (List.mem_filter.1 hx).1

theorem blobsAt_handed (store : List (Str × Writer.Stored)) (target : Str) :
    blobsAt store target = ((handed store).filter (fun x => x.1 == target)).map (·.2) := by
  unfold blobsAt Writer.Spec.dataBlobs handed
  induction store with
  | nil => rfl
  | cons x store ih =>
    obtain ⟨t, s⟩ := x
    cases s with
    | data b =>
      by_cases h : t == target
      · simp only [List.filter_cons, h, if_true, List.map_cons, List.filterMap_cons]
        simpa using ih
      · simp only [List.filter_cons, h, List.filterMap_cons]
        simpa using ih
    | complete =>
      by_cases h : t == target
      · simp only [List.filter_cons, h, if_true, List.map_cons, List.filterMap_cons]
        simpa using ih
      · simp only [List.filter_cons, h, List.filterMap_cons]
        simpa using ih

theorem zip_take_right {α γ : Type} (a : List α) (b : List γ) (m : Nat) : a.zip (b.take m) = (a.zip b).take m := by
  induction b generalizing a m with
  | nil => simp
  | cons x b ih =>
    cases m with
    | zero => simp
    | succ m =>
      cases a with
      | nil => simp
      | cons y a => simp [ih]

theorem zip_take_left {α γ : Type} (a : List α) (b : List γ) (m : Nat) : (a.take m).zip b = (a.zip b).take m := by
  induction a generalizing b m with
  | nil => simp
  | cons x a ih =>
    cases m with
    | zero => simp
    | succ m =>
      cases b with
      | nil => simp
      | cons y b => simp [ih]

theorem zip_fst_sublist {α γ : Type} (a : List α) (b : List γ) : ((a.zip b).map (·.1)).Sublist a := by
  induction a generalizing b with
  | nil => simp
  | cons x a ih =>
    cases b with
    | nil => simp
    | cons y b => simpa using ih b

theorem zip_snd {α γ : Type} (a : List α) (b : List γ) (h : b.length ≤ a.length) : (a.zip b).map (·.2) = b := by
  rw [List.map_snd_zip h]

theorem handed_prefix {a b : List (Str × Writer.Stored)} (h : a <+: b) : handed a <+: handed b := by
  obtain ⟨c, rfl⟩ := h
  unfold handed
  rw [List.filterMap_append]
  exact List.prefix_append _ _

section
variable {w : Job} {ls : List (List Piece)} {n : Nat} {flt : Option PartitionFilter} {subs chosen : List (List Str)}
  {S : DateTime → Prop}

/-- What is for a place. -/
theorem fold_place (hS : ∀ t, S t → Day t) (hy : Layout w ls n flt subs chosen) {target : Str} (h : Goes ls subs S target)
    {t : DateTime} {sb : List Str} (ht : Day t) (hsb : sb ∈ subs) :
    fold target = folderOf ls t ++ sb ↔ target = place ls t sb := by
  obtain ⟨t', hS, more, h1, h2⟩ := goes_beneath hy hS h
  constructor
  · intro e
    rcases h2 with ⟨h2, h3⟩ | ⟨sb', h2, rfl⟩
    · rw [h3, place, ← h1, e]; rfl
    · have := congrArg List.length (h1.symm.trans e)
      simp only [List.length_append, folderOf_length, hy.len _ hsb, hy.len _ h2, List.length_cons, List.length_nil] at this
      omega
  · intro e
    have hf := hy.folders t ht sb hsb
    unfold fold
    rw [e, place, parse_join hf.ne hf.comp]

/-- The disk has taken just the steps for some number of blobs. -/
def AtBlob (s : Setup) (ids : List Str) (store : List (Str × Writer.Stored)) (k : Nat) : Prop :=
  ∃ i, ∀ ops, diskOps s (ids.take i) store = .ok ops → k = ops.length

/-- **The core.**  What the pool has handed over is put on the disk, and the days are read after any step. -/
theorem stream_core (hw : Daily w ls) (hfmt : w.format ≠ "text".toList) (hy : Layout w ls n flt subs chosen)
    (s : Setup) (hsf : s.format = w.format) (codec : Writer.Codec ρ)
    {first last : DateTime} (hf : Day first) (hl : Day last) (hle : first.seconds ≤ last.seconds)
    {days : List DateTime} (hdays : DaysOf first last days)
    (hS : ∀ t, S t → Day t) (hSd : ∀ t ∈ days, S t) (d : Disk) (hd : ∀ t, S t → Fresh (folderOf ls t) d)
    (hnd : d.names.Nodup)
    (store : List (Str × Writer.Stored)) (hgo : ∀ x ∈ handed store, Goes ls subs S x.1)
    (ids : List Str) (hlen : (handed store).length ≤ ids.length) (hids : ∀ i ∈ ids, Id i)
    (hord : ids.Pairwise Before)
    (R : Str → List ρ) (hR : ∀ T, Writer.Spec.Holds codec (formatOf w.format) (blobsAt store T) (R T))
    (records : List ρ) (hrec : ∀ T, R T ⊆ records) (lib : Lib ρ) (hlib : Faithful codec lib records)
    (htr : ∀ r ∈ records, lib.truthy r = true) (k : Nat)
    (htorn : Torn codec lib records ∨ AtBlob s ids store k)
    (now : DateTime) (rnd : Str) (prefixes : List Str) (hallow : Reader.allowed prefixes w.dataset = true)
    (hash : Str → Nat) :
    ∃ (d' : Disk) (rows : DateTime → List Str → List ρ), onDisk s ids d store k = .ok d' ∧
      (∀ t ∈ days, ∀ sb ∈ chosen, rows t sb <+: R (place ls t sb)) ∧
      (∀ (S1 : List (Str × Writer.Stored)) (R1 : Str → List ρ), S1 <+: store → (∀ T, R1 T ⊆ records) →
        (∀ T, Writer.Spec.Holds codec (formatOf w.format) (blobsAt S1 T) (R1 T)) →
        Written s ids S1 k → ∀ t ∈ days, ∀ sb ∈ chosen, R1 (place ls t sb) <+: rows t sb) ∧
      ((∀ t ∈ days, ∀ sb ∈ chosen, R (place ls t sb) = []) →
        Reader.openReader (rangeReader w first last prefixes flt) now rnd (diskBlobsAt d'.names) = .error .dataNotFound) ∧
      ((Reader.openReader (rangeReader w first last prefixes flt) now rnd (diskBlobsAt d'.names) = .error .dataNotFound ∧
          ∀ t ∈ days, ∀ sb ∈ chosen, rows t sb = []) ∨
        ∃ l, Reader.openReader (rangeReader w first last prefixes flt) now rnd (diskBlobsAt d'.names) = .ok (0, l) ∧ Names l ∧
          delivered hash lib {} (read d') l = (days.flatMap fun t => chosen.flatMap (rows t)).map .row) := by
  have hT : ∀ x ∈ handed store, Target x.1 := fun x hx => (goes_fold hy hS (hgo x hx)).1
  let z : List Sent := ids.zip (handed store)
  have hz1 : ∀ x ∈ z, x.2 ∈ handed store ∧ x.1 ∈ ids := fun x hx => ⟨(List.of_mem_zip hx).2, (List.of_mem_zip hx).1⟩
  have hzgo : ∀ x ∈ z, Goes ls subs S x.2.1 := fun x hx => hgo _ (hz1 x hx).1
  have hzid : ∀ x ∈ z, Id x.1 := fun x hx => hids _ (hz1 x hx).2
  have hzT : ∀ x ∈ z, Target x.2.1 := fun x hx => hT _ (hz1 x hx).1
  have hzord : z.Pairwise (fun x y => Before x.1 y.1) := by
    have : (z.map (·.1)).Pairwise Before := by
      refine hord.sublist ?_
      show ((ids.zip (handed store)).map (·.1)).Sublist ids
      exact zip_fst_sublist _ _
    rw [List.pairwise_map] at this
    exact this
  obtain ⟨j, d', hj, he, hfiles, hfull, hpart, hm, hmin⟩ := stored_files hy hS hd hzgo hzord k
  have hon : onDisk s ids d store k = .ok d' := by
    unfold onDisk
    rw [diskOps_puts hT hids, hsf]
    exact he
  have hsub : ∀ n, ∀ x ∈ z.take n, x ∈ z := fun n x hx => List.mem_of_mem_take hx
  have hn' : d'.names.Nodup := exec_nodup he hnd
  have hwhole : AtBlob s ids store k → ∀ x ∈ z.take j, d'.content (put w.format x).path = x.2.2 := by
    rintro ⟨i, hi⟩
    have hzi : (ids.take i).zip (handed store) = z.take (min i z.length) := by
      rw [zip_take_left]
      show z.take i = _
      by_cases h : i ≤ z.length
      · rw [Nat.min_eq_left h]
      · rw [Nat.min_eq_right (by omega), List.take_length, List.take_of_length_le (by omega)]
    have hk := hi _ (diskOps_puts hT (fun x hx => hids x (List.mem_of_mem_take hx)))
    rw [hzi, hsf] at hk
    have h1 := hm (min i z.length) (Nat.min_le_right _ _) (Nat.le_of_eq hk.symm)
    have h2 := hmin (min i z.length) (Nat.le_of_eq hk)
    have : j = min i z.length := Nat.le_antisymm h2 h1.1
    rw [this]
    exact h1.2
  -- the listing
  let names : DateTime → List Str := fun t => chosen.flatMap fun sb =>
    ((z.take j).filter (fun x => fold x.2.1 = folderOf ls t ++ sb)).map (nameFor w.format)
  have hlist : ∀ t ∈ days, DayList w ls d'.names t (names t) flt := by
    intro t ht
    exact day_list hw hy hS ((hdays.mem t).1 ht).1 (hd t (hSd t ht)) (fun x hx => hzgo x (hsub j x hx))
      (fun x hx => hzid x (hsub j x hx)) (hzord.sublist (List.take_sublist _ _)) hn' hfiles
  obtain ⟨hopen, hnm, hdel⟩ := range_open (ρ := ρ) hw hf hl hle hdays d' names hlist now rnd prefixes hallow
  -- the blobs of a place
  have hbytes : ∀ t ∈ days, ∀ sb ∈ chosen, ∀ m, ((z.take m).filter (fun x => fold x.2.1 = folderOf ls t ++ sb)).map
      (fun x => x.2.2) = (((handed store).take m).filter (fun x => x.1 == place ls t sb)).map (·.2) := by
    intro t ht sb hsb m
    have e1 : (z.take m).filter (fun x => fold x.2.1 = folderOf ls t ++ sb)
        = (z.take m).filter ((fun x : Str × Mabel.Disk.Bytes => x.1 == place ls t sb) ∘ (·.2)) := by
      apply List.filter_congr
      intro x hx
      have := fold_place hS hy (hzgo x (hsub m x hx)) ((hdays.mem t).1 ht).1 (hy.among sb hsb)
      simp only [Function.comp]
      by_cases h : fold x.2.1 = folderOf ls t ++ sb
      · rw [decide_eq_true h, this.1 h]; simp
      · rw [decide_eq_false h]
        symm
        rw [beq_eq_false_iff_ne]
        exact fun h' => h (this.2 h')
    have e2 : (z.take m).map (·.2) = (handed store).take m := by
      rw [List.map_take]
      show (List.map (·.2) (ids.zip (handed store))).take m = _
      rw [zip_snd _ _ hlen]
    rw [e1, ← e2, List.filter_map, List.map_map]
    rfl
  have hread : ∀ x ∈ z.take j, read d' (nameFor w.format x) = .ok (d'.content (put w.format x).path) := by
    intro x hx
    unfold Disk.read
    rw [put_path_parse (hzT x (hsub j x hx)).folders (hzid x (hsub j x hx)), if_pos]
    exact List.contains_iff_mem.2 ((hfiles _).2 (Or.inr ⟨x, hx, rfl⟩))
  have hbn : ∀ x ∈ z, BlobName w.format (nameFor w.format x) := fun x hx => name_blob (hzT x hx) (hzid x hx)
  -- the rows of a place
  have hrow : ∀ t sb, ∃ rows : List ρ, t ∈ days → sb ∈ chosen → rows <+: R (place ls t sb) ∧
      (((z.take j).filter (fun x => fold x.2.1 = folderOf ls t ++ sb)).map (nameFor w.format)).flatMap
        (fun n => readBlob lib {} n (read d' n)) = rows.map .row := by
    intro t sb
    by_cases hmem : t ∈ days ∧ sb ∈ chosen
    · obtain ⟨ht, hsb⟩ := hmem
      obtain ⟨gs, k1, k2, -⟩ := hR (place ls t sb)
      obtain htorn | hat := htorn
      swap
      · have hpre : ((z.take j).filter (fun x => fold x.2.1 = folderOf ls t ++ sb)).map (fun x => x.2.2)
            <+: gs.map (Writer.Spec.encode codec (formatOf w.format)) := by
          rw [hbytes t ht sb hsb j, ← k1, blobsAt_handed]
          exact ((List.take_prefix _ _).filter _).map _
        have hcut := List.prefix_iff_eq_take.1 hpre
        rw [← List.map_take] at hcut
        generalize (((z.take j).filter (fun x => fold x.2.1 = folderOf ls t ++ sb)).map (fun x => x.2.2)).length = p at hcut
        have hpg : (gs.take p).flatten <+: gs.flatten := by
          conv_rhs => rw [← List.take_append_drop p gs]
          rw [List.flatten_append]
          exact List.prefix_append _ _
        refine ⟨_, fun _ _ => ⟨by rw [← k2]; exact hpg, read_full hfmt hlib htr (read d') _ _ hcut ?_ ?_ ?_⟩⟩
        · intro r hr
          exact hrec (place ls t sb) (by rw [← k2]; exact hpg.subset hr)
        · exact fun x hx => hbn x (hsub j x (List.mem_filter.1 hx).1)
        · intro x hx
          rw [hread x (List.mem_filter.1 hx).1, hwhole hat x (List.mem_filter.1 hx).1]
      obtain ⟨rows, r1, r2⟩ := read_torn hfmt hlib htorn htr (read d') (fun x => d'.content (put w.format x).path)
        ((z.take j).filter (fun x => fold x.2.1 = folderOf ls t ++ sb)) gs
        (by
          rw [hbytes t ht sb hsb j, ← k1, blobsAt_handed]
          exact ((List.take_prefix _ _).filter _).map _)
        (by rw [k2]; exact hrec _)
        (fun x hx => hbn x (hsub j x (List.mem_filter.1 hx).1))
        (fun x hx => hread x (List.mem_filter.1 hx).1)
        (fun x hx => hfull x (dropLast_filter_take _ _ _ x hx))
        (fun x hx => hpart x (List.mem_filter.1 hx).1)
      exact ⟨rows, fun _ _ => ⟨by rw [← k2]; exact r1, r2⟩⟩
    · exact ⟨[], fun h1 h2 => absurd ⟨h1, h2⟩ hmem⟩
  choose rows hrows using hrow
  have hdelivers : ∀ t ∈ days, (names t).flatMap (fun n => readBlob lib {} n (read d' n))
      = (chosen.flatMap (rows t)).map .row := by
    intro t ht
    simp only [names]
    rw [List.flatMap_assoc, List.map_flatMap]
    apply List.flatMap_congr
    intro sb hsb
    exact (hrows t sb ht hsb).2
  refine ⟨d', rows, hon, fun t ht sb hsb => (hrows t sb ht hsb).1, ?_, ?_, ?_⟩
  · intro S1 R1 hpre hrec1 hH1 hk t ht sb hsb
    obtain ⟨m, hm1⟩ : ∃ m, handed S1 = (handed store).take m := ⟨_, (List.prefix_iff_eq_take.1 (handed_prefix hpre))⟩
    have hS1 : ids.zip (handed S1) = z.take m := by rw [hm1, zip_take_right]
    have hmz : ∃ m' ≤ z.length, z.take m = z.take m' ∧ (handed store).take m = (handed store).take m' := by
      by_cases hmm : m ≤ z.length
      · exact ⟨m, hmm, rfl, rfl⟩
      · have hzl : z.length = (handed store).length := by
          show (ids.zip (handed store)).length = _
          rw [List.length_zip]; omega
        exact ⟨z.length, Nat.le_refl _, by rw [List.take_of_length_le (by omega), List.take_of_length_le (Nat.le_refl _)],
          by rw [List.take_of_length_le (by omega), List.take_of_length_le (by omega)]⟩
    obtain ⟨m', hm', e1, e2⟩ := hmz
    have hops : diskOps s ids S1 = .ok (((z.take m').map (put w.format)).flatMap Put.ops) := by
      rw [diskOps_puts (fun x hx => hT x ((handed_prefix hpre).subset hx)) hids, hS1, e1, hsf]
    have hk := hk _ hops
    obtain ⟨hmj, hcomp⟩ := hm m' hm' hk
    obtain ⟨gs, k1, k2, -⟩ := hH1 (place ls t sb)
    have hfull1 := read_full hfmt hlib htr (read d')
      ((z.take m').filter (fun x => fold x.2.1 = folderOf ls t ++ sb)) gs
      (by rw [hbytes t ht sb hsb m', ← k1, blobsAt_handed, hm1, e2])
      (by rw [k2]; exact hrec1 _)
      (fun x hx => hbn x (hsub m' x (List.mem_filter.1 hx).1))
      (fun x hx => by
        have hx' := (List.mem_filter.1 hx).1
        rw [hread x (List.take_subset_take_left _ hmj hx'), hcomp x hx'])
    obtain ⟨q, hq⟩ : (z.take m').filter (fun x => fold x.2.1 = folderOf ls t ++ sb) <+:
        (z.take j).filter (fun x => fold x.2.1 = folderOf ls t ++ sb) :=
      (List.take_prefix_take_left hmj).filter _
    have hall := (hrows t sb ht hsb).2
    rw [← hq, List.map_append, List.flatMap_append, hfull1, k2] at hall
    have hinj : ∀ a b : ρ, Item.row a = Item.row b → a = b := fun a b h => by cases h; rfl
    have hmap : (R1 (place ls t sb)).map Item.row <+: (rows t sb).map Item.row := by rw [← hall]; exact List.prefix_append _ _
    have := List.prefix_iff_eq_take.1 hmap
    rw [← List.map_take] at this
    have := List.map_injective_iff.2 (fun a b h => hinj a b h) this
    rw [this]
    exact List.take_prefix _ _
  · intro hnone
    rw [hopen, if_pos]
    rw [List.flatMap_eq_nil_iff]
    intro t ht
    simp only [names]
    rw [List.flatMap_eq_nil_iff]
    intro sb hsb
    obtain ⟨gs, k1, k2, k3⟩ := hR (place ls t sb)
    have hgs : gs = [] := by
      cases gs with
      | nil => rfl
      | cons g gs =>
        exfalso
        rw [hnone t ht sb hsb, List.flatten_cons] at k2
        exact k3 g (by simp) (List.append_eq_nil_iff.1 k2).1
    rw [hgs, blobsAt_handed] at k1
    have hb := hbytes t ht sb hsb j
    rw [List.map_eq_nil_iff]
    have : ((handed store).take j).filter (fun x => x.1 == place ls t sb) = [] := by
      rw [List.filter_eq_nil_iff]
      intro x hx hc
      have hx' : x ∈ (handed store).filter (fun x => x.1 == place ls t sb) :=
        List.mem_filter.2 ⟨List.mem_of_mem_take hx, hc⟩
      rw [List.map_eq_nil_iff.1 k1] at hx'
      cases hx'
    rw [this, List.map_nil, List.map_eq_nil_iff] at hb
    exact hb
  · by_cases hempty : days.flatMap names = []
    · left
      refine ⟨by rw [hopen, if_pos hempty], ?_⟩
      intro t ht sb hsb
      have h1 := hdelivers t ht
      rw [List.flatMap_eq_nil_iff.1 hempty t ht] at h1
      have h2 : chosen.flatMap (rows t) = [] := by
        simpa using h1.symm
      exact List.flatMap_eq_nil_iff.1 h2 sb hsb
    · right
      refine ⟨days.flatMap names, by rw [hopen, if_neg hempty], hnm, ?_⟩
      rw [hdel, List.map_flatMap]
      exact List.flatMap_congr hdelivers

end

end Mabel.StreamStorage
