import Verif.Model.CloudStream
import Verif.Lemmas.SameBlobs
import Verif.Lemmas.StreamReach

/-!
# Stream writers on object storage and on a disk side by side
-/

namespace Mabel.CloudStream
open Mabel.Py Mabel.Paths Mabel.Naming Mabel.Spec Mabel.Listing Mabel.ObjectStore Mabel.Cloud
open Mabel.StreamStorage hiding put
open Mabel.History (Day Daily folderOf DaysOf rangeReader Fresh)
open Mabel.Blobs (Lib delivered Item readBlob Names)
open Mabel.WriterInit (Folders)
open Mabel.Disk (Disk exec read Put)
variable {ρ : Type}

/-! ## The object of a blob -/

/-- The object under which a blob is stored. -/
def objOf (format : Str) (x : Sent) : Obj Disk.Bytes :=
  ⟨(fold x.2.1).headD [], join ['/'] ((fold x.2.1).tail ++ [x.1 ++ extension format]), x.2.2⟩

section
variable {format : Str} {x : Sent}

theorem obj_split (h : Folders (fold x.2.1)) :
    ∃ b c cs, fold x.2.1 = b :: c :: cs := by
  have := h.two
  match e : fold x.2.1, this with
  | b :: c :: cs, _ => exact ⟨b, c, cs, rfl⟩

theorem obj_tidy (h : Folders (fold x.2.1)) (hi : Id x.1) :
    Comp (objOf format x).bucket ∧ ∃ cs, cs ≠ [] ∧ (∀ c ∈ cs, Comp c) ∧ (objOf format x).name = join ['/'] cs := by
  obtain ⟨b, c, cs, e⟩ := obj_split h
  refine ⟨?_, (c :: cs) ++ [x.1 ++ extension format], by simp, ?_, by simp only [objOf, e, List.tail_cons]⟩
  · simp only [objOf, e, List.headD_cons]
    exact h.comp b (by rw [e]; simp)
  · intro f hf
    rcases List.mem_append.1 hf with hf | hf
    · exact h.comp f (by rw [e]; exact List.mem_cons_of_mem _ hf)
    · rw [List.mem_singleton.1 hf]
      exact name_comp hi

theorem obj_path (h : Folders (fold x.2.1)) :
    (objOf format x).bucket ++ '/' :: (objOf format x).name = nameFor format x := by
  obtain ⟨b, c, cs, e⟩ := obj_split h
  simp only [objOf, nameFor, e, List.tail_cons, List.headD_cons]
  rw [← join_snoc _ _ (by simp), List.cons_append, List.cons_append, join_cons b _ (by simp)]
  rfl

theorem obj_file (h : Folders (fold x.2.1)) (hi : Id x.1) : (objOf format x).file = (StreamStorage.put format x).path := by
  unfold Obj.file
  rw [obj_path h, put_path_parse h hi]

theorem obj_slash (h : Folders (fold x.2.1)) (hi : Id x.1) : endsWith ['/'] (objOf format x).name = false := by
  obtain ⟨-, cs, h1, h2, e⟩ := obj_tidy (format := format) h hi
  rw [e]
  exact join_last h2 h1

theorem obj_fetchable (h : Folders (fold x.2.1)) (hi : Id x.1) : Fetchable (objOf format x) := by
  obtain ⟨b, c, cs, e⟩ := obj_split h
  obtain ⟨a, ex, hext, he, hd, hs1, hs2⟩ := extension_parts format
  have hparts := C52_parts_file b (c :: cs) (x.1 ++ a) ex (h.comp b (by rw [e]; simp))
    (fun f hf => h.comp f (by rw [e]; exact List.mem_cons_of_mem _ hf)) (by simp) (by simp [hi.2])
    (by
      rw [List.mem_append, not_or]
      exact ⟨hex_not hi.1 (by decide), hs2⟩) he hs1 hd
  refine ⟨join ['/'] (c :: cs) ++ ['/'], x.1 ++ a, '.' :: ex, ?_, ?_⟩
  · rw [obj_path h]
    simp only [nameFor, e]
    rw [← join_snoc _ _ (by simp)]
    have e2 : x.1 ++ extension format = x.1 ++ a ++ '.' :: ex := by rw [hext]; simp
    rw [e2]
    simp only [objOf, e, List.headD_cons]
    exact hparts
  · simp only [objOf, e, List.tail_cons]
    rw [join_snoc _ _ (by simp), hext]
    simp

end

/-! ## Storing -/

theorem make_target {target : Str} (h : Target target) (format : Str) :
    Inner.make target format = .ok ⟨(fold target).headD [],
      (fold target).headD [] ++ ['/'] ++ (join ['/'] (fold target).tail ++ ['/']) ++ "{stem}".toList ++ extension format,
      join ['/'] (fold target).tail ++ ['/'] ++ "{stem}".toList ++ extension format⟩ := by
  have hf := h.folders
  have htwo := hf.two
  have hparts : getParts target = .ok ((fold target).headD [], join ['/'] (fold target).tail ++ ['/'], none, none) := by
    rw [getParts_congr h.ne (WriterInit.join_ne_nil hf) (h.parse.trans (parse_join hf.ne hf.comp).symm)]
    match e : fold target, htwo with
    | a :: b :: cs, _ =>
      rw [e] at hf
      exact C52_parts_folder a (b :: cs) (hf.comp a (by simp)) (fun f hf' => hf.comp f (List.mem_cons_of_mem _ hf')) (by simp)
        (fun f hf' => hf.dot f (by rw [List.getLast?_cons_cons]; exact hf'))
  unfold Inner.make
  rw [hparts]
  simp only
  have h1 : (fold target).headD [] ≠ ['/'] := by
    match e : fold target, htwo with
    | a :: b :: cs, _ =>
      rw [e] at hf
      intro e2
      exact (hf.comp a (by simp)).2.2 (by rw [show a = ['/'] from e2]; simp)
  have h2 : join ['/'] (fold target).tail ++ ['/'] ≠ ['/'] := by
    match e : fold target, htwo with
    | a :: b :: cs, _ =>
      rw [e] at hf
      intro e2
      have e3 : join ['/'] (b :: cs) = [] := List.append_cancel_right (as := join ['/'] (b :: cs)) (bs := ['/']) (cs := []) (by simpa using e2)
      cases cs with
      | nil => exact (hf.comp b (by simp)).1 e3
      | cons c cs =>
        rw [join_cons _ _ (by simp)] at e3
        simp at e3
  rw [if_neg h1, if_neg h2]

theorem stem_in {p i format : Str} (hp : '{' ∉ p) :
    replace "{stem}".toList i (p ++ "{stem}".toList ++ extension format) = p ++ (i ++ extension format) := by
  unfold replace
  have r1 := replaceGo_lit (tok := "stem}".toList) (new := i) _ ("{stem}".toList ++ extension format) hp
  have r2 := replaceGo_tok (tok := "stem}".toList) (new := i) (extension format)
  have r3 := replaceGo_lit (tok := "stem}".toList) (new := i) (extension format) []
    (extension_no_brace format).1
  simp only [List.append_nil] at r3
  have e2 : "{stem}".toList = '{' :: "stem}".toList := rfl
  rw [List.append_assoc]
  rw [e2] at r1 ⊢
  rw [r1, r2, r3]
  simp [replaceGo]

theorem target_name {x : Sent} (h : Target x.2.1) (format : Str) :
    replace "{stem}".toList x.1 (join ['/'] (fold x.2.1).tail ++ ['/'] ++ "{stem}".toList ++ extension format)
      = (objOf format x).name := by
  obtain ⟨b, c, cs, e⟩ := obj_split h.folders
  have hb := h.brace
  rw [stem_in]
  · simp only [objOf, e, List.tail_cons]
    rw [join_snoc _ _ (by simp)]
    simp
  · rw [e, join_cons _ _ (by simp)] at hb
    simp only [e, List.tail_cons, List.mem_append, List.mem_singleton, not_or]
    simp only [List.mem_append, not_or] at hb
    exact ⟨fun h => hb.2 (List.mem_cons_of_mem _ h), by decide⟩

/-- Google Cloud Storage or MinIO. -/
def Either (v : Service) : Prop := v = gcs ∨ v = minio

theorem store_one {v : Service} (hv : Either v) {x : Sent} (h : Target x.2.1) (format : Str) (s : List (Obj Disk.Bytes)) :
    ∃ w, v.make x.2.1 format = .ok w ∧ (v.commit w s x.2.2 none x.1).2 = ObjectStore.put s (objOf format x) := by
  rcases hv with rfl | rfl
  · refine ⟨_, make_target h format, ?_⟩
    simp only [gcs, gcsCommit, Inner.chooseName, Inner.buildPath, target_name h]
    rfl
  · refine ⟨_, by simp only [minio, minioMake, make_target h format]; rfl, ?_⟩
    simp only [minio, minioCommit, Inner.chooseName, Inner.buildPath, target_name h]
    rfl

theorem storeEach_puts {v : Service} (hv : Either v) (format : Str) (z : List Sent) (h : ∀ x ∈ z, Target x.2.1)
    (s : List (Obj Disk.Bytes)) : storeEach v format s z = .ok (puts s (z.map (objOf format))) := by
  induction z generalizing s with
  | nil => rfl
  | cons x z ih =>
    obtain ⟨i, target, bytes⟩ := x
    obtain ⟨w, h1, h2⟩ := store_one hv (h (i, target, bytes) (by simp)) format s
    simp only at h1 h2
    rw [storeEach, h1]
    simp only [h2]
    rw [ih (fun y hy => h y (by simp [hy]))]
    rfl

/-! ## Side by side -/

/-- Object storage and a disk with the same files in the folders of the days `S`. -/
structure Alike (ls : List (List Piece)) (S : DateTime → Prop) (s : List (Obj Disk.Bytes)) (d : Disk) : Prop where
  tidy : ObjectStore.Tidy s
  same : ∀ t, S t → Same ((files s).filter (beneath ⟨[], folderOf ls t⟩)) (d.names.filter (beneath ⟨[], folderOf ls t⟩))
  data : ∀ q ∈ d.names, ∃ o ∈ s, o.file = q ∧ endsWith ['/'] o.name = false ∧ o.data = d.content q ∧ Fetchable o

theorem alike_listed {ls : List (List Piece)} {S : DateTime → Prop} {s : List (Obj Disk.Bytes)} {d : Disk}
    (h : Alike ls S s d) {t : DateTime} (ht : S t) :
    Same (diskBlobsAt (files s) ⟨[], folderOf ls t⟩) (diskBlobsAt d.names ⟨[], folderOf ls t⟩) := by
  unfold diskBlobsAt
  exact (h.same t ht).map _

theorem alike_read {ls : List (List Piece)} {S : DateTime → Prop} {s : List (Obj Disk.Bytes)} {d : Disk}
    (h : Alike ls S s d) (p : Posix) {x : Str} (hx : x ∈ diskBlobsAt d.names p) : blobBytes s x = read d x := by
  have hsim : Sim ls (fun _ => False) s d := ⟨h.tidy, nofun, h.data⟩
  exact sim_read hsim p hx

/-- The hours of a range. -/
theorem hours_some {w : Job} {first last : DateTime} (hf : Day first) (hl : Day last) (hle : first.seconds ≤ last.seconds)
    (prefixes : List Str) (flt : Option PartitionFilter) (now : DateTime) :
    (readerHours (rangeReader w first last prefixes flt) now).length ≠ 0 := by
  obtain ⟨hours, h1, h2, -⟩ := Dates.dateRange_spec (now := now) hf.valid hl.valid hle
  have hrd : Dates.readerDates now (rangeReader w first last prefixes flt).start (rangeReader w first last prefixes flt).stop
      = (first, last) := by
    show (if (EndToEnd.midnight first).le (EndToEnd.midnight last) then (EndToEnd.midnight first, EndToEnd.midnight last) else _) = _
    rw [hf.midnight_eq, hl.midnight_eq, if_pos (by simp [DateTime.le, hle])]
  have e : readerHours (rangeReader w first last prefixes flt) now = hours := by
    unfold readerHours
    rw [hrd]
    simp only [h1]
    rfl
  rw [e]
  have hm : first ∈ hours := (h2 first).2 ⟨hf.valid, hf.minute, hf.second, DateTime.floorHour_le _, hle⟩
  exact fun h => List.ne_nil_of_mem hm (List.length_eq_zero_iff.1 h)

section
variable {w : Job} {ls : List (List Piece)} (hw : Daily w ls) (h2 : 2 ≤ ls.length)
  (hdot : ∀ l ∈ ls.getLast?, ∀ t, Piece.lit t ∈ l → '.' ∉ t) {S : DateTime → Prop}
  {first last : DateTime} (hf : Day first) (hl : Day last) (hle : first.seconds ≤ last.seconds) {days : List DateTime}
  (hdays : DaysOf first last days) {s : List (Obj Disk.Bytes)} {d : Disk}
  (now : DateTime) (rnd : Str) (prefixes : List Str) (flt : Option PartitionFilter)
include hw h2 hdot hdays

theorem day_path (rnd : Str) {t : DateTime} (ht : t ∈ days) : ∃ c cs, c :: cs = folderOf ls t ∧ Comp c ∧ (∀ x ∈ cs, Comp x) ∧
    cs ≠ [] ∧ (∀ f ∈ cs.getLast?, '.' ∉ f) ∧ '{' ∉ join ['/'] cs := by
  have hday := ((hdays.mem t).1 ht).1
  obtain ⟨c, cs, -, e, hrest⟩ := reader_path (hw.ok t hday.valid) h2 hdot rnd hday.valid
  exact ⟨c, cs, e, hrest⟩

theorem gcs_lists (hs : ObjectStore.Tidy s) {t : DateTime} (ht : t ∈ days) :
    gcsListed s ⟨[], folderOf ls t⟩ = diskBlobsAt (files s) ⟨[], folderOf ls t⟩ ∧
    gcsBlobsAt s ⟨[], folderOf ls t⟩ = .ok (gcsListed s ⟨[], folderOf ls t⟩) := by
  obtain ⟨c, cs, e, hc, hcs, hn, hdt, -⟩ := day_path hw h2 hdot hdays [] ht
  have h := C79_listing_partial s hs c cs hc hcs hn hdt
  rw [e] at h
  have e1 : gcsListed s ⟨[], folderOf ls t⟩ = diskBlobsAt (files s) ⟨[], folderOf ls t⟩ := by
    unfold gcsListed
    rw [h]
    rfl
  exact ⟨e1, by rw [e1, h]⟩

theorem minio_lists (hs : ObjectStore.Tidy s) (c : Reader.Config) {t : DateTime} (ht : t ∈ days) :
    minioListed c now rnd s ⟨[], folderOf ls t⟩
      = (List.replicate (readerHours c now).length (diskBlobsAt (files s) ⟨[], folderOf ls t⟩)).flatten ∧
    minioBlobsAt s rnd (readerHours c now) ⟨[], folderOf ls t⟩ = .ok (minioListed c now rnd s ⟨[], folderOf ls t⟩) := by
  obtain ⟨b, cs, e, hc, hcs, hn, hdt, hbr⟩ := day_path hw h2 hdot hdays rnd ht
  have h := C79_minio_listing_partial s hs b cs hc hcs hn hdt hbr rnd (readerHours c now)
  rw [e] at h
  have e1 : minioListed c now rnd s ⟨[], folderOf ls t⟩
      = (List.replicate (readerHours c now).length (diskBlobsAt (files s) ⟨[], folderOf ls t⟩)).flatten := by
    unfold minioListed
    rw [h]
    rfl
  exact ⟨e1, by rw [e1, h]⟩

include hf hl hle
/-- A reader of a range of days on object storage finds and delivers what one on a disk with the same files does. -/
theorem alike_reads (hSd : ∀ t ∈ days, S t) (ha : Alike ls S s d) {blobsAt : Posix → List Str}
    (hb : blobsAt = gcsListed s ∨ blobsAt = minioListed (rangeReader w first last prefixes flt) now rnd s) :
    (∀ e, Reader.openReader (rangeReader w first last prefixes flt) now rnd (diskBlobsAt d.names) = .error e →
      Reader.openReader (rangeReader w first last prefixes flt) now rnd blobsAt = .error e) ∧
    ∀ n l, Reader.openReader (rangeReader w first last prefixes flt) now rnd (diskBlobsAt d.names) = .ok (n, l) → [] ∉ l →
      ∃ l', Reader.openReader (rangeReader w first last prefixes flt) now rnd blobsAt = .ok (n, l') ∧
        ∀ (hash : Str → Nat) (lib : Lib ρ), delivered hash lib {} (blobBytes s) l' = delivered hash lib {} (read d) l := by
  have hhours := hours_some (w := w) hf hl hle prefixes flt now
  have hsame : ∀ t ∈ days, Same (diskBlobsAt d.names ⟨[], folderOf ls t⟩) (blobsAt ⟨[], folderOf ls t⟩) := by
    intro t ht
    rcases hb with rfl | rfl
    · rw [(gcs_lists hw h2 hdot hdays ha.tidy ht).1]
      exact (alike_listed ha (hSd t ht)).symm
    · rw [(minio_lists hw h2 hdot hdays now rnd ha.tidy _ ht).1]
      intro x
      rw [← alike_listed ha (hSd t ht) x]
      simp [List.mem_flatten, List.mem_replicate, hhours]
  obtain ⟨h3, h4⟩ := open_same hw hf hl hle hdays hsame now rnd prefixes flt
  refine ⟨h3, ?_⟩
  intro n l hopen hne
  obtain ⟨l', h5, h6, h7⟩ := h4 n l hopen
  refine ⟨l', h5, ?_⟩
  intro hash lib
  symm
  refine delivered_same hash lib {} _ _ hne h6 ?_
  intro x hx
  obtain ⟨p, hp⟩ := h7 x hx
  exact (alike_read ha p hp).symm

end

/-! ## The blobs of a pool -/

theorem zip_take {α γ : Type} (a : List α) (b : List γ) (j : Nat) : (a.take j).zip b = (a.zip b).take j := by
  induction a generalizing b j with
  | nil => simp
  | cons x a ih =>
    cases j with
    | zero => simp
    | succ j =>
      cases b with
      | nil => simp
      | cons y b => simp [ih]

theorem zip_prefix {α γ : Type} (a : List α) {b c : List γ} (h : b <+: c) : a.zip b = (a.zip c).take b.length := by
  obtain ⟨e, rfl⟩ := h
  induction b generalizing a with
  | nil => simp
  | cons y b ih =>
    cases a with
    | nil => simp
    | cons x a => simp [ih]

theorem zip_fst_sublist {α γ : Type} (a : List α) (b : List γ) : ((a.zip b).map Prod.fst).Sublist a := by
  induction a generalizing b with
  | nil => simp
  | cons x a ih =>
    cases b with
    | nil => simp
    | cons y b => simpa using ih b

theorem handed_prefix {a b : List (Str × Writer.Stored)} (h : a <+: b) : handed a <+: handed b := by
  obtain ⟨c, rfl⟩ := h
  exact ⟨handed c, by unfold handed; rw [List.filterMap_append]⟩

theorem handed_beneath {w : Job} {ls : List (List Piece)} {n : Nat} {flt : Option PartitionFilter} {subs chosen : List (List Str)}
    (hy : Layout w ls n flt subs chosen) {S : DateTime → Prop} (hS : ∀ t, S t → Day t) {x : Sent} (h : Goes ls subs S x.2.1)
    (hi : Id x.1) : ∃ t, S t ∧ beneath ⟨[], folderOf ls t⟩ (objOf w.format x).file = true := by
  have hfo := (goes_fold hy hS h).1.folders
  obtain ⟨t, ht, more, e, -⟩ := goes_beneath hy hS h
  refine ⟨t, ht, ?_⟩
  rw [obj_file hfo hi]
  have e2 : (StreamStorage.put w.format x).path = ⟨[], folderOf ls t ++ (more ++ [x.1 ++ extension w.format])⟩ := by
    rw [← put_path_parse hfo hi]
    unfold nameFor
    rw [← join_snoc _ _ hfo.ne, parse_join (by simp), e, List.append_assoc]
    intro c hc
    rcases List.mem_append.1 hc with hc | hc
    · exact hfo.comp c hc
    · rw [List.mem_singleton.1 hc]
      exact name_comp hi
  rw [e2]
  unfold beneath
  simp

/-- The storage and the disk after the same blobs. -/
theorem bridge {w : Job} {ls : List (List Piece)} {n : Nat} {flt : Option PartitionFilter} {subs chosen : List (List Str)}
    (hy : Layout w ls n flt subs chosen) {S : DateTime → Prop} (hS : ∀ t, S t → Day t) (s : Setup) (hsf : s.format = w.format)
    (store : List (Str × Writer.Stored)) (hgo : ∀ x ∈ handed store, Goes ls subs S x.1)
    (ids : List Str) (hids : ∀ i ∈ ids, Id i) (hord : ids.Pairwise Before)
    (obj : List (Obj Disk.Bytes)) (hobj : ObjectStore.Tidy obj)
    (hempty : ∀ t, S t → ∀ q ∈ files obj, beneath ⟨[], folderOf ls t⟩ q = false) (j : Nat) :
    ∃ k st', AtBlob s ids store k ∧
      (∀ store1, store1 <+: store → (handed store1).length ≤ j → Written s ids store1 k) ∧
      (∀ v, Either v → inObjects v s ids obj store j = .ok st') ∧
      ∀ d', StreamStorage.onDisk s ids ⟨[], [], fun _ => []⟩ store k = .ok d' → Alike ls S st' d' := by
  have ht : ∀ x ∈ handed store, Target x.1 := fun x hx => (goes_fold hy hS (hgo x hx)).1
  obtain ⟨z, hz⟩ : ∃ z, z = ids.zip (handed store) := ⟨_, rfl⟩
  have hzg : ∀ x ∈ z, Goes ls subs S x.2.1 := fun x hx => hgo _ (List.of_mem_zip (hz ▸ hx)).2
  have hzt : ∀ x ∈ z, Target x.2.1 := fun x hx => ht _ (List.of_mem_zip (hz ▸ hx)).2
  have hzi : ∀ x ∈ z, Id x.1 := fun x hx => hids _ (List.of_mem_zip (hz ▸ hx)).1
  have hzord : z.Pairwise (fun x y => Before x.1 y.1) := by
    rw [hz]
    exact (List.pairwise_map.1 (hord.sublist (zip_fst_sublist ids (handed store))))
  have hmono : ∀ a b, a ≤ b → (((z.take a).map (StreamStorage.put w.format)).flatMap Put.ops).length
      ≤ (((z.take b).map (StreamStorage.put w.format)).flatMap Put.ops).length := by
    intro a b hab
    have : z.take a <+: z.take b := List.take_prefix_take_left hab
    obtain ⟨c, hc⟩ := this
    rw [← hc, List.map_append, List.flatMap_append, List.length_append]
    omega
  have hos : ∀ x ∈ z.take j, x ∈ z := fun x hx => List.mem_of_mem_take hx
  refine ⟨(((z.take j).map (StreamStorage.put w.format)).flatMap Put.ops).length,
    puts obj ((z.take j).map (objOf w.format)), ⟨j, ?_⟩, ?_, ?_, ?_⟩
  · intro ops hops
    rw [diskOps_puts ht (fun i hi => hids i (List.mem_of_mem_take hi)), zip_take, ← hz, hsf] at hops
    cases hops
    rfl
  · intro store1 hpre hj ops hops
    have hp := handed_prefix hpre
    rw [diskOps_puts (fun x hx => ht x (hp.subset hx)) hids, zip_prefix ids hp, ← hz, hsf] at hops
    cases hops
    exact hmono _ _ hj
  · intro v hv
    unfold inObjects
    rw [← hz, hsf]
    exact storeEach_puts hv _ _ (fun x hx => hzt x (hos x hx)) obj
  · intro d' hd'
    have hfresh : puts obj ((z.take j).map (objOf w.format)) = obj ++ (z.take j).map (objOf w.format) := by
      apply puts_fresh
      · rw [List.map_map, List.Nodup, List.pairwise_map]
        refine ((hzord.sublist (List.take_sublist j z)).imp_of_mem ?_)
        intro a b ha hb hab e
        refine put_ne hab.ne w.format ?_
        rw [← obj_file (hzt a (hos a ha)).folders (hzi a (hos a ha)), ← obj_file (hzt b (hos b hb)).folders (hzi b (hos b hb))]
        exact (file_key e).1
      · intro o ho x hx e
        obtain ⟨a, ha, rfl⟩ := List.mem_map.1 ho
        have ha := hos a ha
        obtain ⟨t, hSt, hb⟩ := handed_beneath hy hS (hzg a ha) (hzi a ha)
        have e1 := file_key e
        rw [← e1.1, hempty t hSt] at hb
        · cases hb
        · unfold files
          refine List.mem_map.2 ⟨x, List.mem_filter.2 ⟨hx, ?_⟩, rfl⟩
          rw [e1.2, obj_slash (hzt a ha).folders (hzi a ha)]
          rfl
    have hfiles : ∀ q, q ∈ files (puts obj ((z.take j).map (objOf w.format))) ↔
        q ∈ files obj ∨ ∃ x ∈ z.take j, q = (StreamStorage.put w.format x).path := by
      intro q
      rw [hfresh]
      unfold files
      rw [List.filter_append, List.map_append, List.mem_append]
      refine or_congr Iff.rfl ?_
      constructor
      · intro h
        obtain ⟨o, ho, rfl⟩ := List.mem_map.1 h
        obtain ⟨x, hx, rfl⟩ := List.mem_map.1 (List.mem_filter.1 ho).1
        exact ⟨x, hx, obj_file (hzt x (hos x hx)).folders (hzi x (hos x hx))⟩
      · rintro ⟨x, hx, rfl⟩
        refine List.mem_map.2 ⟨objOf w.format x, List.mem_filter.2 ⟨List.mem_map.2 ⟨x, hx, rfl⟩, ?_⟩, ?_⟩
        · rw [obj_slash (hzt x (hos x hx)).folders (hzi x (hos x hx))]
          rfl
        · exact obj_file (hzt x (hos x hx)).folders (hzi x (hos x hx))
    obtain ⟨j', d'', hj', hexec, g1, -, -, g2, g3⟩ := stored_files hy hS (d := ⟨[], [], fun _ => []⟩)
      (fun t _ => ⟨nofun, List.nodup_nil, nofun, nofun⟩) hzg hzord
      (((z.take j).map (StreamStorage.put w.format)).flatMap Put.ops).length
    unfold StreamStorage.onDisk at hd'
    rw [diskOps_puts ht hids, ← hz, hsf] at hd'
    simp only at hd'
    rw [hexec] at hd'
    cases hd'
    have emin : z.take (min j z.length) = z.take j := by
      rw [List.take_eq_take_iff]
      omega
    have hm := g2 (min j z.length) (by omega) (by rw [emin])
    have hn := g3 (min j z.length) (by rw [emin])
    have ej : j' = min j z.length := by omega
    rw [ej, emin] at g1
    have hcont := hm.2
    rw [emin] at hcont
    refine ⟨puts_tidy hobj ?_, ?_, ?_⟩
    · intro o ho
      obtain ⟨x, hx, rfl⟩ := List.mem_map.1 ho
      exact obj_tidy (hzt x (hos x hx)).folders (hzi x (hos x hx))
    · intro t hSt q
      rw [List.mem_filter, List.mem_filter, hfiles, g1]
      constructor
      · rintro ⟨h | h, hb⟩
        · rw [hempty t hSt q h] at hb
          cases hb
        · exact ⟨Or.inr h, hb⟩
      · rintro ⟨h | h, hb⟩
        · cases h
        · exact ⟨Or.inr h, hb⟩
    · intro q hq
      rcases (g1 q).1 hq with h | ⟨x, hx, rfl⟩
      · cases h
      · refine ⟨objOf w.format x, ?_, obj_file (hzt x (hos x hx)).folders (hzi x (hos x hx)),
          obj_slash (hzt x (hos x hx)).folders (hzi x (hos x hx)), (hcont x hx).symm,
          obj_fetchable (hzt x (hos x hx)).folders (hzi x (hos x hx))⟩
        rw [hfresh]
        exact List.mem_append_right _ (List.mem_map.2 ⟨x, hx, rfl⟩)

end Mabel.CloudStream
