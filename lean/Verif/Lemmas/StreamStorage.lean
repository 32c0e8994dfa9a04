import Verif.Props.Days
import Verif.Props.Stream
import Verif.Props.WriterInit
import Verif.Props.Disk
import Verif.Lemmas.DiskMany
import Verif.Lemmas.Torn
import Verif.Spec.StreamStorage

/-!
# Lemmas about stream writers that write to a disk
-/

namespace Mabel.StreamStorage
open Mabel.Py Mabel.Paths Mabel.Naming Mabel.Spec Mabel.Listing Mabel.EndToEnd Mabel.Dates Mabel.History
open Mabel.Blobs (Lib Faithful Torn delivered Item readBlob Names formatOf BlobName)
open Mabel.WriterInit (Folders Nested)
open Mabel.Stream.Spec (blobsAt routed)
open Mabel.Disk hiding Bytes
variable {ρ β : Type}

/-! ## Names and steps -/

/-- What is stored: an identifier, a target and the bytes. -/
abbrev Sent := Str × Str × Disk.Bytes

/-- The folders of a target. -/
def fold (target : Str) : List Str := (Posix.parse target).comps

/-- The step of storing it. -/
def put (format : Str) (x : Sent) : Put := ⟨fold x.2.1, x.1 ++ extension format, x.2.2⟩

/-- Its name. -/
def nameFor (format : Str) (x : Sent) : Str := join ['/'] (fold x.2.1) ++ '/' :: (x.1 ++ extension format)

/-- A target for which there are names. -/
structure Target (target : Str) : Prop where
  folders : Folders (fold target)
  ne : target ≠ []
  parse : Posix.parse target = ⟨[], fold target⟩
  brace : '{' ∉ join ['/'] (fold target)

theorem before_append {i j : Str} (h : Before i j) (x y : Str) : i ++ x < j ++ y := by
  obtain ⟨h1, h2⟩ := h
  induction i generalizing j with
  | nil => exact absurd List.nil_prefix h2
  | cons a i ih =>
    cases j with
    | nil => exact absurd h1 (List.not_lt_nil _)
    | cons b j =>
      rw [List.cons_append, List.cons_append]
      rcases List.cons_lt_cons_iff.1 h1 with h | ⟨rfl, h⟩
      · exact List.cons_lt_cons_iff.2 (Or.inl h)
      · exact List.cons_lt_cons_iff.2 (Or.inr ⟨rfl, ih h (fun hp => h2 (List.cons_prefix_cons.2 ⟨rfl, hp⟩))⟩)

theorem Before.ne {i j : Str} (h : Before i j) : i ≠ j := fun e => h.2 (by rw [e]; exact List.prefix_rfl)

/-- An identifier. -/
def Id (i : Str) : Prop := HexId i ∧ i ≠ []

theorem name_comp {i format : Str} (h : Id i) : Comp (i ++ extension format) := by
  refine ⟨by simp [h.2], ?_, ?_⟩
  · intro e
    obtain ⟨a, x, e1, e2, -⟩ := ext_split format
    have := congrArg List.length e
    have h1 := List.length_pos_iff.2 h.2
    have h2 := List.length_pos_iff.2 e2
    rw [e1] at this
    simp at this
    omega
  · intro hm
    rcases List.mem_append.1 hm with hm | hm
    · exact hex_not h.1 (by decide) hm
    · exact (extension_no_brace format).2 hm

theorem put_path_str {format : Str} {x : Sent} (hf : fold x.2.1 ≠ []) : (put format x).path.str = nameFor format x := by
  unfold Posix.str Put.path put nameFor
  simp only
  rw [if_neg (by simp), List.nil_append, join_snoc _ _ hf]

theorem put_path_parse {format : Str} {x : Sent} (hf : Folders (fold x.2.1)) (hi : Id x.1) :
    Posix.parse (nameFor format x) = (put format x).path := by
  unfold nameFor put Put.path
  rw [← join_snoc _ _ hf.ne]
  exact parse_join (by simp) (by
    intro c hc
    rcases List.mem_append.1 hc with hc | hc
    · exact hf.comp c hc
    · rw [List.mem_singleton.1 hc]; exact name_comp hi)

theorem put_ops {format : Str} {x : Sent} (hf : Folders (fold x.2.1)) (hi : Id x.1) :
    commitOps (nameFor format x) x.2.2 = .ok (put format x).ops := by
  obtain ⟨a, e, he, h1, h2, h3, h4⟩ := ext_split format
  have htwo := hf.two
  have hcomp := hf.comp
  unfold nameFor put Put.ops
  rw [← join_snoc _ _ hf.ne]
  simp only
  generalize fold x.2.1 = cs at *
  match cs, htwo with
  | b :: c :: cs, _ =>
    have := commitOps_file (stem := x.1 ++ a) (hcomp b (by simp)) (fun f hf => hcomp f (List.mem_cons_of_mem _ hf))
      (by simp) (by simp [hi.2]) (by
        intro hm
        rcases List.mem_append.1 hm with hm | hm
        · exact hex_not hi.1 (by decide) hm
        · exact h2 hm) h1 h3 h4 x.2.2
    have e1 : x.1 ++ a ++ '.' :: e = x.1 ++ extension format := by rw [he]; simp
    rw [e1] at this
    exact this

theorem storeOps_puts (format : Str) (z : List Sent) (h : ∀ x ∈ z, Folders (fold x.2.1) ∧ Id x.1) :
    storeOps (z.map (fun x => (nameFor format x, x.2.2))) = .ok ((z.map (put format)).flatMap Put.ops) := by
  induction z with
  | nil => rfl
  | cons x z ih =>
    obtain ⟨h1, h2⟩ := h x (by simp)
    rw [List.map_cons, storeOps, put_ops h1 h2, ih (fun y hy => h y (by simp [hy]))]
    rfl

/-- The steps for what the pool has handed over. -/
theorem diskOps_puts {s : Setup} {ids : List Str} {store : List (Str × Writer.Stored)}
    (ht : ∀ x ∈ handed store, Target x.1) (hid : ∀ i ∈ ids, Id i) :
    diskOps s ids store = .ok (((ids.zip (handed store)).map (put s.format)).flatMap Put.ops) := by
  have hz : ∀ x ∈ ids.zip (handed store), Target x.2.1 ∧ Id x.1 := fun x hx =>
    ⟨ht _ (List.of_mem_zip hx).2, hid _ (List.of_mem_zip hx).1⟩
  unfold diskOps items
  rw [mapM_map (g := fun x => (nameFor s.format x, x.2.2))]
  · exact storeOps_puts _ _ (fun x hx => ⟨(hz x hx).1.folders, (hz x hx).2⟩)
  · intro x hx
    obtain ⟨h1, h2⟩ := hz x hx
    rw [WriterInit.blobName_folders h1.folders h1.ne h1.parse h1.brace]
    rfl

/-! ## More is handed over -/

theorem storeOps_append {a b : List (Str × Disk.Bytes)} {o : List Op} (h : storeOps (a ++ b) = .ok o) :
    ∃ x y, storeOps a = .ok x ∧ storeOps b = .ok y ∧ o = x ++ y := by
  induction a generalizing o with
  | nil => exact ⟨[], o, rfl, h, rfl⟩
  | cons p a ih =>
    obtain ⟨name, bytes⟩ := p
    rw [List.cons_append, storeOps] at h
    cases hc : commitOps name bytes with
    | error e => rw [hc] at h; cases h
    | ok c =>
      cases hr : storeOps (a ++ b) with
      | error e => rw [hc, hr] at h; cases h
      | ok r =>
        rw [hc, hr] at h
        obtain ⟨x, y, hx, hy, rfl⟩ := ih hr
        refine ⟨c ++ x, y, ?_, hy, ?_⟩
        · rw [storeOps, hc, hx]
        · rw [← Except.ok.inj h, List.append_assoc]

theorem mapM_append_ok {α γ : Type} {f : α → Except Err γ} {a b : List α} {o : List γ} (h : (a ++ b).mapM f = .ok o) :
    ∃ x y, a.mapM f = .ok x ∧ b.mapM f = .ok y ∧ o = x ++ y := by
  rw [List.mapM_append] at h
  cases ha : a.mapM f with
  | error e => rw [ha] at h; cases h
  | ok x =>
    cases hb : b.mapM f with
    | error e => rw [ha, hb] at h; cases h
    | ok y => rw [ha, hb] at h; exact ⟨x, y, rfl, rfl, (Except.ok.inj h).symm⟩

/-- The steps for what was handed over first are the first steps. -/
theorem diskOps_grows {s : Setup} {ids : List Str} {a b : List (Str × Writer.Stored)} (hab : a <+: b) {o : List Op}
    (h : diskOps s ids b = .ok o) : ∃ x, diskOps s ids a = .ok x ∧ x <+: o := by
  obtain ⟨c, rfl⟩ := hab
  have hz : ids.zip (handed a) <+: ids.zip (handed (a ++ c)) := by
    have hh : handed (a ++ c) = handed a ++ handed c := List.filterMap_append
    rw [hh]
    generalize handed a = u
    generalize handed c = v
    clear h hh
    induction u generalizing ids with
    | nil => simp
    | cons x u ih =>
      cases ids with
      | nil => simp
      | cons i ids => exact (List.prefix_cons_inj _).2 ih
  obtain ⟨r, hr⟩ := hz
  unfold diskOps items at h ⊢
  rw [← hr] at h
  cases hm : (ids.zip (handed a) ++ r).mapM (fun x => (blobName x.2.1 s.format x.1).map fun name => (name, x.2.2)) with
  | error e => rw [hm] at h; cases h
  | ok l =>
    rw [hm] at h
    obtain ⟨x, y, hx, -, rfl⟩ := mapM_append_ok hm
    obtain ⟨p, q, hp, -, rfl⟩ := storeOps_append h
    rw [hx]
    exact ⟨p, hp, List.prefix_append _ _⟩

/-- If one of the names cannot be made, nothing is said to go well. -/
theorem diskOps_name {s : Setup} {ids : List Str} {store : List (Str × Writer.Stored)} {o : List Op}
    (h : diskOps s ids store = .ok o) {x : Str × Str × Disk.Bytes} (hx : x ∈ ids.zip (handed store)) :
    ∃ name, blobName x.2.1 s.format x.1 = .ok name := by
  unfold diskOps items at h
  cases hm : (ids.zip (handed store)).mapM
      (fun x => (blobName x.2.1 s.format x.1).map fun name => (name, x.2.2)) with
  | error e => rw [hm] at h; cases h
  | ok l =>
    clear h
    generalize ids.zip (handed store) = z at hm hx
    obtain ⟨u, v, rfl⟩ := List.append_of_mem hx
    obtain ⟨-, y, -, hy, -⟩ := mapM_append_ok hm
    rw [List.mapM_cons] at hy
    cases hn : blobName x.2.1 s.format x.1 with
    | error e => rw [hn] at hy; cases hy
    | ok n => exact ⟨n, rfl⟩

/-! ## The folders of a writer -/

/-- The folder for records that are not valid. -/
def backout : Str := "BACKOUT".toList

/-- The place for records of a day: the folders of the day and then those beneath. -/
def place (ls : List (List Piece)) (t : DateTime) (sb : List Str) : Str := join ['/'] (folderOf ls t ++ sb)

/-- The targets for the days `S`, if `subs` are what can be beneath the folders of a day. -/
def Goes (ls : List (List Piece)) (subs : List (List Str)) (S : DateTime → Prop) (target : Str) : Prop :=
  ∃ t, S t ∧ ∃ sb ∈ subs, target = place ls t sb ∨ target = place ls t sb ++ "/BACKOUT/".toList

/-- How the folders of a writer go on after those of the reader, `n` deep, and which of them, `chosen`, a reader
with the filter `flt` reads, in order. -/
structure Layout (w : Job) (ls : List (List Piece)) (n : Nat) (flt : Option PartitionFilter)
    (subs chosen : List (List Str)) : Prop where
  folders : ∀ t, Day t → ∀ sb ∈ subs, Folders (folderOf ls t ++ sb)
  brace : ∀ t, Day t → ∀ sb ∈ subs, '{' ∉ place ls t sb
  len : ∀ sb ∈ subs, sb.length = n
  among : ∀ sb ∈ chosen, sb ∈ subs
  order : chosen.Pairwise (fun a b => ∀ t, Day t →
    (place ls t a).length = (place ls t b).length ∧ place ls t a < place ls t b)
  clean : ∀ t, Day t → ∀ sb ∈ chosen, ∀ i, HexId i →
    contains "BACKOUT".toList (place ls t sb ++ '/' :: (i ++ extension w.format)) = false
  pick : ∀ t, Day t → ∀ zs : List (List Str × Str), (∀ z ∈ zs, z.1 ∈ subs ∧ HexId z.2 ∧
      contains "BACKOUT".toList (place ls t z.1 ++ '/' :: (z.2 ++ extension w.format)) = false) →
    ∃ cl, cycleBlobs flt (zs.map fun z => place ls t z.1 ++ '/' :: (z.2 ++ extension w.format)) = .ok cl ∧
      cl.Perm ((zs.filter fun z => decide (z.1 ∈ chosen)).map fun z => place ls t z.1 ++ '/' :: (z.2 ++ extension w.format))

theorem folderOf_append (ls es : List (List Piece)) (u : DateTime) :
    folderOf (ls ++ es) u = folderOf ls u ++ folderOf es u := by
  simp [folderOf]

theorem folders_backout {cs : List Str} (h : Folders cs) : Folders (cs ++ [backout]) where
  comp := by
    intro c hc
    rcases List.mem_append.1 hc with hc | hc
    · exact h.comp c hc
    · rw [List.mem_singleton.1 hc]; exact ⟨by decide, by decide, by decide⟩
  two := by
    have := h.two
    simp only [List.length_append, List.length_cons, List.length_nil]
    omega
  dot := by
    intro c hc
    rw [List.getLast?_append] at hc
    simp at hc
    subst hc
    decide

theorem parse_backout {cs : List Str} (h : Folders cs) :
    Posix.parse (join ['/'] cs ++ "/BACKOUT/".toList) = ⟨[], cs ++ [backout]⟩ := by
  have e : join ['/'] cs ++ "/BACKOUT/".toList = join ['/'] (cs ++ [backout]) ++ '/' :: [] := by
    rw [join_snoc _ _ h.ne]; simp [backout]
  rw [e]
  exact parse_slash (folders_backout h).ne (folders_backout h).comp

section
variable {w : Job} {ls : List (List Piece)} {n : Nat} {flt : Option PartitionFilter} {subs chosen : List (List Str)}
  {S : DateTime → Prop}

theorem folderOf_length (ls : List (List Piece)) (u : DateTime) : (folderOf ls u).length = ls.length := by
  simp [folderOf]

/-- What a target is: its folders are beneath those of its day. -/
theorem goes_fold (hy : Layout w ls n flt subs chosen) (hS : ∀ t, S t → Day t) {target : Str}
    (h : Goes ls subs S target) :
    Target target ∧ ∃ t, S t ∧ ∃ sb ∈ subs, (fold target = folderOf ls t ++ sb ∧ target = place ls t sb) ∨
      fold target = folderOf ls t ++ sb ++ [backout] := by
  obtain ⟨t, ht, sb, hsb, rfl | rfl⟩ := h
  · have hf := hy.folders t (hS t ht) sb hsb
    have hp := parse_join hf.ne hf.comp
    have hfo : fold (place ls t sb) = folderOf ls t ++ sb := by unfold fold place; rw [hp]
    exact ⟨⟨by rw [hfo]; exact hf, WriterInit.join_ne_nil hf, by rw [hfo]; exact hp,
      by rw [hfo]; exact hy.brace t (hS t ht) sb hsb⟩, t, ht, sb, hsb, Or.inl ⟨hfo, rfl⟩⟩
  · have hf := hy.folders t (hS t ht) sb hsb
    have hp := parse_backout hf
    have hfo : fold (place ls t sb ++ "/BACKOUT/".toList) = folderOf ls t ++ sb ++ [backout] := by
      unfold fold place; rw [hp]
    refine ⟨⟨by rw [hfo]; exact folders_backout hf, by simp, by rw [hfo]; exact hp, ?_⟩, t, ht, sb, hsb, Or.inr hfo⟩
    rw [hfo, join_snoc _ _ hf.ne]
    have := hy.brace t (hS t ht) sb hsb
    simp only [List.mem_append, List.mem_cons, not_or]
    exact ⟨this, by decide, by decide⟩

theorem goes_beneath (hy : Layout w ls n flt subs chosen) (hS : ∀ t, S t → Day t) {target : Str}
    (h : Goes ls subs S target) :
    ∃ t, S t ∧ ∃ more, fold target = folderOf ls t ++ more ∧
      ((more ∈ subs ∧ target = place ls t more) ∨ ∃ sb ∈ subs, more = sb ++ [backout]) := by
  obtain ⟨-, t, ht, sb, hsb, h | h⟩ := goes_fold hy hS h
  · exact ⟨t, ht, sb, h.1, Or.inl ⟨hsb, h.2⟩⟩
  · exact ⟨t, ht, sb ++ [backout], by rw [h, List.append_assoc], Or.inr ⟨sb, hsb, rfl⟩⟩

theorem Layout.backout_len (hy : Layout w ls n flt subs chosen) {f more : List Str} {t : DateTime} (hf : f = folderOf ls t ++ more)
    (h : more ∈ subs ∨ ∃ sb ∈ subs, more = sb ++ [backout]) :
    f.length = ls.length + n ∨ (f.length = ls.length + n + 1 ∧ f.getLast? = some backout) := by
  rcases h with h | ⟨sb, h, rfl⟩
  · left
    rw [hf, List.length_append, folderOf_length, hy.len _ h]
  · right
    constructor
    · rw [hf, List.length_append, folderOf_length, List.length_append, hy.len _ h]
      simp [Nat.add_assoc]
    · rw [hf, ← List.append_assoc, List.getLast?_append]
      rfl

theorem Fresh.above {F : List Str} {d : Disk} (h : Fresh F d) {f : List Str} (hf : F <+: f) (n : Nat) :
    (⟨[], f.take n⟩ : Posix) ∉ d.names := by
  intro hm
  obtain ⟨h1, h2⟩ := h.file _ hm rfl
  rcases List.prefix_or_prefix_of_prefix hf (List.take_prefix n f) with h3 | h3
  · exact h2 h3
  · exact h1 h3

theorem Fresh.new {F : List Str} {d : Disk} (h : Fresh F d) {f : List Str} (hf : F <+: f) (n : Str) :
    (⟨[], f ++ [n]⟩ : Posix) ∉ d.names ∧ (⟨[], f ++ [n]⟩ : Posix) ∉ d.dirs := by
  have hp : F <+: f ++ [n] := hf.trans (List.prefix_append _ _)
  constructor
  · intro hm
    exact (h.file _ hm rfl).2 hp
  · intro hm
    have := h.dir _ hm rfl hp
    have := congrArg List.length this
    have := hf.length_le
    simp at *
    omega

/-- The folders on the way to a blob are not where a blob goes. -/
theorem put_apart (hy : Layout w ls n flt subs chosen) (hS : ∀ t, S t → Day t) {x x' : Sent} (hx : Goes ls subs S x.2.1)
    (hx' : Goes ls subs S x'.2.1) (n : Nat) : (put w.format x).path ≠ ⟨[], (put w.format x').folder.take n⟩ := by
  intro e
  obtain ⟨t, h1, more, h2, h3⟩ := goes_beneath hy hS hx
  obtain ⟨t', h1', more', h2', h3'⟩ := goes_beneath hy hS hx'
  have e1 := congrArg Posix.comps e
  simp only [put] at e1
  have l1 := hy.backout_len h2 (h3.imp (fun h => h.1) id)
  have l2 := hy.backout_len h2' (h3'.imp (fun h => h.1) id)
  have hlen := congrArg List.length e1
  simp only [List.length_append, List.length_cons, List.length_nil, List.length_take] at hlen
  rcases l2 with l2 | ⟨l2, l3⟩
  · rcases l1 with l1 | ⟨l1, -⟩ <;> omega
  · have hn : (fold x'.2.1).take n = fold x'.2.1 := List.take_of_length_le (by rcases l1 with l1 | ⟨l1, -⟩ <;> omega)
    rw [hn] at e1
    rw [← e1, List.getLast?_append] at l3
    simp only [List.getLast?_singleton, Option.some_or, Option.some.injEq] at l3
    obtain ⟨a, y, e2, -⟩ := ext_split w.format
    have : '.' ∈ backout := by rw [← l3, e2]; simp
    exact absurd this (by decide)

/-- Blobs with different identifiers are different files. -/
theorem put_ne {x y : Sent} (h : x.1 ≠ y.1) (format : Str) : (put format x).path ≠ (put format y).path := by
  intro e
  have e1 := congrArg (fun p : Posix => p.comps.getLast?) e
  simp only [Put.path, put, List.getLast?_append, List.getLast?_singleton, Option.some_or, Option.some.injEq] at e1
  exact h (List.append_inj' e1 rfl).1

/-- Where a blob goes nothing is in the way. -/
theorem put_clear (hy : Layout w ls n flt subs chosen) (hS : ∀ t, S t → Day t) {d : Disk}
    (hd : ∀ t, S t → Fresh (folderOf ls t) d) {x : Sent} (hx : Goes ls subs S x.2.1) :
    (∀ n, (⟨[], (put w.format x).folder.take n⟩ : Posix) ∉ d.names) ∧ (put w.format x).path ∉ d.dirs ∧
      (put w.format x).path ∉ d.names := by
  obtain ⟨t, h1, more, h2, -⟩ := goes_beneath hy hS hx
  have hp : folderOf ls t <+: (put w.format x).folder := by simp only [put]; rw [h2]; exact List.prefix_append _ _
  exact ⟨Fresh.above (hd t h1) hp, (Fresh.new (hd t h1) hp _).2, (Fresh.new (hd t h1) hp _).1⟩

/-- Storing what goes to these days, up to any step. -/
theorem stored_files (hy : Layout w ls n flt subs chosen) (hS : ∀ t, S t → Day t) {d : Disk} (hd : ∀ t, S t → Fresh (folderOf ls t) d)
    {z : List Sent} (hgo : ∀ x ∈ z, Goes ls subs S x.2.1) (hord : z.Pairwise (fun x y => Before x.1 y.1)) (k : Nat) :
    ∃ j d', j ≤ z.length ∧ exec d (((z.map (put w.format)).flatMap Put.ops).take k) = .ok d' ∧
      (∀ q, q ∈ d'.names ↔ q ∈ d.names ∨ ∃ x ∈ z.take j, q = (put w.format x).path) ∧
      (∀ x ∈ z.take (j - 1), d'.content (put w.format x).path = x.2.2) ∧
      (∀ x ∈ z.take j, d'.content (put w.format x).path <+: x.2.2) ∧
      (∀ m ≤ z.length, (((z.take m).map (put w.format)).flatMap Put.ops).length ≤ k → m ≤ j ∧
        ∀ x ∈ z.take m, d'.content (put w.format x).path = x.2.2) ∧
      (∀ m, k ≤ (((z.take m).map (put w.format)).flatMap Put.ops).length → j ≤ m) := by
  have hm : ∀ p ∈ z.map (put w.format), ∃ x ∈ z, p = put w.format x := by
    intro p hp
    obtain ⟨x, hx, rfl⟩ := List.mem_map.1 hp
    exact ⟨x, hx, rfl⟩
  obtain ⟨j, d', hj, he, g1, g2, g3, g4, -, g6⟩ := puts_many (d := d) (z.map (put w.format))
    (by
      intro p hp
      obtain ⟨x, hx, rfl⟩ := hm p hp
      exact (put_clear hy hS hd (hgo x hx)).1)
    (by
      intro p hp
      obtain ⟨x, hx, rfl⟩ := hm p hp
      exact (put_clear hy hS hd (hgo x hx)).2.1)
    (by
      intro p hp p' hp'
      obtain ⟨x, hx, rfl⟩ := hm p hp
      obtain ⟨x', hx', rfl⟩ := hm p' hp'
      exact put_apart hy hS (hgo x hx) (hgo x' hx'))
    (by
      rw [List.map_map, List.Nodup, List.pairwise_map]
      exact hord.imp (fun h => put_ne h.ne w.format))
    (by
      intro p hp
      obtain ⟨x, hx, rfl⟩ := hm p hp
      exact (put_clear hy hS hd (hgo x hx)).2.2) k
  refine ⟨j, d', by simpa using hj, he, ?_, ?_, ?_, ?_, fun m hm => g6 m (by rw [← List.map_take]; exact hm)⟩
  · intro q
    rw [g1, ← List.map_take]
    simp only [List.mem_map, exists_exists_and_eq_and]
  · intro x hx
    exact g2 (put w.format x) (by rw [← List.map_take]; exact List.mem_map_of_mem hx)
  · intro x hx
    exact g3 (put w.format x) (by rw [← List.map_take]; exact List.mem_map_of_mem hx)
  · intro m hm hle
    obtain ⟨h1, h2⟩ := g4 m (by simpa using hm) (by rw [← List.map_take]; exact hle)
    exact ⟨h1, fun x hx => h2 (put w.format x) (by rw [← List.map_take]; exact List.mem_map_of_mem hx)⟩

theorem exists_map {α γ : Type} {f : α → γ} {P : α → Prop} (l : List γ) (h : ∀ b ∈ l, ∃ a, P a ∧ b = f a) :
    ∃ as : List α, l = as.map f ∧ ∀ a ∈ as, P a := by
  induction l with
  | nil => exact ⟨[], rfl, by simp⟩
  | cons b l ih =>
    obtain ⟨as, h1, h2⟩ := ih (fun x hx => h x (by simp [hx]))
    obtain ⟨a, h3, h4⟩ := h b (by simp)
    refine ⟨a :: as, by simp [h1, h4], ?_⟩
    intro x hx
    rcases List.mem_cons.1 hx with rfl | hx
    · exact h3
    · exact h2 x hx

/-- What is listed for a day. -/
theorem day_list (hw : Daily w ls) (hy : Layout w ls n flt subs chosen) {d : Disk} {t : DateTime} (hS : ∀ t, S t → Day t)
    (ht : Day t) (hd : Fresh (folderOf ls t) d) {z : List Sent} (hgo : ∀ x ∈ z, Goes ls subs S x.2.1)
    (hid : ∀ x ∈ z, Id x.1) (hord : z.Pairwise (fun x y => Before x.1 y.1))
    {files : List Posix} (hn : files.Nodup)
    (hfiles : ∀ q, q ∈ files ↔ q ∈ d.names ∨ ∃ x ∈ z, q = (put w.format x).path) :
    DayList w ls files t (chosen.flatMap fun sb =>
      (z.filter (fun x => fold x.2.1 = folderOf ls t ++ sb)).map (nameFor w.format)) flt := by
  have hT : ∀ x ∈ z, Target x.2.1 := fun x hx => (goes_fold hy hS (hgo x hx)).1
  have hls : ls ≠ [] := (hw.ok t ht.valid).ne
  have hlt : (chosen.flatMap fun sb =>
      (z.filter (fun x => fold x.2.1 = folderOf ls t ++ sb)).map (nameFor w.format)).Pairwise (fun x y => x < y) := by
    rw [List.pairwise_flatMap]
    refine ⟨?_, ?_⟩
    · intro sb _
      rw [List.pairwise_map]
      refine List.Pairwise.imp_of_mem ?_ (hord.sublist List.filter_sublist)
      intro x y hx hy' hxy
      have e1 : fold x.2.1 = folderOf ls t ++ sb := by simpa using (List.mem_filter.1 hx).2
      have e2 : fold y.2.1 = folderOf ls t ++ sb := by simpa using (List.mem_filter.1 hy').2
      unfold nameFor
      rw [e1, e2]
      refine (append_lt_append rfl).2 (Or.inr ⟨rfl, ?_⟩)
      exact (append_lt_append (a := ['/']) rfl).2 (Or.inr ⟨rfl, before_append hxy _ _⟩)
    · refine List.Pairwise.imp ?_ hy.order
      intro a b hab x hx y hy'
      obtain ⟨x, hx1, rfl⟩ := List.mem_map.1 hx
      obtain ⟨y, hy1, rfl⟩ := List.mem_map.1 hy'
      have e1 : fold x.2.1 = folderOf ls t ++ a := by simpa using (List.mem_filter.1 hx1).2
      have e2 : fold y.2.1 = folderOf ls t ++ b := by simpa using (List.mem_filter.1 hy1).2
      unfold nameFor
      rw [e1, e2]
      exact (append_lt_append (hab t ht).1).2 (Or.inl (hab t ht).2)
  -- what storage lists
  have hbn : ∀ q, q ∈ files → Naming.beneath ⟨[], folderOf ls t⟩ q = true → ∃ x ∈ z, q.str = nameFor w.format x ∧
      ∃ sb ∈ subs, fold x.2.1 = folderOf ls t ++ sb ∨ fold x.2.1 = folderOf ls t ++ sb ++ [backout] := by
    intro q hq hbe
    unfold Naming.beneath at hbe
    simp only [Bool.and_eq_true, decide_eq_true_eq, List.isPrefixOf_iff_prefix] at hbe
    obtain ⟨⟨hr, hp⟩, hlen⟩ := hbe
    rcases (hfiles q).1 hq with h | ⟨x, hx, rfl⟩
    · exact absurd hp (hd.file q h hr).2
    · refine ⟨x, hx, put_path_str (hT x hx).folders.ne, ?_⟩
      obtain ⟨t', h1, more, h2, h3⟩ := goes_beneath hy hS (hgo x hx)
      have hpre : folderOf ls t <+: folderOf ls t' ++ (more ++ [x.1 ++ extension w.format]) := by
        have : (put w.format x).path.comps = folderOf ls t' ++ (more ++ [x.1 ++ extension w.format]) := by
          simp only [put, h2, List.append_assoc]
        rw [← this]; exact hp
      have heq : folderOf ls t = folderOf ls t' := by
        obtain ⟨y, hy⟩ := hpre
        exact (List.append_inj hy (by rw [folderOf_length, folderOf_length])).1
      rcases h3 with ⟨h3, -⟩ | ⟨sb, h3, rfl⟩
      · exact ⟨more, h3, Or.inl (by rw [h2, heq])⟩
      · exact ⟨sb, h3, Or.inr (by rw [h2, heq, List.append_assoc])⟩
  have hnorm : ∀ q ∈ files, Posix.parse q.str = q := by
    intro q hq
    rcases (hfiles q).1 hq with h | ⟨x, hx, rfl⟩
    · exact hd.normal q h
    · rw [put_path_str (hT x hx).folders.ne, put_path_parse (hT x hx).folders (hid x hx)]
  have hsnd := disk_nodup hn hnorm ⟨[], folderOf ls t⟩
  have hclean : ∀ sb ∈ chosen, ∀ x ∈ z, fold x.2.1 = folderOf ls t ++ sb →
      contains "BACKOUT".toList (nameFor w.format x) = false := by
    intro sb hsb x hx e
    unfold nameFor
    rw [e]
    exact hy.clean t ht sb hsb x.1 (hid x hx).1
  have hdirty : ∀ sb ∈ subs, ∀ x ∈ z, fold x.2.1 = folderOf ls t ++ sb ++ [backout] →
      contains "BACKOUT".toList (nameFor w.format x) = true := by
    intro sb hsb x hx e
    unfold nameFor
    rw [e, join_snoc _ _ (by simpa [folderOf] using fun h => absurd h hls)]
    exact contains_iff.2 ⟨join ['/'] (folderOf ls t ++ sb) ++ ['/'], '/' :: (x.1 ++ extension w.format), by
      simp [backout]⟩
  -- what is left of it without the records that are not valid
  obtain ⟨zs, hzs, hzp⟩ := exists_map (f := fun a : List Str × Str => place ls t a.1 ++ '/' :: (a.2 ++ extension w.format))
    (P := fun a => a.1 ∈ subs ∧ ∃ x ∈ z, x.1 = a.2 ∧ fold x.2.1 = folderOf ls t ++ a.1 ∧
      contains "BACKOUT".toList (place ls t a.1 ++ '/' :: (a.2 ++ extension w.format)) = false)
    ((diskBlobsAt files ⟨[], folderOf ls t⟩).filter (fun b => !contains "BACKOUT".toList b)) (by
      intro b hb
      obtain ⟨hb, hno⟩ := List.mem_filter.1 hb
      rw [Bool.not_eq_true'] at hno
      obtain ⟨q, hq, rfl⟩ := List.mem_map.1 hb
      obtain ⟨hq, hbe⟩ := List.mem_filter.1 hq
      obtain ⟨x, hx, e, sb, hsb, h | h⟩ := hbn q hq hbe
      · have e' : q.str = place ls t sb ++ '/' :: (x.1 ++ extension w.format) := by
          rw [e]; unfold nameFor place; rw [h]
        exact ⟨(sb, x.1), ⟨hsb, x, hx, rfl, h, by rw [← e']; exact hno⟩, e'⟩
      · rw [e, hdirty sb hsb x hx h] at hno
        cases hno)
  have hname : ∀ a ∈ zs, ∀ x ∈ z, x.1 = a.2 → fold x.2.1 = folderOf ls t ++ a.1 →
      nameFor w.format x = place ls t a.1 ++ '/' :: (a.2 ++ extension w.format) := by
    intro a _ x _ h1 h2
    unfold nameFor place
    rw [h2, h1]
  have hkept : ∀ b, b ∈ (zs.filter fun a => decide (a.1 ∈ chosen)).map
        (fun a => place ls t a.1 ++ '/' :: (a.2 ++ extension w.format)) ↔
      b ∈ chosen.flatMap fun sb => (z.filter (fun x => fold x.2.1 = folderOf ls t ++ sb)).map (nameFor w.format) := by
    intro b
    simp only [List.mem_map, List.mem_filter, List.mem_flatMap, decide_eq_true_eq]
    constructor
    · rintro ⟨a, ⟨ha, hac⟩, rfl⟩
      obtain ⟨-, x, hx, h1, h2, -⟩ := hzp a ha
      exact ⟨a.1, hac, x, ⟨hx, h2⟩, hname a ha x hx h1 h2⟩
    · rintro ⟨sb, hsb, x, ⟨hx, h⟩, rfl⟩
      have hmem : nameFor w.format x ∈ (diskBlobsAt files ⟨[], folderOf ls t⟩).filter
          (fun b => !contains "BACKOUT".toList b) := by
        rw [List.mem_filter, Bool.not_eq_true']
        refine ⟨List.mem_map.2 ⟨(put w.format x).path, List.mem_filter.2 ⟨(hfiles _).2 (Or.inr ⟨x, hx, rfl⟩), ?_⟩,
          put_path_str (hT x hx).folders.ne⟩, hclean sb hsb x hx h⟩
        unfold Naming.beneath
        simp only [Bool.and_eq_true, decide_eq_true_eq, List.isPrefixOf_iff_prefix, put, h]
        refine ⟨⟨trivial, ?_⟩, ?_⟩
        · rw [List.append_assoc]; exact List.prefix_append _ _
        · simp
      rw [hzs] at hmem
      obtain ⟨a, ha, e⟩ := List.mem_map.1 hmem
      obtain ⟨-, x', hx', h1, h2, -⟩ := hzp a ha
      have e2 : nameFor w.format x' = nameFor w.format x := (hname a ha x' hx' h1 h2).trans e
      have e3 : (put w.format x').path = (put w.format x).path := by
        rw [← put_path_parse (hT x' hx').folders (hid x' hx'), ← put_path_parse (hT x hx).folders (hid x hx), e2]
      have e4 := congrArg Posix.comps e3
      simp only [put] at e4
      have e5 := (List.append_inj' e4 rfl).1
      rw [h2, h] at e5
      have : a.1 = sb := List.append_cancel_left e5
      exact ⟨a, ⟨ha, by rw [this]; exact hsb⟩, e⟩
  have hperm : ((zs.filter fun a => decide (a.1 ∈ chosen)).map
        (fun a => place ls t a.1 ++ '/' :: (a.2 ++ extension w.format))).Perm
      (chosen.flatMap fun sb => (z.filter (fun x => fold x.2.1 = folderOf ls t ++ sb)).map (nameFor w.format)) := by
    refine (List.perm_ext_iff_of_nodup ?_ (nodup_of_lt hlt)).2 hkept
    refine (hsnd.sublist (List.filter_sublist (p := fun b => !contains "BACKOUT".toList b))).sublist ?_
    rw [hzs]
    exact List.filter_sublist.map _
  refine ⟨?_, hlt, ?_, ?_⟩
  · obtain ⟨cl, h1, h2⟩ := hy.pick t ht zs (by
      intro a ha
      obtain ⟨g1, x, hx, g2, g3, g4⟩ := hzp a ha
      exact ⟨g1, by rw [← g2]; exact (hid x hx).1, g4⟩)
    refine ⟨cl, ?_, h2.trans hperm⟩
    rw [← h1, ← hzs]
    unfold cycleBlobs
    simp only [List.filter_filter, Bool.and_self]
  · intro b hb
    obtain ⟨sb, hsb, hb⟩ := List.mem_flatMap.1 hb
    obtain ⟨x, hx, rfl⟩ := List.mem_map.1 hb
    have e : fold x.2.1 = folderOf ls t ++ sb := by simpa using (List.mem_filter.1 hx).2
    unfold nameFor
    rw [e]
    show ∃ s, _ = join ['/'] (folderOf ls t) ++ '/' :: s
    cases sb with
    | nil => exact ⟨_, by rw [List.append_nil]⟩
    | cons c sb =>
      refine ⟨join ['/'] (c :: sb) ++ '/' :: (x.1 ++ extension w.format), ?_⟩
      rw [Mabel.ObjectStore.join_append_slash (by simpa [folderOf] using hls) (by simp)]
      simp
  · intro b hb
    obtain ⟨sb, hsb, hb⟩ := List.mem_flatMap.1 hb
    obtain ⟨x, hx, rfl⟩ := List.mem_map.1 hb
    have hxz := (List.mem_filter.1 hx).1
    obtain ⟨cs, c, e⟩ : ∃ cs c, fold x.2.1 = cs ++ [c] :=
      ⟨_, _, (List.dropLast_concat_getLast (hT x hxz).folders.ne).symm⟩
    have hcs : cs ≠ [] := by
      intro h0
      have := (hT x hxz).folders.two
      rw [e, h0] at this
      simp at this
    unfold nameFor
    rw [e, join_snoc _ _ hcs]
    have := C22_blobs_readable (join ['/'] cs) c x.1 w.format
    unfold Framed.path at this
    simpa using this

end

end Mabel.StreamStorage
