import Verif.Model.Cursor
import Verif.Lemmas.Sort
import Verif.Lemmas.StrOrder

/-! # Lemmas about cursors -/

namespace Mabel.Cursor
open Mabel.Py

/-! ## Bits, bytes and hex -/

theorem unpack_pack (a b c d e f g h : Bool) :
    unpackByte (packByte [a, b, c, d, e, f, g, h]) = [a, b, c, d, e, f, g, h] := by
  revert a b c d e f g h; decide

theorem packByte_lt (bs : List Bool) : packByte bs < 256 := by
  have h : ∀ i, (if bs.getD i false then 1 else 0 : Nat) ≤ 1 := by intro i; split <;> omega
  simp only [packByte, List.foldl]
  have := h 0; have := h 1; have := h 2; have := h 3; have := h 4; have := h 5; have := h 6
  have := h 7
  omega

theorem toBytes_lt (l : List Bool) : ∀ n ∈ toBytes l, n < 256 := by
  intro n hn
  obtain ⟨i, _, rfl⟩ := List.mem_map.1 hn
  exact packByte_lt _

theorem toBytes_length (l : List Bool) : (toBytes l).length = (l.length + 7) / 8 := by
  simp [toBytes]

theorem toBytes_cons (b : Bool) (bs : List Bool) :
    toBytes (b :: bs) = packByte ((b :: bs).take 8) :: toBytes ((b :: bs).drop 8) := by
  have e : ((b :: bs).length + 7) / 8 = (((b :: bs).drop 8).length + 7) / 8 + 1 := by
    simp; omega
  rw [toBytes, e, List.range_succ_eq_map, List.map_cons, toBytes]
  simp only [List.map_map, Nat.mul_zero, List.drop_zero]
  congr 1
  apply List.map_congr_left
  intro i _
  simp only [Function.comp, List.drop_drop]
  congr 2
  congr 1
  omega

/-- Any group of at most eight bits is a prefix of what its byte unpacks to. -/
theorem unpack_pack_take (l : List Bool) (h : l.length ≤ 8) :
    (unpackByte (packByte l)).take l.length = l := by
  match l, h with
  | [], _ => simp
  | [a], _ => revert a; decide
  | [a, b], _ => revert a b; decide
  | [a, b, c], _ => revert a b c; decide
  | [a, b, c, d], _ => revert a b c d; decide
  | [a, b, c, d, e], _ => revert a b c d e; decide
  | [a, b, c, d, e, f], _ => revert a b c d e f; decide
  | [a, b, c, d, e, f, g], _ => revert a b c d e f g; decide
  | [a, b, c, d, e, f, g, i], _ => rw [unpack_pack]; rfl
  | _ :: _ :: _ :: _ :: _ :: _ :: _ :: _ :: _ :: _, h => simp at h

theorem unpackByte_length (n : Nat) : (unpackByte n).length = 8 := rfl

theorem fromBytes_length (l : List Nat) : (fromBytes l).length = 8 * l.length := by
  induction l with
  | nil => rfl
  | cons a l ih => simp only [fromBytes, List.flatMap_cons, List.length_append, unpackByte_length, List.length_cons] at *; omega

theorem take_fromBytes_toBytes (l : List Bool) : (fromBytes (toBytes l)).take l.length = l := by
  generalize hn : l.length = n
  induction n using Nat.strongRecOn generalizing l with
  | _ n ih =>
  subst hn
  cases l with
  | nil => simp
  | cons b bs =>
    rw [toBytes_cons, fromBytes, List.flatMap_cons, ← fromBytes, List.take_append, unpackByte_length]
    by_cases h : (b :: bs).length ≤ 8
    · rw [List.take_of_length_le h, unpack_pack_take _ h]
      have : (b :: bs).length - 8 = 0 := by omega
      rw [this]; simp
    · have h8 : ((b :: bs).take 8).length = 8 := by rw [List.length_take]; omega
      have e1 : List.take (b :: bs).length (unpackByte (packByte (List.take 8 (b :: bs))))
          = List.take 8 (b :: bs) := by
        rw [List.take_of_length_le (by rw [unpackByte_length]; omega)]
        have := unpack_pack_take ((b :: bs).take 8) (by omega)
        rw [h8, List.take_of_length_le (by rw [unpackByte_length]; omega)] at this
        exact this
      rw [e1]
      have e2 : (b :: bs).length - 8 = ((b :: bs).drop 8).length := by simp
      rw [e2, ih _ (by simp; omega) _ rfl]
      exact List.take_append_drop 8 (b :: bs)

theorem hexDigit_val : ∀ n, n < 16 → hexVal (hexDigit n) = some n ∧ isSpace (hexDigit n) = false := by
  decide

theorem fromHex_toHex (l : List Nat) (h : ∀ n ∈ l, n < 256) : fromHex (toHex l) = .ok l := by
  induction l with
  | nil => rfl
  | cons a l ih =>
    have ha : a < 256 := h a (by simp)
    have ih := ih (fun n hn => h n (by simp [hn]))
    have h1 := hexDigit_val (a / 16) (by omega)
    have h2 := hexDigit_val (a % 16) (by omega)
    simp only [toHex, List.flatMap_cons, List.cons_append, List.nil_append]
    rw [fromHex]
    simp only [h1.1, h1.2, h2.1]
    rw [toHex] at ih
    rw [ih]
    simp only [Bool.false_eq_true, if_false, Except.map]
    congr 2
    omega

/-! ## Saving and loading -/

theorem zip_filter_map (l : List Str) (f : Str → Bool) (extra : List Bool) :
    ((l.zip (l.map f ++ extra)).filter (·.2)).map (·.1) = l.filter f := by
  induction l with
  | nil => simp
  | cons a l ih =>
    simp only [List.map_cons, List.cons_append, List.zip_cons_cons, List.filter_cons]
    cases h : f a <;> simp [ih]

theorem filter_hash (hash : Str → Nat) (l : List Str) (p : Str) (hp : p ∈ l) (hn : l.Nodup)
    (hi : ∀ a ∈ l, ∀ b ∈ l, hash a = hash b → a = b) :
    l.filter (fun b => hash b == hash p) = [p] := by
  have e : l.filter (fun b => hash b == hash p) = l.filter (fun b => b == p) := by
    apply List.filter_congr
    intro x hx
    by_cases h : x = p
    · simp [h]
    · have : hash x ≠ hash p := fun h' => h (hi x hx p hp h')
      simp [h, this]
  rw [e]
  clear e hi
  induction l with
  | nil => simp at hp
  | cons a l ih =>
    rw [List.nodup_cons] at hn
    by_cases h : a = p
    · subst h
      have : l.filter (fun b => b == a) = [] := by
        rw [List.filter_eq_nil_iff]; intro x hx; simp; rintro rfl; exact hn.1 hx
      simp [this]
    · have : p ∈ l := by simpa [Ne.symm h] using hp
      simp [h, ih this hn.2]

/-- Loading a saved cursor over the same blobs: the read blobs, in listing order, the location, and
the partition if it can be told from its hash. -/
theorem load_save (hash : Str → Nat) (c c0 : Cursor) (hr : c0.readable = c.readable) :
    load hash c0 (save hash c) = .ok
      { readable := c.readable, location := c.location,
        read := c.readable.filter (fun b => c.read.contains b),
        partition :=
          if (c.readable.filter (fun b => hash b == hash c.partition)).length = 1
          then (c.readable.filter (fun b => hash b == hash c.partition)).headD []
          else c0.partition } := by
  have hb : ∀ n ∈ toBytes (c.readable.map (fun b => c.read.contains b)), n < 256 := toBytes_lt _
  have hl := toBytes_length (c.readable.map (fun b => c.read.contains b))
  have ht := take_fromBytes_toBytes (c.readable.map (fun b => c.read.contains b))
  simp only [load, save, fromHex_toHex _ hb, fromBytes_length, hr]
  rw [List.length_map] at hl ht
  rw [if_neg (by omega)]
  congr 2
  rw [← List.take_append_drop c.readable.length (fromBytes _), ht]
  exact zip_filter_map _ _ _

/-! ## Runs of the reader -/

/-- The blobs not yet finished. -/
def unread (c : Cursor) : List Str := c.readable.filter (fun b => !c.read.contains b)

/-- The records still to be delivered, for a cursor in a good state. -/
def pending {ρ : Type} (content : Str → List ρ) (c : Cursor) : List ρ :=
  ((unread c).flatMap content).drop (skip c)

theorem skip_at (c : Cursor) (k : Nat) : skip { c with location := (k : Int) } = k + 1 := by
  show (if (k : Int) < 0 then 0 else ((k : Int) + 1).toNat) = k + 1
  rw [if_neg (by omega)]
  omega

/-- A good state: between blobs, or part way through the first blob that is not finished. -/
def Good {ρ : Type} (content : Str → List ρ) (c : Cursor) : Prop :=
  c.location = -1 ∨
  (0 ≤ c.location ∧ c.partition ≠ [] ∧ ∃ rest, unread c = c.partition :: rest ∧
    skip c ≤ (content c.partition).length)

theorem deliver_map {ρ : Type} (c : Cursor) (s : Nat) (l : List ρ) :
    (deliver c s l).map (·.1) = l := by
  induction l generalizing s with
  | nil => rfl
  | cons r rs ih => simp [deliver, ih]

theorem deliver_length {ρ : Type} (c : Cursor) (s : Nat) (l : List ρ) :
    (deliver c s l).length = l.length := by
  rw [← List.length_map (f := (·.1)), deliver_map]

theorem deliver_get {ρ : Type} (c : Cursor) (s : Nat) (l : List ρ) (i : Nat)
    (h : i < (deliver c s l).length) :
    ((deliver c s l)[i]).2 = { c with location := ((s + i : Nat) : Int) } := by
  induction l generalizing s i with
  | nil => simp [deliver] at h
  | cons r rs ih =>
    cases i with
    | zero => simp [deliver]
    | succ i =>
      simp only [deliver, List.getElem_cons_succ]
      rw [ih]
      congr 2
      omega

theorem rounds_succ {ρ : Type} (content : Str → List ρ) (n : Nat) (c e : Cursor) (previous : Option Str)
    (p : Str) (hp : p ≠ []) (h : nextBlob c previous = .ok (some p, e)) :
    rounds content (n + 1) c previous =
      let ys := deliver e (skip e) ((content p).drop (skip e))
      let r := rounds content n ((ys.getLast?.map (·.2)).getD e) (some p)
      ⟨ys ++ r.yields, r.finish⟩ := by
  obtain _ | ⟨b, bs⟩ := p
  · exact absurd rfl hp
  · rw [rounds, h]

theorem unread_finish (c : Cursor) (p : Str) (rest : List Str) (hn : c.readable.Nodup)
    (h : unread c = p :: rest) (r : List Str) (hr : r = c.read ++ [p]) (pa : Str) (lo : Int) :
    unread { readable := c.readable, read := r, partition := pa, location := lo } = rest := by
  subst hr
  have hn' : (unread c).Nodup := hn.filter _
  rw [h, List.nodup_cons] at hn'
  have e : c.readable.filter (fun b => !(c.read ++ [p]).contains b)
      = (unread c).filter (fun b => !(b == p)) := by
    rw [unread, List.filter_filter]
    apply List.filter_congr
    intro x _
    by_cases h1 : x ∈ c.read <;> by_cases h2 : x = p <;> simp [h1, h2]
  show c.readable.filter (fun b => !(c.read ++ [p]).contains b) = rest
  rw [e, h]
  simp only [List.filter_cons, beq_self_eq_true, Bool.not_true, Bool.false_eq_true, if_false]
  rw [List.filter_eq_self]
  intro x hx
  have : x ≠ p := by rintro rfl; exact hn'.1 hx
  simp [this]

theorem rounds_spec {ρ : Type} (content : Str → List ρ) (R : List Str) (hn : R.Nodup)
    (he : [] ∉ R) (n : Nat) (c : Cursor) (previous : Option Str)
    (hR : c.readable = R) (hg : Good content (finished c previous))
    (hlen : (unread (finished c previous)).length < n) :
    let run := rounds content n c previous
    run.yields.map (·.1) = pending content (finished c previous) ∧
    (∀ i (h : i < run.yields.length), (run.yields[i]).2.readable = R ∧
        Good content (run.yields[i]).2 ∧
        pending content (run.yields[i]).2 = (pending content (finished c previous)).drop (i + 1)) ∧
    ∃ f, run.finish = .ok f ∧ f.readable = R ∧ Good content f ∧ pending content f = [] := by
  induction n generalizing c previous with
  | zero => omega
  | succ n ih =>
    have hfR : (finished c previous).readable = R := by
      unfold finished; split <;> simp [hR]
    -- what `nextBlob` returns
    have hnext : nextBlob c previous =
        if (finished c previous).partition ≠ [] ∧ 0 ≤ (finished c previous).location then
          if (finished c previous).partition ∈ (finished c previous).readable then
            .ok (some (finished c previous).partition, finished c previous)
          else .error .valueError
        else match unread (finished c previous) with
          | u :: _ => .ok (some u, { finished c previous with partition := u, location := -1 })
          | [] => .ok (none, finished c previous) := by
      rfl
    generalize hd : finished c previous = d at *
    -- one round from a state `e` positioned at the first unread blob
    have round : ∀ (e : Cursor) (rest : List Str), e.readable = R →
        unread e = e.partition :: rest → e.partition ≠ [] → -1 ≤ e.location →
        skip e ≤ (content e.partition).length →
        unread d = unread e → pending content d = pending content e →
        nextBlob c previous = .ok (some e.partition, e) →
        let run := rounds content (n + 1) c previous
        run.yields.map (·.1) = pending content d ∧
        (∀ i (h : i < run.yields.length), (run.yields[i]).2.readable = R ∧
            Good content (run.yields[i]).2 ∧
            pending content (run.yields[i]).2 = (pending content d).drop (i + 1)) ∧
        ∃ f, run.finish = .ok f ∧ f.readable = R ∧ Good content f ∧ pending content f = [] := by
      intro e rest heR hu hp hloc hsk hud hpd hnb
      obtain ⟨b, bs, hb⟩ : ∃ b bs, e.partition = b :: bs := by
        cases h : e.partition with
        | nil => exact absurd h hp
        | cons b bs => exact ⟨b, bs, rfl⟩
      rw [rounds_succ content n c e previous e.partition hp hnb]
      dsimp only
      generalize hys : deliver e (skip e) ((content e.partition).drop (skip e)) = ys
      have hyl : ys.length = (content e.partition).length - skip e := by
        rw [← hys, deliver_length, List.length_drop]
      have hym : ys.map (·.1) = (content e.partition).drop (skip e) := by
        rw [← hys, deliver_map]
      have hyg : ∀ i (h : i < ys.length), (ys[i]).2 = { e with location := ((skip e + i : Nat) : Int) } := by
        intro i h
        subst hys
        exact deliver_get _ _ _ _ _
      generalize ha : (ys.getLast?.map (·.2)).getD e = after
      have hafter : after.readable = e.readable ∧ after.read = e.read := by
        rw [← ha]
        cases hl : ys.getLast? with
        | none => simp
        | some y =>
          rw [List.getLast?_eq_getElem?] at hl
          have hlt : ys.length - 1 < ys.length := by
            rcases Nat.eq_zero_or_pos ys.length with h0 | h0
            · have : ys = [] := List.eq_nil_of_length_eq_zero h0
              simp [this] at hl
            · omega
          rw [List.getElem?_eq_getElem hlt] at hl
          have := hyg _ hlt
          simp only [Option.some.injEq] at hl
          rw [hl] at this
          simp [this]
      have hfin : finished after (some e.partition) =
          { readable := e.readable, read := e.read ++ [e.partition], partition := [], location := -1 } := by
        rw [hb]; simp [finished, hafter.1, hafter.2]
      have huf : unread (finished after (some e.partition)) = rest := by
        rw [hfin]
        exact unread_finish e e.partition rest (by rw [heR]; exact hn) hu _ rfl _ _
      have hpf : pending content (finished after (some e.partition)) = rest.flatMap content := by
        rw [pending, huf]
        simp [skip, hfin]
      have hpe : pending content d = (content e.partition).drop (skip e) ++ rest.flatMap content := by
        rw [hpd, pending, hu, List.flatMap_cons, List.drop_append_of_le_length hsk]
      obtain ⟨i1, i2, i3⟩ := ih after (some e.partition) (by rw [hafter.1, heR])
        (Or.inl (by rw [hfin])) (by rw [huf]; rw [hud, hu] at hlen; simp at hlen; omega)
      refine ⟨?_, ?_, i3⟩
      · rw [List.map_append, hym, i1, hpf, hpe]
      · intro i h
        by_cases hi : i < ys.length
        · rw [List.getElem_append_left hi, hyg i hi]
          refine ⟨heR, Or.inr ⟨by simp; omega, hp, rest, hu, ?_⟩, ?_⟩
          · have : skip { e with location := ((skip e + i : Nat) : Int) } = skip e + i + 1 := by
              exact skip_at _ _
            rw [this]; simp only; omega
          · have : skip { e with location := ((skip e + i : Nat) : Int) } = skip e + i + 1 := by
              exact skip_at _ _
            rw [pending, this, hpd, pending, List.drop_drop]
            rfl
        · rw [List.getElem_append_right (by omega)]
          have hlt : i - ys.length < (rounds content n after (some e.partition)).yields.length := by
            rw [List.length_append] at h; omega
          obtain ⟨j1, j2, j3⟩ := i2 (i - ys.length) hlt
          refine ⟨j1, j2, ?_⟩
          rw [j3, hpf, hpe, List.drop_append, List.length_drop, ← hyl]
          have hz : List.drop (i + 1) (List.drop (skip e) (content e.partition)) = [] :=
            List.drop_of_length_le (by rw [List.length_drop]; omega)
          rw [hz, List.nil_append]
          congr 1
          omega
    rcases hg with hloc | ⟨hloc, hp, rest, hu, hsk⟩
    · rw [if_neg (by omega)] at hnext
      cases hu : unread d with
      | nil =>
        rw [hu] at hnext
        have hpd : pending content d = [] := by rw [pending, hu]; simp
        simp only [rounds, hnext]
        refine ⟨by simp [hpd], by simp, d, rfl, hfR, Or.inl hloc, hpd⟩
      | cons u rest =>
        rw [hu] at hnext
        have hmem : u ∈ R := by
          have : u ∈ unread d := by rw [hu]; simp
          rw [← hfR]
          exact (List.mem_filter.1 this).1
        have hsk0 : skip { d with partition := u, location := -1 } = 0 := by simp [skip]
        refine round { d with partition := u, location := -1 } rest hfR hu ?_ (by simp)
          (by rw [hsk0]; omega) rfl ?_ hnext
        · intro h; exact he ((show u = [] from h) ▸ hmem)
        · rw [pending, pending, hsk0]
          have : skip d = 0 := by simp [skip, hloc]
          rw [this]; rfl
    · have hmem : d.partition ∈ d.readable := by
        have : d.partition ∈ unread d := by rw [hu]; simp
        exact (List.mem_filter.1 this).1
      rw [if_pos ⟨hp, hloc⟩, if_pos hmem] at hnext
      exact round d rest hfR hu hp (by omega) hsk rfl rfl hnext

/-- A good cursor survives being saved and loaded over the same blobs. -/
theorem load_good {ρ : Type} (hash : Str → Nat) (content : Str → List ρ) (R : List Str)
    (hn : R.Nodup) (hi : ∀ a ∈ R, ∀ b ∈ R, hash a = hash b → a = b)
    (c c0 : Cursor) (hR : c.readable = R) (hR0 : c0.readable = R)
    (hg : Good content c) :
    ∃ d, load hash c0 (save hash c) = .ok d ∧ d.readable = R ∧ Good content d ∧
      pending content d = pending content c := by
  rw [load_save hash c c0 (by rw [hR, hR0])]
  refine ⟨_, rfl, hR, ?_, ?_⟩
  · rcases hg with h | ⟨hloc, hp, rest, hu, hsk⟩
    · exact Or.inl h
    · right
      have hmem : c.partition ∈ c.readable := by
        have : c.partition ∈ unread c := by rw [hu]; simp
        exact (List.mem_filter.1 this).1
      have hf := filter_hash hash c.readable c.partition hmem (by rw [hR]; exact hn)
        (by rw [hR]; exact hi)
      refine ⟨hloc, ?_, rest, ?_, ?_⟩
      · simp [hf, hp]
      · simp only [hf]
        show _ = c.partition :: rest
        rw [← hu]
        simp only [unread]
        apply List.filter_congr
        intro x hx
        by_cases h : x ∈ c.read <;> simp [h, hx]
      · simp only [hf]
        exact hsk
  · simp only [pending, skip]
    congr 2
    simp only [unread]
    apply List.filter_congr
    intro x hx
    by_cases h : x ∈ c.read <;> simp [h, hx]

end Mabel.Cursor
