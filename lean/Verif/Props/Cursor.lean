import Verif.Lemmas.Cursor

/-!
# Properties of cursors: C15, C16, C17
-/

namespace Mabel.Cursor
open Mabel.Py

/-! ## Specification -/

/-- Cutting a list into consecutive pieces of the given sizes (the last pieces are short or empty if
the list runs out). -/
def pieces {ρ : Type} : List Nat → List ρ → List (List ρ)
  | [], _ => []
  | k :: ks, l => l.take k :: pieces ks (l.drop k)

/-- A caller reads in several sittings: in each it starts a new reader from the cursor saved by the
one before, takes some records and saves the cursor.  Gives what each sitting delivered and the last
saved cursor. -/
def sittings {ρ : Type} (hash : Str → Nat) (content : Str → List ρ) (blobs : List Str) :
    List Nat → Option Doc → Except Err (List (List ρ) × Option Doc)
  | [], doc => .ok ([], doc)
  | k :: ks, doc =>
    match session hash content blobs doc k with
    | .error e => .error e
    | .ok (l, doc) => (sittings hash content blobs ks doc).map (fun r => (l :: r.1, r.2))

/-! ## C15 -/

/-- A saved cursor (or none) from which the records `rest` remain. -/
def Resumes {ρ : Type} (hash : Str → Nat) (content : Str → List ρ) (blobs : List Str)
    (doc : Option Doc) (rest : List ρ) : Prop :=
  (doc = none ∧ rest = (sorted strLe blobs).flatMap content) ∨
  ∃ c : Cursor, doc = some (save hash c) ∧ c.readable = sorted strLe blobs ∧ Good content c ∧
    pending content c = rest

theorem resumes_run {ρ : Type} (hash : Str → Nat) (content : Str → List ρ) (blobs : List Str)
    (hn : blobs.Nodup) (he : [] ∉ blobs) (hi : ∀ a ∈ blobs, ∀ b ∈ blobs, hash a = hash b → a = b)
    (doc : Option Doc) (rest : List ρ) (h : Resumes hash content blobs doc rest) :
    let run := readAll hash content blobs doc
    run.yields.map (·.1) = rest ∧
    (∀ i (h : i < run.yields.length),
      Resumes hash content blobs (some (save hash (run.yields[i]).2)) (rest.drop (i + 1))) ∧
    ∃ f, run.finish = .ok f ∧ Resumes hash content blobs (some (save hash f)) [] := by
  have hn' : (sorted strLe blobs).Nodup := (sorted_perm strLe blobs).nodup_iff.2 hn
  have he' : [] ∉ sorted strLe blobs := by rw [mem_sorted]; exact he
  have key : ∀ c : Cursor, init hash blobs doc = .ok c → c.readable = sorted strLe blobs →
      Good content c → pending content c = rest →
      let run := readAll hash content blobs doc
      run.yields.map (·.1) = rest ∧
      (∀ i (h : i < run.yields.length),
        Resumes hash content blobs (some (save hash (run.yields[i]).2)) (rest.drop (i + 1))) ∧
      ∃ f, run.finish = .ok f ∧ Resumes hash content blobs (some (save hash f)) [] := by
    intro c hc hR hg hp
    have hlen : (unread (finished c none)).length < c.readable.length + 1 :=
      Nat.lt_succ_of_le (List.length_filter_le _ _)
    obtain ⟨r1, r2, f, r3, r4, r5, r6⟩ := rounds_spec content _ hn' he' (c.readable.length + 1) c none
      hR hg hlen
    have hrun : readAll hash content blobs doc = rounds content (c.readable.length + 1) c none := by
      rw [readAll, hc]
    rw [hrun]
    refine ⟨by rw [r1]; exact hp, ?_, f, r3, Or.inr ⟨f, rfl, r4, r5, r6⟩⟩
    intro i hlt
    obtain ⟨a, b, d⟩ := r2 i hlt
    exact Or.inr ⟨_, rfl, a, b, by rw [d]; exact congrArg _ hp⟩
  rcases h with ⟨rfl, rfl⟩ | ⟨c, rfl, hR, hg, hp⟩
  · refine key _ rfl rfl (Or.inl rfl) ?_
    have : unread { readable := sorted strLe blobs, read := [], partition := [], location := -1 }
        = sorted strLe blobs := by
      simp [unread]
    rw [pending, this]
    simp [skip]
  · obtain ⟨d, d1, d2, d3, d4⟩ := load_good hash content _ hn'
      (fun a ha b hb => hi a (mem_sorted.1 ha) b (mem_sorted.1 hb)) c
      { readable := sorted strLe blobs, read := [], partition := [], location := -1 } hR rfl hg
    exact key d d1 d2 d3 (by rw [d4, hp])

theorem resumes_session {ρ : Type} (hash : Str → Nat) (content : Str → List ρ) (blobs : List Str)
    (hn : blobs.Nodup) (he : [] ∉ blobs) (hi : ∀ a ∈ blobs, ∀ b ∈ blobs, hash a = hash b → a = b)
    (doc : Option Doc) (rest : List ρ) (h : Resumes hash content blobs doc rest) (k : Nat) :
    ∃ doc', session hash content blobs doc k = .ok (rest.take k, doc') ∧
      Resumes hash content blobs doc' (rest.drop k) := by
  obtain ⟨h1, h2, f, h3, h4⟩ := resumes_run hash content blobs hn he hi doc rest h
  cases k with
  | zero => exact ⟨doc, by simp [session], by simpa using h⟩
  | succ k =>
    simp only [session, Nat.succ_ne_zero, if_false, Nat.add_sub_cancel]
    by_cases hk : k < (readAll hash content blobs doc).yields.length
    · rw [List.getElem?_eq_getElem hk]
      refine ⟨_, ?_, h2 k hk⟩
      simp only [List.map_take, h1]
    · rw [List.getElem?_eq_none (by omega), h3]
      have hl : rest.length ≤ k := by rw [← h1, List.length_map]; omega
      refine ⟨some (save hash f), ?_, ?_⟩
      · simp only [h1]
        rw [List.take_of_length_le (by omega)]
      · rw [List.drop_of_length_le (by omega)]; exact h4

/-- **C15.**  Reading in any number of sittings, each resumed from the cursor saved by the one
before, delivers the records of the blobs, in order, cut where the sittings were: nothing skipped,
nothing repeated; and a last sitting read to its end delivers exactly what is left.  The blob names
are distinct, not empty, and no two have the same hash. -/
theorem C15_resume_exact {ρ : Type} (hash : Str → Nat) (content : Str → List ρ) (blobs : List Str)
    (hn : blobs.Nodup) (he : [] ∉ blobs) (hi : ∀ a ∈ blobs, ∀ b ∈ blobs, hash a = hash b → a = b)
    (ks : List Nat) :
    ∃ doc c, sittings hash content blobs ks none
        = .ok (pieces ks ((sorted strLe blobs).flatMap content), doc) ∧
      (readAll hash content blobs doc).yields.map (·.1)
        = ((sorted strLe blobs).flatMap content).drop ks.sum ∧
      (readAll hash content blobs doc).finish = .ok c := by
  have gen : ∀ (ks : List Nat) (doc : Option Doc) (rest : List ρ),
      Resumes hash content blobs doc rest →
      ∃ doc', sittings hash content blobs ks doc = .ok (pieces ks rest, doc') ∧
        Resumes hash content blobs doc' (rest.drop ks.sum) := by
    intro ks
    induction ks with
    | nil => intro doc rest h; exact ⟨doc, rfl, by simpa using h⟩
    | cons k ks ih =>
      intro doc rest h
      obtain ⟨d1, e1, r1⟩ := resumes_session hash content blobs hn he hi doc rest h k
      obtain ⟨d2, e2, r2⟩ := ih d1 _ r1
      refine ⟨d2, ?_, ?_⟩
      · simp only [sittings, e1, e2, Except.map, pieces]
      · rw [List.sum_cons, ← List.drop_drop]; exact r2
  obtain ⟨doc, h1, h2⟩ := gen ks none _ (Or.inl ⟨rfl, rfl⟩)
  obtain ⟨r1, _, f, r3, _⟩ := resumes_run hash content blobs hn he hi doc _ h2
  exact ⟨doc, f, h1, r1, r3⟩

/-- Three blobs with five records, read in sittings of 2, 0 and 2: the sittings give records 1–2,
none, and 3–4 (the third blob is empty). -/
example :
    let content : Str → List Nat := fun b =>
      if b = "a".toList then [1, 2, 3] else if b = "b".toList then [4, 5] else []
    let hash : Str → Nat := fun b => (b.headD 'x').toNat
    let blobs := ["b".toList, "c".toList, "a".toList]
    (blobs.Nodup ∧ [] ∉ blobs ∧ ∀ a ∈ blobs, ∀ b ∈ blobs, hash a = hash b → a = b) ∧
    (sittings hash content blobs [2, 0, 2] none).toOption.map (·.1) = some [[1, 2], [], [3, 4]] := by
  decide

/-- **C15 fails when two blob names have the same hash**: the partition cannot be told, and the
reader starts the blob again, repeating records (here: record 1 of blob `a`). -/
theorem C15_collision_fails :
    ∃ (hash : Str → Nat) (content : Str → List Nat) (blobs : List Str) (doc : Option Doc),
      blobs.Nodup ∧ [] ∉ blobs ∧
      session hash content blobs none 1 = .ok ([1], doc) ∧
      (readAll hash content blobs doc).yields.map (·.1) = [1, 2, 3, 4] :=
  ⟨fun _ => 7, fun b => if b = ['a'] then [1, 2] else [3, 4], [['a'], ['b']],
    some ⟨some ['0', '0'], some 7, some 0⟩, by decide, by decide, by decide, by decide⟩

/-- **C15 fails when storage lists a blob twice** (C20 shows the reader can do so): a cursor in the
middle of that blob starts it again. -/
theorem C15_listed_twice_fails :
    ∃ (hash : Str → Nat) (content : Str → List Nat) (blobs : List Str) (doc : Option Doc),
      (∀ a ∈ blobs, ∀ b ∈ blobs, hash a = hash b → a = b) ∧
      session hash content blobs none 1 = .ok ([1], doc) ∧
      (readAll hash content blobs doc).yields.map (·.1) = [1, 2] :=
  ⟨fun b => b.length, fun _ => [1, 2], [['a'], ['a']],
    some ⟨some ['0', '0'], some 1, some 0⟩, by decide, by decide, by decide⟩

/-! ## C16 -/

/-- **C16.**  A cursor saved and loaded over the same blobs designates the same finished blobs, the
same active blob and the same location, whatever the number of blobs.  The blob names are distinct
and their hashes, and that of "no active blob", are different. -/
theorem C16_round_trip (hash : Str → Nat) (blobs : List Str) (hn : blobs.Nodup)
    (hi : ∀ a ∈ [] :: blobs, ∀ b ∈ [] :: blobs, hash a = hash b → a = b)
    (c : Cursor) (hc : c.readable = sorted strLe blobs) (hr : ∀ b ∈ c.read, b ∈ blobs)
    (hp : c.partition = [] ∨ c.partition ∈ blobs) :
    ∃ d, init hash blobs (some (save hash c)) = .ok d ∧ d.readable = c.readable ∧
      (∀ b, b ∈ d.read ↔ b ∈ c.read) ∧ d.partition = c.partition ∧ d.location = c.location := by
  refine ⟨_, load_save hash c _ hc.symm, rfl, ?_, ?_, rfl⟩
  · intro b
    simp only [List.mem_filter, List.contains_iff_mem, hc, mem_sorted]
    exact ⟨fun h => h.2, fun h => ⟨hr b h, h⟩⟩
  · have hn' : c.readable.Nodup := by rw [hc]; exact (sorted_perm strLe blobs).nodup_iff.2 hn
    have mem : ∀ {x}, x ∈ c.readable → x ∈ blobs := fun h => by rw [hc] at h; exact mem_sorted.1 h
    by_cases hm : c.partition ∈ blobs
    · have hf := filter_hash hash c.readable c.partition (by rw [hc]; exact mem_sorted.2 hm) hn'
        (fun a ha b hb => hi a (by simp [mem ha]) b (by simp [mem hb]))
      simp [hf]
    · have h0 : c.partition = [] := hp.resolve_right hm
      have hf : c.readable.filter (fun b => hash b == hash c.partition) = [] := by
        rw [List.filter_eq_nil_iff]
        intro x hx hh
        rw [beq_iff_eq, h0] at hh
        have := hi x (by simp [mem hx]) [] (by simp) hh
        rw [h0] at hm
        exact hm (this ▸ mem hx)
      simp only [hf]
      exact h0.symm

/-- Nine blobs (not a multiple of eight), the third and the ninth finished, the fourth active. -/
example :
    let blobs := ["a", "b", "c", "d", "e", "f", "g", "h", "i"].map String.toList
    let hash : Str → Nat := fun b => (b.headD 'z').toNat
    let c : Cursor := ⟨blobs, [['i'], ['c']], ['d'], 41⟩
    (∀ a ∈ [] :: blobs, ∀ b ∈ [] :: blobs, hash a = hash b → a = b) ∧
    save hash c = ⟨some "2080".toList, some 100, some 41⟩ ∧
    (init hash blobs (some (save hash c))).toOption = some ⟨blobs, [['c'], ['i']], ['d'], 41⟩ := by
  decide

/-! ## C17 -/

/-- **C17 (missing parts).**  A cursor without its location, map or partition is refused, and no
record is delivered. -/
theorem C17_missing_refused {ρ : Type} (hash : Str → Nat) (content : Str → List ρ)
    (blobs : List Str) (doc : Doc)
    (h : doc.location = none ∨ doc.map = none ∨ doc.partition = none) :
    (readAll hash content blobs (some doc)).yields = [] ∧
    (readAll hash content blobs (some doc)).finish = .error .invalidCursor := by
  have : init hash blobs (some doc) = .error .invalidCursor := by
    obtain ⟨m, p, l⟩ := doc
    simp only [init, load]
    rcases h with h | h | h <;> simp only at h <;> subst h
    · rfl
    · cases l <;> rfl
    · cases l <;> cases m <;> rfl
  simp [readAll, this]

/-- The digits of a map. -/
def hexDigits : List Char := "0123456789abcdefABCDEF".toList

theorem hexVal_some {c : Char} : (hexVal c).isSome = true ↔ c ∈ hexDigits := by
  constructor
  · intro h
    have hn : ('0'.toNat ≤ c.toNat ∧ c.toNat ≤ '9'.toNat) ∨ ('a'.toNat ≤ c.toNat ∧ c.toNat ≤ 'f'.toNat) ∨
        ('A'.toNat ≤ c.toNat ∧ c.toNat ≤ 'F'.toNat) := by
      unfold hexVal at h
      split at h
      · next h' => exact .inl h'
      · split at h
        · next h' => exact .inr (.inl h')
        · split at h
          · next h' => exact .inr (.inr h')
          · cases h
    have e : c = Char.ofNat c.toNat := (Char.ofNat_toNat c).symm
    have key : ∀ n < 103, (48 ≤ n ∧ n ≤ 57) ∨ (97 ≤ n ∧ n ≤ 102) ∨ (65 ≤ n ∧ n ≤ 70) → Char.ofNat n ∈ hexDigits := by decide
    rw [e]
    refine key _ ?_ hn
    have h9 : '9'.toNat = 57 := rfl
    have hf : 'f'.toNat = 102 := rfl
    have hF : 'F'.toNat = 70 := rfl
    omega
  · revert c
    decide

theorem hexVal_none {c : Char} : hexVal c = none ↔ c ∉ hexDigits := by
  rw [← hexVal_some]
  cases hexVal c <;> simp

theorem fromHex_length {m : Str} {bytes : List Nat} (h : fromHex m = .ok bytes) :
    2 * bytes.length ≤ (m.filter (fun c => c ∈ hexDigits)).length := by
  induction m using fromHex.induct generalizing bytes with
  | case1 => cases h; simp
  | case2 c hc =>
    rw [fromHex, if_pos hc] at h
    cases h
    simp
  | case3 c hc =>
    rw [fromHex, if_neg hc] at h
    cases h
  | case4 c d rest hc ih =>
    rw [fromHex, if_pos hc] at h
    have := ih h
    rw [List.filter_cons]
    split
    · rw [List.length_cons]; omega
    · exact this
  | case5 c d rest hc a b hb ha ih =>
    rw [fromHex, if_neg hc, hb, ha] at h
    cases hr : fromHex rest with
    | error e => rw [hr] at h; cases h
    | ok l =>
      rw [hr] at h
      cases h
      have := ih hr
      have h1 : c ∈ hexDigits := hexVal_some.1 (by rw [ha]; rfl)
      have h2 : d ∈ hexDigits := hexVal_some.1 (by rw [hb]; rfl)
      rw [List.filter_cons, if_pos (by simpa using h1), List.filter_cons, if_pos (by simpa using h2)]
      simp only [List.length_cons]
      omega
  | case6 c d rest hc hnone =>
    rw [fromHex, if_neg hc] at h
    cases h1 : hexVal c with
    | none => rw [h1] at h; cases h
    | some a =>
      cases h2 : hexVal d with
      | none => rw [h1, h2] at h; cases h
      | some b => exact absurd h2 (hnone a b h1)

/-- **C17 (a map that is not hexadecimal).**  A map with a character that is neither a hexadecimal digit nor white space is refused, and
no record is delivered. -/
theorem C17_bad_map_refused {ρ : Type} (hash : Str → Nat) (content : Str → List ρ)
    (blobs : List Str) (doc : Doc) (m : Str) (hm : doc.map = some m)
    (hb : ∃ c ∈ m, c ∉ hexDigits ∧ c ∉ [' ', '\t', '\n', '\r', '\x0b', '\x0c']) :
    (readAll hash content blobs (some doc)).yields = [] ∧
    ∃ e, (readAll hash content blobs (some doc)).finish = .error e := by
  replace hb : ∃ c ∈ m, hexVal c = none ∧ isSpace c = false := by
    obtain ⟨c, h1, h2, h3⟩ := hb
    exact ⟨c, h1, hexVal_none.2 h2, by unfold isSpace; simpa using h3⟩
  have hx : fromHex m = .error .valueError := by
    clear hm
    induction m using fromHex.induct with
    | case1 => simp at hb
    | case2 c h => simp [h] at hb
    | case3 c h => simp [fromHex, h]
    | case4 c d rest h ih =>
      rw [fromHex, if_pos h]
      apply ih
      obtain ⟨x, hx, hv, hs⟩ := hb
      rcases List.mem_cons.1 hx with rfl | hx
      · simp [hs] at h
      · exact ⟨x, hx, hv, hs⟩
    | case5 c d rest h a b hb' ha ih =>
      rw [fromHex, if_neg h, hb', ha]
      obtain ⟨x, hx, hv, hs⟩ := hb
      rw [List.mem_cons, List.mem_cons] at hx
      rcases hx with rfl | rfl | hx
      · rw [hv] at ha; exact absurd ha (by simp)
      · rw [hv] at hb'; exact absurd hb' (by simp)
      · simp [ih ⟨x, hx, hv, hs⟩, Except.map]
    | case6 c d rest h hnone =>
      rw [fromHex, if_neg h]
      cases hc : hexVal c with
      | none => rfl
      | some a =>
        cases hd : hexVal d with
        | none => rfl
        | some b => exact absurd hd (hnone a b hc)
  have : ∃ e, init hash blobs (some doc) = .error e := by
    obtain ⟨_, p, l⟩ := doc
    simp only at hm
    subst hm
    cases l with
    | none => exact ⟨.invalidCursor, rfl⟩
    | some l => cases p with
      | none => exact ⟨.invalidCursor, rfl⟩
      | some p => exact ⟨.valueError, by simp only [init, load, hx]⟩
  obtain ⟨e, this⟩ := this
  simp [readAll, this]

/-- **C17 (partial).**  A cursor whose map has fewer bits (four for each digit) than there are blobs is refused, and no
record is delivered.  What is missing: the map is padded to whole bytes, so a cursor saved over fewer
blobs is not always recognised (`C17_padding_fails`). -/
theorem C17_short_map_refused_partial {ρ : Type} (hash : Str → Nat) (content : Str → List ρ)
    (blobs : List Str) (doc : Doc) (m : Str) (hm : doc.map = some m)
    (hl : 4 * (m.filter (fun c => c ∈ hexDigits)).length < blobs.length) :
    (readAll hash content blobs (some doc)).yields = [] ∧
    ∃ e, (readAll hash content blobs (some doc)).finish = .error e := by
  have : ∃ e, init hash blobs (some doc) = .error e := by
    obtain ⟨_, p, l⟩ := doc
    simp only at hm
    subst hm
    cases l with
    | none => exact ⟨.invalidCursor, rfl⟩
    | some l => cases p with
      | none => exact ⟨.invalidCursor, rfl⟩
      | some p =>
        cases hx : fromHex m with
        | error e => exact ⟨e, by simp only [init, load, hx]⟩
        | ok bytes =>
          have := fromHex_length hx
          refine ⟨.indexError, ?_⟩
          simp only [init, load, hx, fromBytes_length, length_sorted]
          rw [if_pos (by omega)]
  obtain ⟨e, this⟩ := this
  simp [readAll, this]

theorem toHex_length (l : List Nat) : (toHex l).length = 2 * l.length := by
  induction l with
  | nil => rfl
  | cons n l ih =>
    show (hexDigit (n / 16) :: hexDigit (n % 16) :: toHex l).length = _
    rw [List.length_cons, List.length_cons, ih, List.length_cons]
    omega

/-- In particular a cursor saved over some blobs is refused for a set with more blobs than the next
multiple of eight. -/
theorem C17_larger_set_refused_partial {ρ : Type} (hash : Str → Nat) (content : Str → List ρ)
    (blobs : List Str) (c : Cursor) (hl : 8 * ((c.readable.length + 7) / 8) < blobs.length) :
    (readAll hash content blobs (some (save hash c))).yields = [] ∧
    ∃ e, (readAll hash content blobs (some (save hash c))).finish = .error e := by
  refine C17_short_map_refused_partial hash content blobs _ _ rfl (Nat.lt_of_le_of_lt ?_ hl)
  refine Nat.le_trans (Nat.mul_le_mul_left 4 (List.length_filter_le _ _)) ?_
  rw [toHex_length, toBytes_length, List.length_map]
  omega

/-- Non-vacuity of the two theorems: a map with a letter that is no digit, and one of two digits for nine blobs. -/
example : (∃ c ∈ "8x".toList, c ∉ hexDigits ∧ c ∉ [' ', '\t', '\n', '\r', '\x0b', '\x0c']) ∧
    4 * ("8 0".toList.filter (fun c => c ∈ hexDigits)).length < 9 := by decide +kernel

example : (8 * ((3 + 7) / 8) < 9) ∧
    (readAll (fun b => b.length) (fun _ => [1])
      (["a", "b", "c", "d", "e", "f", "g", "h", "i"].map String.toList)
      (some (save (fun b => b.length) ⟨[['x']], [], [], -1⟩))).yields = [] := by
  refine ⟨by decide, (C17_larger_set_refused_partial _ _ _ _ ?_).1⟩
  decide

/-- **C17 fails for a few more blobs**: a cursor saved when there was one blob, all of it read, is
accepted when there are two, and taken to mean that the *new* blob was read: its records are never
delivered and those of the old one are delivered again. -/
theorem C17_padding_fails :
    ∃ (hash : Str → Nat) (content : Str → List Nat) (doc : Option Doc),
      session hash content [['b']] none 9 = .ok ([3, 4], doc) ∧
      (readAll hash content [['b'], ['a']] doc).yields.map (·.1) = [3, 4] ∧
      content ['a'] = [1, 2] :=
  ⟨fun b => b.length, fun b => if b = ['a'] then [1, 2] else [3, 4],
    some ⟨some ['8', '0'], some 0, some (-1)⟩, by decide, by decide, by decide⟩

end Mabel.Cursor
