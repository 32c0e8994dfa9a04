import Verif.Props.Display
import Verif.Spec.Cells

/-! # What tables show of values of every type (C57, C65) -/

namespace Mabel.Display
open Mabel.Py

theorem commas_join : ∀ ts : List Str, Commas ts (join ", ".toList ts)
  | [] => .none
  | [t] => .one t
  | _ :: u :: us => .more (commas_join (u :: us))

theorem reads_dict (d : List (Str × Str)) : Reads (.dict d) (showDict d) := .dict (commas_join _)

mutual
theorem reads_format : ∀ c : Cell, Reads c (formatValue c)
  | .text s => by rw [formatValue]; exact .text s
  | .other s => by rw [formatValue]; exact .other s
  | .dict d => by rw [formatValue]; exact reads_dict d
  | .list l => by rw [formatValue]; exact .list (reads_all l) (commas_join _)

theorem reads_all : ∀ l : List Cell, List.Forall₂ Reads l (formatAll l)
  | [] => by rw [formatAll]; exact .nil
  | c :: cs => by rw [formatAll]; exact .cons (reads_format c) (reads_all cs)
end

/-- A text that a browser shows as another, wherever it stands. -/
def Decodes (a t : Str) : Prop := ∀ rest, decodeGo 0 (a ++ rest) = t ++ decodeGo 0 rest

theorem Decodes.append {a b t u : Str} (h : Decodes a t) (k : Decodes b u) : Decodes (a ++ b) (t ++ u) := by
  intro rest
  rw [List.append_assoc, h, k, List.append_assoc]

theorem Decodes.decode {a t : Str} (h : Decodes a t) : Display.decode a = t := by
  have := h []
  rwa [List.append_nil, show decodeGo 0 [] = [] from rfl, List.append_nil] at this

theorem decodes_escape (s : Str) : Decodes (escape s) s := by
  intro rest
  rw [escape_eq]
  induction s with
  | nil => rfl
  | cons x s ih => rw [List.flatMap_cons, List.append_assoc, decode_escapeChar, ih]; rfl

theorem decodes_plain {s : Str} (hi : Inert s) (ha : '&' ∉ s) : Decodes s s := by
  have : escape s = s := by
    rw [escape_eq]
    have : ∀ x ∈ s, escapeChar x = [x] := by
      intro x hx
      have h : ∀ c ∈ special, x ≠ c := fun c hc e => hi c hc (e ▸ hx)
      unfold escapeChar
      rw [if_neg (fun e : x = '&' => ha (e ▸ hx)), if_neg (h '"' (by decide)), if_neg (h '\'' (by decide)), if_neg (h '<' (by decide)),
        if_neg (h '>' (by decide)), if_neg (h '$' (by decide))]
    clear hi ha
    induction s with
    | nil => rfl
    | cons x s ih => rw [List.flatMap_cons, this x (by simp), ih (fun y hy => this y (by simp [hy]))]; rfl
  have h := decodes_escape s
  rwa [this] at h

theorem decodes_join : ∀ {as ts : List Str}, List.Forall₂ Decodes as ts → Decodes (join ", ".toList as) (join ", ".toList ts)
  | _, _, .nil => fun _ => rfl
  | _, _, .cons h .nil => h
  | _, _, .cons h (.cons k l) => (h.append (decodes_plain (by decide) (by decide))).append (decodes_join (.cons k l))

theorem joinShown_texts (ts : List Str) : joinShown (ts.map .text) = .ok ts := by
  induction ts with
  | nil => rfl
  | cons t ts ih => rw [List.map_cons, joinShown, ih]; rfl

mutual
theorem texty_decodes : ∀ c : Cell, Texty c → ∃ s, sanitize c = .ok (.text s) ∧ Decodes s (formatValue c)
  | .text s, _ => ⟨escape s, by rw [sanitize], by rw [formatValue]; exact decodes_escape s⟩
  | .dict d, _ => ⟨_, by rw [sanitize], by rw [formatValue]; exact decodes_escape _⟩
  | .other _, h => by rw [Texty] at h; exact h.elim
  | .list l, h => by
    rw [Texty] at h
    obtain ⟨ts, h1, h2⟩ := textyAll_decodes l h
    refine ⟨"[ ".toList ++ join ", ".toList ts ++ " ]".toList, by rw [sanitize, h1]; simp only [bind, Except.bind, joinShown_texts], ?_⟩
    rw [formatValue]
    exact ((decodes_plain (by decide) (by decide)).append (decodes_join h2)).append (decodes_plain (by decide) (by decide))

theorem textyAll_decodes : ∀ l : List Cell, TextyAll l → ∃ ts : List Str, sanitizeAll l = .ok (ts.map .text) ∧
    List.Forall₂ Decodes ts (formatAll l)
  | [], _ => ⟨[], by rw [sanitizeAll]; rfl, by rw [formatAll]; exact .nil⟩
  | c :: cs, h => by
    rw [TextyAll] at h
    obtain ⟨s, h1, h2⟩ := texty_decodes c h.1
    obtain ⟨ts, h3, h4⟩ := textyAll_decodes cs h.2
    exact ⟨s :: ts, by rw [sanitizeAll, h1, h3]; rfl, by rw [formatAll]; exact .cons h2 h4⟩
end

/-- What is shown in a table without any doubt: texts, dictionaries, lists of such, and objects whose text has no special character
(numbers, datetimes, nothing). -/
def Plain (c : Cell) : Prop := Texty c ∨ ∃ s, c = .other s ∧ Inert s ∧ '&' ∉ s

theorem Plain.safe {c : Cell} (h : Plain c) : Safe c := by
  rcases h with h | ⟨s, h1, h2, _⟩
  · exact .inl h
  · exact .inr ⟨s, h1, h2⟩

theorem plain_shown {c : Cell} (h : Plain c) : Reads c (decode (shown c)) := by
  have : decode (shown c) = formatValue c := by
    rcases h with h | ⟨s, rfl, h1, h2⟩
    · obtain ⟨s, h1, h2⟩ := texty_decodes c h
      unfold shown
      rw [h1]
      exact h2.decode
    · unfold shown
      rw [sanitize, formatValue]
      exact (decodes_plain h1 h2).decode
  rw [this]
  exact reads_format c

theorem cellOf_in (r : Row) (c : Str) : In r c (cellOf r c) := by
  unfold cellOf
  split
  · next kv h =>
    have : kv.1 = c := by simpa using List.find?_some h
    exact .has (by rw [h, ← this])
  · next h =>
    refine .hasNot ?_
    intro hm
    obtain ⟨kv, hk, e⟩ := List.mem_map.1 hm
    have := List.find?_eq_none.1 h kv hk
    simp [e] at this

theorem cellOf_plain (r : Row) (c : Str) (h : ∀ kv ∈ r, Plain kv.2) : Plain (cellOf r c) := by
  unfold cellOf
  split
  · next kv hf => exact h kv (List.mem_of_find?_eq_some hf)
  · exact Or.inl (by rw [Texty]; trivial)

/-- **C57**/**C65** for records with values of every type: the table shows the first `limit` records (all of them when the limit is not
positive), each as one row with one cell for every column of the records shown; in every cell a browser shows the record's value in that
column, as the text and as the title; and every other character of the page is fixed. -/
theorem C57_table (setOrder : List Str → List Str) (hset : ∀ l, (setOrder l).Perm l) (source : Source) (limit : Int) (records : List Row)
    (hp : ∀ r ∈ records, ∀ kv ∈ r, Plain kv.2) :
    let top := if 0 < limit then records.take limit.toNat else records
    ∃ (page : Str) (columns : List Str) (heading : Str → Str) (cell : Row → Str → Str),
      htmlTable setOrder source limit records = .ok page ∧
      (∀ c, Inert (heading c) ∧ decode (heading c) = c) ∧
      (∀ r ∈ top, ∀ c, Inert (cell r c) ∧ ∃ v, In r c v ∧ Reads v (decode (cell r c))) ∧
      columns.Nodup ∧ (∀ c, c ∈ columns ↔ ∃ r ∈ top, c ∈ r.map Prod.fst) ∧
      scan .text page = seenTable (columns.map heading) (top.map (fun r => columns.map (cell r))) ++
        seenFooter source records.length top.length columns.length := by
  intro top
  obtain ⟨page, h1, h2⟩ := table_seen setOrder source limit records (fun r hr kv hk => (hp r hr kv hk).safe)
  have hsub : ∀ r ∈ top, r ∈ records := by
    intro r hm
    have hm : r ∈ (if 0 < limit then records.take limit.toNat else records) := hm
    split at hm
    · exact List.mem_of_mem_take hm
    · exact hm
  refine ⟨page, htmlColumns setOrder top, escape, fun r c => shown (cellOf r c), h1, fun c => ⟨escape_inert c, C57_decoded c⟩, ?_, ?_, ?_, h2⟩
  · intro r hr c
    exact ⟨shown_inert _ (cellOf_safe r c (fun kv hk => (hp r (hsub r hr) kv hk).safe)), _, cellOf_in r c,
      plain_shown (cellOf_plain r c (hp r (hsub r hr)))⟩
  · exact (hset _).nodup_iff.2 (dedup_nodup _)
  · intro c
    rw [htmlColumns, (hset _).mem_iff, dedup_mem, List.mem_flatMap]

/-! ## Text tables -/

/-- The record as the texts that are shown. -/
def texts (r : Row) : List (Str × Str) := r.map (fun kv => (kv.1, formatValue kv.2))

def asTexts (r : List (Str × Str)) : Row := r.map (fun kv => (kv.1, Cell.text kv.2))

theorem widen_texts (cs : Widths) (kv : Str × Cell) : widen cs (kv.1, .text (formatValue kv.2)) = widen cs kv := by
  unfold widen
  simp only [formatValue]
  rfl

theorem asciiCells_texts (cs : Widths) (r : Row) : asciiCells cs (asTexts (texts r)) = asciiCells cs r := by
  induction r with
  | nil => rfl
  | cons kv r ih =>
    obtain ⟨k, v⟩ := kv
    show asciiCells cs ((k, .text (formatValue v)) :: asTexts (texts r)) = _
    rw [asciiCells, asciiCells, ih]
    simp only [formatValue]

theorem asciiLines_texts (cs : Widths) (rows : List Row) : asciiLines cs (rows.map (fun r => asTexts (texts r))) = asciiLines cs rows := by
  induction rows with
  | nil => rfl
  | cons r rows ih => rw [List.map_cons, asciiLines, asciiLines, ih, asciiCells_texts]

theorem asciiRows_map (f : Row → Row) (limit : Int) (count : Nat) (rows : List Row) :
    asciiRows limit count (rows.map f) = (asciiRows limit count rows).map f := by
  induction rows generalizing count with
  | nil => rfl
  | cons r rows ih =>
    rw [List.map_cons, asciiRows, asciiRows]
    split
    · rfl
    · rw [ih, List.map_cons]

theorem asciiTable_texts (limit : Int) (rows : List Row) :
    asciiTable limit ((rows.map texts).map asTexts) = asciiTable limit rows := by
  have hw : ∀ (rows : List Row) (cs : Widths), (rows.map (fun r => asTexts (texts r))).foldl (fun cs row => row.foldl widen cs) cs =
      rows.foldl (fun cs row => row.foldl widen cs) cs := by
    intro rows
    induction rows with
    | nil => intro _; rfl
    | cons r rows ih =>
      intro cs
      rw [List.map_cons, List.foldl_cons, List.foldl_cons, ih]
      congr 1
      clear ih
      induction r generalizing cs with
      | nil => rfl
      | cons kv r ih =>
        show (asTexts (texts r)).foldl widen (widen cs (kv.1, .text (formatValue kv.2))) = r.foldl widen (widen cs kv)
        rw [widen_texts, ih]
  rw [List.map_map]
  show asciiTable limit (rows.map (fun r => asTexts (texts r))) = _
  unfold asciiTable
  simp only [asciiRows_map, hw, asciiLines_texts]

/-- **C65** for records with values of every type, that all have the same fields in the same order: the text table has a line for each of
the first `limit` records (for every record, if the limit is negative), each with a cell for every column, under that column's heading and
as wide as it, where the record's value in that column is read.  Missing: records with other fields or another order. -/
theorem C65_cells_partial (limit : Int) (names : List Str) (hn : names.Nodup) (h0 : [] ∉ names)
    (records : List Row) (hr : ∀ r ∈ records, r.map Prod.fst = names) :
    let top := if 0 ≤ limit then records.take limit.toNat else records
    top ≠ [] →
    ∃ (widths : List Nat) (head : List Str) (cells : List (List Str)),
      asciiTable limit records =
        .ok ([rule '┌' '┬' '┐' widths, line head, rule '├' '┼' '┤' widths] ++ cells.map line ++
          [rule '└' '┴' '┘' widths]) ∧
      Fits widths names head ∧
      List.Forall₂ (fun r cs => ∃ ts, List.Forall₂ Reads (r.map Prod.snd) ts ∧ Fits widths ts cs) top cells := by
  intro top htop
  have ht : (if 0 ≤ limit then (records.map texts).take limit.toNat else records.map texts) = top.map texts := by
    show _ = List.map texts (if 0 ≤ limit then records.take limit.toNat else records)
    split
    · rw [List.map_take]
    · rfl
  obtain ⟨ws, head, cells, h1, h2, h3⟩ := C65_ascii_partial limit names hn h0 (records.map texts)
    (by
      intro r hm
      obtain ⟨r', hm', rfl⟩ := List.mem_map.1 hm
      rw [← hr r' hm']
      simp [texts])
    (by rw [ht]; simpa using htop)
  refine ⟨ws, head, cells, (asciiTable_texts limit records).symm.trans h1, h2, ?_⟩
  rw [ht] at h3
  rw [List.forall₂_map_left_iff] at h3
  refine h3.imp ?_
  intro r cs hf
  refine ⟨_, ?_, hf⟩
  unfold texts
  rw [List.map_map, List.forall₂_map_left_iff, List.forall₂_map_right_iff, List.forall₂_same]
  intro kv _
  exact reads_format kv.2

/-! ## Concrete records -/

def demoCells : List Row :=
  [[("a".toList, .list [.text "<x>".toList, .dict [("k".toList, "1".toList), ("l".toList, "None".toList)], .text [] ]), ("b".toList, .other "12".toList)],
   [("a".toList, .dict []), ("b".toList, .text "&".toList)]]

/-- Non-vacuity of `C65_cells_partial`, with what is shown. -/
example : (∀ r ∈ demoCells, r.map Prod.fst = ["a".toList, "b".toList]) ∧ asciiTable 5 demoCells =
    .ok ["┌──────────────────────────────────┬────┐".toList,
      "│                a                 │ b  │".toList,
      "├──────────────────────────────────┼────┤".toList,
      "│ [ <x>, { \"k\": 1, \"l\": None },  ] │ 12 │".toList,
      "│               {  }               │ &  │".toList,
      "└──────────────────────────────────┴────┘".toList] := by
  decide +kernel

/-- Non-vacuity of `C57_table`. -/
example : ∀ r ∈ demoCells, ∀ kv ∈ r, Plain kv.2 := by
  intro r hr kv hk
  simp only [demoCells, List.mem_cons, List.not_mem_nil, or_false] at hr
  rcases hr with rfl | rfl <;> simp only [List.mem_cons, List.not_mem_nil, or_false] at hk <;> rcases hk with rfl | rfl
  · exact .inl (by simp [Texty, TextyAll])
  · exact .inr ⟨_, rfl, by decide, by decide⟩
  · exact .inl (by simp [Texty])
  · exact .inl (by simp [Texty])

example : Reads (.list [.text "<x>".toList, .dict [("k".toList, "1".toList), ("l".toList, "None".toList)]])
    "[ <x>, { \"k\": 1, \"l\": None } ]".toList ∧
    shown (.list [.text "<x>".toList, .dict [("k".toList, "1".toList), ("l".toList, "None".toList)]]) =
      "[ &lt;x&gt;, { &quot;k&quot;: 1, &quot;l&quot;: None } ]".toList := by
  refine ⟨?_, by decide +kernel⟩
  have := reads_format (.list [.text "<x>".toList, .dict [("k".toList, "1".toList), ("l".toList, "None".toList)]])
  exact cast (by congr 1) this

end Mabel.Display
