import Verif.Model.Display
import Verif.Spec.Display
import Verif.Lemmas.Str
import Verif.Lemmas.Num
import Verif.Lemmas.Listing
import Mathlib.Data.List.Forall2

/-! # Tables (C57, C65) -/

namespace Mabel.Display
open Mabel.Py

/-! ## Escaping -/

theorem replaceGo_char (c : Char) (new s : Str) :
    replaceGo [c] new 0 s = s.flatMap (fun x => if x = c then new else [x]) := by
  induction s with
  | nil => rfl
  | cons x s ih =>
    rw [replaceGo]
    by_cases h : x = c
    · subst h
      simp [ih]
    · have : ([c].isPrefixOf (x :: s)) = false := by simp [List.isPrefixOf]; exact fun e => h e.symm
      rw [this]
      simp [h, ih]

/-- One character escaped. -/
def escapeChar (x : Char) : Str :=
  if x = '&' then "&amp;".toList else if x = '"' then "&quot;".toList else if x = '\'' then "&#39;".toList
  else if x = '<' then "&lt;".toList else if x = '>' then "&gt;".toList else if x = '$' then "&#x24;".toList else [x]

theorem escape_eq (s : Str) : escape s = s.flatMap escapeChar := by
  have h : ∀ (c : Char) (new s : Str), replace [c] new s = s.flatMap (fun x => if x = c then new else [x]) :=
    fun c new s => replaceGo_char c new s
  show replace "$".toList _ (replace ">".toList _ (replace "<".toList _ (replace "'".toList _ (replace "\"".toList _
    (replace "&".toList _ s))))) = _
  show replace ['$'] _ (replace ['>'] _ (replace ['<'] _ (replace ['\''] _ (replace ['"'] _ (replace ['&'] _ s))))) = _
  simp only [h, List.flatMap_assoc]
  congr 1
  funext x
  unfold escapeChar
  by_cases h1 : x = '&'
  · subst h1; decide
  · by_cases h2 : x = '"'
    · subst h2; decide
    · by_cases h3 : x = '\''
      · subst h3; decide
      · by_cases h4 : x = '<'
        · subst h4; decide
        · by_cases h5 : x = '>'
          · subst h5; decide
          · by_cases h6 : x = '$'
            · subst h6; decide
            · simp [h1, h2, h3, h4, h5, h6]

theorem escape_append (a b : Str) : escape (a ++ b) = escape a ++ escape b := by
  simp [escape_eq]

/-- The characters that could be markup, or start an expression in a template. -/
def special : List Char := ['<', '>', '"', '\'', '$']

theorem escapeChar_special (x c : Char) (hc : c ∈ special) : c ∉ escapeChar x := by
  simp only [special, List.mem_cons, List.not_mem_nil, or_false] at hc
  unfold escapeChar
  rcases hc with rfl | rfl | rfl | rfl | rfl <;>
    (repeat' split) <;> first | decide | (rw [List.mem_singleton]; intro e; exact absurd e.symm (by assumption))

/-- **C57**: no angle bracket, quote or dollar is left in an escaped text. -/
theorem C57_escaped (s : Str) (c : Char) (hc : c ∈ special) : c ∉ escape s := by
  rw [escape_eq, List.mem_flatMap]
  rintro ⟨x, _, hx⟩
  exact escapeChar_special x c hc hx

theorem decodeGo_skip (a rest : Str) : decodeGo a.length (a ++ rest) = decodeGo 0 rest := by
  induction a with
  | nil => rfl
  | cons c a ih => exact ih

theorem decode_escapeChar (x : Char) (rest : Str) : decodeGo 0 (escapeChar x ++ rest) = x :: decodeGo 0 rest := by
  unfold escapeChar
  by_cases h1 : x = '&'
  · subst h1; exact congrArg _ (decodeGo_skip "amp;".toList rest)
  · by_cases h2 : x = '"'
    · subst h2; exact congrArg _ (decodeGo_skip "quot;".toList rest)
    · by_cases h3 : x = '\''
      · subst h3; exact congrArg _ (decodeGo_skip "#39;".toList rest)
      · by_cases h4 : x = '<'
        · subst h4; exact congrArg _ (decodeGo_skip "lt;".toList rest)
        · by_cases h5 : x = '>'
          · subst h5; exact congrArg _ (decodeGo_skip "gt;".toList rest)
          · by_cases h6 : x = '$'
            · subst h6; exact congrArg _ (decodeGo_skip "#x24;".toList rest)
            · have h : entities.find? (fun e => e.1.isPrefixOf (x :: rest)) = none := by
                rw [List.find?_eq_none]
                intro e he
                have : e.1.head? = some '&' := by
                  revert e
                  decide
                cases hE : e.1 with
                | nil => rw [hE] at this; cases this
                | cons y ys =>
                  rw [hE] at this
                  injection this with this
                  subst this
                  have : ('&' == x) = false := by simp; exact fun e => h1 e.symm
                  simp [List.isPrefixOf, this]
              rw [if_neg h1, if_neg h2, if_neg h3, if_neg h4, if_neg h5, if_neg h6]
              show decodeGo 0 (x :: rest) = _
              rw [decodeGo, h]

/-- **C57**: a browser shows an escaped text as the text it was; so different texts are rendered differently. -/
theorem C57_decoded (s : Str) : decode (escape s) = s := by
  rw [escape_eq]
  unfold decode
  induction s with
  | nil => rfl
  | cons x s ih => rw [List.flatMap_cons, decode_escapeChar, ih]

theorem C57_injective (s t : Str) (h : escape s = escape t) : s = t := by
  rw [← C57_decoded s, ← C57_decoded t, h]

example : escape "<b>\"A&amp;B\"</b>".toList = "&lt;b&gt;&quot;A&amp;amp;B&quot;&lt;/b&gt;".toList := by decide +kernel

/-! ## Markup -/

theorem scan_append (w : Where) (a b : Str) : scan w (a ++ b) = scan w a ++ scan (after w a) b := by
  induction a generalizing w with
  | nil => rfl
  | cons c a ih =>
    show _ :: scan (w.next c) (a ++ b) = _ :: scan (w.next c) a ++ scan (after (w.next c) a) b
    rw [ih]
    rfl

theorem after_append (w : Where) (a b : Str) : after w (a ++ b) = after (after w a) b := List.foldl_append

/-- A text without the special characters. -/
def Inert (s : Str) : Prop := ∀ c ∈ special, c ∉ s

theorem inert (s : Str) (h : Inert s) : ∀ w : Where, w ≠ .tag → after w s = w ∧
    scan w s = s.map (if w = .text then .text else .value) := by
  induction s with
  | nil => intro w _; exact ⟨rfl, rfl⟩
  | cons c s ih =>
    intro w hw
    have hc : ∀ d ∈ special, c ≠ d := fun d hd e => h d hd (by rw [e]; simp)
    obtain ⟨h1, h2⟩ := ih (fun d hd hm => h d hd (by simp [hm])) w hw
    have hn : w.next c = w ∧ w.markup c = false := by
      cases w with
      | tag => exact absurd rfl hw
      | text => simp [Where.next, Where.markup, hc '<' (by decide)]
      | single => simp [Where.next, Where.markup, hc '\'' (by decide)]
      | double => simp [Where.next, Where.markup, hc '"' (by decide)]
    constructor
    · show after (w.next c) s = w
      rw [hn.1, h1]
    · show w.sees c :: scan (w.next c) s = _
      rw [hn.1, h2, List.map_cons]
      congr 1
      unfold Where.sees
      rw [hn.2]
      cases w <;> rfl

theorem inert_text (s : Str) (h : Inert s) : after .text s = .text ∧ scan .text s = s.map .text := inert s h .text (by decide)

theorem inert_single (s : Str) (h : Inert s) : after .single s = .single ∧ scan .single s = s.map .value :=
  inert s h .single (by decide)

/-! ## Cells -/

/- A cell made of texts: a text, a dictionary, or a list of such. -/
mutual
def Texty : Cell → Prop
  | .text _ => True
  | .dict _ => True
  | .other _ => False
  | .list l => TextyAll l

def TextyAll : List Cell → Prop
  | [] => True
  | c :: cs => Texty c ∧ TextyAll cs
end

/-- A cell made of texts, or an object that is shown without special characters (a number, say). -/
def Safe (c : Cell) : Prop := Texty c ∨ ∃ s, c = .other s ∧ Inert s

theorem inert_append (a b : Str) (ha : Inert a) (hb : Inert b) : Inert (a ++ b) := by
  intro c hc hm
  rcases List.mem_append.1 hm with h | h
  · exact ha c hc h
  · exact hb c hc h

theorem inert_join (sep : Str) (hs : Inert sep) (l : List Str) (hl : ∀ s ∈ l, Inert s) : Inert (join sep l) := by
  induction l with
  | nil => intro c _ h; cases h
  | cons a l ih =>
    cases l with
    | nil => exact hl a (by simp)
    | cons b l =>
      exact inert_append _ _ (inert_append _ _ (hl a (by simp)) hs) (ih (fun s h => hl s (by simp [h])))

instance (s : Str) : Decidable (Inert s) := by unfold Inert; infer_instance

mutual
theorem sanitize_texty : ∀ c, Texty c → ∃ s, sanitize c = .ok (.text s) ∧ Inert s
  | .text s, _ => ⟨escape s, by rw [sanitize], fun c hc => C57_escaped s c hc⟩
  | .dict d, _ => ⟨_, by rw [sanitize], fun c hc => C57_escaped _ c hc⟩
  | .other _, h => by rw [Texty] at h; exact h.elim
  | .list l, h => by
    rw [Texty] at h
    obtain ⟨ts, h1, h2⟩ := sanitizeAll_texty l h
    have hj : ∀ ts : List Str, joinShown (ts.map .text) = .ok ts := by
      intro ts
      induction ts with
      | nil => rfl
      | cons t ts ih => rw [List.map_cons, joinShown, ih]; rfl
    refine ⟨"[ ".toList ++ join ", ".toList ts ++ " ]".toList, by rw [sanitize, h1]; simp only [bind, Except.bind, hj], ?_⟩
    exact inert_append _ _ (inert_append _ _ (by decide) (inert_join _ (by decide) ts h2)) (by decide)

theorem sanitizeAll_texty : ∀ l, TextyAll l → ∃ ts : List Str, sanitizeAll l = .ok (ts.map .text) ∧ ∀ s ∈ ts, Inert s
  | [], _ => ⟨[], by rw [sanitizeAll]; rfl, by simp⟩
  | c :: cs, h => by
    rw [TextyAll] at h
    obtain ⟨s, h1, h2⟩ := sanitize_texty c h.1
    obtain ⟨ts, h3, h4⟩ := sanitizeAll_texty cs h.2
    refine ⟨s :: ts, by rw [sanitizeAll, h1, h3]; rfl, ?_⟩
    intro x hx
    rcases List.mem_cons.1 hx with rfl | hx
    · exact h2
    · exact h4 x hx
end

theorem sanitize_safe (c : Cell) (h : Safe c) : ∃ v, sanitize c = .ok v ∧ Inert v.str := by
  rcases h with h | ⟨s, rfl, hs⟩
  · obtain ⟨s, h1, h2⟩ := sanitize_texty c h
    exact ⟨_, h1, h2⟩
  · exact ⟨.object s, by rw [sanitize], hs⟩

/-- How a cell is shown. -/
def shown (c : Cell) : Str := match sanitize c with | .ok v => v.str | .error _ => []

theorem shown_inert (c : Cell) (h : Safe c) : Inert (shown c) := by
  obtain ⟨v, h1, h2⟩ := sanitize_safe c h
  unfold shown
  rw [h1]
  exact h2

theorem cellOf_safe (row : Row) (column : Str) (h : ∀ kv ∈ row, Safe kv.2) : Safe (cellOf row column) := by
  unfold cellOf
  split
  · next kv hf => exact h kv (List.mem_of_find?_eq_some hf)
  · exact Or.inl (by rw [Texty]; trivial)

theorem htmlCell_safe (row : Row) (column : Str) (h : ∀ kv ∈ row, Safe kv.2) :
    htmlCell row column = .ok ("<td title='".toList ++ shown (cellOf row column) ++
    "' style='max-width:320px;overflow:hidden;text-overflow:ellipsis;white-space:nowrap;'>".toList ++
      shown (cellOf row column) ++ "<td>\n".toList) := by
  obtain ⟨v, h1, h2⟩ := sanitize_safe _ (cellOf_safe row column h)
  unfold htmlCell shown
  rw [h1]
  rfl

theorem concatM_ok {α : Type} (f : α → Except Err Str) (g : α → Str) (l : List α) (h : ∀ x ∈ l, f x = .ok (g x)) :
    concatM f l = .ok (l.flatMap g) := by
  induction l with
  | nil => rfl
  | cons x l ih => rw [concatM, h x (by simp), ih (fun y hy => h y (by simp [hy]))]; rfl

/-- The parts of a page: markup, text and attribute values. -/
def M (s : String) : List Seen := s.toList.map .markup
def T (s : Str) : List Seen := s.map .text
def V (s : Str) : List Seen := s.map .value

def style : Str := "max-width:320px;overflow:hidden;text-overflow:ellipsis;white-space:nowrap;".toList

/-- A cell as a reader should see it: the value as the title and as the text. -/
def seenCell (v : Str) : List Seen :=
  M "<td title='" ++ V v ++ M "' style='" ++ V style ++ M "'>" ++ T v ++ M "<td>" ++ T "\n".toList

def seenHeading (v : Str) : List Seen := M "<th>" ++ T v ++ M "<th>" ++ T "\n".toList

theorem scan_cell (v : Str) (h : Inert v) : scan .text ("<td title='".toList ++ v ++
    "' style='max-width:320px;overflow:hidden;text-overflow:ellipsis;white-space:nowrap;'>".toList ++ v ++ "<td>\n".toList)
      = seenCell v ∧ after .text ("<td title='".toList ++ v ++
    "' style='max-width:320px;overflow:hidden;text-overflow:ellipsis;white-space:nowrap;'>".toList ++ v ++ "<td>\n".toList)
      = .text := by
  have a1 : after .text "<td title='".toList = .single := by decide +kernel
  have a2 : after .single
    "' style='max-width:320px;overflow:hidden;text-overflow:ellipsis;white-space:nowrap;'>".toList = .text := by
    decide +kernel
  have a3 : after .text "<td>\n".toList = .text := by decide +kernel
  have s1 : scan .text "<td title='".toList = M "<td title='" := by decide +kernel
  have s2 : scan .single
    "' style='max-width:320px;overflow:hidden;text-overflow:ellipsis;white-space:nowrap;'>".toList =
      M "' style='" ++ V style ++ M "'>" := by decide +kernel
  have s3 : scan .text "<td>\n".toList = M "<td>" ++ T "\n".toList := by decide +kernel
  constructor
  · simp only [scan_append, after_append, a1, a2, (inert_text v h).1, (inert_text v h).2, (inert_single v h).1,
      (inert_single v h).2, s1, s2, s3]
    simp only [seenCell, T, V, List.append_assoc]
  · simp only [after_append, a1, a2, a3, (inert_text v h).1, (inert_single v h).1]

theorem scan_heading (v : Str) (h : Inert v) : scan .text ("<th>".toList ++ v ++ "<th>\n".toList) = seenHeading v ∧
    after .text ("<th>".toList ++ v ++ "<th>\n".toList) = .text := by
  have a1 : after .text "<th>".toList = .text := by decide +kernel
  have a3 : after .text "<th>\n".toList = .text := by decide +kernel
  have s1 : scan .text "<th>".toList = M "<th>" := by decide +kernel
  have s3 : scan .text "<th>\n".toList = M "<th>" ++ T "\n".toList := by decide +kernel
  constructor
  · simp only [scan_append, after_append, a1, (inert_text v h).1, (inert_text v h).2, s1, s3]
    simp only [seenHeading, T, List.append_assoc]
  · simp only [after_append, a1, a3, (inert_text v h).1]

theorem scan_flatMap {α : Type} (f : α → Str) (g : α → List Seen) (l : List α)
    (h : ∀ x ∈ l, scan .text (f x) = g x ∧ after .text (f x) = .text) :
    scan .text (l.flatMap f) = l.flatMap g ∧ after .text (l.flatMap f) = .text := by
  induction l with
  | nil => exact ⟨rfl, rfl⟩
  | cons x l ih =>
    obtain ⟨h1, h2⟩ := h x (by simp)
    obtain ⟨h3, h4⟩ := ih (fun y hy => h y (by simp [hy]))
    rw [List.flatMap_cons, List.flatMap_cons, scan_append, after_append, h1, h2, h3, h4]
    exact ⟨rfl, rfl⟩

theorem digits_inert (n : Nat) : Inert (natStr n) := by
  intro c hc hm
  obtain ⟨k, hk, rfl⟩ := natStr_mem hm
  revert hc
  exact (by decide : ∀ k, k < 10 → digitChar k ∈ special → False) k hk

theorem escape_inert (s : Str) : Inert (escape s) := fun c hc => C57_escaped s c hc

/-- A row as a reader should see it. -/
def seenRow (cells : List Str) : List Seen := M "<tr>" ++ cells.flatMap seenCell ++ M "</tr>"

/-- The headings as a reader should see them. -/
def seenHead (headings : List Str) : List Seen :=
  M "<thead class=\"" ++ V "thead-light".toList ++ M "\"><tr>" ++ headings.flatMap seenHeading ++ M "</tr></thead><tbody>"

def seenFooter (source : Source) (total shown columns : Nat) : List Seen :=
  match source with
  | .generator => T "\n".toList ++ M "<p>" ++ T ("top ".toList ++ natStr shown ++ " rows x ".toList ++ natStr columns ++
      " columns".toList) ++ M "</p>" ++ T "\nNOTE: the displayed records may have been spent".toList
  | .sized => T "\n".toList ++ M "<p>" ++ T (natStr total ++ " rows x ".toList ++ natStr columns ++ " columns".toList) ++
      M "</p>"
  | .other => []

/-- A table as a reader should see it. -/
def seenTable (headings : List Str) (rows : List (List Str)) : List Seen :=
  M "<table class=\"" ++ V "table table-sm".toList ++ M "\">" ++ (if rows = [] then [] else seenHead headings) ++
    rows.flatMap seenRow ++ M "</tbody></table>"

theorem scan_row (columns : List Str) (row : Row) (h : ∀ kv ∈ row, Safe kv.2) :
    ∃ t, htmlRow columns row = .ok t ∧ scan .text t = seenRow (columns.map (fun c => shown (cellOf row c))) ∧
      after .text t = .text := by
  have hc := concatM_ok (htmlCell row) _ columns (fun c _ => htmlCell_safe row c h)
  have hs := scan_flatMap _ (fun c => seenCell (shown (cellOf row c))) columns
    (fun c _ => scan_cell _ (shown_inert _ (cellOf_safe row c h)))
  have a1 : after .text "<tr>".toList = .text := by decide +kernel
  have a3 : after .text "</tr>".toList = .text := by decide +kernel
  have s1 : scan .text "<tr>".toList = M "<tr>" := by decide +kernel
  have s3 : scan .text "</tr>".toList = M "</tr>" := by decide +kernel
  unfold htmlRow
  rw [hc]
  refine ⟨_, rfl, ?_, ?_⟩
  · rw [scan_append, scan_append, after_append, a1, hs.1, hs.2, s1, s3, seenRow, List.flatMap_map]
  · rw [after_append, after_append, a1, hs.2, a3]

theorem scan_rows (columns : List Str) (rows : List Row) (h : ∀ row ∈ rows, ∀ kv ∈ row, Safe kv.2) :
    ∃ t, concatM (htmlRow columns) rows = .ok t ∧
      scan .text t = rows.flatMap (fun row => seenRow (columns.map (fun c => shown (cellOf row c)))) ∧
      after .text t = .text := by
  induction rows with
  | nil => exact ⟨[], rfl, rfl, rfl⟩
  | cons row rows ih =>
    obtain ⟨t1, h1, h2, h3⟩ := scan_row columns row (h row (by simp))
    obtain ⟨t2, h4, h5, h6⟩ := ih (fun r hr => h r (by simp [hr]))
    refine ⟨t1 ++ t2, by rw [concatM, h1, h4]; rfl, ?_, ?_⟩
    · rw [scan_append, h2, h3, h5, List.flatMap_cons]
    · rw [after_append, h3, h6]

theorem scan_head (columns : List Str) : scan .text (htmlHead columns) = seenHead (columns.map escape) ∧
    after .text (htmlHead columns) = .text := by
  have hs := scan_flatMap _ _ columns (fun c _ => scan_heading _ (escape_inert c))
  have a1 : after .text "<thead class=\"thead-light\"><tr>".toList = .text := by decide +kernel
  have a3 : after .text "</tr></thead><tbody>".toList = .text := by decide +kernel
  have s1 : scan .text "<thead class=\"thead-light\"><tr>".toList =
    M "<thead class=\"" ++ V "thead-light".toList ++ M "\"><tr>" := by decide +kernel
  have s3 : scan .text "</tr></thead><tbody>".toList = M "</tr></thead><tbody>" := by decide +kernel
  unfold htmlHead
  constructor
  · rw [scan_append, scan_append, after_append, a1, hs.1, hs.2, s1, s3, seenHead, List.flatMap_map]
  · rw [after_append, after_append, a1, hs.2, a3]

theorem scan_paragraph (body : Str) (h : Inert body) :
    scan .text ("\n<p>".toList ++ body ++ "</p>".toList) = T "\n".toList ++ M "<p>" ++ T body ++ M "</p>" ∧
    after .text ("\n<p>".toList ++ body ++ "</p>".toList) = .text := by
  have a1 : after .text "\n<p>".toList = .text := by decide +kernel
  have s1 : scan .text "\n<p>".toList = T "\n".toList ++ M "<p>" := by decide +kernel
  have a2 : after .text "</p>".toList = .text := by decide +kernel
  have s2 : scan .text "</p>".toList = M "</p>" := by decide +kernel
  constructor
  · rw [scan_append, scan_append, after_append, a1, (inert_text body h).1, (inert_text body h).2, s1, s2]
    rfl
  · rw [after_append, after_append, a1, (inert_text body h).1, a2]

theorem scan_footer (source : Source) (a b c : Nat) :
    scan .text (htmlFooter source a b c) = seenFooter source a b c := by
  have e2 : " columns</p>".toList = " columns".toList ++ "</p>".toList := by decide +kernel
  have i1 : Inert " rows x ".toList := by decide +kernel
  have i2 : Inert " columns".toList := by decide +kernel
  cases source with
  | other => rfl
  | generator =>
    have e1 : "\n<p>top ".toList = "\n<p>".toList ++ "top ".toList := by decide +kernel
    have i0 : Inert "top ".toList := by decide +kernel
    have hb := scan_paragraph _ (inert_append _ _ (inert_append _ _ (inert_append _ _ (inert_append _ _ i0
      (digits_inert b)) i1) (digits_inert c)) i2)
    have he : htmlFooter .generator a b c = "\n<p>".toList ++ ("top ".toList ++ natStr b ++ " rows x ".toList ++ natStr c
        ++ " columns".toList) ++ "</p>".toList ++ "\nNOTE: the displayed records may have been spent".toList := by
      unfold htmlFooter
      rw [e1, e2]
      generalize "\n<p>".toList = x1
      generalize "top ".toList = x2
      generalize " columns".toList = x3
      generalize "</p>".toList = x4
      generalize " rows x ".toList = x5
      generalize "\nNOTE: the displayed records may have been spent".toList = x6
      simp only [List.append_assoc]
    rw [he, scan_append, hb.1, hb.2, (inert_text _ (by decide +kernel)).2]
    rfl
  | sized =>
    have hb := scan_paragraph _ (inert_append _ _ (inert_append _ _ (inert_append _ _ (digits_inert a) i1)
      (digits_inert c)) i2)
    have he : htmlFooter .sized a b c = "\n<p>".toList ++ (natStr a ++ " rows x ".toList ++ natStr c
        ++ " columns".toList) ++ "</p>".toList := by
      unfold htmlFooter
      rw [e2]
      generalize "\n<p>".toList = x1
      generalize " columns".toList = x3
      generalize "</p>".toList = x4
      generalize " rows x ".toList = x5
      simp only [List.append_assoc]
    rw [he, hb.1]
    rfl

/-- The rows an HTML table shows: the first `limit`; all of them for a limit that is not positive. -/
theorem htmlRows_eq (limit : Int) (rows : List Row) (taken : Nat) :
    htmlRows limit taken rows = if (taken : Int) < limit then rows.take (limit - taken).toNat else rows := by
  induction rows generalizing taken with
  | nil => simp [htmlRows]
  | cons row rows ih =>
    rw [htmlRows]
    by_cases h : ((taken + 1 : Nat) : Int) = limit
    · rw [if_pos h, if_pos (by omega)]
      have : (limit - taken).toNat = 1 := by omega
      rw [this]
      simp
    · rw [if_neg h, ih]
      by_cases h2 : (taken : Int) < limit
      · rw [if_pos (by omega), if_pos h2]
        obtain ⟨k, hk⟩ : ∃ k, (limit - taken).toNat = k + 1 := ⟨(limit - taken).toNat - 1, by omega⟩
        have hk' : (limit - (taken + 1 : Nat)).toNat = k := by omega
        rw [hk, hk', List.take_succ_cons]
      · rw [if_neg (by omega), if_neg h2]

/-- The rows shown. -/
def firstRows (limit : Int) (rows : List Row) : List Row := if 0 < limit then rows.take limit.toNat else rows

theorem table_seen (setOrder : List Str → List Str) (source : Source) (limit : Int) (dictset : List Row)
    (h : ∀ row ∈ dictset, ∀ kv ∈ row, Safe kv.2) :
    ∃ page, htmlTable setOrder source limit dictset = .ok page ∧
      scan .text page =
        seenTable ((htmlColumns setOrder (firstRows limit dictset)).map escape)
          ((firstRows limit dictset).map (fun row =>
            (htmlColumns setOrder (firstRows limit dictset)).map (fun c => shown (cellOf row c)))) ++
        seenFooter source dictset.length (firstRows limit dictset).length
          (htmlColumns setOrder (firstRows limit dictset)).length := by
  have hr : htmlRows limit 0 dictset = firstRows limit dictset := by
    rw [htmlRows_eq]
    unfold firstRows
    simp
  have hsub : ∀ row ∈ firstRows limit dictset, row ∈ dictset := by
    intro row hm
    unfold firstRows at hm
    split at hm
    · exact List.mem_of_mem_take hm
    · exact hm
  unfold htmlTable htmlBody
  rw [hr]
  generalize firstRows limit dictset = rows at hsub ⊢
  generalize hcol : htmlColumns setOrder rows = columns
  obtain ⟨t, h1, h2, h3⟩ := scan_rows columns rows (fun row hm => h row (hsub row hm))
  have a1 : after .text "<table class=\"table table-sm\">".toList = .text := by decide +kernel
  have a3 : after .text "</tbody></table>".toList = .text := by decide +kernel
  have s1 : scan .text "<table class=\"table table-sm\">".toList =
    M "<table class=\"" ++ V "table table-sm".toList ++ M "\">" := by decide +kernel
  have s3 : scan .text "</tbody></table>".toList = M "</tbody></table>" := by decide +kernel
  have hh : scan .text (if rows = [] then [] else htmlHead columns) =
      (if rows.map (fun row => columns.map (fun c => shown (cellOf row c))) = [] then [] else
        seenHead (columns.map escape)) ∧
      after .text (if rows = [] then [] else htmlHead columns) = .text := by
    by_cases he : rows = []
    · subst he; exact ⟨rfl, rfl⟩
    · rw [if_neg he, if_neg (by simpa using he)]
      exact scan_head columns
  simp only [hcol, h1, bind, Except.bind]
  refine ⟨_, rfl, ?_⟩
  rw [scan_append]
  congr 1
  · rw [scan_append, scan_append, scan_append, after_append _ (_ ++ _), after_append, a1, hh.1, hh.2, h2, h3, s1, s3, seenTable,
      List.flatMap_map]
  · rw [after_append, after_append, after_append, a1, hh.2, h3, a3, scan_footer]

/-- **C57**/**C65** for records whose fields are texts: the table shows the first `limit` records (all of them when the
limit is not positive), each as one row with one cell for every column of the records shown; every cell has the
record's text (nothing, if the record does not have the column), as its text and its title, written so that a browser
shows exactly that text; and every other character of the page is fixed. -/
theorem C57_table_of_texts (setOrder : List Str → List Str) (hset : ∀ l, (setOrder l).Perm l) (source : Source)
    (limit : Int) (records : List (List (Str × Str))) :
    ∃ (page : Str) (columns : List Str) (render : Str → Str),
      htmlTable setOrder source limit (records.map (·.map (fun kv => (kv.1, .text kv.2)))) = .ok page ∧
      (∀ s, decode (render s) = s) ∧ (∀ s, Inert (render s)) ∧
      let top := if 0 < limit then records.take limit.toNat else records
      columns.Nodup ∧ (∀ c, c ∈ columns ↔ ∃ r ∈ top, c ∈ r.map Prod.fst) ∧
      scan .text page = seenTable (columns.map render)
        (top.map (fun r => columns.map (fun c => render (((r.find? (fun kv => kv.1 == c)).map Prod.snd).getD [])))) ++
        seenFooter source records.length top.length columns.length := by
  obtain ⟨page, h1, h2⟩ := table_seen setOrder source limit (records.map (·.map (fun kv => (kv.1, Cell.text kv.2))))
    (by
      intro row hr kv hk
      obtain ⟨r, -, rfl⟩ := List.mem_map.1 hr
      obtain ⟨x, -, rfl⟩ := List.mem_map.1 hk
      exact Or.inl (by rw [Texty]; trivial))
  have htop : firstRows limit (records.map (·.map (fun kv => (kv.1, Cell.text kv.2)))) =
      (if 0 < limit then records.take limit.toNat else records).map (·.map (fun kv => (kv.1, Cell.text kv.2))) := by
    unfold firstRows
    split
    · rw [List.map_take]
    · rfl
  have hcell : ∀ (r : List (Str × Str)) (c : Str),
      shown (cellOf (r.map (fun kv => (kv.1, Cell.text kv.2))) c) =
        escape (((r.find? (fun kv => kv.1 == c)).map Prod.snd).getD []) := by
    intro r c
    unfold cellOf
    rw [List.find?_map]
    have : ((fun kv : Str × Cell => kv.1 == c) ∘ fun kv : Str × Str => (kv.1, Cell.text kv.2)) =
      fun kv => kv.1 == c := rfl
    rw [this]
    cases r.find? (fun kv => kv.1 == c) with
    | none => simp [shown, sanitize, Shown.str]
    | some kv => simp [shown, sanitize, Shown.str]
  rw [htop, List.length_map, List.length_map, List.map_map] at h2
  refine ⟨page, htmlColumns setOrder
    ((if 0 < limit then records.take limit.toNat else records).map (·.map (fun kv => (kv.1, Cell.text kv.2)))),
    escape, h1, C57_decoded, escape_inert, ?_, ?_, h2.trans ?_⟩
  · exact (hset _).nodup_iff.2 (dedup_nodup _)
  · intro c
    rw [htmlColumns, (hset _).mem_iff, dedup_mem, List.mem_flatMap]
    constructor
    · rintro ⟨row, hr, hc⟩
      obtain ⟨r, hr', rfl⟩ := List.mem_map.1 hr
      rw [List.map_map] at hc
      exact ⟨r, hr', hc⟩
    · rintro ⟨r, hr, hc⟩
      refine ⟨_, List.mem_map.2 ⟨r, hr, rfl⟩, ?_⟩
      rw [List.map_map]
      exact hc
  · congr 2
    refine List.map_congr_left ?_
    intro r _
    refine List.map_congr_left ?_
    intro c _
    exact hcell r c

/-- The markup of a table with so many columns and rows. -/
def tableMarkup (columns rows : Nat) (footer : Bool) : Str :=
  "<table class=\"\">".toList ++
  (if rows = 0 then [] else "<thead class=\"\"><tr>".toList ++ (List.replicate columns "<th><th>".toList).flatten ++
    "</tr></thead><tbody>".toList) ++
  (List.replicate rows ("<tr>".toList ++ (List.replicate columns "<td title='' style=''><td>".toList).flatten ++
    "</tr>".toList)).flatten ++ "</tbody></table>".toList ++ (if footer then "<p></p>".toList else [])

def isMarkup : Seen → Option Char
  | .markup c => some c
  | _ => none

theorem mk_M (s : String) : (M s).filterMap isMarkup = s.toList := by
  unfold M
  rw [List.filterMap_map]
  exact List.filterMap_some
theorem mk_T (s : Str) : (T s).filterMap isMarkup = [] := by
  unfold T
  rw [List.filterMap_map, List.filterMap_eq_nil_iff]
  intro _ _; rfl
theorem mk_V (s : Str) : (V s).filterMap isMarkup = [] := by
  unfold V
  rw [List.filterMap_map, List.filterMap_eq_nil_iff]
  intro _ _; rfl

theorem mk_flatMap {α : Type} (f : α → List Seen) (m : Str) (l : List α) (h : ∀ x ∈ l, (f x).filterMap isMarkup = m) :
    (l.flatMap f).filterMap isMarkup = (List.replicate l.length m).flatten := by
  induction l with
  | nil => rfl
  | cons x l ih =>
    rw [List.flatMap_cons, List.filterMap_append, h x (by simp), ih (fun y hy => h y (by simp [hy]))]
    rfl

theorem mk_cell (v : Str) : (seenCell v).filterMap isMarkup = "<td title='' style=''><td>".toList := by
  unfold seenCell
  simp only [List.filterMap_append, mk_M, mk_T, mk_V]
  decide +kernel

theorem mk_heading (v : Str) : (seenHeading v).filterMap isMarkup = "<th><th>".toList := by
  unfold seenHeading
  simp only [List.filterMap_append, mk_M, mk_T]
  decide +kernel

theorem mk_footer (source : Source) (a b c : Nat) : (seenFooter source a b c).filterMap isMarkup =
    if source = .other then [] else "<p></p>".toList := by
  cases source with
  | other => rfl
  | generator =>
    unfold seenFooter
    simp only [List.filterMap_append, mk_M, mk_T]
    decide +kernel
  | sized =>
    unfold seenFooter
    simp only [List.filterMap_append, mk_M, mk_T]
    decide +kernel

theorem mk_table (headings : List Str) (rows : List (List Str)) (hr : ∀ r ∈ rows, r.length = headings.length) (footer : Bool) :
    (seenTable headings rows).filterMap isMarkup ++ (if footer then "<p></p>".toList else []) =
      tableMarkup headings.length rows.length footer := by
  have h1 := mk_flatMap seenHeading _ headings (fun v _ => mk_heading v)
  have h2 := mk_flatMap seenRow ("<tr>".toList ++ (List.replicate headings.length "<td title='' style=''><td>".toList).flatten ++
    "</tr>".toList) rows (by
      intro r hm
      unfold seenRow
      rw [List.filterMap_append, List.filterMap_append, mk_M, mk_M, mk_flatMap seenCell _ r (fun v _ => mk_cell v),
        hr r hm])
  have e1 : "<table class=\"".toList ++ "\">".toList = "<table class=\"\">".toList := by decide +kernel
  have e2 : "<thead class=\"".toList ++ "\"><tr>".toList = "<thead class=\"\"><tr>".toList := by decide +kernel
  have h3 : (seenHead headings).filterMap isMarkup = "<thead class=\"\"><tr>".toList ++
      (List.replicate headings.length "<th><th>".toList).flatten ++ "</tr></thead><tbody>".toList := by
    unfold seenHead
    rw [List.filterMap_append, List.filterMap_append, List.filterMap_append, List.filterMap_append, mk_M, mk_V, mk_M, mk_M,
      h1, List.append_nil, e2]
  unfold seenTable tableMarkup
  rw [List.filterMap_append, List.filterMap_append, List.filterMap_append, List.filterMap_append, List.filterMap_append,
    mk_M, mk_V, mk_M, mk_M, h2, List.append_nil, e1]
  congr 3
  cases rows with
  | nil => rfl
  | cons r rows =>
    rw [if_neg (by simp), if_neg (by simp), h3]

/-- **C57**: the markup of the page depends only on the numbers of columns and rows shown, never on the names or
values, for fields that are texts, dictionaries, lists of these, or objects shown without special characters. -/
theorem C57_markup (setOrder : List Str → List Str) (hset : ∀ l, (setOrder l).Perm l) (source : Source) (limit : Int)
    (dictset : List Row) (h : ∀ row ∈ dictset, ∀ kv ∈ row, Safe kv.2) :
    ∃ page, htmlTable setOrder source limit dictset = .ok page ∧
      let top := if 0 < limit then dictset.take limit.toNat else dictset
      markupOf page = tableMarkup (dedup (top.flatMap (fun r => r.map Prod.fst))).length top.length
        (source != .other) := by
  obtain ⟨page, h1, h2⟩ := table_seen setOrder source limit dictset h
  refine ⟨page, h1, ?_⟩
  have hm : markupOf page = (scan .text page).filterMap isMarkup := rfl
  have hl : ∀ rows, (htmlColumns setOrder rows).length = (dedup (rows.flatMap (fun r => r.map Prod.fst))).length :=
    fun rows => (hset _).length_eq
  have ht : firstRows limit dictset = if 0 < limit then dictset.take limit.toNat else dictset := rfl
  have := mk_table ((htmlColumns setOrder (firstRows limit dictset)).map escape)
          ((firstRows limit dictset).map (fun row =>
            (htmlColumns setOrder (firstRows limit dictset)).map (fun c => shown (cellOf row c))))
    (by
      intro r hr
      obtain ⟨row, -, rfl⟩ := List.mem_map.1 hr
      simp) (source != .other)
  rw [List.length_map, List.length_map, hl, ht] at this
  show markupOf page = tableMarkup (dedup ((if 0 < limit then dictset.take limit.toNat else dictset).flatMap _)).length
    (if 0 < limit then dictset.take limit.toNat else dictset).length _
  rw [← this, hm, h2, List.filterMap_append, mk_footer]
  congr 1
  cases source <;> rfl

example : Safe (.list [.text "<b>".toList, .dict [("k".toList, "'".toList)]]) ∧ Safe (.other "12".toList) := by
  constructor
  · exact Or.inl (by simp [Texty, TextyAll])
  · exact Or.inr ⟨_, rfl, by decide⟩

example : (htmlTable id .other 5 [[("a".toList, .text "<b>".toList)]]).toOption = some
    ("<table class=\"table table-sm\"><thead class=\"thead-light\"><tr><th>a<th>\n</tr></thead><tbody><tr><td " ++
     "title='&lt;b&gt;' style='max-width:320px;overflow:hidden;text-overflow:ellipsis;white-space:nowrap;'>&lt;b&gt;<td>\n" ++
     "</tr></tbody></table>").toList := by
  decide +kernel

/-- **C57** fails for other objects: what `str` shows of them is put on the page as it is (bytes, say, or a class of the
caller's). -/
theorem C57_objects_fails : ∃ page, htmlTable id .other 5 [[("a".toList, .other "b'<script>'".toList)]] = .ok page ∧
    contains "<script>".toList (markupOf page) = true := by
  refine ⟨_, by simp only [htmlTable, htmlBody, htmlRows, htmlColumns, bind, Except.bind]; rfl, ?_⟩
  decide +kernel

/-- A list that holds anything but texts, lists and dictionaries cannot be shown: the table is not made. -/
theorem C57_list_of_numbers_fails (setOrder : List Str → List Str) (hset : ∀ l, (setOrder l).Perm l) (source : Source)
    (limit : Int) (name shown : Str) :
    htmlTable setOrder source limit [[(name, .list [.other shown])]] = .error .typeError := by
  have hr : htmlRows limit 0 [[(name, .list [.other shown])]] = [[(name, .list [.other shown])]] := by
    rw [htmlRows]
    split <;> rfl
  have hc : htmlColumns setOrder [[(name, .list [.other shown])]] = [name] :=
    List.perm_singleton.1 (hset [name])
  have hcell : cellOf [(name, .list [.other shown])] name = .list [.other shown] := by simp [cellOf]
  have hs : sanitize (.list [.other shown]) = .error .typeError := by
    rw [sanitize, sanitizeAll, sanitize, sanitizeAll]
    rfl
  simp only [htmlTable, hr, hc, htmlBody, concatM, htmlRow, htmlCell, hcell, hs]
  rfl

/-! ## Text tables (C65) -/

/-- A text in the middle of a cell of that width, with a space on each side at least. -/
def Centred (width : Nat) (s cell : Str) : Prop :=
  ∃ l r, cell = List.replicate l ' ' ++ s ++ List.replicate r ' ' ∧ l + s.length + r = width ∧ 1 ≤ l ∧ 1 ≤ r ∧
    l ≤ r + 1 ∧ r ≤ l + 1

/-- Each text in the middle of its cell; each cell two wider than its column. -/
def Fits : List Nat → List Str → List Str → Prop
  | [], [], [] => True
  | w :: ws, s :: ss, c :: cs => Centred (w + 2) s c ∧ Fits ws ss cs
  | _, _, _ => False

theorem center_centred (w : Nat) (s : Str) (h : s.length ≤ w) : Centred (w + 2) s (center (w + 2) s) := by
  refine ⟨_, _, rfl, ?_, ?_, ?_, ?_, ?_⟩ <;> split <;> omega

theorem fits_map {α : Type} (l : List α) (w : α → Nat) (s c : α → Str) (h : ∀ x ∈ l, Centred (w x + 2) (s x) (c x)) :
    Fits (l.map w) (l.map s) (l.map c) := by
  induction l with
  | nil => trivial
  | cons x l ih => exact ⟨h x (by simp), ih (fun y hy => h y (by simp [hy]))⟩

theorem find_setWidth (cs : Widths) (k k' : Str) (w : Nat) :
    widthOf (setWidth cs k w) k' = if k' = k then w else widthOf cs k' := by
  unfold widthOf
  induction cs with
  | nil =>
    rw [setWidth, List.find?_cons, List.find?_nil]
    by_cases h : k' = k
    · subst h; simp
    · have : (k == k') = false := by simp; exact fun e => h e.symm
      simp [this, h]
  | cons kv d ih =>
    rw [setWidth]
    by_cases hk : kv.1 = k
    · rw [if_pos hk, List.find?_cons, List.find?_cons]
      by_cases h : k' = k
      · subst h; simp
      · have h1 : (k == k') = false := by simp; exact fun e => h e.symm
        have h2 : (kv.1 == k') = false := by rw [hk]; exact h1
        simp [h1, h2, h]
    · rw [if_neg hk, List.find?_cons, List.find?_cons]
      by_cases h : kv.1 = k'
      · have h1 : (kv.1 == k') = true := by simp [h]
        have h2 : ¬ k' = k := fun e => hk (by rw [h, e])
        simp [h1, h2]
      · have h1 : (kv.1 == k') = false := by simp [h]
        simp only [h1]
        exact ih

theorem keys_setWidth (cs : Widths) (k : Str) (w : Nat) :
    (setWidth cs k w).map Prod.fst = if k ∈ cs.map Prod.fst then cs.map Prod.fst else cs.map Prod.fst ++ [k] := by
  induction cs with
  | nil => simp [setWidth]
  | cons kv d ih =>
    rw [setWidth]
    by_cases hk : kv.1 = k
    · rw [if_pos hk, if_pos (by simp [hk])]
      simp [hk]
    · have hk' : ¬ k = kv.1 := fun e => hk e.symm
      rw [if_neg hk, List.map_cons, ih]
      by_cases hm : k ∈ d.map Prod.fst
      · rw [if_pos hm, if_pos (by rw [List.map_cons]; exact List.mem_cons_of_mem _ hm)]
        rfl
      · rw [if_neg hm, if_neg (by rw [List.map_cons, List.mem_cons]; rintro (e | e); exacts [hk' e, hm e])]
        rfl

theorem widen_width (cs : Widths) (kv : Str × Cell) (k : Str) : widthOf (widen cs kv) k =
    if k = kv.1 then max (widthOf cs k) (max (formatValue kv.2).length kv.1.length) else widthOf cs k := by
  unfold widen
  simp only
  by_cases h : k = kv.1
  · subst h
    split
    · rw [find_setWidth, if_pos rfl, if_pos rfl]; omega
    · rw [if_pos rfl]; omega
  · rw [if_neg h]
    split
    · rw [find_setWidth, if_neg h]
    · rfl

theorem widthOf_missing (cs : Widths) (k : Str) (h : k ∉ cs.map Prod.fst) : widthOf cs k = 0 := by
  unfold widthOf
  have : cs.find? (fun kw => kw.1 == k) = none := by
    rw [List.find?_eq_none]
    intro x hx e
    exact h (List.mem_map.2 ⟨x, hx, by simpa using e⟩)
  rw [this]
  rfl

theorem widen_keys (cs : Widths) (kv : Str × Cell) (hk : kv.1 ≠ []) :
    (widen cs kv).map Prod.fst = if kv.1 ∈ cs.map Prod.fst then cs.map Prod.fst else cs.map Prod.fst ++ [kv.1] := by
  have hl : 0 < kv.1.length := List.length_pos_iff.2 hk
  unfold widen
  simp only
  split
  · exact keys_setWidth _ _ _
  · next h =>
    by_cases hm : kv.1 ∈ cs.map Prod.fst
    · rw [if_pos hm]
    · rw [widthOf_missing cs _ hm] at h
      exact absurd (show max (formatValue kv.2).length kv.1.length > 0 by omega) h

theorem fold_width (kvs : Row) (cs : Widths) (k : Str) : widthOf cs k ≤ widthOf (kvs.foldl widen cs) k ∧
    ∀ kv ∈ kvs, kv.1 = k → (formatValue kv.2).length ≤ widthOf (kvs.foldl widen cs) k ∧
      k.length ≤ widthOf (kvs.foldl widen cs) k := by
  induction kvs generalizing cs with
  | nil => simp
  | cons x kvs ih =>
    obtain ⟨h1, h2⟩ := ih (widen cs x)
    rw [widen_width] at h1
    rw [List.foldl_cons]
    constructor
    · split at h1 <;> omega
    · intro kv hkv hk
      rcases List.mem_cons.1 hkv with rfl | hkv
      · rw [if_pos hk.symm, hk] at h1
        omega
      · exact h2 kv hkv hk

theorem fold_keys_new (row : Row) (cs : Widths) (h0 : ∀ kv ∈ row, kv.1 ≠ [])
    (hn : (cs.map Prod.fst ++ row.map Prod.fst).Nodup) :
    (row.foldl widen cs).map Prod.fst = cs.map Prod.fst ++ row.map Prod.fst := by
  induction row generalizing cs with
  | nil => simp
  | cons x row ih =>
    have hx : x.1 ∉ cs.map Prod.fst := by
      intro hm
      rw [List.nodup_append] at hn
      exact hn.2.2 _ hm _ (by simp) rfl
    have hk := widen_keys cs x (h0 x (by simp))
    rw [if_neg hx] at hk
    rw [List.foldl_cons, ih _ (fun kv h => h0 kv (by simp [h])) (by rw [hk]; simpa using hn), hk]
    simp

theorem fold_keys_old (kvs : Row) (cs : Widths) (h0 : ∀ kv ∈ kvs, kv.1 ≠ [])
    (hm : ∀ kv ∈ kvs, kv.1 ∈ cs.map Prod.fst) : (kvs.foldl widen cs).map Prod.fst = cs.map Prod.fst := by
  induction kvs generalizing cs with
  | nil => rfl
  | cons x kvs ih =>
    have hk := widen_keys cs x (h0 x (by simp))
    rw [if_pos (hm x (by simp))] at hk
    rw [List.foldl_cons, ih _ (fun kv h => h0 kv (by simp [h])) (by rw [hk]; exact fun kv h => hm kv (by simp [h])), hk]

theorem getWidth_mem (cs : Widths) (k : Str) (h : k ∈ cs.map Prod.fst) : getWidth cs k = .ok (widthOf cs k) := by
  unfold getWidth widthOf
  cases hf : cs.find? (fun kw => kw.1 == k) with
  | some kw => rfl
  | none =>
    rw [List.find?_eq_none] at hf
    obtain ⟨x, hx, rfl⟩ := List.mem_map.1 h
    exact absurd (by simp) (hf x hx)

theorem widths_eq (cs : Widths) (h : (cs.map Prod.fst).Nodup) :
    cs = (cs.map Prod.fst).map (fun k => (k, widthOf cs k)) := by
  rw [List.map_map]
  refine (List.map_id cs).symm.trans (List.map_congr_left ?_)
  intro x hx
  show x = (x.1, widthOf cs x.1)
  have : cs.find? (fun kw => kw.1 == x.1) = some x := by
    induction cs with
    | nil => cases hx
    | cons y cs ih =>
      rw [List.map_cons, List.nodup_cons] at h
      rw [List.find?_cons]
      rcases List.mem_cons.1 hx with rfl | hx
      · simp
      · have : y.1 ≠ x.1 := fun e => h.1 (by rw [e]; exact List.mem_map.2 ⟨x, hx, rfl⟩)
        have : (y.1 == x.1) = false := by simp [this]
        rw [this]
        exact ih h.2 hx
  unfold widthOf
  rw [this]
  rfl

theorem asciiCells_ok (cs : Widths) (row : Row) (h : ∀ kv ∈ row, kv.1 ∈ cs.map Prod.fst) :
    asciiCells cs row = .ok (row.map (fun kv => center (widthOf cs kv.1 + 2) (formatValue kv.2))) := by
  induction row with
  | nil => rfl
  | cons x row ih =>
    obtain ⟨k, v⟩ := x
    rw [asciiCells, getWidth_mem cs k (h (k, v) (by simp)), ih (fun kv hk => h kv (by simp [hk]))]
    rfl

theorem asciiLines_ok (cs : Widths) (rows : List Row) (h : ∀ row ∈ rows, ∀ kv ∈ row, kv.1 ∈ cs.map Prod.fst) :
    asciiLines cs rows = .ok (rows.map (fun row => "│".toList ++ join "│".toList
      (row.map (fun kv => center (widthOf cs kv.1 + 2) (formatValue kv.2))) ++ "│".toList)) := by
  induction rows with
  | nil => rfl
  | cons row rows ih =>
    rw [asciiLines, asciiCells_ok cs row (h row (by simp)), ih (fun r hr => h r (by simp [hr]))]
    rfl

theorem asciiRows_eq (limit : Int) (rows : List Row) (count : Nat) :
    asciiRows limit count rows = if (count : Int) ≤ limit then rows.take (limit - count).toNat else rows := by
  induction rows generalizing count with
  | nil => simp [asciiRows]
  | cons row rows ih =>
    rw [asciiRows]
    by_cases h : (count : Int) = limit
    · rw [if_pos h, if_pos (by omega)]
      have : (limit - count).toNat = 0 := by omega
      rw [this]
      rfl
    · rw [if_neg h, ih]
      by_cases h2 : (count : Int) ≤ limit
      · rw [if_pos (by omega), if_pos h2]
        obtain ⟨k, hk⟩ : ∃ k, (limit - count).toNat = k + 1 := ⟨(limit - count).toNat - 1, by omega⟩
        have hk' : (limit - (count + 1 : Nat)).toNat = k := by omega
        rw [hk, hk', List.take_succ_cons]
      · rw [if_neg (by omega), if_neg h2]

theorem foldl_foldl (rows : List Row) (cs : Widths) :
    rows.foldl (fun cs row => row.foldl widen cs) cs = rows.flatten.foldl widen cs := by
  induction rows generalizing cs with
  | nil => rfl
  | cons r rows ih => rw [List.foldl_cons, ih, List.flatten_cons, List.foldl_append]

/-- A line of a table: cells between bars. -/
def line (cells : List Str) : Str := "│".toList ++ join "│".toList cells ++ "│".toList

/-- A rule of a table: a stroke two longer than each column. -/
def rule (left mid right : Char) (widths : List Nat) : Str :=
  [left] ++ join [mid] (widths.map (fun w => List.replicate (w + 2) '─')) ++ [right]

/-- **C65** for records that all have the same fields in the same order: the text table has a line for each of the first
`limit` records (for every record, if the limit is negative), each with a cell for every column, under that column's
heading and as wide as it.  Missing: records with other fields or another order (`C65_order_fails`,
`C65_missing_fails`). -/
theorem C65_ascii_partial (limit : Int) (names : List Str) (hn : names.Nodup) (h0 : [] ∉ names)
    (records : List (List (Str × Str))) (hr : ∀ r ∈ records, r.map Prod.fst = names) :
    let top := if 0 ≤ limit then records.take limit.toNat else records
    top ≠ [] →
    ∃ (widths : List Nat) (head : List Str) (cells : List (List Str)),
      asciiTable limit (records.map (·.map (fun kv => (kv.1, .text kv.2)))) =
        .ok ([rule '┌' '┬' '┐' widths, line head, rule '├' '┼' '┤' widths] ++ cells.map line ++
          [rule '└' '┴' '┘' widths]) ∧
      Fits widths names head ∧
      List.Forall₂ (fun r cs => Fits widths (r.map Prod.snd) cs) top cells := by
  intro top htop
  have hc : asciiRows limit 0 (records.map (·.map (fun kv => (kv.1, Cell.text kv.2)))) =
      top.map (·.map (fun kv => (kv.1, Cell.text kv.2))) := by
    rw [asciiRows_eq]
    show _ = List.map _ (if 0 ≤ limit then records.take limit.toNat else records)
    by_cases h : 0 ≤ limit
    · rw [if_pos (by simpa using h), if_pos h, List.map_take]
      simp
    · rw [if_neg (by simpa using h), if_neg h]
  have hrt : ∀ r ∈ top, r.map Prod.fst = names := by
    intro r hm
    refine hr r ?_
    have hm : r ∈ (if 0 ≤ limit then records.take limit.toNat else records) := hm
    split at hm
    · exact List.mem_of_mem_take hm
    · exact hm
  clear_value top
  unfold asciiTable
  simp only [hc, foldl_foldl]
  generalize hcs : (top.map (·.map (fun kv => (kv.1, Cell.text kv.2)))).flatten.foldl widen [] = cs
  have hname : ∀ r ∈ top, ∀ kv ∈ r, kv.1 ∈ names := by
    intro r hm kv hk
    rw [← hrt r hm]
    exact List.mem_map.2 ⟨kv, hk, rfl⟩
  have hkeys : cs.map Prod.fst = names := by
    cases top with
    | nil => exact absurd rfl htop
    | cons r top =>
      rw [← hcs, List.map_cons, List.flatten_cons, List.foldl_append]
      have hfst : (r.map (fun kv => (kv.1, Cell.text kv.2))).map Prod.fst = names := by
        rw [List.map_map]
        exact hrt r (by simp)
      have h1 : ((r.map (fun kv => (kv.1, Cell.text kv.2))).foldl widen []).map Prod.fst = names := by
        rw [fold_keys_new _ _ ?_ (by rw [hfst]; simpa using hn), hfst]
        · rfl
        · intro kv hk e
          refine h0 ?_
          rw [← e, ← hfst]
          exact List.mem_map.2 ⟨kv, hk, rfl⟩
      have hm : ∀ kv ∈ (top.map (·.map (fun kv => (kv.1, Cell.text kv.2)))).flatten, kv.1 ∈ names := by
        intro kv hk
        obtain ⟨l, hl, hk⟩ := List.mem_flatten.1 hk
        obtain ⟨r', hr', rfl⟩ := List.mem_map.1 hl
        obtain ⟨x, hx, rfl⟩ := List.mem_map.1 hk
        exact hname r' (by simp [hr']) x hx
      rw [fold_keys_old _ _ ?_ ?_, h1]
      · intro kv hk e
        exact h0 (by rw [← e]; exact hm kv hk)
      · rw [h1]; exact hm
  have hwide : ∀ r ∈ top, ∀ kv ∈ r, kv.2.length ≤ widthOf cs kv.1 ∧ kv.1.length ≤ widthOf cs kv.1 := by
    intro r hm kv hk
    have hmem : (kv.1, Cell.text kv.2) ∈ (top.map (·.map (fun kv => (kv.1, Cell.text kv.2)))).flatten :=
      List.mem_flatten.2 ⟨_, List.mem_map.2 ⟨r, hm, rfl⟩, List.mem_map.2 ⟨kv, hk, rfl⟩⟩
    have := (fold_width _ [] kv.1).2 _ hmem rfl
    rw [hcs] at this
    simpa [formatValue] using this
  have hwn : ∀ k ∈ names, k.length ≤ widthOf cs k := by
    intro k hk
    cases top with
    | nil => exact absurd rfl htop
    | cons r top =>
      rw [← hrt r (by simp)] at hk
      obtain ⟨kv, hkv, rfl⟩ := List.mem_map.1 hk
      exact (hwide r (by simp) kv hkv).2
  have hcsn : cs = names.map (fun k => (k, widthOf cs k)) := by
    have := widths_eq cs (by rw [hkeys]; exact hn)
    rw [hkeys] at this
    exact this
  rw [asciiLines_ok]
  · refine ⟨names.map (widthOf cs), names.map (fun k => center (widthOf cs k + 2) k),
      top.map (fun r => r.map (fun kv => center (widthOf cs kv.1 + 2) kv.2)), ?_, ?_, ?_⟩
    · have hb : cs.map (fun kw => List.replicate (kw.2 + 2) '─') =
          (names.map (widthOf cs)).map (fun w => List.replicate (w + 2) '─') := by
        conv => lhs; rw [hcsn]
        rw [List.map_map, List.map_map]
        rfl
      have hh : cs.map (fun kw => center (kw.2 + 2) kw.1) = names.map (fun k => center (widthOf cs k + 2) k) := by
        conv => lhs; rw [hcsn]
        rw [List.map_map]
        rfl
      rw [hb, hh, List.map_map, List.map_map]
      simp only [rule, line, Function.comp_def, List.map_map, formatValue]
      rfl
    · have := fits_map names (widthOf cs) id (fun k => center (widthOf cs k + 2) k)
        (fun k hk => center_centred _ _ (hwn k hk))
      rwa [List.map_id] at this
    · rw [List.forall₂_map_right_iff]
      rw [List.forall₂_same]
      intro r hm
      have := fits_map r (fun kv => widthOf cs kv.1) Prod.snd (fun kv => center (widthOf cs kv.1 + 2) kv.2)
        (fun kv hk => center_centred _ _ (hwide r hm kv hk).1)
      have he : r.map (fun kv => widthOf cs kv.1) = names.map (widthOf cs) := by
        rw [← hrt r hm, List.map_map]
        rfl
      rwa [he] at this
  · intro row hrow kv hk
    obtain ⟨r, hr', rfl⟩ := List.mem_map.1 hrow
    obtain ⟨x, hx, rfl⟩ := List.mem_map.1 hk
    rw [hkeys]
    exact hname r hr' x hx

/-- Every line of such a table has the same length. -/
theorem fits_length (ws : List Nat) (ss cs : List Str) (h : Fits ws ss cs) : cs.map List.length = ws.map (· + 2) := by
  induction ws generalizing ss cs with
  | nil =>
    cases ss <;> cases cs <;> first | rfl | exact h.elim
  | cons w ws ih =>
    cases ss with
    | nil => cases cs <;> exact h.elim
    | cons s ss =>
      cases cs with
      | nil => exact h.elim
      | cons c cs =>
        obtain ⟨⟨l, r, hc, hl, -⟩, h2⟩ := h
        rw [List.map_cons, List.map_cons, ih ss cs h2, hc]
        congr 1
        simp
        omega

theorem join_length (sep : Char) (l : List Str) : (join [sep] l).length = (l.map List.length).sum + (l.length - 1) := by
  induction l with
  | nil => rfl
  | cons a l ih =>
    cases l with
    | nil => simp [join]
    | cons b l =>
      rw [join, List.length_append, List.length_append, ih]
      · simp; omega
      · simp

/-- **C65**: a line whose cells fit the columns is as long as the rules. -/
theorem C65_lines_align (l m r : Char) (ws : List Nat) (ss cs : List Str) (h : Fits ws ss cs) :
    (line cs).length = (rule l m r ws).length := by
  have h1 := fits_length ws ss cs h
  have h2 : cs.length = ws.length := by simpa using congrArg List.length h1
  have h3 : (ws.map (fun w => List.replicate (w + 2) '─')).map List.length = ws.map (· + 2) := by
    rw [List.map_map]
    refine List.map_congr_left ?_
    intro w _
    simp
  show ("│".toList ++ join ['│'] cs ++ "│".toList).length = ([l] ++ join [m] _ ++ [r]).length
  rw [List.length_append, List.length_append, List.length_append, List.length_append, join_length, join_length, h1, h3, h2,
    List.length_map]
  rfl

def demoRecords : List (List (Str × Str)) :=
  [[("id".toList, "1".toList), ("name".toList, "ada".toList)], [("id".toList, "200".toList), ("name".toList, "x".toList)],
   [("id".toList, "3".toList), ("name".toList, "y".toList)]]

example : (asciiTable 2 (demoRecords.map (·.map (fun kv => (kv.1, .text kv.2))))).toOption = some
    ["┌─────┬──────┐".toList, "│  id │ name │".toList, "├─────┼──────┤".toList, "│  1  │ ada  │".toList,
     "│ 200 │  x   │".toList, "└─────┴──────┘".toList] := by decide +kernel

example : (∀ r ∈ demoRecords, r.map Prod.fst = ["id".toList, "name".toList]) ∧ ["id".toList, "name".toList].Nodup ∧
    [] ∉ ["id".toList, "name".toList] ∧ demoRecords.take 2 ≠ [] := by decide

/-- **C65** fails when a record has its fields in another order: the values are put under the wrong headings. -/
theorem C65_order_fails (x y : Char) : asciiTable 5
    [[("a".toList, .text [x]), ("b".toList, .text [y])], [("b".toList, .text [y]), ("a".toList, .text [x])]] =
    .ok ["┌───┬───┐".toList, "│ a │ b │".toList, "├───┼───┤".toList,
         "│ ".toList ++ [x] ++ " │ ".toList ++ [y] ++ " │".toList,
         "│ ".toList ++ [y] ++ " │ ".toList ++ [x] ++ " │".toList, "└───┴───┘".toList] := by
  with_unfolding_all rfl

/-- **C65** fails when a record does not have a field: its line has no cell for it, and the later values move to the
left. -/
theorem C65_missing_fails (x y : Char) : asciiTable 5
    [[("a".toList, .text [x]), ("b".toList, .text [y])], [("b".toList, .text [y])]] =
    .ok ["┌───┬───┐".toList, "│ a │ b │".toList, "├───┼───┤".toList,
         "│ ".toList ++ [x] ++ " │ ".toList ++ [y] ++ " │".toList,
         "│ ".toList ++ [y] ++ " │".toList, "└───┴───┘".toList] := by
  with_unfolding_all rfl

/-- A record with an empty value in a field with an empty name cannot be shown. -/
theorem C65_empty_name_fails (limit : Int) (h : limit ≠ 0) : asciiTable limit [[([], .text [])]] = .error .keyError := by
  have : asciiRows limit 0 [[([], .text [])]] = [[([], .text [])]] := by
    rw [asciiRows_eq]
    split
    · obtain ⟨k, hk⟩ : ∃ k, (limit - (0 : Nat)).toNat = k + 1 := ⟨(limit - (0 : Nat)).toNat - 1, by omega⟩
      rw [hk]; simp
    · rfl
  unfold asciiTable
  simp only [this]
  rfl

/-- **C65**: `html_table` with a limit of no rows shows them all. -/
theorem C65_html_zero_fails (setOrder : List Str → List Str) (hset : ∀ l, (setOrder l).Perm l) (dictset : List Row)
    (h : ∀ row ∈ dictset, ∀ kv ∈ row, Safe kv.2) (hne : dictset ≠ []) :
    ∃ page, htmlTable setOrder .other 0 dictset = .ok page ∧ ∃ columns,
      markupOf page = tableMarkup columns dictset.length false ∧ dictset.length ≠ 0 := by
  obtain ⟨page, h1, h2⟩ := C57_markup setOrder hset .other 0 dictset h
  exact ⟨page, h1, _, h2, by simpa using hne⟩

end Mabel.Display
