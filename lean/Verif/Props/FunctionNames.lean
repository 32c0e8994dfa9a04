import Verif.Props.FunctionTable
import Verif.Props.Functions

/-! # The functions of SQL statements, each by its name (C106) -/

namespace Mabel.FunctionTable
open Mabel.Py Mabel.Dates Mabel.Tokens Mabel.Filters Mabel.Functions Mabel.FunctionTable.Spec

variable (L : Lib)

/-- **C106**: a name that is not that of a function raises KeyError. -/
theorem C106_unknown (u : Str) (h : u ∉ Expression.Spec.functionNames) (args : List Datum) : call L u args = .error .keyError := by
  rw [C106_names, Bool.not_eq_true, Option.isSome_eq_false_iff, Option.isNone_iff_eq_none] at h
  rw [call, h]

example : "MEDIAN".toList ∉ Expression.Spec.functionNames := by decide +kernel

/-- What the parts of a datetime are called. -/
def partNames (d : DateTime) : List (String × Nat) := [("YEAR", d.year), ("MONTH", d.month), ("DAY", d.day), ("HOUR", d.hour),
  ("MINUTE", d.minute), ("SECOND", d.second),
  ("QUARTER", if d.month ≤ 3 then 1 else if d.month ≤ 6 then 2 else if d.month ≤ 9 then 3 else 4)]

/-- **C106**: the parts of a datetime by their names, given as a datetime or as a text that is a date. -/
theorem C106_parts_by_name (d : DateTime) (hv : d.valid = true) (f : String) (n : Nat) (h : (f, n) ∈ partNames d) :
    call L f.toList [.one (.date d)] = .ok (.one (.int n)) ∧
    ∀ s, parseIso s = some d → call L f.toList [.one (.str s)] = .ok (.one (.int n)) := by
  have key : ∃ p g, names.lookup f.toList = some g ∧ (∀ x, g.call L f.toList [x] = (getPart p (arg x)).map ofPart) ∧
      spelled d p = .num n := by
    simp only [partNames, List.mem_cons, List.not_mem_nil, or_false, Prod.mk.injEq] at h
    rcases h with ⟨rfl, rfl⟩ | ⟨rfl, rfl⟩ | ⟨rfl, rfl⟩ | ⟨rfl, rfl⟩ | ⟨rfl, rfl⟩ | ⟨rfl, rfl⟩ | ⟨rfl, rfl⟩
    · exact ⟨.year, .year, by decide +kernel, fun _ => rfl, rfl⟩
    · exact ⟨.month, .month, by decide +kernel, fun _ => rfl, rfl⟩
    · exact ⟨.day, .day, by decide +kernel, fun _ => rfl, rfl⟩
    · exact ⟨.hour, .hour, by decide +kernel, fun _ => rfl, rfl⟩
    · exact ⟨.minute, .minute, by decide +kernel, fun _ => rfl, rfl⟩
    · exact ⟨.second, .second, by decide +kernel, fun _ => rfl, rfl⟩
    · exact ⟨.quarter, .quarter, by decide +kernel, fun _ => rfl, rfl⟩
  obtain ⟨p, g, h1, h2, h3⟩ := key
  constructor
  · rw [call_of L h1, h2, arg, (C60_parts d hv p).1, h3]
    rfl
  · intro s hs
    rw [call_of L h1, h2, arg, getPart_str, hs]
    simp only
    rw [partOf_spelled d hv, h3]
    rfl

example : ("QUARTER", 3) ∈ partNames ⟨2024, 8, 5, 1, 2, 3⟩ ∧ parseIso "2024-08-05 01:02:03".toList = some ⟨2024, 8, 5, 1, 2, 3⟩ := by
  decide +kernel

/-- **C106**: capitals, small letters, texts and truth values by their names. -/
theorem C106_text_by_name (s : Str) :
    call L "UPPER".toList [.one (.str s)] = .ok (.one (.str (L.lex.upper s))) ∧
    call L "UCASE".toList [.one (.str s)] = .ok (.one (.str (L.lex.upper s))) ∧
    call L "LOWER".toList [.one (.str s)] = .ok (.one (.str (L.lib.lower s))) ∧
    call L "LCASE".toList [.one (.str s)] = .ok (.one (.str (L.lib.lower s))) ∧
    call L "STRING".toList [.one (.str s)] = .ok (.one (.str s)) ∧
    (L.lex.upper s = "FALSE".toList → call L "BOOLEAN".toList [.one (.str s)] = .ok (.one (.bool false))) ∧
    (L.lex.upper s ≠ "FALSE".toList → call L "BOOLEAN".toList [.one (.str s)] = .ok (.one (.bool true))) := by
  refine ⟨rfl, rfl, rfl, rfl, rfl, ?_, ?_⟩
  · intro h
    show Except.ok (Datum.one (.bool (L.lex.upper s != "FALSE".toList))) = _
    rw [h]; rfl
  · intro h
    show Except.ok (Datum.one (.bool (L.lex.upper s != "FALSE".toList))) = _
    rw [bne_iff_ne.2 h]

/-- **C106**: CONCAT of texts puts them one after the other. -/
theorem C106_concat_by_name (l : List Str) :
    call L "CONCAT".toList (l.map (fun s => .one (.str s))) = .ok (.one (.str l.flatten)) := by
  rw [call_of L (g := .concat) (by decide +kernel)]
  have hs : (l.map (fun s => Datum.one (.str s))).map (str L.lib) = l := by
    rw [List.map_map]
    exact List.map_id' l
  have key : Fn.call L "CONCAT".toList .concat (l.map (fun s => Datum.one (.str s)))
      = text (Functions.concat ((l.map (fun s => Datum.one (.str s))).map (str L.lib))) := by
    cases l with
    | nil => rfl
    | cons a l => cases l <;> rfl
  rw [key, hs, C60_concat]
  rfl

theorem dropWhile_split (p : Char → Bool) (l : List Char) : ∃ a, l = a ++ l.dropWhile p ∧ (∀ c ∈ a, p c = true) ∧
    ∀ c, (l.dropWhile p).head? = some c → p c = false := by
  induction l with
  | nil => exact ⟨[], rfl, by simp, by simp⟩
  | cons x l ih =>
    by_cases h : p x = true
    · obtain ⟨a, h1, h2, h3⟩ := ih
      refine ⟨x :: a, ?_, ?_, ?_⟩
      · rw [List.dropWhile_cons_of_pos h, List.cons_append, ← h1]
      · intro c hc
        rcases List.mem_cons.1 hc with rfl | hc
        · exact h
        · exact h2 c hc
      · rw [List.dropWhile_cons_of_pos h]; exact h3
    · refine ⟨[], ?_, by simp, ?_⟩
      · rw [List.dropWhile_cons_of_neg h]; rfl
      · intro c hc
        rw [List.dropWhile_cons_of_neg h] at hc
        cases hc
        exact Bool.not_eq_true _ ▸ h

/-- **C106**: TRIM takes away the white space at both ends, and nothing else. -/
theorem C106_trim (s : Str) : ∃ before t after, call L "TRIM".toList [.one (.str s)] = .ok (.one (.str t)) ∧ s = before ++ t ++ after ∧
    (∀ c ∈ before ++ after, isSpace c = true) ∧ (∀ c, t.head? = some c → isSpace c = false) ∧
    ∀ c, t.getLast? = some c → isSpace c = false := by
  obtain ⟨a, a1, a2, a3⟩ := dropWhile_split isSpace s
  obtain ⟨b, b1, b2, b3⟩ := dropWhile_split isSpace (s.dropWhile isSpace).reverse
  have e : s.dropWhile isSpace = strip s ++ b.reverse := by
    rw [← List.reverse_reverse (s.dropWhile isSpace), b1, List.reverse_append]
    rfl
  refine ⟨a, strip s, b.reverse, rfl, ?_, ?_, ?_, ?_⟩
  · rw [List.append_assoc, ← e]; exact a1
  · intro c hc
    rcases List.mem_append.1 hc with hc | hc
    · exact a2 c hc
    · exact b2 c (List.mem_reverse.1 hc)
  · intro c hc
    refine a3 c ?_
    rw [e, List.head?_append, hc]
    rfl
  · intro c hc
    refine b3 c ?_
    rw [← hc]
    unfold strip
    rw [List.getLast?_reverse]

example : call L "TRIM".toList [.one (.str " \ta b\n".toList)] = .ok (.one (.str "a b".toList)) := by
  rfl

/-- **C106**: LEFT, RIGHT and MID of texts, by their names: the first characters, the last ones, and those from a place on. -/
theorem C106_cut_by_name (s : Str) (a n : Nat) :
    call L "LEFT".toList [.one (.str s), .one (.int n)] = .ok (.one (.str (s.take n))) ∧
    (0 < n → call L "RIGHT".toList [.one (.str s), .one (.int n)] = .ok (.one (.str (s.drop (s.length - n))))) ∧
    call L "MID".toList [.one (.str s), .one (.int a), .one (.int n)] = .ok (.one (.str ((s.drop a).take n))) := by
  refine ⟨?_, ?_, ?_⟩
  · show text (Functions.left s n) = _
    unfold Functions.left sliceTo
    rw [if_neg (by omega)]
    simp [text]
  · intro h
    show text (Functions.right s n) = _
    unfold Functions.right sliceFrom
    rw [if_pos (by omega)]
    simp [text]
  · show text (Functions.mid s a n) = _
    unfold Functions.mid sliceFrom sliceTo
    rw [if_neg (by omega), if_neg (by omega)]
    simp [text]

/-- **C106**: numbers of characters may be fractions, of which the part after the point is left out; True is 1 and False is 0. -/
theorem C106_cut_number (x y z : Datum) (q : Rat) (i : Int) (hi : i = if q < 0 then ⌈q⌉ else ⌊q⌋) (b : Bool) :
    (∀ f ∈ ["LEFT", "RIGHT"], call L f.toList [x, .one (.float q)] = call L f.toList [x, .one (.int i)] ∧
      call L f.toList [x, .one (.bool b)] = call L f.toList [x, .one (.int (if b then 1 else 0))]) ∧
    call L "MID".toList [x, .one (.float q), z] = call L "MID".toList [x, .one (.int i), z] ∧
    call L "MID".toList [x, y, .one (.float q)] = call L "MID".toList [x, y, .one (.int i)] := by
  have ht : toInt (.one (.float q)) = toInt (.one (.int i)) := by
    rw [hi]
    show Except.ok (truncate q) = Except.ok _
    unfold truncate
    congr 1
  have hb : toInt (.one (.bool b)) = toInt (.one (.int (if b then 1 else 0))) := by cases b <;> rfl
  refine ⟨?_, ?_, ?_⟩
  · intro f hf
    simp only [List.mem_cons, List.not_mem_nil, or_false] at hf
    rcases hf with rfl | rfl
    · rw [call_of L (g := .left) (by decide +kernel)]
      simp only [call_of L (show names.lookup "LEFT".toList = some .left by decide +kernel), Fn.call, ht, hb, and_self]
    · simp only [call_of L (show names.lookup "RIGHT".toList = some .right by decide +kernel), Fn.call, ht, hb, and_self]
  · simp only [call_of L (show names.lookup "MID".toList = some .mid by decide +kernel), Fn.call, ht]
  · simp only [call_of L (show names.lookup "MID".toList = some .mid by decide +kernel), Fn.call, ht]

example : (2 : Int) = (if (5 / 2 : Rat) < 0 then ⌈(5 / 2 : Rat)⌉ else ⌊(5 / 2 : Rat)⌋) ∧
    (-2 : Int) = (if (-5 / 2 : Rat) < 0 then ⌈(-5 / 2 : Rat)⌉ else ⌊(-5 / 2 : Rat)⌋) := by decide +kernel

section
attribute [local irreducible] floatNat

theorem toFloat_int (i : Int) (m : Nat) (h : floatNat i.natAbs = .ok m) :
    toFloat L (.one (.int i)) = .ok (if i < 0 then -(m : Rat) else m) := by
  simp only [toFloat, h]
  rfl

end

/-- **C106**: DOUBLE, INTEGER and TRUNC keep whole numbers of up to 53 bits; True is 1 and False is 0. -/
theorem C106_whole (i : Int) (h : i.natAbs ≤ 2 ^ 53) (b : Bool) :
    call L "DOUBLE".toList [.one (.int i)] = .ok (.one (.float i)) ∧ call L "INTEGER".toList [.one (.int i)] = .ok (.one (.int i)) ∧
    call L "TRUNC".toList [.one (.int i)] = .ok (.one (.int i)) ∧
    call L "DOUBLE".toList [.one (.bool b)] = .ok (.one (.float (if b then 1 else 0))) ∧
    call L "INTEGER".toList [.one (.bool b)] = .ok (.one (.int (if b then 1 else 0))) ∧
    call L "TRUNC".toList [.one (.bool b)] = .ok (.one (.int (if b then 1 else 0))) := by
  have hf : floatNat i.natAbs = .ok i.natAbs := by
    unfold floatNat
    rw [round53_small _ h, if_pos (Nat.lt_of_le_of_lt h pow_lt_limit)]
  have ht : toFloat L (.one (.int i)) = .ok (i : Rat) := by
    refine (toFloat_int L i _ hf).trans (congrArg Except.ok ?_)
    clear hf h
    split
    · have : (i : Rat) = ((-(i.natAbs : Int) : Int) : Rat) := congrArg _ (by omega)
      rw [this, Int.cast_neg, Int.cast_natCast]
    · have : (i : Rat) = ((i.natAbs : Int) : Rat) := congrArg _ (by omega)
      rw [this, Int.cast_natCast]
  have htr : truncate (i : Rat) = i := by
    unfold truncate
    split
    · rw [← Int.cast_neg, Int.floor_intCast]; omega
    · exact Int.floor_intCast i
  have hb : toFloat L (.one (.bool b)) = .ok (if b then 1 else 0) := rfl
  have htb : truncate (if b then 1 else 0) = if b then 1 else 0 := by cases b <;> decide +kernel
  have ed : ∀ x, call L "DOUBLE".toList [x] = parseNumber L (fun q => .one (.float q)) x := fun x => by
    rw [call_of L (g := .double) (by decide +kernel)]; rfl
  have ei : ∀ x, call L "INTEGER".toList [x] = parseNumber L (fun q => .one (.int (truncate q))) x := fun x => by
    rw [call_of L (g := .integer) (by decide +kernel)]; rfl
  have et : ∀ x, call L "TRUNC".toList [x] = parseNumber L (fun q => .one (.int (truncate q))) x := fun x => by
    rw [call_of L (g := .trunc) (by decide +kernel)]; rfl
  have hi : ∀ c, parseNumber L c (.one (.int i)) = .ok (c i) := fun c => by
    rw [parseNumber, if_neg (by simp), ht]; rfl
  have hb' : ∀ c, parseNumber L c (.one (.bool b)) = .ok (c (if b then 1 else 0)) := fun c => by
    rw [parseNumber, if_neg (by simp), hb]; rfl
  rw [ed, ei, et, ed, ei, et, hi, hi, hb', hb', htr, htb]
  exact ⟨rfl, rfl, rfl, rfl, rfl, rfl⟩

/-- **C106**: ISNONE tells whether there is a value. -/
theorem C106_isnone (x : Datum) : call L "ISNONE".toList [x] = .ok (.one (.bool (decide (x = null)))) := rfl

/-- **C106**: ADDDAYS of a datetime moves it by that many days and keeps the time of day; True is one day; beyond the years 1 to 9999 it
raises OverflowError. -/
theorem C106_adddays_by_name (t : DateTime) (h : t.valid = true) (n : Int) (b : Bool) :
    (1 ≤ t.ordinal + n → t.ordinal + n ≤ lastDay → ∃ r : DateTime,
      call L "ADDDAYS".toList [.one (.date t), .one (.int n)] = .ok (.one (.date r)) ∧
      r.valid = true ∧ (r.ordinal : Int) = t.ordinal + n ∧ r.hour = t.hour ∧ r.minute = t.minute ∧ r.second = t.second) ∧
    (t.ordinal + n < 1 ∨ lastDay < t.ordinal + n → call L "ADDDAYS".toList [.one (.date t), .one (.int n)] = .error .overflow) ∧
    call L "ADDDAYS".toList [.one (.date t), .one (.bool b)]
      = call L "ADDDAYS".toList [.one (.date t), .one (.int (if b then 1 else 0))] ∧
    ∀ s, parseIso s = some t → ∀ y, call L "ADDDAYS".toList [.one (.str s), .one (.int y)] = call L "ADDDAYS".toList [.one (.date t), .one (.int y)] := by
  obtain ⟨h1, h2⟩ := C60_adddays t h n
  have hn : ∀ x y, call L "ADDDAYS".toList [x, y] = plusDays L x y := fun x y => by
    rw [call_of L (g := .addDays) (by decide +kernel)]; rfl
  have hr : resolve (arg (.one (.date t))) = .datetime t := rfl
  refine ⟨?_, ?_, ?_, ?_⟩
  · intro ha hb
    obtain ⟨r, e, hv, ho, e1, e2, e3, -⟩ := h1 ha hb
    refine ⟨r, ?_, hv, ho, e1, e2, e3⟩
    rw [hn]
    unfold plusDays
    rw [hr]
    simp only [arg, e]
    rfl
  · intro hc
    rw [hn]
    unfold plusDays
    rw [hr]
    simp only [arg, h2 hc]
    rfl
  · cases b <;> rfl
  · intro s hs y
    rw [hn, hn]
    have hr2 : resolve (arg (.one (.str s))) = .datetime t := by
      show (match parseIso s with | some t => Arg.datetime t | none => Arg.none) = _
      rw [hs]
    unfold plusDays
    rw [hr, hr2]
    simp only
    unfold addDays
    rw [hr, hr2]

/-- **C106**: DAYSDIFF of two datetimes is the number of whole days from the first to the second, rounded down. -/
theorem C106_daysdiff_by_name (a b : DateTime) : ∃ n : Int, call L "DAYSDIFF".toList [.one (.date a), .one (.date b)] = .ok (.one (.int n)) ∧
    86400 * n ≤ (b.seconds : Int) - a.seconds ∧ (b.seconds : Int) - a.seconds < 86400 * (n + 1) := by
  refine ⟨((b.seconds : Int) - a.seconds).fdiv 86400, rfl, ?_⟩
  exact (C60_daysdiff a b _).1 rfl

end Mabel.FunctionTable
