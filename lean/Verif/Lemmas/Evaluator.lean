import Verif.Lemmas.EvalText
import Verif.Props.Records

/-! # Building and evaluating select lists -/

namespace Mabel.Evaluator
open Mabel.Py Mabel.Dates Mabel.Tokens Mabel.Filters Mabel.Records Mabel.Evaluator.Spec
open Mabel.Tokenizer (Re)
open Mabel.Tokenizer.Spec (SaneRe capitals)
open Mabel.Expression
open Mabel.Expression.Spec (Sane Name quote)

variable {lex : Lex}

/-! ## Labels -/

theorem label_star (hl : Sane lex) : label lex "*".toList = .everything := by
  rw [label_core, show strip "*".toList = "*".toList by decide, core, if_neg (by decide), if_neg (by decide), if_pos rfl]

theorem capitals_ascii {f : Str} (h : ∀ c ∈ capitals f, c.toNat < 128) : ∀ c ∈ f, c.toNat < 128 := by
  intro c hc
  by_cases hn : c.toNat < 128
  · exact hn
  · have := h c.toUpper (List.mem_map_of_mem hc)
    rw [Mabel.Tokenizer.toUpper_big c hn] at this
    exact this

theorem upper_capitals (hl : Sane lex) {f : Str} (h : ∀ c ∈ capitals f, c.toNat < 128) : lex.upper f = capitals f :=
  upper_ascii hl f (capitals_ascii h)

theorem toUpper_facts {c : Char} (h : (c.toUpper.isAlphanum || c.toUpper == '_') = true) :
    c.toNat < 128 ∧ (c.isAlphanum || c == '_') = true ∧ (c.toUpper.isDigit = false → (c.isAlpha || c == '_') = true) := by
  have hn : c.toNat < 128 := by
    by_cases hn : c.toNat < 128
    · exact hn
    · rw [Mabel.Tokenizer.toUpper_big c hn] at h
      rw [Bool.or_eq_true] at h
      rcases h with h | h
      · exact alphanum_ascii c h
      · have : c = '_' := by simpa using h
        subst this
        decide
  exact ⟨hn, of_ascii (P := fun c => (c.toUpper.isAlphanum || c.toUpper == '_') = true →
    (c.isAlphanum || c == '_') = true ∧ (c.toUpper.isDigit = false → (c.isAlpha || c == '_') = true)) (by decide +kernel) c hn h⟩

/-- A word whose capitals are a plain word. -/
theorem label_capitals (hl : Sane lex) (s : Str) (h : (capitals s).all (fun c => c.isAlphanum || c == '_') = true)
    (h0 : ∃ c cs, capitals s = c :: cs ∧ c.isDigit = false) :
    label lex s = core s (capitals s) false true ∧ strip s = s := by
  have hc : ∀ c ∈ s, c.toNat < 128 ∧ (c.isAlphanum || c == '_') = true ∧ (c.toUpper.isDigit = false → (c.isAlpha || c == '_') = true) := by
    intro c hm
    exact toUpper_facts (List.all_eq_true.1 h _ (List.mem_map_of_mem hm))
  obtain ⟨u, us, hu, hd⟩ := h0
  cases s with
  | nil => cases hu
  | cons c cs =>
    have hu' : c.toUpper = u := by injection hu
    have h1 := hc c (List.mem_cons_self ..)
    refine ⟨?_, ?_⟩
    · exact label_word hl (c :: cs) c cs rfl (h1.2.2 (hu' ▸ hd)) (fun d hm => by rw [(hc d hm).2.1]; rfl)
    · apply strip_ends
      · intro d hd
        have := (hc d (List.mem_of_mem_head? hd))
        cases hs : isSpace d with
        | false => rfl
        | true =>
          have := space_facts hs
          have h2 := (hc d (List.mem_of_mem_head? hd)).2.1
          rw [show (d.isAlphanum || d == '_') = Mabel.Tokenizer.Spec.isWordChar d from rfl, this.2.1] at h2
          cases h2
      · intro d hd
        cases hs : isSpace d with
        | false => rfl
        | true =>
          have := space_facts hs
          have h2 := (hc d (List.mem_of_getLast? hd)).2.1
          rw [show (d.isAlphanum || d == '_') = Mabel.Tokenizer.Spec.isWordChar d from rfl, this.2.1] at h2
          cases h2

theorem core_function (s : Str) (hs : capitals s ∈ functions) (hw : wrapped '`' s = false) (hne : s ≠ []) (hst : s ≠ "*".toList)
    (a b : Bool) : core s (capitals s) a b = .function := by
  rw [core, if_neg hne, hw, if_neg (by decide), if_neg hst, if_pos hs]

theorem core_aggregator (s : Str) (hs : capitals s ∈ aggregators) (hw : wrapped '`' s = false) (hne : s ≠ []) (hst : s ≠ "*".toList)
    (a b : Bool) : core s (capitals s) a b = .aggregator := by
  have : ∀ f ∈ aggregators, f ∉ functions ∧ (Tokens.operators.lookup f).isSome = false := by decide +kernel
  obtain ⟨h1, h2⟩ := this _ hs
  rw [core, if_neg hne, hw, if_neg (by decide), if_neg hst, if_neg h1, h2, if_neg (by decide), if_pos hs]

theorem functions_plain : ∀ f ∈ functions, f.all (fun c => c.isAlphanum || c == '_') = true ∧ (f.head?.elim true Char.isDigit) = false ∧
    (∀ c ∈ f, c.toNat < 128) := by
  decide +kernel

theorem aggregators_plain : ∀ f ∈ aggregators, f.all (fun c => c.isAlphanum || c == '_') = true ∧ (f.head?.elim true Char.isDigit) = false ∧
    (∀ c ∈ f, c.toNat < 128) := by
  decide +kernel

/-- What the name of a call is labelled. -/
def callLabel (f : Str) : Label := if capitals f ∈ functions then .function else .aggregator

theorem callLabel_cases (f : Str) : callLabel f = .function ∨ callLabel f = .aggregator := by
  unfold callLabel
  split
  · exact Or.inl rfl
  · exact Or.inr rfl

theorem callLabel_ne (f : Str) : callLabel f ≠ .left ∧ callLabel f ≠ .right ∧ callLabel f ≠ .as ∧ callLabel f ≠ .everything := by
  rcases callLabel_cases f with h | h <;> (rw [h]; decide)

theorem label_call (hl : Sane lex) (f : Str) (hf : capitals f ∈ functions ∨ capitals f ∈ aggregators) :
    label lex f = callLabel f ∧ lex.upper f = capitals f := by
  obtain ⟨h1, h2, h3⟩ : (capitals f).all (fun c => c.isAlphanum || c == '_') = true ∧ ((capitals f).head?.elim true Char.isDigit) = false ∧
      (∀ c ∈ capitals f, c.toNat < 128) := by
    rcases hf with hf | hf
    · exact functions_plain _ hf
    · exact aggregators_plain _ hf
  have h0 : ∃ c cs, capitals f = c :: cs ∧ c.isDigit = false := by
    cases hc : capitals f with
    | nil => rw [hc] at h2; cases h2
    | cons c cs => rw [hc] at h2; exact ⟨c, cs, rfl, h2⟩
  refine ⟨?_, upper_capitals hl h3⟩
  rw [(label_capitals hl f h1 h0).1]
  obtain ⟨c, cs, hc, _⟩ := h0
  cases f with
  | nil => cases hc
  | cons d f =>
    have hd : (d.toUpper.isAlphanum || d.toUpper == '_') = true := List.all_eq_true.1 h1 _ (List.mem_map_of_mem (List.mem_cons_self ..))
    have hw : wrapped '`' (d :: f) = false := by
      unfold wrapped
      have : d ≠ '`' := by rintro rfl; exact absurd hd (by decide)
      simp [this]
    have hst : d :: f ≠ "*".toList := by
      intro e
      injection e with e _
      subst e
      exact absurd hd (by decide)
    unfold callLabel
    by_cases hfun : capitals (d :: f) ∈ functions
    · rw [if_pos hfun]
      exact core_function _ hfun hw (List.cons_ne_nil _ _) hst _ _
    · rw [if_neg hfun]
      exact core_aggregator _ (hf.resolve_left hfun) hw (List.cons_ne_nil _ _) hst _ _

theorem label_as (hl : Sane lex) (s : Str) (hs : capitals s = "AS".toList) : label lex s = .as := by
  rw [(label_capitals hl s (by rw [hs]; decide) ⟨'A', ['S'], hs, by decide⟩).1, hs]
  obtain ⟨x, y, rfl, hx, hy, _, _⟩ := as_chars hs
  have hx' : x ≠ '`' ∧ x ≠ '*' ∧ x ≠ '"' ∧ x ≠ '\'' ∧ x ≠ '(' ∧ x ≠ '[' ∧ x ≠ ')' ∧ x ≠ ']' ∧ x ≠ ',' := by
    refine ⟨?_, ?_, ?_, ?_, ?_, ?_, ?_, ?_, ?_⟩ <;> (rintro rfl; exact absurd hx (by decide))
  have hxs : isSpace x = false := by
    cases h : isSpace x with
    | false => rfl
    | true => exact absurd hx (of_ascii (P := fun c => isSpace c = true → c.toUpper ≠ 'A') (by decide +kernel) x (space_facts h).1 h)
  have hp : pyInt [x, y] = .error .valueError := by
    apply pyInt_bad x [y] hxs
    · unfold digitVal
      rw [if_neg]
      intro hd
      exact absurd hx (of_ascii (P := fun c => ('0' ≤ c ∧ c ≤ '9') → c.toUpper ≠ 'A') (by decide +kernel) x (by assumption) hd)
    · rintro rfl; exact absurd hx (by decide)
    · rintro rfl; exact absurd hx (by decide)
  have hw : ∀ q, x ≠ q → wrapped q [x, y] = false := by
    intro q hq
    unfold wrapped
    simp [hq]
  have h1 : "AS".toList ∉ functions ∧ (Tokens.operators.lookup "AS".toList).isSome = false ∧ "AS".toList ∉ aggregators := by decide +kernel
  rw [core, if_neg (by simp), hw _ hx'.1, if_neg (by decide), if_neg (by simp), if_neg h1.1, h1.2.1, if_neg (by decide), if_neg h1.2.2,
    hw _ hx'.2.2.1, hw _ hx'.2.2.2.1, if_neg (by decide), hp, if_neg (by intro h; cases h), if_neg (by decide),
    if_neg (by simp), if_neg (by simp), if_neg (by simp)]
  decide

/-- The ways to write a word. -/
def variants : Str → List Str
  | [] => [[]]
  | c :: s => (variants s).flatMap (fun r => [c :: r, c.toLower :: r])

theorem upper_letter {c d : Char} (hd : d.isUpper = true) (h : c.toUpper = d) : c = d ∨ c = d.toLower := by
  subst h
  have hc : c.toNat < 128 := (toUpper_facts (c := c) (by simp [Char.isAlphanum, Char.isAlpha, hd])).1
  exact of_ascii (P := fun c => c = c.toUpper ∨ c = c.toUpper.toLower) (by decide +kernel) c hc

theorem variants_mem : ∀ (K w : Str), (∀ c ∈ K, c.isUpper = true) → capitals w = K → w ∈ variants K
  | [], w, _, h => by
    rw [List.map_eq_nil_iff.1 h]
    exact List.mem_singleton.2 rfl
  | d :: K, [], _, h => by cases h
  | d :: K, c :: w, hk, h => by
    have h : c.toUpper :: capitals w = d :: K := h
    injection h with h1 h2
    have hm := variants_mem K w (fun x hx => hk x (List.mem_cons_of_mem _ hx)) h2
    rw [variants]
    refine List.mem_flatMap.2 ⟨w, hm, ?_⟩
    rcases upper_letter (hk d (List.mem_cons_self ..)) h1 with e | e
    · rw [e]; exact List.mem_cons_self ..
    · rw [e]; exact List.mem_cons_of_mem _ (List.mem_cons_self ..)

theorem label_constant (hl : Sane lex) (K : Str) (hK : ∀ c ∈ K, c.isUpper = true) (w : Str) (h : capitals w = K) (L : Label) (hne : K ≠ [])
    (hv : ∀ w ∈ variants K, core w K false true = L) : label lex w = L := by
  have hall : (capitals w).all (fun c => c.isAlphanum || c == '_') = true := by
    rw [h, List.all_eq_true]
    intro c hc
    simp [Char.isAlphanum, Char.isAlpha, hK c hc]
  rw [(label_capitals hl w hall ?_).1, h]
  · exact hv w (variants_mem K w hK h)
  · cases K with
    | nil => exact absurd rfl hne
    | cons c K =>
      refine ⟨c, K, h, ?_⟩
      have hu := hK c (List.mem_cons_self ..)
      have hc : c.toNat < 128 := Mabel.Expression.alphanum_ascii c (by simp [Char.isAlphanum, Char.isAlpha, hu])
      exact of_ascii (P := fun c => c.isUpper = true → c.isDigit = false) (by decide +kernel) c hc hu

theorem label_boolean (hl : Sane lex) (w : Str) (h : capitals w = "TRUE".toList ∨ capitals w = "FALSE".toList) : label lex w = .boolean := by
  rcases h with h | h
  · exact label_constant hl _ (by decide) w h _ (by decide) (by decide +kernel)
  · exact label_constant hl _ (by decide) w h _ (by decide) (by decide +kernel)

theorem label_null (hl : Sane lex) (w : Str) (h : capitals w = "NULL".toList ∨ capitals w = "NONE".toList) : label lex w = .null := by
  rcases h with h | h
  · exact label_constant hl _ (by decide) w h _ (by decide) (by decide +kernel)
  · exact label_constant hl _ (by decide) w h _ (by decide) (by decide +kernel)

theorem constant_ascii (w : Str) (h : capitals w = "TRUE".toList ∨ capitals w = "FALSE".toList ∨ capitals w = "NULL".toList) :
    ∀ c ∈ w, c.toNat < 128 := by
  intro c hc
  have hm : c.toUpper ∈ capitals w := List.mem_map_of_mem hc
  apply (toUpper_facts (c := c) _).1
  rcases h with h | h | h <;> (rw [h] at hm; revert hm; generalize c.toUpper = d; revert d; decide)

/-- What a leaf's token is labelled. -/
def leafLabel : Leaf → Label
  | .field _ => .variable
  | .quotedField _ => .variable
  | .int _ => .integer
  | .text _ _ => .literal
  | .date _ _ _ => .date
  | .bool _ _ => .boolean
  | .null _ => .null
  | .star => .everything

theorem label_leaf (hl : Sane lex) (l : Leaf) (h : l.Good) : label lex l.token = leafLabel l := by
  match l, h with
  | .field n, h => exact label_name hl n h
  | .quotedField n, _ => exact label_quotedName lex n
  | .int i, _ => exact label_int hl i
  | .text q s, h =>
    have := label_quote hl q s h.1
    rw [h.2] at this
    exact this
  | .date q s d, h =>
    have := label_quote hl q s h.1
    rw [h.2] at this
    exact this
  | .bool true w, h => exact label_boolean hl w (Or.inl h)
  | .bool false w, h => exact label_boolean hl w (Or.inr h)
  | .null w, h => exact label_null hl w h
  | .star, _ => exact label_star hl

theorem leafLabel_ne (l : Leaf) : leafLabel l ≠ .function ∧ leafLabel l ≠ .aggregator ∧ leafLabel l ≠ .left ∧ leafLabel l ≠ .right ∧
    leafLabel l ≠ .as := by
  cases l <;> exact ⟨nofun, nofun, nofun, nofun, nofun⟩

/-! ## Tokens -/

def aliasTokens : Option (Str × Str) → List Str
  | none => []
  | some (kw, name) => [kw, name]

mutual
def Sel.tokens : Sel → List Str
  | .leaf l a => l.token :: aliasTokens a
  | .call f args a => f :: "(".toList :: (tokensOf args ++ ")".toList :: aliasTokens a)

def tokensOf : List Sel → List Str
  | [] => []
  | s :: ss => Sel.tokens s ++ tokensOf ss
end

theorem piecesTokens_append (a b : List Piece) : piecesTokens (a ++ b) = piecesTokens a ++ piecesTokens b := List.flatMap_append ..

theorem aliasPieces_tokens (a : Option (Str × Str)) : piecesTokens (aliasPieces a) = aliasTokens a := by
  rcases a with _ | ⟨k, n⟩ <;> rfl

mutual
theorem pieces_tokens : ∀ s : Sel, piecesTokens s.pieces = Sel.tokens s
  | .leaf l a => by
    rw [Sel.pieces, Sel.tokens, ← aliasPieces_tokens]
    rfl
  | .call f [] a => by
    rw [Sel.pieces, Sel.tokens, tokensOf, ← aliasPieces_tokens]
    rfl
  | .call f (s :: ss) a => by
    rw [Sel.pieces, Sel.tokens, tokensOf]
    show f :: ['('] :: piecesTokens (s.pieces ++ morePieces ss ++ Piece.sym ')' :: aliasPieces a) = _
    rw [piecesTokens_append, piecesTokens_append, pieces_tokens s, morePieces_tokens ss]
    show f :: ['('] :: (Sel.tokens s ++ tokensOf ss ++ [')'] :: piecesTokens (aliasPieces a)) = _
    rw [aliasPieces_tokens]
    rfl

theorem morePieces_tokens : ∀ ss : List Sel, piecesTokens (morePieces ss) = tokensOf ss
  | [] => by rw [morePieces, tokensOf]; rfl
  | s :: ss => by
    rw [morePieces, tokensOf]
    show piecesTokens (s.pieces ++ morePieces ss) = _
    rw [piecesTokens_append, pieces_tokens s, morePieces_tokens ss]
end

theorem piecesOf_tokens (ss : List Sel) : piecesTokens (piecesOf ss) = tokensOf ss := by
  cases ss with
  | nil => rw [piecesOf, tokensOf]; rfl
  | cons s ss => rw [piecesOf, tokensOf, piecesTokens_append, pieces_tokens, morePieces_tokens]

theorem more_head (ss : List Sel) : (morePieces ss).head?.any Piece.isWord = false := by
  cases ss <;> rw [morePieces] <;> rfl

theorem alias_apart (a : Option (Str × Str)) : apart (aliasPieces a) = true ∧ (aliasPieces a).head?.any Piece.isWord = false := by
  rcases a with _ | ⟨k, n⟩ <;> exact ⟨rfl, rfl⟩

theorem apart_cons (p : Piece) (ps : List Piece) (h : apart ps = true) (h' : Piece.isWord p = false ∨ ps.head?.any Piece.isWord = false) :
    apart (p :: ps) = true := by
  rw [apart, h, Bool.and_true]
  rcases h' with h' | h' <;> rw [h'] <;> simp

mutual
theorem pieces_apart : ∀ s : Sel, apart s.pieces = true
  | .leaf l a => by
    rw [Sel.pieces]
    exact apart_cons _ _ (alias_apart a).1 (Or.inr (alias_apart a).2)
  | .call f [] a => by
    rw [Sel.pieces]
    exact apart_cons _ _ (apart_cons _ _ (apart_cons _ _ (alias_apart a).1 (Or.inl rfl)) (Or.inl rfl)) (Or.inr rfl)
  | .call f (s :: ss) a => by
    rw [Sel.pieces]
    refine apart_cons _ _ (apart_cons _ _ ?_ (Or.inl rfl)) (Or.inr rfl)
    refine apart_append _ _ (apart_append _ _ (pieces_apart s) (more_apart ss) (more_head ss)) ?_ rfl
    exact apart_cons _ _ (alias_apart a).1 (Or.inl rfl)

theorem more_apart : ∀ ss : List Sel, apart (morePieces ss) = true
  | [] => by rw [morePieces]; rfl
  | s :: ss => by
    rw [morePieces]
    exact apart_cons _ _ (apart_append _ _ (pieces_apart s) (more_apart ss) (more_head ss)) (Or.inl rfl)
end

theorem piecesOf_apart (ss : List Sel) : apart (piecesOf ss) = true := by
  cases ss with
  | nil => rfl
  | cons s ss => exact apart_append _ _ (pieces_apart s) (more_apart ss) (more_head ss)

/-! ## Trees -/

mutual
def Sel.tok : Sel → Tok
  | .leaf l a => .mk l.token (leafLabel l) [] (a.map Prod.snd)
  | .call f args a => .mk (capitals f) (callLabel f) (toks args) (a.map Prod.snd)

def toks : List Sel → List Tok
  | [] => []
  | s :: ss => Sel.tok s :: toks ss
end

theorem toks_map (ss : List Sel) : toks ss = ss.map Sel.tok := by
  induction ss with
  | nil => rw [toks]; rfl
  | cons s ss ih => rw [toks, ih]; rfl

theorem collect_other (lex : Lex) (n : Nat) (t : Str) (ts : List Str) (h1 : label lex t ≠ .right) (h2 : label lex t ≠ .left) :
    collect lex n (t :: ts) = (collect lex n ts).map (fun r => (t :: r.1, r.2)) := by
  rw [collect, if_neg h1, if_neg h2]

theorem collect_alias (hl : Sane lex) (n : Nat) (a : Option (Str × Str)) (ha : GoodAlias a) (ts : List Str) :
    collect lex n (aliasTokens a ++ ts) = (collect lex n ts).map (fun r => (aliasTokens a ++ r.1, r.2)) := by
  rcases a with _ | ⟨k, nm⟩
  · simp [aliasTokens]
  · obtain ⟨h1, h2⟩ := ha k nm rfl
    have e1 := label_as hl k h1
    have e2 := label_name hl nm h2
    rw [aliasTokens, List.cons_append, List.cons_append, collect_other _ _ _ _ (by rw [e1]; decide) (by rw [e1]; decide),
      collect_other _ _ _ _ (by rw [e2]; decide) (by rw [e2]; decide), List.nil_append]
    simp [Function.comp_def]

mutual
theorem collect_sel (hl : Sane lex) : ∀ (s : Sel) (n : Nat) (ts : List Str), s.Readable → 1 ≤ n →
    collect lex n (Sel.tokens s ++ ts) = (collect lex n ts).map (fun r => (Sel.tokens s ++ r.1, r.2))
  | .leaf l a, n, ts, h, hn => by
    rw [Sel.Readable] at h
    have e := label_leaf hl l h.1
    have ne := leafLabel_ne l
    rw [Sel.tokens, List.cons_append, collect_other _ _ _ _ (by rw [e]; exact ne.2.2.2.1) (by rw [e]; exact ne.2.2.1),
      collect_alias hl n a h.2]
    simp [Function.comp_def]
  | .call f args a, n, ts, h, hn => by
    rw [Sel.Readable] at h
    obtain ⟨h1, h2, h3⟩ := h
    have e := (label_call hl f h1).1
    obtain ⟨p1, p2, _⟩ := label_punctuation hl
    have hne : n + 1 ≠ 1 := by omega
    rw [Sel.tokens, List.cons_append, List.cons_append, List.append_assoc, List.cons_append,
      collect_other _ _ _ _ (by rw [e]; exact (callLabel_ne f).2.1) (by rw [e]; exact (callLabel_ne f).1)]
    rw [collect, p1, if_neg (by decide), if_pos rfl, collect_sels hl args (n + 1) _ h2 (by omega), collect, p2, if_pos rfl, if_neg hne,
      Nat.add_sub_cancel, collect_alias hl n a h3]
    simp [Function.comp_def]

theorem collect_sels (hl : Sane lex) : ∀ (ss : List Sel) (n : Nat) (ts : List Str), ReadableArgs ss → 1 ≤ n →
    collect lex n (tokensOf ss ++ ts) = (collect lex n ts).map (fun r => (tokensOf ss ++ r.1, r.2))
  | [], n, ts, _, _ => by rw [tokensOf]; simp
  | s :: ss, n, ts, h, hn => by
    rw [ReadableArgs] at h
    rw [tokensOf, List.append_assoc, collect_sel hl s n _ h.1 hn, collect_sels hl ss n ts h.2 hn]
    simp [Function.comp_def]
end

theorem sel_head (hl : Sane lex) (s : Sel) (h : s.Readable) : ∃ t ts, Sel.tokens s = t :: ts ∧ label lex t ≠ .as := by
  cases s with
  | leaf l a =>
    rw [Sel.Readable] at h
    refine ⟨l.token, aliasTokens a, by rw [Sel.tokens], ?_⟩
    rw [label_leaf hl l h.1]
    exact (leafLabel_ne l).2.2.2.2
  | call f args a =>
    rw [Sel.Readable] at h
    refine ⟨f, _, by rw [Sel.tokens], ?_⟩
    rw [(label_call hl f h.1).1]
    exact (callLabel_ne f).2.2.1

theorem alias_sels (hl : Sane lex) (next : List Str → Except Err (List Tok)) (v : Str) (ty : Label) (ps : List Tok)
    (a : Option (Str × Str)) (ha : GoodAlias a) (ss : List Sel) (hs : ReadableArgs ss) (l : List Tok) (hn : next (tokensOf ss) = .ok l) :
    withAlias lex next v ty ps (aliasTokens a ++ tokensOf ss) = .ok (.mk v ty ps (a.map Prod.snd) :: l) := by
  rcases a with _ | ⟨k, nm⟩
  · rw [aliasTokens, List.nil_append]
    cases ss with
    | nil =>
      rw [tokensOf] at hn ⊢
      rw [withAlias, hn]
      rfl
    | cons s ss =>
      rw [ReadableArgs] at hs
      obtain ⟨t, ts, h1, h2⟩ := sel_head hl s hs.1
      rw [tokensOf, h1, List.cons_append] at hn ⊢
      show (if label lex t = .as then _ else _) = _
      rw [if_neg h2, hn]
      rfl
  · obtain ⟨h1, _⟩ := ha k nm rfl
    rw [aliasTokens, List.cons_append, List.cons_append, withAlias, if_pos (label_as hl k h1), List.nil_append, hn]
    rfl

theorem buildGo_sels (hl : Sane lex) : ∀ (n : Nat) (ss : List Sel), ReadableArgs ss → (tokensOf ss).length < n →
    buildGo lex n (tokensOf ss) = .ok (toks ss) := by
  intro n
  induction n with
  | zero => intro ss _ h; omega
  | succ n ih =>
    intro ss hs hlen
    match ss, hs, hlen with
    | [], _, _ => rw [tokensOf, toks, buildGo]
    | .leaf l a :: ss, hs, hlen =>
      rw [ReadableArgs, Sel.Readable] at hs
      rw [tokensOf, Sel.tokens, List.cons_append, List.length_cons, List.length_append] at hlen
      have e := label_leaf hl l hs.1.1
      have ne := leafLabel_ne l
      rw [tokensOf, Sel.tokens, List.cons_append, buildGo, e, if_neg (by intro h; rcases h with h | h; exact ne.1 h; exact ne.2.1 h),
        alias_sels hl _ _ _ _ a hs.1.2 ss hs.2 _ (ih ss hs.2 (by omega)), toks, Sel.tok]
    | .call f args a :: ss, hs, hlen =>
      rw [ReadableArgs, Sel.Readable] at hs
      obtain ⟨⟨h1, h2, h3⟩, h4⟩ := hs
      obtain ⟨e, eu⟩ := label_call hl f h1
      obtain ⟨p1, p2, _⟩ := label_punctuation hl
      rw [tokensOf, Sel.tokens] at hlen ⊢
      simp only [List.cons_append, List.length_cons, List.length_append, List.append_assoc] at hlen ⊢
      have hc : collect lex 1 (tokensOf args ++ ")".toList :: (aliasTokens a ++ tokensOf ss)) =
          some (tokensOf args, aliasTokens a ++ tokensOf ss) := by
        rw [collect_sels hl args 1 _ h2 (Nat.le_refl _), collect, p2, if_pos rfl, if_pos rfl]
        simp
      rw [buildGo, e, if_pos (callLabel_cases f), withCall]
      simp only [p1, ne_eq, not_true, if_false, hc]
      rw [ih args h2 (by omega)]
      show withAlias lex (buildGo lex n) (lex.upper f) (label lex f) (toks args) (aliasTokens a ++ tokensOf ss) = _
      rw [e, alias_sels hl _ _ _ _ a h3 ss h4 _ (ih ss h4 (by omega)), toks, Sel.tok, eu]

/-- A select list is read as its items. -/
theorem init_sels {re : Re} (hre : SaneRe re) (hl : Sane lex) {ss : List Sel} {text : Str} (h : ReadableArgs ss) (ht : Laid re (piecesOf ss) text) :
    init re lex text = .ok (ss.map Sel.tok) := by
  unfold init build
  rw [tokens_laid hre ht (piecesOf_apart ss), piecesOf_tokens, buildGo_sels hl _ ss h (Nat.lt_succ_self _), toks_map]

mutual
theorem readable_good : ∀ s : Sel, s.Good → s.Readable
  | .leaf l a, h => by rw [Sel.Good] at h; rw [Sel.Readable]; exact h
  | .call f args a, h => by
    rw [Sel.Good] at h
    rw [Sel.Readable]
    exact ⟨Or.inl h.1, readables_good args h.2.1, h.2.2⟩

theorem readables_good : ∀ ss : List Sel, GoodArgs ss → ReadableArgs ss
  | [], _ => by rw [ReadableArgs]; trivial
  | s :: ss, h => by
    rw [GoodArgs] at h
    rw [ReadableArgs]
    exact ⟨readable_good s h.1, readables_good ss h.2⟩
end

end Mabel.Evaluator
