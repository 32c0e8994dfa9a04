import Verif.Model.Remembered
import Verif.Model.FunctionTable

/-!
# C111: functions that remember results give the results they would give without
-/

namespace Mabel.Remembered
open Mabel.Py Mabel.Filters

variable {α β : Type}

/-- The kept result is one of those kept, for an argument that is the same; the others are kept. -/
theorem find_some {same : α → α → Bool} {x : α} : ∀ {c : Cache α β} {e : α × β} {rest : Cache α β},
    find same x c = some (e, rest) → e ∈ c ∧ same e.1 x = true ∧ (∀ d, d ∈ rest → d ∈ c) ∧ rest.length + 1 = c.length
  | [], _, _, h => by cases h
  | d :: c, e, rest, h => by
    rw [find] at h
    by_cases hs : same d.1 x = true
    · rw [if_pos hs] at h
      cases h
      exact ⟨List.mem_cons_self, hs, fun _ h => List.mem_cons_of_mem _ h, rfl⟩
    · rw [if_neg hs] at h
      cases hf : find same x c with
      | none => rw [hf] at h; cases h
      | some r =>
        rw [hf] at h
        obtain ⟨e', rest'⟩ := r
        cases h
        obtain ⟨h1, h2, h3, h4⟩ := find_some hf
        refine ⟨List.mem_cons_of_mem _ h1, h2, ?_, by simp only [List.length_cons]; omega⟩
        intro y hy
        rcases List.mem_cons.1 hy with rfl | hy
        · exact List.mem_cons_self
        · exact List.mem_cons_of_mem _ (h3 y hy)

/-- All that is kept are results of arguments of this kind. -/
def Holds (m : Memo α β) (P : α → Prop) (c : Cache α β) : Prop := ∀ e ∈ c, P e.1 ∧ m.f e.1 = .ok e.2

theorem call_holds {m : Memo α β} {P : α → Prop} (hs : ∀ a x, P a → P x → m.same a x = true → m.f a = m.f x) {c : Cache α β}
    (hc : Holds m P c) {x : α} (hx : P x) :
    (m.call c x).1 = (if m.hashable x then m.f x else .error .typeError) ∧ Holds m P (m.call c x).2 := by
  unfold Memo.call
  split
  · cases hf : find m.same x c with
    | some r =>
      obtain ⟨e, rest⟩ := r
      obtain ⟨h1, h2, h3, -⟩ := find_some hf
      obtain ⟨p1, p2⟩ := hc e h1
      refine ⟨?_, ?_⟩
      · show Except.ok e.2 = _
        rw [← hs e.1 x p1 hx h2, p2]
      · intro d hd
        rcases List.mem_cons.1 hd with rfl | hd
        · exact hc _ h1
        · exact hc d (h3 d hd)
    | none =>
      cases hr : m.f x with
      | error e => exact ⟨rfl, hc⟩
      | ok r =>
        refine ⟨rfl, ?_⟩
        intro d hd
        rcases List.mem_cons.1 (List.mem_of_mem_take hd) with rfl | hd
        · exact ⟨hx, hr⟩
        · exact hc d hd
  · exact ⟨rfl, hc⟩

theorem calls_holds {m : Memo α β} {P : α → Prop} (hs : ∀ a x, P a → P x → m.same a x = true → m.f a = m.f x) :
    ∀ (xs : List α) (c : Cache α β), Holds m P c → (∀ x ∈ xs, P x) →
      m.calls c xs = xs.map (fun x => if m.hashable x then m.f x else .error .typeError)
  | [], _, _, _ => rfl
  | x :: xs, c, hc, hx => by
    obtain ⟨h1, h2⟩ := call_holds hs hc (hx x List.mem_cons_self)
    rw [Memo.calls, List.map_cons, h1, calls_holds hs xs _ h2 (fun y hy => hx y (List.mem_cons_of_mem _ hy))]

/-- **C111**: if arguments that are the same have the same result, a function with a memory gives, whatever was asked before, and
however many results it keeps, what the function gives. -/
theorem C111_remembered (m : Memo α β) (hs : ∀ a x, m.same a x = true → m.f a = m.f x) (xs : List α) :
    m.calls [] xs = xs.map (fun x => if m.hashable x then m.f x else .error .typeError) :=
  calls_holds (P := fun _ => True) (fun a x _ _ => hs a x) xs [] (fun _ h => by cases h) (fun _ _ => trivial)

theorem call_length (m : Memo α β) {c : Cache α β} (h : c.length ≤ m.size) (x : α) : (m.call c x).2.length ≤ m.size := by
  unfold Memo.call
  split
  · cases hf : find m.same x c with
    | some r =>
      obtain ⟨e, rest⟩ := r
      obtain ⟨-, -, -, h4⟩ := find_some hf
      show rest.length + 1 ≤ _
      omega
    | none =>
      cases m.f x with
      | error e => exact h
      | ok r =>
        show (((x, r) :: c).take m.size).length ≤ m.size
        rw [List.length_take]
        omega
  · exact h

/-- **C111**: it never keeps more results than it may. -/
theorem C111_bounded (m : Memo α β) : ∀ (xs : List α) (c : Cache α β), c.length ≤ m.size → (m.after c xs).length ≤ m.size
  | [], _, h => h
  | x :: xs, _, h => C111_bounded m xs _ (call_length m h x)

/-- **C111**: functions of texts, such as the one that labels the parts of statements. -/
theorem C111_texts (size : Nat) (f : Str → Except Err β) (xs : List Str) : (ofTexts size f).calls [] xs = xs.map f := by
  rw [C111_remembered _ (fun a x h => by rw [show a = x from eq_of_beq h])]
  rfl

theorem likes_holds (lower : Str → Str) : ∀ (l : List (Str × Str)) (c : Cache Str (Option (List Like.Rx))),
    Holds (ofTexts 4 (fun p => .ok (Like.readRx (Like.regexText p)))) (fun _ => True) c →
      likes lower c l = l.map (fun p => Like.likeText lower p.1 p.2)
  | [], _, _ => rfl
  | (x, y) :: l, c, hc => by
    obtain ⟨h1, h2⟩ := call_holds (m := ofTexts 4 (fun p => .ok (Like.readRx (Like.regexText p)))) (P := fun _ => True)
      (fun a x _ _ h => by rw [show a = x from eq_of_beq h]) hc (x := lower y) trivial
    rw [likes, List.map_cons]
    simp only
    rw [h1, likes_holds lower l _ h2]
    congr 1
    show (match (Except.ok (Like.readRx (Like.regexText (lower y))) : Except Err _) with
      | .ok (some rx) => Like.rxMatch rx (lower x)
      | _ => false) = _
    unfold Like.likeText
    cases Like.readRx (Like.regexText (lower y)) <;> rfl

/-- **C111**: LIKE gives, whatever was compared before, what it gives for these two texts (C45 says what). -/
theorem C111_like (lower : Str → Str) (l : List (Str × Str)) :
    likes lower [] l = l.map (fun p => Like.likeText lower p.1 p.2) :=
  likes_holds lower l [] (fun _ h => by cases h)

/-- The number that a truth value is equal to. -/
def number (b : Bool) : Rat := if b then 1 else 0

theorem sameKey_eq {a b : Datum} (h : sameKey a b = true) :
    a = b ∨ (∃ x q, a = .one (.bool x) ∧ b = .one (.float q) ∧ q = number x) ∨
      (∃ x q, b = .one (.bool x) ∧ a = .one (.float q) ∧ q = number x) := by
  unfold sameKey at h
  split at h
  all_goals first
    | (exact Or.inl rfl)
    | (exact Or.inr (Or.inl ⟨_, _, rfl, rfl, eq_of_beq h⟩))
    | (exact Or.inr (Or.inl ⟨_, _, rfl, rfl, (eq_of_beq h).symm⟩))
    | (exact Or.inr (Or.inr ⟨_, _, rfl, rfl, eq_of_beq h⟩))
    | (have h' := eq_of_beq h; subst h'; exact Or.inl rfl)
    | (cases h)

/-- **C111 (MD5).**  Whatever was asked before, MD5 of a value that is not a list is the digest of its text, as long as no truth
value and fraction that are equal (`True` and `1.0`, `False` and `0.0`) are both asked for.

Missing for the full property: those (`C111_md5_fails`) and lists (`C111_md5_list_fails`). -/
theorem C111_md5_partial (md5 : Str → Str) (lib : Lib) (xs : List Datum) (hlist : ∀ l, Datum.list l ∉ xs)
    (happart : ∀ b, Datum.one (.bool b) ∈ xs → Datum.one (.float (number b)) ∉ xs) :
    (getMd5 md5 lib).calls [] xs = xs.map (fun x => .ok (md5 (str lib x))) := by
  rw [calls_holds (m := getMd5 md5 lib) (P := fun x => x ∈ xs) ?_ xs [] (fun _ h => by cases h) (fun _ h => h)]
  · refine List.map_congr_left (fun x hx => ?_)
    cases x with
    | one a => rfl
    | list l => exact absurd hx (hlist l)
  · intro a x ha hx h
    rcases sameKey_eq h with rfl | ⟨b, q, rfl, rfl, rfl⟩ | ⟨b, q, rfl, rfl, rfl⟩
    · rfl
    · exact absurd hx (happart b ha)
    · exact absurd ha (happart b hx)

/-- Non-vacuity: a text, numbers and None, some more than once. -/
example (md5 : Str → Str) (lib : Lib) :
    (getMd5 md5 lib).calls [] [.one (.str "a".toList), .one (.int 1), .one (.bool true), .one .none, .one (.int 1)] =
      [.ok (md5 "a".toList), .ok (md5 "1".toList), .ok (md5 "True".toList), .ok (md5 "None".toList), .ok (md5 "1".toList)] := by
  rw [C111_md5_partial md5 lib _ (by simp) (by simp)]
  rfl

/-- **C111 fails for MD5 of fractions after truth values**: once `MD5(True)` was asked for, `MD5(1.0)` is that of `True`, in any
statement of the process, until eight others have been asked for. -/
theorem C111_md5_fails (md5 : Str → Str) (lib : Lib) (ht : lib.text (.one (.float 1)) = "1.0".toList)
    (hne : md5 "True".toList ≠ md5 "1.0".toList) :
    (getMd5 md5 lib).calls [] [.one (.float 1)] = [.ok (md5 "1.0".toList)] ∧
    (getMd5 md5 lib).calls [] [.one (.bool true), .one (.float 1)] = [.ok (md5 "True".toList), .ok (md5 "True".toList)] ∧
    md5 "True".toList ≠ md5 "1.0".toList := by
  refine ⟨?_, rfl, hne⟩
  show [Except.ok (md5 (lib.text (.one (.float 1))))] = _
  rw [ht]

/-- Non-vacuity: a digest that tells them apart. -/
example : (fun s : Str => s) "True".toList ≠ (fun s : Str => s) "1.0".toList := by decide

/-- **C111 fails for MD5 of lists**: it raises TypeError, because a list cannot be looked up. -/
theorem C111_md5_list_fails (md5 : Str → Str) (lib : Lib) (c : Cache Datum Str) (l : List Scalar) :
    (getMd5 md5 lib).call c (.list l) = (.error .typeError, c) := rfl

/-- After eight others the digest of 1.0 is right again. -/
example (md5 : Str → Str) (lib : Lib) : ((getMd5 md5 lib).calls [] (.one (.bool true) :: (List.range 8).map (fun n => .one (.int n)) ++
    [.one (.float 1)])).getLast? = some (.ok (md5 (lib.text (.one (.float 1))))) := by
  rfl

end Mabel.Remembered
