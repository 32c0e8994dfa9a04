import Verif.Model.Threads
import Verif.Props.Paging
import Verif.Props.Parallel

/-!
# Threaded reading: C85
-/

namespace Mabel.Threads
open Mabel.Py
open Mabel.Parallel (set_split)

variable {π : Type}

/-! ## The invariant -/

/-- The blobs being read, or whose reading raised. -/
def held (ws : List (Worker π)) : List Nat :=
  ws.filterMap fun
    | .working b _ => some b
    | .crashed b => some b
    | _ => none

/-- The blobs waiting to be read. -/
def queued (q : List Msg) : List Nat :=
  q.filterMap fun
    | .blob b => some b
    | .terminate => none

/-- The blobs whose end was sent. -/
def fins (l : List (Reply π)) : List Nat :=
  l.filterMap fun
    | .fin b => some b
    | .page _ _ => none

def Reply.blob : Reply π → Nat
  | .page b _ => b
  | .fin b => b

def Reply.isPage : Reply π → Bool
  | .page _ _ => true
  | .fin _ => false

/-- The replies about a blob. -/
def about (b : Nat) (l : List (Reply π)) : List (Reply π) := l.filter (fun r => decide (r.blob = b))

def pagesOf (blobs : List (List π)) (b : Nat) : List π := (blobs[b]?).getD []

/-- All replies about a blob. -/
def whole (blobs : List (List π)) (b : Nat) : List (Reply π) := (pagesOf blobs b).map (.page b) ++ [.fin b]

theorem held_append (a b : List (Worker π)) : held (a ++ b) = held a ++ held b := List.filterMap_append
theorem queued_append (a b : List Msg) : queued (a ++ b) = queued a ++ queued b := List.filterMap_append
theorem fins_append (a b : List (Reply π)) : fins (a ++ b) = fins a ++ fins b := List.filterMap_append
theorem about_append (x : Nat) (a b : List (Reply π)) : about x (a ++ b) = about x a ++ about x b :=
  List.filter_append _ _

theorem held_split (a b : List (Worker π)) (w : Worker π) : held (a ++ w :: b) = held a ++ held [w] ++ held b := by
  rw [show a ++ w :: b = a ++ [w] ++ b by simp, held_append, held_append]

theorem mem_fins {l : List (Reply π)} {b : Nat} : b ∈ fins l ↔ .fin b ∈ l := by
  unfold fins
  rw [List.mem_filterMap]
  constructor
  · rintro ⟨r, hr, e⟩
    cases r with
    | page c p => cases e
    | fin c => cases e; exact hr
  · intro h; exact ⟨_, h, rfl⟩

theorem mem_queued {q : List Msg} {b : Nat} : b ∈ queued q ↔ .blob b ∈ q := by
  unfold queued
  rw [List.mem_filterMap]
  constructor
  · rintro ⟨r, hr, e⟩
    cases r with
    | blob c => cases e; exact hr
    | terminate => cases e
  · intro h; exact ⟨_, h, rfl⟩

/-- What holds in every state, whatever happens. -/
structure Inv (blobs : List (List π)) (n : Nat) (s : State π) : Prop where
  perm : (fins (s.received ++ s.replyQueue) ++ held s.workers ++ queued s.sendQueue).Perm
    (List.range (min s.index blobs.length))
  work : ∀ b rest, .working b rest ∈ s.workers → ∃ dn, about b (s.received ++ s.replyQueue) = dn.map (.page b) ∧
    dn ++ rest = pagesOf blobs b
  wait : ∀ b, (b ∈ queued s.sendQueue ∨ min s.index blobs.length ≤ b) → about b (s.received ++ s.replyQueue) = []
  fin : ∀ b, .fin b ∈ s.received ++ s.replyQueue → about b (s.received ++ s.replyQueue) = whole blobs b
  pref : ∀ b, about b (s.received ++ s.replyQueue) <+: whole blobs b

theorem queued_blobs (l : List Nat) : queued (l.map .blob) = l := by
  induction l with
  | nil => rfl
  | cons x l ih =>
    have : queued (Msg.blob x :: l.map .blob) = x :: queued (l.map .blob) := rfl
    rw [List.map_cons, this, ih]

theorem inv_init (blobs : List (List π)) (n : Nat) : Inv blobs n (init blobs n) where
  perm := by
    have h1 : held (init blobs n).workers = [] := by
      simp only [init, held, List.filterMap_eq_nil_iff]
      intro w hw
      rw [(List.mem_replicate.1 hw).2]
    rw [h1]
    simp only [init, queued_blobs]
    exact List.Perm.refl _
  work := by
    intro b rest hm
    simp [init] at hm
  wait := fun _ _ => rfl
  fin := by intro b hb; simp [init] at hb
  pref := fun b => List.nil_prefix

/-- Two places for one blob. -/
theorem Inv.nodup {blobs : List (List π)} {n : Nat} {s : State π} (h : Inv blobs n s) :
    (fins (s.received ++ s.replyQueue) ++ held s.workers ++ queued s.sendQueue).Nodup :=
  h.perm.nodup_iff.2 List.nodup_range

theorem about_other {b c : Nat} {l : List (Reply π)} {r : Reply π} (hr : r.blob = b) (hc : c ≠ b) :
    about c (l ++ [r]) = about c l := by
  rw [about_append]
  have : about c [r] = [] := by
    unfold about
    have : ¬ r.blob = c := fun e => hc (e.symm.trans hr)
    simp [this]
  rw [this, List.append_nil]

theorem about_self {b : Nat} {l : List (Reply π)} {r : Reply π} (hr : r.blob = b) :
    about b (l ++ [r]) = about b l ++ [r] := by
  rw [about_append]
  congr 1
  unfold about
  simp [hr]

theorem inv_step {blobs : List (List π)} {n : Nat} {s s' : State π} (h : Inv blobs n s) {e : Event}
    (hs : step blobs s e = some s') : Inv blobs n s' := by
  have hnd := h.nodup
  obtain ⟨hp, hw, hq, hf, hpr⟩ := h
  cases e with
  | take i =>
    simp only [step] at hs
    split at hs
    · rename_i w m q hwi hsq
      split at hs
      · rename_i hpoll
        obtain ⟨a, c, hab, hset⟩ := set_split hwi
        have hbw : held [w] = [] := by cases w <;> first | rfl | cases hpoll
        have hb1 : held s.workers = held a ++ held c := by
          rw [hab, held_split, hbw]; simp
        cases m with
        | blob b =>
          cases hs
          have hbq : b ∈ queued s.sendQueue := by rw [hsq]; exact mem_queued.2 (by simp)
          refine ⟨?_, ?_, ?_, hf, hpr⟩
          · refine List.Perm.trans ?_ hp
            simp only [hset]
            rw [hb1, hsq, held_split, show held [Worker.working b ((blobs[b]?).getD [])] = [b] from rfl,
              show Msg.blob b :: q = [.blob b] ++ q from rfl, queued_append, show queued [.blob b] = [b] from rfl]
            rw [List.perm_iff_count]
            intro z
            simp only [List.count_append]
            omega
          · intro b' rest hm
            simp only [hset] at hm
            simp only [List.mem_append, List.mem_cons] at hm
            rcases hm with hm | hm | hm
            · exact hw b' rest (by rw [hab]; simp [hm])
            · cases hm
              exact ⟨[], hq b (Or.inl hbq), rfl⟩
            · exact hw b' rest (by rw [hab]; simp [hm])
          · intro b' hb'
            apply hq
            rcases hb' with hb' | hb'
            · left
              rw [hsq]
              exact mem_queued.2 (List.mem_cons_of_mem _ (mem_queued.1 hb'))
            · exact Or.inr hb'
        | terminate =>
          cases hs
          refine ⟨?_, ?_, ?_, hf, hpr⟩
          · refine List.Perm.trans ?_ hp
            simp only [hset]
            rw [hb1, hsq, held_split, show held [(Worker.told : Worker π)] = [] from rfl,
              show Msg.terminate :: q = [.terminate] ++ q from rfl, queued_append,
              show queued [.terminate] = [] from rfl]
            simp
          · intro b' rest hm
            simp only [hset] at hm
            simp only [List.mem_append, List.mem_cons] at hm
            rcases hm with hm | hm | hm
            · exact hw b' rest (by rw [hab]; simp [hm])
            · cases hm
            · exact hw b' rest (by rw [hab]; simp [hm])
          · intro b' hb'
            apply hq
            rcases hb' with hb' | hb'
            · left
              rw [hsq]
              exact mem_queued.2 (List.mem_cons_of_mem _ (mem_queued.1 hb'))
            · exact Or.inr hb'
      · cases hs
    · cases hs
  | giveUp i =>
    simp only [step] at hs
    split at hs
    · rename_i hwi hsq
      cases hs
      obtain ⟨a, c, hab, hset⟩ := set_split hwi
      refine ⟨?_, ?_, ?_, hf, hpr⟩
      · simp only [hset]
        rw [held_split, show held [(Worker.gaveUp : Worker π)] = [] from rfl]
        rw [hab, held_split, show held [(Worker.start : Worker π)] = [] from rfl] at hp
        exact hp
      · intro b' rest hm
        simp only [hset] at hm
        simp only [List.mem_append, List.mem_cons] at hm
        rcases hm with hm | hm | hm
        · exact hw b' rest (by rw [hab]; simp [hm])
        · cases hm
        · exact hw b' rest (by rw [hab]; simp [hm])
      · exact hq
    · cases hs
  | crash i =>
    simp only [step] at hs
    split at hs
    · rename_i b rest hwi
      cases hs
      obtain ⟨a, c, hab, hset⟩ := set_split hwi
      refine ⟨?_, ?_, ?_, hf, hpr⟩
      · simp only [hset]
        rw [held_split, show held [(Worker.crashed b : Worker π)] = [b] from rfl]
        rw [hab, held_split, show held [(Worker.working b rest : Worker π)] = [b] from rfl] at hp
        exact hp
      · intro b' rest' hm
        simp only [hset] at hm
        simp only [List.mem_append, List.mem_cons] at hm
        rcases hm with hm | hm | hm
        · exact hw b' rest' (by rw [hab]; simp [hm])
        · cases hm
        · exact hw b' rest' (by rw [hab]; simp [hm])
      · exact hq
    · cases hs
  | put i =>
    simp only [step] at hs
    split at hs
    · rename_i b p rest hwi
      cases hs
      obtain ⟨a, c, hab, hset⟩ := set_split hwi
      have hmem : Worker.working b (p :: rest) ∈ s.workers := by rw [hab]; simp
      obtain ⟨dn, hdn, hpg⟩ := hw b (p :: rest) hmem
      rw [hab, held_split, show held [(Worker.working b (p :: rest) : Worker π)] = [b] from rfl] at hnd
      have hcnt := List.nodup_iff_count.1 hnd b
      simp only [List.count_append, List.count_singleton_self] at hcnt
      have hlog : s.received ++ (s.replyQueue ++ [Reply.page b p]) = (s.received ++ s.replyQueue) ++ [.page b p] := by
        simp
      have hab' : about b ((s.received ++ s.replyQueue) ++ [Reply.page b p]) = (dn ++ [p]).map (.page b) := by
        rw [about_self (b := b) (r := Reply.page b p) rfl, hdn]; simp
      have hother : ∀ b', b' ≠ b → about b' ((s.received ++ s.replyQueue) ++ [Reply.page b p])
          = about b' (s.received ++ s.replyQueue) := fun b' hne => about_other rfl hne
      have hfins : fins ((s.received ++ s.replyQueue) ++ [Reply.page b p]) = fins (s.received ++ s.replyQueue) := by
        rw [fins_append]; simp [fins]
      refine ⟨?_, ?_, ?_, ?_, ?_⟩
      · simp only [hset, hlog, hfins]
        rw [held_split, show held [(Worker.working b rest : Worker π)] = [b] from rfl]
        rw [hab, held_split, show held [(Worker.working b (p :: rest) : Worker π)] = [b] from rfl] at hp
        exact hp
      · intro b' rest' hm
        simp only [hset] at hm
        simp only [hlog]
        simp only [List.mem_append, List.mem_cons] at hm
        have hcase : (Worker.working b' rest' = Worker.working b rest) ∨
            Worker.working b' rest' ∈ a ∨ Worker.working b' rest' ∈ c := by
          rcases hm with hm | hm | hm
          · exact Or.inr (Or.inl hm)
          · exact Or.inl hm
          · exact Or.inr (Or.inr hm)
        rcases hcase with e | hm'
        · cases e
          exact ⟨dn ++ [p], hab', by rw [← hpg]; simp⟩
        · have hne : b' ≠ b := by
            rintro rfl
            have : b' ∈ held a ∨ b' ∈ held c := by
              rcases hm' with hm' | hm'
              · left; exact List.mem_filterMap.2 ⟨_, hm', rfl⟩
              · right; exact List.mem_filterMap.2 ⟨_, hm', rfl⟩
            rcases this with h1 | h1
            · have := List.count_pos_iff.2 h1; omega
            · have := List.count_pos_iff.2 h1; omega
          rw [hother b' hne]
          exact hw b' rest' (by rw [hab]; rcases hm' with hm' | hm' <;> simp [hm'])
      · intro b' hb'
        simp only [hlog]
        have hne : b' ≠ b := by
          rintro rfl
          rcases hb' with hb' | hb'
          · have hb' : b' ∈ queued s.sendQueue := hb'
            have := List.count_pos_iff.2 hb'
            omega
          · have : b' ∈ List.range (min s.index blobs.length) := hp.mem_iff.1 (by
              rw [hab, held_split]; simp [held])
            rw [List.mem_range] at this
            simp only at hb'
            omega
        rw [hother b' hne]
        exact hq b' hb'
      · intro b' hb'
        simp only [hlog] at hb' ⊢
        have hb'' : Reply.fin b' ∈ s.received ++ s.replyQueue := by
          rcases List.mem_append.1 hb' with h1 | h1
          · exact h1
          · simp at h1
        have hne : b' ≠ b := by
          rintro rfl
          have := List.count_pos_iff.2 (mem_fins.2 hb'')
          omega
        rw [hother b' hne]
        exact hf b' hb''
      · intro b'
        simp only [hlog]
        by_cases hne : b' = b
        · subst hne
          rw [hab']
          refine ⟨rest.map (.page b') ++ [.fin b'], ?_⟩
          unfold whole
          rw [← hpg]
          simp
        · rw [hother b' hne]
          exact hpr b'
    · rename_i b hwi
      cases hs
      obtain ⟨a, c, hab, hset⟩ := set_split hwi
      have hmem : Worker.working b [] ∈ s.workers := by rw [hab]; simp
      obtain ⟨dn, hdn, hpg⟩ := hw b [] hmem
      rw [List.append_nil] at hpg
      rw [hab, held_split, show held [(Worker.working b [] : Worker π)] = [b] from rfl] at hnd
      have hcnt := List.nodup_iff_count.1 hnd b
      simp only [List.count_append, List.count_singleton_self] at hcnt
      have hlog : s.received ++ (s.replyQueue ++ [Reply.fin b]) = (s.received ++ s.replyQueue) ++ [(.fin b : Reply π)] := by
        simp
      have hab' : about b ((s.received ++ s.replyQueue) ++ [(Reply.fin b : Reply π)]) = whole blobs b := by
        rw [about_self (b := b) (r := (Reply.fin b : Reply π)) rfl, hdn, hpg]; rfl
      have hother : ∀ b', b' ≠ b → about b' ((s.received ++ s.replyQueue) ++ [(Reply.fin b : Reply π)])
          = about b' (s.received ++ s.replyQueue) := fun b' hne => about_other rfl hne
      have hfins : fins ((s.received ++ s.replyQueue) ++ [(Reply.fin b : Reply π)])
          = fins (s.received ++ s.replyQueue) ++ [b] := by
        rw [fins_append]; simp [fins]
      refine ⟨?_, ?_, ?_, ?_, ?_⟩
      · simp only [hset, hlog, hfins]
        rw [held_split, show held [(Worker.waiting : Worker π)] = [] from rfl]
        rw [hab, held_split, show held [(Worker.working b [] : Worker π)] = [b] from rfl] at hp
        refine List.Perm.trans ?_ hp
        rw [List.perm_iff_count]
        intro z
        simp only [List.count_append, List.count_nil]
        omega
      · intro b' rest' hm
        simp only [hset] at hm
        simp only [hlog]
        simp only [List.mem_append, List.mem_cons] at hm
        have hm' : Worker.working b' rest' ∈ a ∨ Worker.working b' rest' ∈ c := by
          rcases hm with hm | hm | hm
          · exact Or.inl hm
          · cases hm
          · exact Or.inr hm
        have hne : b' ≠ b := by
          rintro rfl
          have : b' ∈ held a ∨ b' ∈ held c := by
            rcases hm' with hm' | hm'
            · left; exact List.mem_filterMap.2 ⟨_, hm', rfl⟩
            · right; exact List.mem_filterMap.2 ⟨_, hm', rfl⟩
          rcases this with h1 | h1
          · have := List.count_pos_iff.2 h1; omega
          · have := List.count_pos_iff.2 h1; omega
        rw [hother b' hne]
        exact hw b' rest' (by rw [hab]; rcases hm' with hm' | hm' <;> simp [hm'])
      · intro b' hb'
        simp only [hlog]
        have hne : b' ≠ b := by
          rintro rfl
          rcases hb' with hb' | hb'
          · have hb' : b' ∈ queued s.sendQueue := hb'
            have := List.count_pos_iff.2 hb'
            omega
          · have : b' ∈ List.range (min s.index blobs.length) := hp.mem_iff.1 (by
              rw [hab, held_split]; simp [held])
            rw [List.mem_range] at this
            simp only at hb'
            omega
        rw [hother b' hne]
        exact hq b' hb'
      · intro b' hb'
        simp only [hlog] at hb' ⊢
        by_cases hne : b' = b
        · subst hne; exact hab'
        · have hb'' : Reply.fin b' ∈ s.received ++ s.replyQueue := by
            rcases List.mem_append.1 hb' with h1 | h1
            · exact h1
            · simp only [List.mem_singleton, Reply.fin.injEq] at h1
              exact absurd h1 hne
          rw [hother b' hne]
          exact hf b' hb''
      · intro b'
        simp only [hlog]
        by_cases hne : b' = b
        · subst hne; rw [hab']; exact List.prefix_refl _
        · rw [hother b' hne]
          exact hpr b'
    · cases hs
  | check =>
    simp only [step] at hs
    split at hs
    · split at hs <;> (cases hs; exact ⟨hp, hw, hq, hf, hpr⟩)
    · cases hs
  | receive =>
    simp only [step] at hs
    split at hs
    · split at hs
      · cases hs
      · rename_i b p q hrq
        cases hs
        have hlog : (s.received ++ [Reply.page b p]) ++ q = s.received ++ s.replyQueue := by rw [hrq]; simp
        exact ⟨by simp only [hlog]; exact hp, by simp only [hlog]; exact hw, by simp only [hlog]; exact hq,
          by simp only [hlog]; exact hf, by simp only [hlog]; exact hpr⟩
      · rename_i b q hrq
        have hlog : (s.received ++ [(Reply.fin b : Reply π)]) ++ q = s.received ++ s.replyQueue := by rw [hrq]; simp
        split at hs
        · rename_i hlt
          cases hs
          refine ⟨?_, by simp only [hlog]; exact hw, ?_, by simp only [hlog]; exact hf, by simp only [hlog]; exact hpr⟩
          · simp only [hlog]
            rw [queued_append, show queued [.blob s.index] = [s.index] from rfl, ← List.append_assoc]
            have e1 : min (s.index + 1) blobs.length = min s.index blobs.length + 1 := by omega
            have e2 : min s.index blobs.length = s.index := by omega
            rw [e1, List.range_succ, e2]
            rw [e2] at hp
            exact hp.append_right _
          · simp only [hlog]
            intro b' hb'
            apply hq
            rcases hb' with hb' | hb'
            · rw [queued_append, List.mem_append] at hb'
              rcases hb' with hb' | hb'
              · exact Or.inl hb'
              · right
                simp only [show queued [.blob s.index] = [s.index] from rfl, List.mem_singleton] at hb'
                rw [hb']
                exact Nat.min_le_left _ _
            · right
              omega
        · cases hs
          refine ⟨?_, by simp only [hlog]; exact hw, ?_, by simp only [hlog]; exact hf, by simp only [hlog]; exact hpr⟩
          · simp only [hlog]
            rw [queued_append, show queued [.terminate] = [] from rfl, List.append_nil]
            exact hp
          · simp only [hlog]
            intro b' hb'
            apply hq
            rw [queued_append, show queued [.terminate] = [] from rfl, List.append_nil] at hb'
            exact hb'
    · cases hs
  | empty =>
    simp only [step] at hs
    split at hs
    · cases hs; exact ⟨hp, hw, hq, hf, hpr⟩
    · cases hs
  | abandon =>
    simp only [step] at hs
    split at hs
    · cases hs; exact ⟨hp, hw, hq, hf, hpr⟩
    · cases hs

theorem inv_exec {blobs : List (List π)} {n : Nat} {es : List Event} {s s' : State π} (h : Inv blobs n s)
    (hs : exec blobs es s = some s') : Inv blobs n s' := by
  induction es generalizing s with
  | nil => cases hs; exact h
  | cons e es ih =>
    simp only [exec] at hs
    split at hs
    · cases hs
    · rename_i s1 h1
      exact ih (inv_step h h1) hs

/-! ## C85: each page once -/

/-- The pages of a blob that were handed out. -/
def pagesIn (b : Nat) (out : List (Nat × π)) : List π := (out.filter (fun x => decide (x.1 = b))).map Prod.snd

theorem pagesIn_output (b : Nat) (s : State π) :
    (pagesIn b (output s)).map (.page b) = (about b s.received).filter Reply.isPage := by
  unfold pagesIn output about
  generalize s.received = l
  induction l with
  | nil => rfl
  | cons r l ih =>
    cases r with
    | page c p =>
      by_cases h : c = b
      · subst h
        simp only [List.filterMap_cons]
        rw [List.filter_cons_of_pos (by simp), List.map_cons, List.map_cons, ih,
          List.filter_cons_of_pos (by simp [Reply.blob]), List.filter_cons_of_pos rfl]
      · simp only [List.filterMap_cons]
        rw [List.filter_cons_of_neg (by simp [h]), ih,
          List.filter_cons_of_neg (by simp [Reply.blob, h])]
    | fin c =>
      simp only [List.filterMap_cons]
      rw [ih]
      by_cases h : c = b
      · rw [List.filter_cons_of_pos (by simp [Reply.blob, h]), List.filter_cons_of_neg (by simp [Reply.isPage])]
      · rw [List.filter_cons_of_neg (by simp [Reply.blob, h])]

theorem map_page_inj {b : Nat} {x y : List π} (h : x.map (Reply.page b) = y.map (Reply.page b)) : x = y := by
  induction x generalizing y with
  | nil => cases y with
    | nil => rfl
    | cons => simp at h
  | cons a x ih => cases y with
    | nil => simp at h
    | cons c y =>
      simp only [List.map_cons, List.cons.injEq, Reply.page.injEq, true_and] at h
      rw [h.1, ih h.2]

theorem filter_whole (blobs : List (List π)) (b : Nat) : (whole blobs b).filter Reply.isPage = (pagesOf blobs b).map (.page b) := by
  unfold whole
  rw [List.filter_append]
  have h1 : (pagesOf blobs b).filter (Reply.isPage ∘ Reply.page b) = pagesOf blobs b :=
    List.filter_eq_self.2 (fun _ _ => rfl)
  simp [Reply.isPage, List.filter_map, h1]

/-- **C85, at most once and in order**: whatever the schedule, including threads that give up or crash and a
reader that runs out of time, the pages of each blob that were handed out are the first ones of that blob,
each once and in order; and nothing else is handed out. -/
theorem C85_at_most_once (blobs : List (List π)) (n : Nat) (es : List Event) (s : State π)
    (hs : exec blobs es (init blobs n) = some s) (b : Nat) :
    pagesIn b (output s) <+: (blobs[b]?).getD [] := by
  have h := inv_exec (inv_init blobs n) hs
  have h1 : about b s.received <+: whole blobs b := by
    refine List.IsPrefix.trans ?_ (h.pref b)
    rw [about_append]
    exact List.prefix_append _ _
  have h2 := h1.filter Reply.isPage
  rw [← pagesIn_output, filter_whole] at h2
  obtain ⟨t, ht⟩ := h2
  obtain ⟨x, y, e, e1, e2⟩ := List.append_eq_map_iff.1 ht
  refine ⟨y, ?_⟩
  rw [← map_page_inj e1]
  exact e.symm

/-! ## Everything, if no thread is late or crashes -/

def Worker.isTold : Worker π → Bool
  | .told => true
  | _ => false

/-- What holds in every state of a run in which no thread crashes or gives up. -/
structure Full (blobs : List (List π)) (n : Nat) (s : State π) : Prop where
  len : s.workers.length = n
  count : s.workers.countP Worker.isTold + s.sendQueue.count .terminate
    + s.index = (fins s.received).length + n
  le : s.index ≤ blobs.length
  noGiveUp : ∀ w ∈ s.workers, w ≠ .gaveUp ∧ ∀ b, w ≠ .crashed b
  told : (.terminate ∈ s.sendQueue ∨ .told ∈ s.workers) → blobs.length ≤ s.index
  done : s.main = .done → s.workers.all Worker.stopped = true

/-- An event that is not a failure of a thread. -/
def Event.fair : Event → Bool
  | .giveUp _ => false
  | .crash _ => false
  | _ => true

theorem full_init (blobs : List (List π)) (n : Nat) (hn : n ≤ blobs.length) : Full blobs n (init blobs n) where
  len := by simp [init]
  count := by
    have h3 : (init blobs n).sendQueue.count .terminate = 0 := by
      rw [List.count_eq_zero]
      intro h
      obtain ⟨x, -, hx⟩ := List.mem_map.1 h
      cases hx
    have h4 : (init blobs n).workers.countP Worker.isTold = 0 := by
      rw [List.countP_eq_zero]
      intro w hw
      rw [(List.mem_replicate.1 hw).2]
      simp [Worker.isTold]
    rw [h3, h4]
    simp [init, fins]
  le := hn
  noGiveUp := by
    intro w hw
    rw [(List.mem_replicate.1 hw).2]
    exact ⟨by simp, by simp⟩
  told := by
    rintro (h | h)
    · obtain ⟨x, -, hx⟩ := List.mem_map.1 h
      cases hx
    · have := (List.mem_replicate.1 h).2
      cases this
  done := by simp [init]

theorem full_step {blobs : List (List π)} {n : Nat} {s s' : State π} (h : Full blobs n s) {e : Event}
    (he : e.fair = true) (hs : step blobs s e = some s') : Full blobs n s' := by
  obtain ⟨hl, hc, hle, hg, ht, hd⟩ := h
  cases e with
  | giveUp i => cases he
  | crash i => cases he
  | take i =>
    simp only [step] at hs
    split at hs
    · rename_i w m q hwi hsq
      split at hs
      · rename_i hpoll
        obtain ⟨a, c, hab, hset⟩ := set_split hwi
        have hnd : s.main ≠ .done := by
          intro hx
          have := List.all_eq_true.1 (hd hx) w (by rw [hab]; simp)
          cases w <;> simp_all [Worker.polls, Worker.stopped]
        have hw0 : Worker.isTold w = false := by cases w <;> simp_all [Worker.polls, Worker.isTold]
        rw [hab, List.countP_append, List.countP_cons, hw0] at hc
        cases m with
        | blob b =>
          cases hs
          refine ⟨by simp [hl], ?_, hle, ?_, ?_, fun hx => absurd hx hnd⟩
          · simp only [hset, List.countP_append, List.countP_cons, Worker.isTold]
            rw [hsq, List.count_cons] at hc
            simp only [show (Msg.blob b == Msg.terminate) = false from rfl] at hc
            simpa using hc
          · intro w' hw'
            simp only [hset, List.mem_append, List.mem_cons] at hw'
            rcases hw' with hw' | rfl | hw'
            · exact hg w' (by rw [hab]; simp [hw'])
            · exact ⟨by simp, by simp⟩
            · exact hg w' (by rw [hab]; simp [hw'])
          · intro hx
            apply ht
            rcases hx with hx | hx
            · left; rw [hsq]; exact List.mem_cons_of_mem _ hx
            · right
              simp only [hset, List.mem_append, List.mem_cons] at hx
              rw [hab]
              rcases hx with hx | hx | hx
              · simp [hx]
              · cases hx
              · simp [hx]
        | terminate =>
          cases hs
          refine ⟨by simp [hl], ?_, hle, ?_, ?_, fun hx => absurd hx hnd⟩
          · simp only [hset, List.countP_append, List.countP_cons, Worker.isTold]
            rw [hsq, List.count_cons] at hc
            simp only [beq_self_eq_true, if_true, Bool.false_eq_true, if_false] at hc ⊢
            omega
          · intro w' hw'
            simp only [hset, List.mem_append, List.mem_cons] at hw'
            rcases hw' with hw' | rfl | hw'
            · exact hg w' (by rw [hab]; simp [hw'])
            · exact ⟨by simp, by simp⟩
            · exact hg w' (by rw [hab]; simp [hw'])
          · intro _
            exact ht (Or.inl (by rw [hsq]; simp))
      · cases hs
    · cases hs
  | put i =>
    simp only [step] at hs
    split at hs
    · rename_i b p rest hwi
      cases hs
      obtain ⟨a, c, hab, hset⟩ := set_split hwi
      refine ⟨by simp [hl], ?_, hle, ?_, ?_, ?_⟩
      · rw [hab] at hc
        simp only [hset, List.countP_append, List.countP_cons, Worker.isTold] at hc ⊢
        exact hc
      · intro w' hw'
        simp only [hset, List.mem_append, List.mem_cons] at hw'
        rcases hw' with hw' | rfl | hw'
        · exact hg w' (by rw [hab]; simp [hw'])
        · exact ⟨by simp, by simp⟩
        · exact hg w' (by rw [hab]; simp [hw'])
      · intro hx
        apply ht
        rcases hx with hx | hx
        · exact Or.inl hx
        · right
          simp only [hset, List.mem_append, List.mem_cons] at hx
          rw [hab]
          rcases hx with hx | hx | hx
          · simp [hx]
          · cases hx
          · simp [hx]
      · intro hx
        have := List.all_eq_true.1 (hd hx) (.working b (p :: rest)) (by rw [hab]; simp)
        cases this
    · rename_i b hwi
      cases hs
      obtain ⟨a, c, hab, hset⟩ := set_split hwi
      refine ⟨by simp [hl], ?_, hle, ?_, ?_, ?_⟩
      · rw [hab] at hc
        simp only [hset, List.countP_append, List.countP_cons, Worker.isTold] at hc ⊢
        exact hc
      · intro w' hw'
        simp only [hset, List.mem_append, List.mem_cons] at hw'
        rcases hw' with hw' | rfl | hw'
        · exact hg w' (by rw [hab]; simp [hw'])
        · exact ⟨by simp, by simp⟩
        · exact hg w' (by rw [hab]; simp [hw'])
      · intro hx
        apply ht
        rcases hx with hx | hx
        · exact Or.inl hx
        · right
          simp only [hset, List.mem_append, List.mem_cons] at hx
          rw [hab]
          rcases hx with hx | hx | hx
          · simp [hx]
          · cases hx
          · simp [hx]
      · intro hx
        have := List.all_eq_true.1 (hd hx) (.working b []) (by rw [hab]; simp)
        cases this
    · cases hs
  | check =>
    simp only [step] at hs
    split at hs
    · split at hs
      · rename_i hall
        cases hs
        exact ⟨hl, hc, hle, hg, ht, fun _ => hall⟩
      · cases hs
        exact ⟨hl, hc, hle, hg, ht, fun hx => by cases hx⟩
    · cases hs
  | receive =>
    simp only [step] at hs
    split at hs
    · split at hs
      · cases hs
      · rename_i b p q hrq
        cases hs
        refine ⟨hl, ?_, hle, hg, ht, hd⟩
        simp only [fins_append]
        simpa [fins] using hc
      · rename_i b q hrq
        split at hs
        · rename_i hlt
          cases hs
          refine ⟨hl, ?_, hlt, hg, ?_, fun hx => by cases hx⟩
          · simp only [fins_append, List.count_append]
            have : (fins [(Reply.fin b : Reply π)]).length = 1 := rfl
            rw [List.length_append, this]
            have : [Msg.blob s.index].count Msg.terminate = 0 := rfl
            omega
          · intro hx
            have := ht (by
              rcases hx with hx | hx
              · rcases List.mem_append.1 hx with hx | hx
                · exact Or.inl hx
                · simp at hx
              · exact Or.inr hx)
            omega
        · rename_i hge
          cases hs
          refine ⟨hl, ?_, hle, hg, fun _ => by simp only; omega, fun hx => by cases hx⟩
          simp only [fins_append, List.count_append]
          have : (fins [(Reply.fin b : Reply π)]).length = 1 := rfl
          rw [List.length_append, this]
          have : [Msg.terminate].count Msg.terminate = 1 := rfl
          omega
    · cases hs
  | empty =>
    simp only [step] at hs
    split at hs
    · cases hs; exact ⟨hl, hc, hle, hg, ht, fun hx => by cases hx⟩
    · cases hs
  | abandon =>
    simp only [step] at hs
    split at hs
    · cases hs; exact ⟨hl, hc, hle, hg, ht, fun hx => by cases hx⟩
    · cases hs

theorem full_exec {blobs : List (List π)} {n : Nat} {es : List Event} {s s' : State π} (h : Full blobs n s)
    (he : ∀ e ∈ es, e.fair = true) (hs : exec blobs es s = some s') : Full blobs n s' := by
  induction es generalizing s with
  | nil => cases hs; exact h
  | cons e es ih =>
    simp only [exec] at hs
    split at hs
    · cases hs
    · rename_i s1 h1
      exact ih (full_step h (he e (by simp)) h1) (fun e' h' => he e' (by simp [h'])) hs

theorem prefix_full {l : List (Reply π)} {b : Nat} {x : List π} (h : l <+: x.map (.page b) ++ [.fin b])
    (hm : Reply.fin b ∈ l) : l = x.map (.page b) ++ [.fin b] := by
  rcases List.prefix_concat_iff.1 h with h | h
  · exact h
  · exfalso
    obtain ⟨y, -, hy⟩ := List.mem_map.1 (h.subset hm)
    cases hy

/-- **C85, everything**: when there are at least as many blobs as threads, whatever the schedule, if no
thread crashes or gives up then, when the loop of the reader ends because all threads have ended, every
page of every blob has been handed out exactly once and in order. -/
theorem C85_everything (blobs : List (List π)) (n : Nat) (hn1 : 1 ≤ n) (hn : n ≤ blobs.length) (es : List Event)
    (he : ∀ e ∈ es, e.fair = true) (s : State π) (hs : exec blobs es (init blobs n) = some s)
    (hd : s.main = .done) (b : Nat) : pagesIn b (output s) = (blobs[b]?).getD [] := by
  have h := inv_exec (inv_init blobs n) hs
  have hf := full_exec (full_init blobs n hn) he hs
  have hall := hf.done hd
  have htold : ∀ w ∈ s.workers, w = .told := by
    intro w hw
    have h1 := List.all_eq_true.1 hall w hw
    have h2 := hf.noGiveUp w hw
    cases w with
    | told => rfl
    | gaveUp => exact absurd rfl h2.1
    | crashed b => exact absurd rfl (h2.2 b)
    | start => cases h1
    | waiting => cases h1
    | working b r => cases h1
  have hcount : s.workers.countP Worker.isTold = n := by
    rw [← hf.len, List.countP_eq_length]
    intro w hw
    rw [htold w hw]; rfl
  have hidx : blobs.length ≤ s.index := by
    apply hf.told
    right
    have : 0 < s.workers.length := by rw [hf.len]; omega
    obtain ⟨w, hw⟩ := List.exists_mem_of_length_pos this
    rw [← htold w hw]; exact hw
  have hheld : held s.workers = [] := by
    simp only [held, List.filterMap_eq_nil_iff]
    intro w hw
    rw [htold w hw]
  have hlen := h.perm.length_eq
  rw [hheld, fins_append] at hlen
  simp only [List.length_append, List.length_nil, List.length_range] at hlen
  have hc := hf.count
  rw [hcount] at hc
  have hlef := hf.le
  by_cases hb : b < blobs.length
  · -- its end was received
    have hmem : b ∈ fins (s.received ++ s.replyQueue) ++ held s.workers ++ queued s.sendQueue :=
      h.perm.mem_iff.2 (by rw [List.mem_range]; omega)
    have hq0 : (fins s.replyQueue) = [] := List.length_eq_zero_iff.1 (by omega)
    have hs0 : (queued s.sendQueue) = [] := List.length_eq_zero_iff.1 (by omega)
    rw [hheld, hs0, fins_append, hq0] at hmem
    simp only [List.append_nil] at hmem
    have hfin := mem_fins.1 hmem
    have hpre : about b s.received <+: whole blobs b := by
      refine List.IsPrefix.trans ?_ (h.pref b)
      rw [about_append]
      exact List.prefix_append _ _
    have hfa : Reply.fin b ∈ about b s.received := List.mem_filter.2 ⟨hfin, by simp [Reply.blob]⟩
    have hwh := prefix_full hpre hfa
    have := pagesIn_output b s
    rw [hwh] at this
    have := this.trans (filter_whole blobs b)
    exact map_page_inj this
  · have h1 := C85_at_most_once blobs n es s hs b
    have h2 : (blobs[b]?).getD [] = ([] : List π) := by
      rw [List.getElem?_eq_none (by omega)]; rfl
    rw [h2] at h1 ⊢
    exact List.prefix_nil.1 h1

/-! ## C85: it can always finish, and the work is bounded -/

/-- Steps that move a message. -/
def Event.moves : Event → Bool
  | .take _ => true
  | .put _ => true
  | .receive => true
  | _ => false

/-- How many messages have to be moved for a blob. -/
def cost (blob : List π) : Nat := 2 * blob.length + 4

def Msg.cost (blobs : List (List π)) : Msg → Nat
  | .blob b => Threads.cost ((blobs[b]?).getD [])
  | .terminate => 1

def Worker.cost : Worker π → Nat
  | .working _ rest => 2 * rest.length + 3
  | _ => 0

def Reply.cost : Reply π → Nat
  | .page _ _ => 1
  | .fin _ => 2

def todo (blobs : List (List π)) (s : State π) : Nat :=
  ((blobs.drop s.index).map cost).sum + (s.sendQueue.map (Msg.cost blobs)).sum + (s.workers.map Worker.cost).sum
    + (s.replyQueue.map Reply.cost).sum

theorem todo_step {blobs : List (List π)} {s s' : State π} {e : Event} (hs : step blobs s e = some s') :
    (if e.moves then 1 else 0) + todo blobs s' ≤ todo blobs s := by
  cases e with
  | take i =>
    simp only [step] at hs
    split at hs
    · rename_i w m q hwi hsq
      split at hs
      · obtain ⟨a, c, hab, hset⟩ := set_split hwi
        cases m with
        | blob b =>
          cases hs
          simp only [todo, hset]
          simp only [hab, hsq, Event.moves, List.map_append, List.map_cons, List.sum_append, List.sum_cons,
            Worker.cost, Msg.cost, cost, if_true]
          omega
        | terminate =>
          cases hs
          simp only [todo, hset]
          simp only [hab, hsq, Event.moves, List.map_append, List.map_cons, List.sum_append, List.sum_cons,
            Worker.cost, Msg.cost, if_true]
          omega
      · cases hs
    · cases hs
  | giveUp i =>
    simp only [step] at hs
    split at hs
    · rename_i hwi hsq
      cases hs
      obtain ⟨a, c, hab, hset⟩ := set_split hwi
      simp only [todo, hset]
      simp only [hab, Event.moves, List.map_append, List.map_cons, List.sum_append, List.sum_cons, Worker.cost]
      simp
    · cases hs
  | put i =>
    simp only [step] at hs
    split at hs
    · rename_i b p rest hwi
      cases hs
      obtain ⟨a, c, hab, hset⟩ := set_split hwi
      simp only [todo, hset]
      simp only [hab, Event.moves, List.map_append, List.map_cons, List.sum_append, List.sum_cons, Worker.cost,
        Reply.cost, List.length_cons, List.map_nil, List.sum_nil, if_true]
      omega
    · rename_i b hwi
      cases hs
      obtain ⟨a, c, hab, hset⟩ := set_split hwi
      simp only [todo, hset]
      simp only [hab, Event.moves, List.map_append, List.map_cons, List.sum_append, List.sum_cons, Worker.cost,
        Reply.cost, List.length_nil, List.map_nil, List.sum_nil, if_true]
      omega
    · cases hs
  | crash i =>
    simp only [step] at hs
    split at hs
    · rename_i b rest hwi
      cases hs
      obtain ⟨a, c, hab, hset⟩ := set_split hwi
      simp only [todo, hset]
      simp only [hab, Event.moves, List.map_append, List.map_cons, List.sum_append, List.sum_cons, Worker.cost]
      simp
    · cases hs
  | check =>
    simp only [step] at hs
    split at hs
    · split at hs <;> (cases hs; simp [todo, Event.moves])
    · cases hs
  | receive =>
    simp only [step] at hs
    split at hs
    · split at hs
      · cases hs
      · rename_i b p q hrq
        cases hs
        simp only [todo, hrq, Event.moves, List.map_cons, List.sum_cons, Reply.cost, if_true]
        omega
      · rename_i b q hrq
        split at hs
        · rename_i hlt
          cases hs
          have hdrop : blobs.drop s.index = blobs[s.index] :: blobs.drop (s.index + 1) := List.drop_eq_getElem_cons hlt
          have hget : (blobs[s.index]?).getD [] = blobs[s.index] := by rw [List.getElem?_eq_getElem hlt]; rfl
          simp only [todo, hrq, hdrop, Event.moves, List.map_append, List.map_cons, List.sum_append, List.sum_cons,
            Reply.cost, Msg.cost, hget, List.map_nil, List.sum_nil, if_true]
          omega
        · cases hs
          simp only [todo, hrq, Event.moves, List.map_append, List.map_cons, List.sum_append, List.sum_cons,
            Reply.cost, Msg.cost, List.map_nil, List.sum_nil, if_true]
          omega
    · cases hs
  | empty =>
    simp only [step] at hs
    split at hs
    · cases hs; simp [todo, Event.moves]
    · cases hs
  | abandon =>
    simp only [step] at hs
    split at hs
    · cases hs; simp [todo, Event.moves]
    · cases hs

theorem todo_exec {blobs : List (List π)} {es : List Event} {s s' : State π} (hs : exec blobs es s = some s') :
    es.countP Event.moves + todo blobs s' ≤ todo blobs s := by
  induction es generalizing s with
  | nil => cases hs; simp
  | cons e es ih =>
    simp only [exec] at hs
    split at hs
    · cases hs
    · rename_i s1 h1
      have := ih hs
      have := todo_step h1
      rw [List.countP_cons]
      omega

theorem todo_init (blobs : List (List π)) (n : Nat) : todo blobs (init blobs n) = (blobs.map cost).sum := by
  have h1 : ((init blobs n).workers.map Worker.cost).sum = 0 := by
    simp [init, Worker.cost]
  have h2 : (init blobs n).sendQueue.map (Msg.cost blobs) = (blobs.take n).map cost := by
    simp only [init, List.map_map]
    apply List.ext_getElem
    · simp
    · intro i h1 h2
      simp only [List.length_map, List.length_range, List.length_take] at h1 h2
      have : i < blobs.length := by omega
      simp [Msg.cost, this]
  unfold todo
  rw [h1, h2]
  simp only [init, List.map_nil, List.sum_nil, Nat.add_zero]
  conv_rhs => rw [← List.take_append_drop n blobs, List.map_append, List.sum_append]
  omega

/-- **C85, the work is bounded**: whatever the schedule, no more messages are moved than two per page, and
four per blob: no blob is read over and over. -/
theorem C85_work_bounded (blobs : List (List π)) (n : Nat) (es : List Event) (s : State π)
    (hs : exec blobs es (init blobs n) = some s) :
    es.countP Event.moves ≤ (blobs.map (fun blob => 2 * blob.length + 4)).sum := by
  have h1 := todo_exec hs
  rw [todo_init] at h1
  have : (blobs.map (fun blob => 2 * blob.length + 4)) = blobs.map cost := rfl
  rw [this]
  omega

theorem exec_snoc {blobs : List (List π)} {es es' : List Event} {s s' : State π} (h : exec blobs es s = some s') :
    exec blobs (es ++ es') s = exec blobs es' s' := by
  induction es generalizing s with
  | nil => cases h; rfl
  | cons e es ih =>
    simp only [exec] at h
    split at h
    · cases h
    · rename_i s1 h1
      simp only [List.cons_append, exec, h1]
      exact ih h

/-- A run that has not ended can move on: it can end, or do some of the work. -/
theorem progress {blobs : List (List π)} {n : Nat} {s : State π} (h : Inv blobs n s) (hf : Full blobs n s)
    (hm : s.main = .top ∨ s.main = .inner) :
    ∃ es s', (∀ e ∈ es, e.fair = true) ∧ exec blobs es s = some s' ∧
      (s'.main = .done ∨ ((s'.main = .top ∨ s'.main = .inner) ∧ todo blobs s' < todo blobs s)) := by
  -- one step that does work and leaves the reader in its loop
  have one : ∀ (e : Event) (s' : State π), e.fair = true → e.moves = true → step blobs s e = some s' →
      (s'.main = .top ∨ s'.main = .inner) → ∃ es s', (∀ e ∈ es, e.fair = true) ∧ exec blobs es s = some s' ∧
      (s'.main = .done ∨ ((s'.main = .top ∨ s'.main = .inner) ∧ todo blobs s' < todo blobs s)) := by
    intro e s' he hmv hst hmain
    refine ⟨[e], s', by simpa using he, by simp [exec, hst], Or.inr ⟨hmain, ?_⟩⟩
    have := todo_step hst
    rw [hmv] at this
    simp only [if_true] at this
    omega
  -- ending when all threads have ended
  have fin : s.workers.all Worker.stopped = true → s.replyQueue = [] ∨ s.main = .top →
      ∃ es s', (∀ e ∈ es, e.fair = true) ∧ exec blobs es s = some s' ∧
      (s'.main = .done ∨ ((s'.main = .top ∨ s'.main = .inner) ∧ todo blobs s' < todo blobs s)) := by
    intro hall hq
    by_cases ht : s.main = .top
    · refine ⟨[.check], { s with main := .done }, by simp [Event.fair], ?_, Or.inl rfl⟩
      simp [exec, step, ht, hall]
    · have hi : s.main = .inner := by rcases hm with hm | hm; · exact absurd hm ht
                                      · exact hm
      have hq' : s.replyQueue = [] := by rcases hq with hq | hq; · exact hq
                                         · exact absurd hq ht
      refine ⟨[.empty, .check], { s with main := .done }, by simp [Event.fair], ?_, Or.inl rfl⟩
      simp [exec, step, hi, hall, hq']
  by_cases hw : ∃ (i b : Nat) (rest : List π), s.workers[i]? = some (Worker.working b rest)
  · obtain ⟨i, b, rest, hi⟩ := hw
    cases rest with
    | nil =>
      exact one (.put i) { s with replyQueue := s.replyQueue ++ [.fin b], workers := s.workers.set i .waiting }
        rfl rfl (by simp only [step, hi]) hm
    | cons p rest =>
      exact one (.put i)
        { s with replyQueue := s.replyQueue ++ [.page b p], workers := s.workers.set i (.working b rest) }
        rfl rfl (by simp only [step, hi]) hm
  · by_cases hp : s.sendQueue ≠ [] ∧ ∃ (i : Nat) (w : Worker π), s.workers[i]? = some w ∧ w.polls = true
    · obtain ⟨hsq, i, w, hi, hpoll⟩ := hp
      obtain ⟨m, q, hmq⟩ := List.exists_cons_of_ne_nil hsq
      cases m with
      | blob b =>
        exact one (.take i)
          { s with sendQueue := q, workers := s.workers.set i (.working b ((blobs[b]?).getD [])) }
          rfl rfl (by simp only [step, hi, hmq, hpoll, if_true]) hm
      | terminate =>
        exact one (.take i) { s with sendQueue := q, workers := s.workers.set i .told }
          rfl rfl (by simp only [step, hi, hmq, hpoll, if_true]) hm
    · by_cases hq : s.replyQueue = []
      · by_cases hpl : ∃ w ∈ s.workers, w.polls = true
        · exfalso
          obtain ⟨w, hwm, hpoll⟩ := hpl
          obtain ⟨i, hi⟩ := List.mem_iff_getElem?.1 hwm
          have hsq : s.sendQueue = [] := by
            by_contra hne
            exact hp ⟨hne, i, w, hi, hpoll⟩
          have hheld : held s.workers = [] := by
            simp only [held, List.filterMap_eq_nil_iff]
            intro w' hw'
            cases w' with
            | working b rest =>
              obtain ⟨j, hj⟩ := List.mem_iff_getElem?.1 hw'
              exact absurd ⟨j, b, rest, hj⟩ hw
            | crashed b => exact absurd rfl ((hf.noGiveUp _ hw').2 b)
            | _ => rfl
          have hlen := h.perm.length_eq
          rw [hheld, hq, hsq] at hlen
          simp only [List.append_nil, queued, List.filterMap_nil, List.length_range] at hlen
          have hc := hf.count
          rw [hsq] at hc
          simp only [List.count_nil] at hc
          have hle := hf.le
          have hall : s.workers.countP Worker.isTold = s.workers.length := by rw [hf.len]; omega
          have := List.countP_eq_length.1 hall w hwm
          cases w <;> simp_all [Worker.polls, Worker.isTold]
        · apply fin _ (Or.inl hq)
          rw [List.all_eq_true]
          intro w hwm
          cases w with
          | start => exact absurd ⟨_, hwm, rfl⟩ hpl
          | waiting => exact absurd ⟨_, hwm, rfl⟩ hpl
          | working b rest =>
            obtain ⟨j, hj⟩ := List.mem_iff_getElem?.1 hwm
            exact absurd ⟨j, b, rest, hj⟩ hw
          | _ => rfl
      · obtain ⟨r, q, hrq⟩ := List.exists_cons_of_ne_nil hq
        -- what receiving does
        have recv : ∀ t : State π, t.main = .inner → t.replyQueue = r :: q → todo blobs t = todo blobs s →
            ∃ s', step blobs t .receive = some s' ∧ (s'.main = .top ∨ s'.main = .inner) ∧
              todo blobs s' < todo blobs s := by
          intro t hti htq htd
          have : ∃ s', step blobs t .receive = some s' ∧ (s'.main = .top ∨ s'.main = .inner) := by
            cases r with
            | page b p => exact ⟨_, by simp only [step, hti, htq, if_true]; rfl, Or.inr rfl⟩
            | fin b =>
              by_cases hlt : t.index < blobs.length
              · exact ⟨_, by simp only [step, hti, htq, if_true, hlt]; rfl, Or.inl rfl⟩
              · exact ⟨_, by simp only [step, hti, htq, if_true, hlt, if_false]; rfl, Or.inl rfl⟩
          obtain ⟨s', hst, hmain⟩ := this
          refine ⟨s', hst, hmain, ?_⟩
          have := todo_step hst
          simp only [Event.moves, if_true] at this
          omega
        rcases hm with ht | hi
        · by_cases hall : s.workers.all Worker.stopped = true
          · exact fin hall (Or.inr ht)
          · obtain ⟨s', hst, hmain, hlt⟩ := recv { s with main := .inner } rfl hrq rfl
            refine ⟨[.check, .receive], s', by simp [Event.fair], ?_, Or.inr ⟨hmain, hlt⟩⟩
            have hck : step blobs s .check = some { s with main := .inner } := by simp [step, ht, hall]
            simp only [exec, hck, hst]
        · obtain ⟨s', hst, hmain, hlt⟩ := recv s hi hrq rfl
          exact ⟨[.receive], s', by simp [Event.fair], by simp only [exec, hst], Or.inr ⟨hmain, hlt⟩⟩

/-- **C85, no deadlock**: when there are at least as many blobs as threads, whatever has happened so far, if
no thread has crashed or given up and the reader's time is not over, the run can go on to the end. -/
theorem C85_can_finish (blobs : List (List π)) (n : Nat) (hn : n ≤ blobs.length) (es : List Event)
    (he : ∀ e ∈ es, e.fair = true) (s : State π) (hs : exec blobs es (init blobs n) = some s)
    (hm : s.main ≠ .abandoned) :
    ∃ es' s', (∀ e ∈ es', e.fair = true) ∧ exec blobs es' s = some s' ∧ s'.main = .done ∧ returned s' = true := by
  have key : ∀ k (s : State π), todo blobs s ≤ k → Inv blobs n s → Full blobs n s → (s.main = .top ∨ s.main = .inner) →
      ∃ es' s', (∀ e ∈ es', e.fair = true) ∧ exec blobs es' s = some s' ∧ s'.main = .done := by
    intro k
    induction k with
    | zero =>
      intro s hk h hf hm
      obtain ⟨e1, s1, he1, hs1, hd | ⟨-, hlt⟩⟩ := progress h hf hm
      · exact ⟨e1, s1, he1, hs1, hd⟩
      · omega
    | succ k ih =>
      intro s hk h hf hm
      obtain ⟨e1, s1, he1, hs1, hd | ⟨hm1, hlt⟩⟩ := progress h hf hm
      · exact ⟨e1, s1, he1, hs1, hd⟩
      · obtain ⟨e2, s2, he2, hs2, hd2⟩ := ih s1 (by omega) (inv_exec h hs1) (full_exec hf he1 hs1) hm1
        refine ⟨e1 ++ e2, s2, ?_, by rw [exec_snoc hs1]; exact hs2, hd2⟩
        intro e hmem
        rcases List.mem_append.1 hmem with hmem | hmem
        · exact he1 e hmem
        · exact he2 e hmem
  have h := inv_exec (inv_init blobs n) hs
  have hf := full_exec (full_init blobs n hn) he hs
  have key' : ∃ es' s', (∀ e ∈ es', e.fair = true) ∧ exec blobs es' s = some s' ∧ s'.main = .done := by
    cases hx : s.main with
    | top => exact key _ s (Nat.le_refl _) h hf (Or.inl hx)
    | inner => exact key _ s (Nat.le_refl _) h hf (Or.inr hx)
    | done => exact ⟨[], s, by simp, rfl, hx⟩
    | abandoned => exact absurd hx hm
  obtain ⟨es', s', he', hs', hd'⟩ := key'
  refine ⟨es', s', he', hs', hd', ?_⟩
  have := (full_exec hf he' hs').done hd'
  simp [returned, hd', this]

/-! ## C85: records -/

open Mabel.Paging in
/-- **C85, records** (partial: the last record of each blob is missing, C61): with the eight threads of the
code, and at least eight blobs that have records, if no thread crashes or gives up then, when the loop of the
reader ends because all threads have ended, the records handed out of each blob are its records without the
last one, each once and in order. -/
theorem C85_records_partial {α : Type} (records : List (List α)) (blobs : List (List (List (Option α))))
    (hlen : blobs.length = records.length)
    (hpages : ∀ (b : Nat) (rs : List α), records[b]? = some rs → rs ≠ [] ∧
      ∃ pages, blobs[b]? = some pages ∧ pageDictset 5 rs = .ok pages)
    (hn : 8 ≤ records.length) (es : List Event) (he : ∀ e ∈ es, e.fair = true) (s : State (List (Option α)))
    (hs : exec blobs es (init blobs 8) = some s) (hd : s.main = .done) (b : Nat) (rs : List α)
    (hb : records[b]? = some rs) :
    (pagesIn b (output s)).flatten = rs.dropLast.map some := by
  obtain ⟨hne, pages, hp, hpd⟩ := hpages b rs hb
  rw [C85_everything blobs 8 (by decide) (by omega) es he s hs hd b, hp]
  obtain ⟨pages', h1, -, h3⟩ := C61_pages_partial 5 (by decide) rs hne
  rw [hpd] at h1
  cases h1
  exact h3

/-! ## C85: what goes wrong -/

theorem exec_append {blobs : List (List π)} {es es' : List Event} {s s' : State π}
    (h : exec blobs (es ++ es') s = some s') : ∃ t, exec blobs es s = some t ∧ exec blobs es' t = some s' := by
  induction es generalizing s with
  | nil => exact ⟨s, rfl, h⟩
  | cons e es ih =>
    simp only [List.cons_append, exec] at h
    split at h
    · cases h
    · rename_i s1 h1
      obtain ⟨t, ht, ht'⟩ := ih h
      exact ⟨t, by simp only [exec, h1, ht], ht'⟩

/-- A thread that waits for a message that will not come: nothing is queued and nobody will send. -/
def Orphan (blobs : List (List π)) (s : State π) : Prop :=
  s.sendQueue = [] ∧ s.replyQueue = [] ∧ (∀ b rest, .working b rest ∉ s.workers) ∧ .waiting ∈ s.workers ∧
    blobs.length ≤ s.index ∧ s.main ≠ .done

theorem orphan_step {blobs : List (List π)} {s s' : State π} {e : Event} (h : Orphan blobs s)
    (hs : step blobs s e = some s') : Orphan blobs s' := by
  obtain ⟨hq, hr, hw, hwt, hi, hm⟩ := h
  cases e with
  | take i => simp only [step, hq] at hs; split at hs <;> simp_all
  | giveUp i =>
    simp only [step] at hs
    split at hs
    · rename_i hwi hsq
      cases hs
      obtain ⟨a, c, hab, hset⟩ := set_split hwi
      refine ⟨hq, hr, ?_, ?_, hi, hm⟩
      · intro b rest hmem
        simp only [hset, List.mem_append, List.mem_cons] at hmem
        apply hw b rest
        rw [hab]
        rcases hmem with hx | hx | hx
        · simp [hx]
        · cases hx
        · simp [hx]
      · rw [hab] at hwt
        simp only [hset]
        simpa using hwt
    · cases hs
  | put i =>
    simp only [step] at hs
    split at hs
    · rename_i hwi
      exact absurd (List.mem_of_getElem? hwi) (hw _ _)
    · rename_i hwi
      exact absurd (List.mem_of_getElem? hwi) (hw _ _)
    · cases hs
  | crash i =>
    simp only [step] at hs
    split at hs
    · rename_i hwi
      exact absurd (List.mem_of_getElem? hwi) (hw _ _)
    · cases hs
  | check =>
    simp only [step] at hs
    split at hs
    · split at hs
      · rename_i hall
        have := List.all_eq_true.1 hall _ hwt
        cases this
      · cases hs; exact ⟨hq, hr, hw, hwt, hi, by simp⟩
    · cases hs
  | receive => simp only [step, hr] at hs; split at hs <;> simp_all
  | empty =>
    simp only [step] at hs
    split at hs
    · cases hs; exact ⟨hq, hr, hw, hwt, hi, by simp⟩
    · cases hs
  | abandon =>
    simp only [step] at hs
    split at hs
    · cases hs; exact ⟨hq, hr, hw, hwt, hi, by simp⟩
    · cases hs

theorem orphan_exec {blobs : List (List π)} {es : List Event} {s s' : State π} (h : Orphan blobs s)
    (hs : exec blobs es s = some s') : Orphan blobs s' := by
  induction es generalizing s with
  | nil => cases hs; exact h
  | cons e es ih =>
    simp only [exec] at hs
    split at hs
    · cases hs
    · rename_i s1 h1
      exact ih (orphan_step h h1) hs

/-- The schedule of the next theorem: the first thread reads the only blob, and a second one, which had
nothing to do yet, takes the message that was to end the first. -/
def idleTakes : List Event := [.take 0, .put 0, .put 0, .check, .receive, .receive, .take 1]

/-- **C85 does not hold**: with fewer blobs than threads (here one blob for the eight threads), a thread
that has read its blob can be left waiting for ever: whatever happens next, even when the reader's time is
over, the reader does not return. -/
theorem C85_returns_fails (page : π) : ∃ s, exec [[page]] idleTakes (init [[page]] 8) = some s ∧
    ∀ es s', exec [[page]] es s = some s' → returned s' = false := by
  refine ⟨_, rfl, ?_⟩
  intro es s' hs
  have h := orphan_exec (s := _) ⟨rfl, rfl, ?_, ?_, ?_, ?_⟩ hs
  · obtain ⟨-, -, -, hwt, -, -⟩ := h
    have : s'.workers.all Worker.stopped = false := by
      rw [Bool.eq_false_iff]
      intro hall
      have := List.all_eq_true.1 hall _ hwt
      cases this
    simp [returned, this]
  · intro b rest hm
    simp [init] at hm
  · simp [init]
  · simp [init]
  · simp

/-- The schedule of the next theorem: the first thread reads the blobs of two, the others find nothing to
read for a second and give up. -/
def othersGiveUp : List Event := [.take 0, .put 0, .put 0, .take 0, .giveUp 1, .check, .receive, .receive,
  .put 0, .put 0, .take 0, .check]

/-- **C85 does not hold**: when a thread has given up, the reader can end, without an error, before it has
handed out pages that have been read. -/
theorem C85_everything_fails (p q : π) : ∃ s, exec [[p], [q]] othersGiveUp (init [[p], [q]] 2) = some s ∧
    returned s = true ∧ output s = [(0, p)] :=
  ⟨_, rfl, rfl, rfl⟩

/-- **C85 does not hold**: when reading a blob raises, the reader can end without an error, and the pages of
the blobs after it are not handed out. -/
theorem C85_error_fails (p q : π) : ∃ s,
    exec [[p], [q]] [.take 0, .crash 0, .check] (init [[p], [q]] 1) = some s ∧
    returned s = true ∧ output s = [] :=
  ⟨_, rfl, rfl, rfl⟩

/-- **C85 does not hold**: threads in turn: records of different blobs are interleaved, in an order that
differs from run to run. -/
theorem C85_order_fails (p q : π) (h : p ≠ q) : ∃ e1 e2 s1 s2,
    exec [[p], [q]] e1 (init [[p], [q]] 2) = some s1 ∧ exec [[p], [q]] e2 (init [[p], [q]] 2) = some s2 ∧
    (∀ e ∈ e1 ++ e2, e.fair = true) ∧ returned s1 = true ∧ returned s2 = true ∧
    (output s1).map Prod.snd ≠ (output s2).map Prod.snd := by
  refine ⟨[.take 0, .take 1, .put 0, .put 0, .put 1, .put 1, .check, .receive, .receive, .check, .receive, .receive,
      .take 0, .take 1, .check],
    [.take 0, .take 1, .put 1, .put 1, .put 0, .put 0, .check, .receive, .receive, .check, .receive, .receive,
      .take 0, .take 1, .check], _, _, rfl, rfl, by simp [Event.fair], rfl, rfl, ?_⟩
  simp [output, init]
  intro hpq
  exact absurd hpq h

/-- The hypotheses of the theorems are met: two threads read three blobs, and every page is handed out. -/
example : ∃ es s, exec [["a", "b"], [], ["c"]] es (init [["a", "b"], [], ["c"]] 2) = some s ∧
    (∀ e ∈ es, e.fair = true) ∧ s.main = .done ∧ output s = [(0, "a"), (2, "c"), (0, "b")] :=
  ⟨[.take 0, .take 1, .put 0, .check, .put 1, .receive, .receive, .take 1, .put 1, .put 1, .check, .receive, .receive,
    .put 0, .put 0, .check, .receive, .receive, .take 0, .take 1, .check], _, rfl, by decide, rfl, rfl⟩

end Mabel.Threads
