import Verif.Model.BigQuery
import Verif.Props.Writer

/-!
# What other targets keep (C105)

That a blob which a writer stored on a disk or in object storage is there is C72 and C79.
-/

namespace Mabel.BigQuery
open Mabel.Py
variable {ρ : Type}

/-- Every row of every table. -/
def Project.allRows (p : Project) : List Writer.Bytes := p.flatMap (fun t => t.2.rows)

theorem rows_kept (store : List Writer.Stored) : ∀ p : Project, (commitAll p store).allRows = p.allRows := by
  induction store with
  | nil => intro p; rfl
  | cons x store ih =>
    intro p
    have h : ∀ bytes, (commit p bytes).1.allRows = p.allRows := by
      intro bytes
      simp only [commit, getTable]
      split
      · rfl
      · simp [Project.allRows]
    cases x with
    | data bytes => exact (ih _).trans (h bytes)
    | complete => exact (ih _).trans (h [])

/-- **C105** fails for BigQuery: whatever is appended to a writer that stores there and whatever else is called, no table has a
row more than before; and yet no call raises for another reason than that a record is refused. -/
theorem C105_bigquery_fails (c : Writer.Config ρ) (ops : List (Writer.Op ρ)) (p : Project) :
    (commitAll p (Writer.run c {} ops).store).allRows = p.allRows ∧
    ∀ x ∈ Writer.outcomes c {} ops, x.2 = .ok () ∨ ∃ r, x.1 = .append r ∧ c.valid r = false := by
  refine ⟨rows_kept _ p, ?_⟩
  have hc : ∀ (s : Writer.State ρ) x, s.faults = [] → (Writer.innerCommit s x).2 = .ok () ∧ (Writer.innerCommit s x).1.faults = [] := by
    intro s x hs
    simp [Writer.innerCommit, hs]
  have ho : ∀ s : Writer.State ρ, (Writer.openBuffer c s).faults = s.faults := by
    intro s; unfold Writer.openBuffer; split <;> rfl
  have hcommit : ∀ s : Writer.State ρ, s.faults = [] → (Writer.commit c s).2 = .ok () ∧ (Writer.commit c s).1.faults = [] := by
    intro s hs
    unfold Writer.commit
    split
    · have h := hc s (.data (Writer.writeBuffer c s)) hs
      generalize Writer.innerCommit s (.data (Writer.writeBuffer c s)) = z at h
      obtain ⟨z1, z2⟩ := z
      obtain ⟨rfl, h2⟩ := h
      exact ⟨rfl, by rw [ho]; exact h2⟩
    · exact ⟨rfl, by rw [ho]; exact hs⟩
  have hstep : ∀ (s : Writer.State ρ) op, s.faults = [] → (Writer.step c s op).1.faults = [] ∧
      ((Writer.step c s op).2 = .ok () ∨ ∃ r, op = .append r ∧ c.valid r = false) := by
    intro s op hs
    cases op with
    | append r =>
      simp only [Writer.step, Writer.append]
      by_cases hv : c.valid r = true
      · rw [if_pos hv]
        have hb : ∃ s' n, Writer.blobAppend c s r = (s', .ok n) ∧ s'.faults = [] := by
          unfold Writer.blobAppend
          split
          · unfold Writer.arrowAppend
            simp only
            split
            · have h := hcommit { s with recordsInBuffer := s.recordsInBuffer + 1, wal := s.wal ++ [r] } hs
              generalize Writer.commit c { s with recordsInBuffer := s.recordsInBuffer + 1, wal := s.wal ++ [r] } = z at h
              obtain ⟨z1, z2⟩ := z
              obtain ⟨rfl, h2⟩ := h
              exact ⟨_, _, rfl, by rw [ho]; exact h2⟩
            · exact ⟨_, _, rfl, hs⟩
          · unfold Writer.textAppend
            simp only
            split
            · have h := hcommit s hs
              generalize Writer.commit c s = z at h
              obtain ⟨z1, z2⟩ := z
              obtain ⟨rfl, h2⟩ := h
              exact ⟨_, _, rfl, by show (Writer.openBuffer c z1).faults = []; rw [ho]; exact h2⟩
            · exact ⟨_, _, rfl, hs⟩
        obtain ⟨s', n, e, hf⟩ := hb
        rw [e]
        exact ⟨hf, Or.inl rfl⟩
      · rw [if_neg hv]
        exact ⟨hs, Or.inr ⟨r, rfl, by simpa using hv⟩⟩
    | finalize f =>
      have hfin : ∃ s' x, Writer.finalize c s f = (s', .ok x) ∧ s'.faults = [] := by
        unfold Writer.finalize
        simp only
        have h := hcommit { s with finalized := true } hs
        generalize Writer.commit c { s with finalized := true } = z at h
        obtain ⟨z1, z2⟩ := z
        obtain ⟨rfl, h2⟩ := h
        simp only
        split
        · exact ⟨_, _, rfl, h2⟩
        split
        · exact ⟨_, _, rfl, h2⟩
        split
        · exact ⟨_, _, rfl, h2⟩
        · have h := hc z1 .complete h2
          generalize Writer.innerCommit z1 .complete = y at h
          obtain ⟨y1, y2⟩ := y
          obtain ⟨rfl, h3⟩ := h
          exact ⟨_, _, rfl, h3⟩
      obtain ⟨s', x, e, hf⟩ := hfin
      simp only [Writer.step, e]
      exact ⟨hf, Or.inl trivial⟩
  have hall : ∀ (ops : List (Writer.Op ρ)) (s : Writer.State ρ), s.faults = [] →
      ∀ x ∈ Writer.outcomes c s ops, x.2 = .ok () ∨ ∃ r, x.1 = .append r ∧ c.valid r = false := by
    intro ops
    induction ops with
    | nil => intro s _ x hx; cases hx
    | cons op ops ih =>
      intro s hs x hx
      obtain ⟨h1, h2⟩ := hstep s op hs
      rcases List.mem_cons.1 hx with rfl | hx
      · exact h2
      · exact ih _ h1 x hx
  exact hall ops {} rfl

/-- **C105** fails for the table itself: whatever dataset the writer was made for, it is the table `justin` of `users` that is
made, without the columns and without the expiration that are described for it. -/
theorem C105_bigquery_table_fails (bytes : Writer.Bytes) (p : Project) (h : p.lookup ("users".toList, "justin".toList) = none) :
    (commit p bytes).1 = p ++ [(("users".toList, "justin".toList), ⟨[], none, []⟩)] ∧ (commit p bytes).2 = [] := by
  simp only [commit, getTable, h]
  exact ⟨trivial, trivial⟩

/-- Non-vacuity: a run that stores two blobs and its marker leaves an empty table. -/
example : (Writer.run (ρ := Nat) ⟨⟨fun n => [n.toUInt8], id, fun _ => [], fun _ => 0⟩, .text, 1, fun _ => true, false⟩ {}
      [.append 1, .append 2, .finalize false]).store.length = 3 ∧
    commitAll [] (Writer.run (ρ := Nat) ⟨⟨fun n => [n.toUInt8], id, fun _ => [], fun _ => 0⟩, .text, 1, fun _ => true, false⟩ {}
      [.append 1, .append 2, .finalize false]).store = [(("users".toList, "justin".toList), ⟨[], none, []⟩)] := by
  decide +kernel

end Mabel.BigQuery
