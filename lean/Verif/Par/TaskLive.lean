import Verif.Par.TaskInv
/-!
# Fair executions of the task queue
-/
namespace OP.Par

/-- The owner can take a step. -/
def TQ.MainEnabled (n : Nat) (s : TQ) : Prop := ∃ p th s', s.mainStep n p th = some s'

/-- An infinite execution from the constructor; `none` is a moment at which nothing happens. -/
structure Exec (n : Nat) (σ : Nat → TQ) (lab : Nat → Option Lab) : Prop where
  start : σ 0 = TQ.init
  next : ∀ i, match lab i with
    | none => σ (i + 1) = σ i
    | some l => (σ i).step n l = some (σ (i + 1))

/-- No thread that could run is passed over for ever. -/
structure Fair (n : Nat) (σ : Nat → TQ) (lab : Nat → Option Lab) : Prop where
  owner : ∀ i, ∃ j, i ≤ j ∧ ((∃ p th, lab j = some (.main p th)) ∨ ¬ (σ j).MainEnabled n)
  worker : ∀ k, k < n → ∀ i, ∃ j, i ≤ j ∧ (lab j = some (.worker k) ∨ (σ j).workStep k = none)

/-- A thread that has returned can only belong to a queue with nothing left to do, or an aborted one. -/
def Quiet (n : Nat) (s : TQ) : Prop := ∀ k, k < n → s.work k = .exited → s.abort = true ∨ s.tasks = []

theorem Woken.exited {s s' : TQ} (h : Woken s s') (k : Nat) : s'.work k = .exited ↔ s.work k = .exited := by
  obtain ⟨w, rfl, hw⟩ := h
  rcases hw k with h | ⟨h1, h2⟩
  · simp only [h]
  · simp only [h1, h2]; simp

theorem Woken.same {s s' : TQ} (h : Woken s s') : ∃ w, s' = { s with work := w } := by
  obtain ⟨w, h, -⟩ := h; exact ⟨w, h⟩

theorem Woken.quiet {n : Nat} {s s' : TQ} (h : Woken s s') (q : Quiet n s) : Quiet n s' := by
  intro k hk he
  have := q k hk ((h.exited k).1 he)
  obtain ⟨w, rfl, -⟩ := h
  exact this

theorem quiet_step {n : Nat} {s s' : TQ} {l : Lab} (h : Inv n s) (q : Quiet n s) (hs : s.step n l = some s') : Quiet n s' := by
  cases l with
  | enqueue t p =>
    simp only [TQ.step] at hs
    split at hs
    · unfold TQ.enqueue at hs
      split at hs
      · cases hs; exact q
      · rename_i hc
        simp at hc
        split at hs
        · cases hs; exact q
        · rw [Option.map_eq_some_iff] at hs
          obtain ⟨s1, h1, rfl⟩ := hs
          have hw := Woken.notifyOne h1
          intro k hk he
          have := h.exd k hk ((hw.exited k).1 he)
          simp [hc] at this
    · cases hs
  | drain =>
    simp only [TQ.step] at hs
    split at hs
    · cases hs; exact q
    · cases hs
  | single =>
    simp only [TQ.step] at hs
    split at hs
    · cases hs; exact q
    · cases hs
  | destroy =>
    simp only [TQ.step] at hs
    split at hs
    · split at hs <;> (cases hs; exact q)
    · cases hs
  | main p th =>
    simp only [TQ.step] at hs
    unfold TQ.mainStep at hs
    have tk : ∀ t rs k, Quiet n (s.take t rs k) := by
      intro t rs k; unfold TQ.take; split <;> exact q
    split at hs
    · cases hs
    · cases hs
    · split at hs
      · cases hs; exact q
      · split at hs
        · cases hs; exact tk _ _ _
        · cases hs; exact q
    · split at hs
      · cases hs; exact fun _ _ _ => .inl rfl
      · cases hs; exact q
    · simp only at hs
      split at hs
      · rw [Option.map_eq_some_iff] at hs
        obtain ⟨s1, h1, rfl⟩ := hs
        exact (Woken.notifyOne h1).quiet q
      · cases hs; exact q
    · split at hs <;> (cases hs; exact q)
    · split at hs
      · cases hs
      · split at hs
        · cases hs; exact tk _ _ _
        · cases hs
    · split at hs
      · split at hs
        · cases hs; exact q
        · cases hs
          rename_i hT _
          exact fun _ _ _ => .inr hT
      · cases hs; exact (Woken.notifyAll s).quiet q
    · split at hs
      · cases hs; exact q
      · cases hs
  | worker k =>
    simp only [TQ.step] at hs
    split at hs
    · rename_i hk
      unfold TQ.workStep at hs
      split at hs
      · cases hs
      · cases hs
      · cases hs
        intro j hj he
        simp only [TQ.setW] at he
        split at he
        · cases he
        · exact q j hj he
      · split at hs
        · cases hs
        · split at hs
          · split at hs
            · rename_i hea
              cases hs
              intro j hj he
              simp at hea
              rcases hea with he | ha
              · exact .inr (h.emt he)
              · exact .inl ha
            · split at hs
              · rename_i hT
                cases hs
                intro j hj he
                simp only [TQ.setW] at he
                split at he
                · cases he
                · rcases q j hj he with h | h
                  · exact .inl h
                  · rw [hT] at h; cases h
              · rename_i hT
                split at hs
                · cases hs
                  exact fun _ _ _ => .inr hT
                · cases hs; exact q
          · cases hs
            intro j hj he
            simp only [TQ.setW] at he
            split at he
            · cases he
            · exact q j hj he
    · cases hs
  | spurious k =>
    simp only [TQ.step] at hs
    split at hs
    · rename_i hk; cases hs; exact (Woken.setW hk.2).quiet q
    · cases hs

/-- What holds all along an execution. -/
def Good (n : Nat) (s : TQ) : Prop := Inv n s ∧ Quiet n s

theorem Exec.good {n : Nat} {σ : Nat → TQ} {lab : Nat → Option Lab} (h : Exec n σ lab) : ∀ i, Good n (σ i)
  | 0 => by rw [h.start]; exact ⟨init_inv n, fun k _ he => by simp [TQ.init] at he⟩
  | i + 1 => by
    have hn := h.next i
    have := h.good i
    revert hn
    cases lab i with
    | none => intro hn; simp only at hn; rw [hn]; exact this
    | some l => intro hn; exact ⟨inv_step this.1 hn, quiet_step this.1 this.2 hn⟩

/-- `P` is always followed by `Q`. -/
def Leads (σ : Nat → TQ) (P Q : TQ → Prop) : Prop := ∀ i, P (σ i) → ∃ j, i ≤ j ∧ Q (σ j)

theorem Leads.trans {σ : Nat → TQ} {P Q R : TQ → Prop} (h1 : Leads σ P Q) (h2 : Leads σ Q R) : Leads σ P R := by
  intro i hi
  obtain ⟨j, hj, hq⟩ := h1 i hi
  obtain ⟨k, hk, hr⟩ := h2 j hq
  exact ⟨k, Nat.le_trans hj hk, hr⟩

theorem Leads.now {σ : Nat → TQ} {P Q : TQ → Prop} (h : ∀ s, P s → Q s) : Leads σ P Q :=
  fun i hi => ⟨i, Nat.le_refl i, h _ hi⟩

theorem Leads.or {σ : Nat → TQ} {P P' Q : TQ → Prop} (h1 : Leads σ P Q) (h2 : Leads σ P' Q) : Leads σ (fun s => P s ∨ P' s) Q := by
  rintro i (hi | hi)
  · exact h1 i hi
  · exact h2 i hi

/-- `P` holds until `Q` does. -/
theorem unless_of {n : Nat} {σ : Nat → TQ} {lab : Nat → Option Lab} (h : Exec n σ lab) {P Q : TQ → Prop}
    (hst : ∀ s l s', Good n s → P s → s.step n l = some s' → P s' ∨ Q s') {i : Nat} (hi : P (σ i)) :
    ∀ d, (∃ j, i ≤ j ∧ Q (σ j)) ∨ P (σ (i + d))
  | 0 => .inr hi
  | d + 1 => by
    rcases unless_of h hst hi d with hq | hp
    · exact .inl hq
    · have hn := h.next (i + d)
      have hg := h.good (i + d)
      cases hl : lab (i + d) with
      | none => rw [hl] at hn; simp only at hn; right; rw [← Nat.add_assoc, hn]; exact hp
      | some l =>
        rw [hl] at hn
        rcases hst _ l _ hg hp hn with h1 | h1
        · exact .inr h1
        · exact .inl ⟨_, by omega, h1⟩

/-- A step the owner can take until it does. -/
theorem wf_main {n : Nat} {σ : Nat → TQ} {lab : Nat → Option Lab} (h : Exec n σ lab) (hf : Fair n σ lab) {P Q : TQ → Prop}
    (hst : ∀ s l s', Good n s → P s → s.step n l = some s' → P s' ∨ Q s')
    (hen : ∀ s, Good n s → P s → s.MainEnabled n)
    (hmn : ∀ s p th s', Good n s → P s → s.mainStep n p th = some s' → Q s') : Leads σ P Q := by
  intro i hi
  obtain ⟨j, hj, hc⟩ := hf.owner i
  obtain ⟨d, rfl⟩ := Nat.exists_eq_add_of_le hj
  rcases unless_of h hst hi d with hq | hp
  · exact hq
  · rcases hc with ⟨p, th, hl⟩ | hc
    · have hn := h.next (i + d)
      rw [hl] at hn
      exact ⟨_, by omega, hmn _ p th _ (h.good _) hp hn⟩
    · exact absurd (hen _ (h.good _) hp) hc

/-- A step a worker can take until it does. -/
theorem wf_worker {n : Nat} {σ : Nat → TQ} {lab : Nat → Option Lab} (h : Exec n σ lab) (hf : Fair n σ lab) {P Q : TQ → Prop}
    {k : Nat} (hk : k < n)
    (hst : ∀ s l s', Good n s → P s → s.step n l = some s' → P s' ∨ Q s')
    (hen : ∀ s, Good n s → P s → s.workStep k ≠ none)
    (hwk : ∀ s s', Good n s → P s → s.workStep k = some s' → Q s') : Leads σ P Q := by
  intro i hi
  obtain ⟨j, hj, hc⟩ := hf.worker k hk i
  obtain ⟨d, rfl⟩ := Nat.exists_eq_add_of_le hj
  rcases unless_of h hst hi d with hq | hp
  · exact hq
  · rcases hc with hl | hc
    · have hn := h.next (i + d)
      rw [hl] at hn
      simp only [TQ.step, if_pos hk] at hn
      exact ⟨_, by omega, hwk _ _ (h.good _) hp hn⟩
    · exact absurd hc (hen _ (h.good _) hp)

end OP.Par
