import Verif.Par.TaskLive
/-!
# Every call returns in a fair execution, unless work is left after an abort
-/
namespace OP.Par

/-- What a step of another thread does, as far as the owner is concerned. -/
structure Side (s s' : TQ) : Prop where
  pc : s'.pc = s.pc
  abort : s'.abort = s.abort
  empty : s'.empty = s.empty
  what : (s'.tasks = s.tasks ∧ s'.results = s.results ∧ (∀ t, s.ready t = true → s'.ready t = true) ∧
      (∀ k t, s.work k = .running t → s'.work k = .running t ∨ s'.ready t = true ∧ s'.work k = .awake) ∧
      (∀ k, s.work k = .awake → s.tasks ≠ [] → s.empty = false → s.abort = false → s'.work k = .awake) ∧
      (∀ k, s.work k ≠ .asleep → s.tasks ≠ [] → s.empty = false → s.abort = false → s'.work k ≠ .asleep) ∧
      (∀ k, s.work k = .exited → s'.work k = .exited)) ∨
    ∃ t, s.tasks = t :: s'.tasks ∧ s'.results = s.results ++ [t] ∧ s.abort = false

theorem Woken.side {s s' : TQ} (h : Woken s s') : Side s s' := by
  obtain ⟨w, rfl, hw⟩ := h
  refine ⟨rfl, rfl, rfl, .inl ⟨rfl, rfl, fun _ h => h, ?_, ?_, ?_, ?_⟩⟩
  · intro k t hk
    rcases hw k with h | h
    · exact .inl (h.trans hk)
    · rw [hk] at h; simp at h
  · intro k hk _ _ _
    rcases hw k with h | h
    · exact h.trans hk
    · exact h.2
  · intro k hk _ _ _
    rcases hw k with h | h
    · show w k ≠ _; rw [h]; exact hk
    · exact absurd h.1 hk
  · intro k hk
    rcases hw k with h | h
    · exact h.trans hk
    · rw [hk] at h; simp at h

theorem work_side {s s' : TQ} {k : Nat} (h : s.workStep k = some s') : Side s s' := by
  unfold TQ.workStep at h
  split at h
  · cases h
  · cases h
  · rename_i t hw
    cases h
    refine ⟨rfl, rfl, rfl, .inl ⟨rfl, rfl, ?_, ?_, ?_, ?_, ?_⟩⟩
    · intro x hx; simp only; split <;> simp_all
    · intro j x hx
      by_cases hj : j = k
      · subst hj; rw [hw] at hx; cases hx; right; simp [TQ.setW]
      · left; simp [TQ.setW, hj, hx]
    · intro j hj _ _ _
      have : j ≠ k := by rintro rfl; rw [hw] at hj; cases hj
      simp [TQ.setW, this, hj]
    · intro j hj _ _ _
      simp only [TQ.setW]; split
      · simp
      · exact hj
    · intro j hj
      have : j ≠ k := by rintro rfl; rw [hw] at hj; cases hj
      simp [TQ.setW, this, hj]
  · rename_i hw
    have set : ∀ w, w ≠ .running 0 → (s.tasks ≠ [] → s.empty = false → s.abort = false → False) → Side s (s.setW k w) := by
      intro w _ hc
      refine ⟨rfl, rfl, rfl, .inl ⟨rfl, rfl, fun _ h => h, ?_, ?_, ?_, ?_⟩⟩
      · intro j x hx
        have : j ≠ k := by rintro rfl; rw [hw] at hx; cases hx
        left; simp [TQ.setW, this, hx]
      · intro j _ h1 h2 h3; exact (hc h1 h2 h3).elim
      · intro j _ h1 h2 h3; exact (hc h1 h2 h3).elim
      · intro j hx
        have : j ≠ k := by rintro rfl; rw [hw] at hx; cases hx
        simp [TQ.setW, this, hx]
    split at h
    · cases h
    · split at h
      · split at h
        · rename_i hea
          cases h
          refine set _ (by simp) ?_
          intro _ h2 h3; simp [h2, h3] at hea
        · rename_i hea
          simp at hea
          split at h
          · rename_i t ts hT
            cases h
            exact ⟨rfl, rfl, rfl, .inr ⟨t, hT, rfl, hea.2⟩⟩
          · rename_i hT
            split at h
            · cases h; exact set _ (by simp) (fun h => absurd hT h)
            · cases h
              exact ⟨rfl, rfl, rfl, .inl ⟨rfl, rfl, fun _ h => h, fun _ _ h => .inl h, fun _ h _ _ _ => h, fun _ h _ _ _ => h, fun _ h => h⟩⟩
      · rename_i hc
        cases h
        refine set _ (by simp) ?_
        intro h1; simp [h1] at hc

theorem step_cases {n : Nat} {s s' : TQ} {l : Lab} (hp : s.pc ≠ .idle) (h : s.step n l = some s') :
    (∃ p th, s.mainStep n p th = some s') ∨ Side s s' := by
  cases l with
  | enqueue t p => simp [TQ.step, hp] at h
  | drain => simp [TQ.step, hp] at h
  | single => simp [TQ.step, hp] at h
  | destroy => simp [TQ.step, hp] at h
  | main p th => exact .inl ⟨p, th, h⟩
  | worker k =>
    simp only [TQ.step] at h
    split at h
    · exact .inr (work_side h)
    · cases h
  | spurious k =>
    simp only [TQ.step] at h
    split at h
    · rename_i hk; cases h; exact .inr (Woken.setW hk.2).side
    · cases h

/-- Work left, results counting once and tasks twice. -/
def TQ.left (s : TQ) : Nat := 2 * s.tasks.length + s.results.length

/-- The owner is inside `drain`. -/
def Pc.draining : Pc → Bool
  | .top _ => true
  | .res _ _ => true
  | .hold _ _ => true
  | .call _ (some _) => true
  | _ => false

/-- Not stuck behind an abort. -/
def Able (s : TQ) : Prop := s.abort = false ∨ s.tasks = []

def Less (m : Nat) (s : TQ) : Prop := s.pc.draining = true ∧ Able s ∧ s.left < m
def Ended (s : TQ) : Prop := s.pc = .idle ∨ s.pc = .gone

theorem Side.able {s s' : TQ} (h : Side s s') (a : Able s) : Able s' := by
  rcases h.what with ⟨h1, -⟩ | ⟨t, h1, h2, h3⟩
  · rcases a with a | a
    · exact .inl (h.abort.trans a)
    · exact .inr (h1.trans a)
  · exact .inl (h.abort.trans h3)

theorem Side.left {s s' : TQ} (h : Side s s') : (s'.tasks = s.tasks ∧ s'.results = s.results) ∨ s'.left < s.left := by
  rcases h.what with ⟨h1, h2, -⟩ | ⟨t, h1, h2, h3⟩
  · exact .inl ⟨h1, h2⟩
  · right; simp [TQ.left, h1, h2]; omega

theorem Side.less {s s' : TQ} (h : Side s s') (hd : s.pc.draining = true) (a : Able s) (hl : s'.left < s.left) : Less s.left s' :=
  ⟨by rw [h.pc]; exact hd, h.able a, hl⟩

section
variable {n : Nat} {σ : Nat → TQ} {lab : Nat → Option Lab}

theorem notifyOne_enabled (n : Nat) (s : TQ) : ∃ p s', s.notifyOne n p = some s' := by
  by_cases h : ∀ k, k < n → s.work k ≠ .asleep
  · refine ⟨n, s, ?_⟩
    unfold TQ.notifyOne
    rw [if_neg (by simp), if_pos h]
  · simp only [not_forall, Decidable.not_not] at h
    obtain ⟨k, hk, hw⟩ := h
    exact ⟨k, s.setW k .awake, by unfold TQ.notifyOne; rw [if_pos ⟨hk, hw⟩]⟩

theorem notifyOne_any {s s' : TQ} {p : Nat} (hn : 0 < n) (h : s.notifyOne n p = some s') : ∃ k, k < n ∧ s'.work k ≠ .asleep := by
  unfold TQ.notifyOne at h
  split at h
  · rename_i hp; cases h; exact ⟨p, hp.1, by simp [TQ.setW]⟩
  · split at h
    · rename_i hc; cases h; exact ⟨0, hn, hc 0 hn⟩
    · cases h

/-- The callback returns or throws. -/
theorem call_leads (h : Exec n σ lab) (hf : Fair n σ lab) (m t : Nat) (k : Bool × Bool) :
    Leads σ (fun s => s.pc = .call t (some k) ∧ Able s ∧ s.left = m)
      (fun s => Ended s ∨ Less m s ∨ ∃ d, s.pc = .top d ∧ Able s ∧ s.left = m) := by
  refine wf_main h hf ?_ ?_ ?_
  · rintro s l s' hg ⟨hp, ha, hm⟩ hs
    rcases step_cases (by simp [hp]) hs with ⟨p, th, hs⟩ | hs
    · right
      unfold TQ.mainStep at hs
      rw [hp] at hs
      simp only at hs
      have hk := (hg.1.hand _ _ hp).2.2
      split at hs
      · cases hs; left; obtain ⟨d, f⟩ := k; cases d <;> simp [Ended, thrownPc]
      · cases hs
        obtain ⟨d, f⟩ := k
        cases f
        · right; right; exact ⟨d, by simp [nextPc], ha, hm⟩
        · exact absurd rfl (hk d)
    · rcases hs.left with ⟨h1, h2⟩ | hl
      · left; exact ⟨hs.pc.trans hp, hs.able ha, by simp only [TQ.left, h1, h2]; exact hm⟩
      · right; right; left; rw [← hm]; exact hs.less (by simp [hp, Pc.draining]) ha hl
  · rintro s hg ⟨hp, -, -⟩
    unfold TQ.MainEnabled TQ.mainStep
    rw [hp]
    exact ⟨0, false, _, rfl⟩
  · rintro s p th s' hg ⟨hp, ha, hm⟩ hs
    unfold TQ.mainStep at hs
    rw [hp] at hs
    simp only at hs
    have hk := (hg.1.hand _ _ hp).2.2
    split at hs
    · cases hs; left; obtain ⟨d, f⟩ := k; cases d <;> simp [Ended, thrownPc]
    · cases hs
      obtain ⟨d, f⟩ := k
      cases f
      · right; right; exact ⟨d, by simp [nextPc], ha, hm⟩
      · exact absurd rfl (hk d)

theorem take_left {s : TQ} {t : Nat} {rs : List Nat} {k : Option (Bool × Bool)} (hR : s.results = t :: rs) :
    (s.take t rs k).left < s.left := by
  unfold TQ.take; split <;> simp [TQ.left, hR]

theorem take_able {s : TQ} {t : Nat} {rs : List Nat} {k : Option (Bool × Bool)} (a : Able s) : Able (s.take t rs k) := by
  unfold TQ.take; split <;> exact a

/-- The front result is ready: it is taken. -/
theorem hold_ready (h : Exec n σ lab) (hf : Fair n σ lab) (m : Nat) (d f : Bool) :
    Leads σ (fun s => s.pc = .hold d f ∧ Able s ∧ s.left = m ∧ ∃ t rs, s.results = t :: rs ∧ s.ready t = true) (Less m) := by
  have main : ∀ s p th s', Good n s → (s.pc = .hold d f ∧ Able s ∧ s.left = m ∧ ∃ t rs, s.results = t :: rs ∧ s.ready t = true) →
      s.mainStep n p th = some s' → Less m s' := by
    rintro s p th s' hg ⟨hp, ha, hm, t, rs, hR, hr⟩ hs
    unfold TQ.mainStep at hs
    rw [hp] at hs
    simp only [hR, hr, if_true] at hs
    cases hs
    have hff : f = false := by
      by_contra hc
      have hc : f = true := by simpa using hc
      rw [hc] at hp
      rw [(hg.1.fin d (.inr hp)).2] at hR; cases hR
    refine ⟨?_, take_able ha, hm ▸ take_left hR⟩
    unfold TQ.take
    split <;> simp [nextPc, hff, Pc.draining]
  refine wf_main h hf ?_ ?_ main
  · rintro s l s' hg ⟨hp, ha, hm, t, rs, hR, hr⟩ hs
    rcases step_cases (by simp [hp]) hs with ⟨p, th, hs⟩ | hs
    · exact .inr (main s p th s' hg ⟨hp, ha, hm, t, rs, hR, hr⟩ hs)
    · rcases hs.what with ⟨h1, h2, h3, -⟩ | hw
      · left; exact ⟨hs.pc.trans hp, hs.able ha, by simp only [TQ.left, h1, h2]; exact hm, t, rs, h2.trans hR, h3 t hr⟩
      · right
        rcases hs.left with ⟨h1, h2⟩ | hl
        · obtain ⟨t, h3, -⟩ := hw
          rw [h1] at h3
          exact absurd (congrArg List.length h3) (by simp)
        · rw [← hm]; exact hs.less (by simp [hp, Pc.draining]) ha hl
  · rintro s hg ⟨hp, ha, hm, t, rs, hR, hr⟩
    unfold TQ.MainEnabled TQ.mainStep
    rw [hp]
    simp only [hR, hr, if_true]
    exact ⟨0, false, _, rfl⟩

/-- The front result is being computed: it becomes ready. -/
theorem hold_running (h : Exec n σ lab) (hf : Fair n σ lab) (m k t : Nat) (hk : k < n) (d f : Bool) :
    Leads σ (fun s => s.pc = .hold d f ∧ Able s ∧ s.left = m ∧ s.work k = .running t ∧ ∃ rs, s.results = t :: rs)
      (fun s => Less m s ∨ (s.pc = .hold d f ∧ Able s ∧ s.left = m ∧ ∃ t rs, s.results = t :: rs ∧ s.ready t = true)) := by
  refine wf_worker h hf hk ?_ ?_ ?_
  · rintro s l s' hg ⟨hp, ha, hm, hw, rs, hR⟩ hs
    rcases step_cases (by simp [hp]) hs with ⟨p, th, hs⟩ | hs
    · unfold TQ.mainStep at hs
      rw [hp] at hs
      have hr := (hg.1.run k t hw).2.2
      simp only [hR, hr, Bool.false_eq_true, if_false] at hs
      cases hs
    · rcases hs.what with ⟨h1, h2, h3, h4, -⟩ | hx
      · have hp' := hs.pc.trans hp
        have hm' : s'.left = m := by simp only [TQ.left, h1, h2]; exact hm
        rcases h4 k t hw with h5 | h5
        · left; exact ⟨hp', hs.able ha, hm', h5, rs, h2.trans hR⟩
        · right; right; exact ⟨hp', hs.able ha, hm', t, rs, h2.trans hR, h5.1⟩
      · right; left
        rcases hs.left with ⟨h1, h2⟩ | hl
        · obtain ⟨t, h3, -⟩ := hx
          rw [h1] at h3
          exact absurd (congrArg List.length h3) (by simp)
        · rw [← hm]; exact hs.less (by simp [hp, Pc.draining]) ha hl
  · rintro s hg ⟨hp, ha, hm, hw, rs, hR⟩
    unfold TQ.workStep; rw [hw]; simp
  · rintro s s' hg ⟨hp, ha, hm, hw, rs, hR⟩ hs
    unfold TQ.workStep at hs
    rw [hw] at hs
    cases hs
    right; exact ⟨hp, ha, hm, t, rs, hR, by simp⟩

theorem hold_leads (h : Exec n σ lab) (hf : Fair n σ lab) (m : Nat) (d f : Bool) :
    Leads σ (fun s => s.pc = .hold d f ∧ Able s ∧ s.left = m) (Less m) := by
  rintro i ⟨hp, ha, hm⟩
  have hg := h.good i
  obtain ⟨t, rs, hR⟩ := List.exists_cons_of_ne_nil (hg.1.held d f hp)
  cases hr : (σ i).ready t with
  | true => exact hold_ready h hf m d f i ⟨hp, ha, hm, t, rs, hR, hr⟩
  | false =>
    obtain ⟨k, hk, hw⟩ := hg.1.rsl t (by simp [hR]) hr
    exact ((hold_running h hf m k t hk d f).trans (Leads.or (Leads.now fun _ h => h) (hold_ready h hf m d f))) i ⟨hp, ha, hm, hw, rs, hR⟩

/-- `result(true)` has been called. -/
theorem res_leads (h : Exec n σ lab) (hf : Fair n σ lab) (m : Nat) (d f : Bool) :
    Leads σ (fun s => s.pc = .res d f ∧ Able s ∧ s.left = m)
      (fun s => Ended s ∨ Less m s ∨ (s.pc = .hold d f ∧ Able s ∧ s.left = m) ∨
        (f = false ∧ s.pc = .top d ∧ Able s ∧ s.left = m)) := by
  have main : ∀ s p th s', Good n s → (s.pc = .res d f ∧ Able s ∧ s.left = m) → s.mainStep n p th = some s' →
      (Ended s' ∨ Less m s' ∨ (s'.pc = .hold d f ∧ Able s' ∧ s'.left = m) ∨ (f = false ∧ s'.pc = .top d ∧ Able s' ∧ s'.left = m)) := by
    rintro s p th s' hg ⟨hp, ha, hm⟩ hs
    unfold TQ.mainStep at hs
    rw [hp] at hs
    simp only at hs
    split at hs
    · rename_i hR
      cases hs
      cases f
      · right; right; right; exact ⟨rfl, by simp [nextPc], ha, hm⟩
      · left; cases d <;> simp [Ended, nextPc]
    · cases hs; right; right; left; exact ⟨rfl, ha, hm⟩
  refine wf_main h hf ?_ ?_ main
  · rintro s l s' hg ⟨hp, ha, hm⟩ hs
    rcases step_cases (by simp [hp]) hs with ⟨p, th, hs⟩ | hs
    · exact .inr (main s p th s' hg ⟨hp, ha, hm⟩ hs)
    · rcases hs.left with ⟨h1, h2⟩ | hl
      · left; exact ⟨hs.pc.trans hp, hs.able ha, by simp only [TQ.left, h1, h2]; exact hm⟩
      · right; right; left; rw [← hm]; exact hs.less (by simp [hp, Pc.draining]) ha hl
  · rintro s hg ⟨hp, ha, hm⟩
    unfold TQ.MainEnabled TQ.mainStep
    rw [hp]
    simp only
    cases s.results <;> exact ⟨0, false, _, rfl⟩

/-- The top of the loop. -/
theorem top_leads (h : Exec n σ lab) (hf : Fair n σ lab) (hn : 0 < n) (m : Nat) (d : Bool) :
    Leads σ (fun s => s.pc = .top d ∧ Able s ∧ s.left = m)
      (fun s => Less m s ∨ ∃ f, s.pc = .res d f ∧ Able s ∧ s.left = m ∧
        (f = false → s.results ≠ [] ∨ s.tasks ≠ [] ∧ ∃ k, k < n ∧ s.work k ≠ .asleep)) := by
  have main : ∀ s p th s', Good n s → (s.pc = .top d ∧ Able s ∧ s.left = m) → s.mainStep n p th = some s' →
      (Less m s' ∨ ∃ f, s'.pc = .res d f ∧ Able s' ∧ s'.left = m ∧
        (f = false → s'.results ≠ [] ∨ s'.tasks ≠ [] ∧ ∃ k, k < n ∧ s'.work k ≠ .asleep)) := by
    rintro s p th s' hg ⟨hp, ha, hm⟩ hs
    right
    unfold TQ.mainStep at hs
    rw [hp] at hs
    simp only at hs
    split at hs
    · rename_i hc
      rw [Option.map_eq_some_iff] at hs
      obtain ⟨s1, h1, rfl⟩ := hs
      obtain ⟨k, hk, hw⟩ := notifyOne_any hn h1
      obtain ⟨w, rfl⟩ := (Woken.notifyOne h1).same
      exact ⟨_, rfl, ha, hm, fun _ => .inr ⟨hc.2, k, hk, hw⟩⟩
    · rename_i hc
      cases hs
      refine ⟨_, rfl, ha, hm, fun hff => ?_⟩
      simp at hff
      left
      have hT : s.tasks = [] := by
        by_cases he : s.empty = false
        · by_contra hT; exact hc ⟨he, hT⟩
        · exact hg.1.emt (by simpa using he)
      exact hff hT
  refine wf_main h hf ?_ ?_ main
  · rintro s l s' hg ⟨hp, ha, hm⟩ hs
    rcases step_cases (by simp [hp]) hs with ⟨p, th, hs⟩ | hs
    · exact .inr (main s p th s' hg ⟨hp, ha, hm⟩ hs)
    · rcases hs.left with ⟨h1, h2⟩ | hl
      · left; exact ⟨hs.pc.trans hp, hs.able ha, by simp only [TQ.left, h1, h2]; exact hm⟩
      · right; left; rw [← hm]; exact hs.less (by simp [hp, Pc.draining]) ha hl
  · rintro s hg ⟨hp, ha, hm⟩
    unfold TQ.MainEnabled TQ.mainStep
    rw [hp]
    simp only
    split
    · obtain ⟨p, s', h1⟩ := notifyOne_enabled n s
      exact ⟨p, false, _, by rw [h1]; rfl⟩
    · exact ⟨0, false, _, rfl⟩

/-- A worker is up and there is work: it is taken. -/
theorem awake_leads (h : Exec n σ lab) (hf : Fair n σ lab) (m k : Nat) (hk : k < n) (d : Bool) :
    Leads σ (fun s => (s.pc = .top d ∨ s.pc = .res d false) ∧ s.abort = false ∧ s.empty = false ∧ s.left = m ∧ s.results = [] ∧ s.tasks ≠ [] ∧
        s.work k = .awake) (Less m) := by
  refine wf_worker h hf hk ?_ ?_ ?_
  · rintro s l s' hg ⟨hp, ha, he, hm, hR, hT, hw⟩ hs
    have hdr : s.pc.draining = true := by rcases hp with hp | hp <;> simp [hp, Pc.draining]
    rcases step_cases (by rcases hp with hp | hp <;> simp [hp]) hs with ⟨p, th, hs⟩ | hs
    · left
      unfold TQ.mainStep at hs
      rcases hp with hp | hp
      · rw [hp] at hs
        simp only [he, hT, ne_eq, not_false_eq_true, and_self, if_true] at hs
        rw [Option.map_eq_some_iff] at hs
        obtain ⟨s1, h1, rfl⟩ := hs
        have hside := (Woken.notifyOne h1).side
        have hw1 : s1.work k = .awake := by
          rcases hside.what with ⟨-, -, -, -, h5, -⟩ | ⟨t, h5, -⟩
          · exact h5 k hw hT he ha
          · obtain ⟨w, rfl⟩ := (Woken.notifyOne h1).same
            exact absurd (congrArg List.length h5) (by simp)
        obtain ⟨w, rfl⟩ := (Woken.notifyOne h1).same
        exact ⟨by simp, ha, he, hm, hR, hT, hw1⟩
      · rw [hp] at hs
        simp only at hs
        split at hs
        · cases hs
          exact ⟨by simp [nextPc], ha, he, hm, hR, hT, hw⟩
        · rename_i hR'; rw [hR] at hR'; cases hR'
    · rcases hs.what with ⟨h1, h2, h3, h4, h5, -⟩ | hx
      · left
        exact ⟨by rw [hs.pc]; exact hp, hs.abort.trans ha, hs.empty.trans he, by simp only [TQ.left, h1, h2]; exact hm, h2.trans hR, by rw [h1]; exact hT,
          h5 k hw hT he ha⟩
      · right
        rcases hs.left with ⟨h1, h2⟩ | hl
        · obtain ⟨t, h3, -⟩ := hx
          rw [h1] at h3
          exact absurd (congrArg List.length h3) (by simp)
        · rw [← hm]; exact hs.less hdr (.inl ha) hl
  · rintro s hg ⟨hp, ha, he, hm, hR, hT, hw⟩
    have hl : s.locked = false := by rcases hp with hp | hp <;> simp [TQ.locked, hp]
    obtain ⟨t, ts, hT⟩ := List.exists_cons_of_ne_nil hT
    unfold TQ.workStep
    rw [hw]
    simp [hl, ha, he, hT]
  · rintro s s' hg ⟨hp, ha, he, hm, hR, hT, hw⟩ hs
    have hl : s.locked = false := by rcases hp with hp | hp <;> simp [TQ.locked, hp]
    have hdr : s.pc.draining = true := by rcases hp with hp | hp <;> simp [hp, Pc.draining]
    obtain ⟨t, ts, hT⟩ := List.exists_cons_of_ne_nil hT
    unfold TQ.workStep at hs
    rw [hw] at hs
    simp [hl, ha, he, hT] at hs
    cases hs
    refine ⟨hdr, .inl ha, ?_⟩
    simp [TQ.left, hT, hR, TQ.setW] at hm ⊢
    omega

/-- One round makes progress. -/
theorem round_leads (h : Exec n σ lab) (hf : Fair n σ lab) (hn : 0 < n) (m : Nat) :
    Leads σ (fun s => s.pc.draining = true ∧ Able s ∧ s.left = m) (fun s => Ended s ∨ Less m s) := by
  have hhold : ∀ d f, Leads σ (fun s => s.pc = .hold d f ∧ Able s ∧ s.left = m) (fun s => Ended s ∨ Less m s) :=
    fun d f => (hold_leads h hf m d f).trans (Leads.now fun _ h => .inr h)
  have hres' : ∀ d, Leads σ (fun s => ∃ f, s.pc = .res d f ∧ Able s ∧ s.left = m ∧
        (f = false → s.results ≠ [] ∨ s.tasks ≠ [] ∧ ∃ k, k < n ∧ s.work k ≠ .asleep)) (fun s => Ended s ∨ Less m s) := by
    rintro d i ⟨f, hp, ha, hm, hor⟩
    cases f with
    | true =>
      refine Leads.trans (R := fun s => Ended s ∨ Less m s) (res_leads h hf m d true) ?_ i ⟨hp, ha, hm⟩
      exact Leads.or (Leads.now fun _ h => .inl h) (Leads.or (Leads.now fun _ h => .inr h) (Leads.or (hhold d true) (fun i hi => by simp at hi)))
    | false =>
      have hg := h.good i
      by_cases hR : (σ i).results = []
      · obtain ⟨hT, k, hk, hw⟩ := (hor rfl).resolve_left (fun h => h hR)
        have hab : (σ i).abort = false := ha.resolve_right hT
        have hem : (σ i).empty = false := by
          by_contra hc
          exact hT (hg.1.emt (by simpa using hc))
        have hwk : (σ i).work k = .awake := by
          cases hwk : (σ i).work k with
          | asleep => exact absurd hwk hw
          | awake => rfl
          | running t =>
            have := (hg.1.run k t hwk).2.1
            rw [hR] at this; cases this
          | exited =>
            rcases hg.2 k hk hwk with h1 | h1
            · rw [hab] at h1; cases h1
            · exact absurd h1 hT
        exact Leads.trans (R := fun s => Ended s ∨ Less m s) (awake_leads h hf m k hk d) (Leads.now fun _ h => .inr h) i ⟨.inr hp, hab, hem, hm, hR, hT, hwk⟩
      · -- the owner goes on to wait for the front result
        have : Leads σ (fun s => s.pc = .res d false ∧ Able s ∧ s.left = m ∧ s.results ≠ [])
            (fun s => Less m s ∨ (s.pc = .hold d false ∧ Able s ∧ s.left = m)) := by
          have main : ∀ s p th s', Good n s → (s.pc = .res d false ∧ Able s ∧ s.left = m ∧ s.results ≠ []) → s.mainStep n p th = some s' →
              (Less m s' ∨ (s'.pc = .hold d false ∧ Able s' ∧ s'.left = m)) := by
            rintro s p th s' hg ⟨hp, ha, hm, hR⟩ hs
            unfold TQ.mainStep at hs
            rw [hp] at hs
            simp only at hs
            split at hs
            · rename_i hR'; exact absurd hR' hR
            · cases hs; exact .inr ⟨rfl, ha, hm⟩
          refine wf_main h hf ?_ ?_ main
          · rintro s l s' hg ⟨hp, ha, hm, hR⟩ hs
            rcases step_cases (by simp [hp]) hs with ⟨p, th, hs⟩ | hs
            · exact .inr (main s p th s' hg ⟨hp, ha, hm, hR⟩ hs)
            · rcases hs.left with ⟨h1, h2⟩ | hl
              · left; exact ⟨hs.pc.trans hp, hs.able ha, by simp only [TQ.left, h1, h2]; exact hm, by rw [h2]; exact hR⟩
              · right; left; rw [← hm]; exact hs.less (by simp [hp, Pc.draining]) ha hl
          · rintro s hg ⟨hp, ha, hm, hR⟩
            unfold TQ.MainEnabled TQ.mainStep
            rw [hp]
            simp only
            cases s.results <;> exact ⟨0, false, _, rfl⟩
        exact Leads.trans (R := fun s => Ended s ∨ Less m s) this (Leads.or (Leads.now fun _ h => .inr h) (hhold d false)) i ⟨hp, ha, hm, hR⟩
  have htop : ∀ d, Leads σ (fun s => s.pc = .top d ∧ Able s ∧ s.left = m) (fun s => Ended s ∨ Less m s) := fun d =>
    (top_leads h hf hn m d).trans (Leads.or (Leads.now fun _ h => .inr h) (hres' d))
  rintro i ⟨hp, ha, hm⟩
  cases hpc : (σ i).pc with
  | top d => exact htop d i ⟨hpc, ha, hm⟩
  | hold d f => exact hhold d f i ⟨hpc, ha, hm⟩
  | res d f =>
    refine Leads.trans (R := fun s => Ended s ∨ Less m s) (res_leads h hf m d f) ?_ i ⟨hpc, ha, hm⟩
    refine Leads.or (Leads.now fun _ h => .inl h) (Leads.or (Leads.now fun _ h => .inr h) (Leads.or (hhold d f) ?_))
    exact (Leads.now fun _ h => h.2).trans (htop d)
  | call t k =>
    rcases k with _ | k
    · rw [hpc] at hp; simp [Pc.draining] at hp
    · refine Leads.trans (R := fun s => Ended s ∨ Less m s) (call_leads h hf m t k) ?_ i ⟨hpc, ha, hm⟩
      refine Leads.or (Leads.now fun _ h => .inl h) (Leads.or (Leads.now fun _ h => .inr h) ?_)
      rintro i ⟨d, hi⟩
      exact htop d i hi
  | idle => rw [hpc] at hp; simp [Pc.draining] at hp
  | tryRes => rw [hpc] at hp; simp [Pc.draining] at hp
  | kill => rw [hpc] at hp; simp [Pc.draining] at hp
  | join => rw [hpc] at hp; simp [Pc.draining] at hp
  | gone => rw [hpc] at hp; simp [Pc.draining] at hp

theorem drain_leads (h : Exec n σ lab) (hf : Fair n σ lab) (hn : 0 < n) : ∀ m,
    Leads σ (fun s => s.pc.draining = true ∧ Able s ∧ s.left = m) Ended := by
  intro m
  induction m using Nat.strongRecOn with
  | _ m ih =>
    refine (round_leads h hf hn m).trans (Leads.or (Leads.now fun _ h => h) ?_)
    rintro i ⟨hp, ha, hl⟩
    exact ih _ hl i ⟨hp, ha, rfl⟩

/-- `result(false)` returns. -/
theorem call_none_leads (h : Exec n σ lab) (hf : Fair n σ lab) (t : Nat) : Leads σ (fun s => s.pc = .call t none) Ended := by
  have main : ∀ s p th s', Good n s → s.pc = .call t none → s.mainStep n p th = some s' → Ended s' := by
    intro s p th s' hg hp hs
    unfold TQ.mainStep at hs
    rw [hp] at hs
    simp only at hs
    split at hs <;> (cases hs; simp [Ended, thrownPc, nextPc])
  refine wf_main h hf ?_ ?_ main
  · intro s l s' hg hp hs
    rcases step_cases (by simp [hp]) hs with ⟨p, th, hs⟩ | hs
    · exact .inr (main s p th s' hg hp hs)
    · exact .inl (hs.pc.trans hp)
  · intro s hg hp
    unfold TQ.MainEnabled TQ.mainStep
    rw [hp]
    exact ⟨0, false, _, rfl⟩

theorem try_leads (h : Exec n σ lab) (hf : Fair n σ lab) : Leads σ (fun s => s.pc = .tryRes) Ended := by
  have main : ∀ s p th s', Good n s → s.pc = .tryRes → s.mainStep n p th = some s' → (Ended s' ∨ ∃ t, s'.pc = .call t none) := by
    intro s p th s' hg hp hs
    unfold TQ.mainStep at hs
    rw [hp] at hs
    simp only at hs
    split at hs
    · cases hs; simp [Ended]
    · split at hs
      · cases hs; unfold TQ.take; split
        · left; simp [Ended, nextPc]
        · right; exact ⟨_, rfl⟩
      · cases hs; simp [Ended]
  refine Leads.trans (wf_main h hf ?_ ?_ main) (Leads.or (Leads.now fun _ h => h) ?_)
  · intro s l s' hg hp hs
    rcases step_cases (by simp [hp]) hs with ⟨p, th, hs⟩ | hs
    · exact .inr (main s p th s' hg hp hs)
    · exact .inl (hs.pc.trans hp)
  · intro s hg hp
    unfold TQ.MainEnabled TQ.mainStep
    rw [hp]
    simp only
    cases hR : s.results with
    | nil => exact ⟨0, false, _, rfl⟩
    | cons t rs => simp only; split <;> exact ⟨0, false, _, rfl⟩
  · rintro i ⟨t, hi⟩; exact call_none_leads h hf t i hi

/-- The destructor waits for the tasks to be taken. -/
theorem kill_leads (h : Exec n σ lab) (hf : Fair n σ lab) (hn : 0 < n) : ∀ m,
    Leads σ (fun s => s.pc = .kill ∧ Able s ∧ s.tasks.length = m) (fun s => s.pc = .join) := by
  intro m
  induction m with
  | zero =>
    have main : ∀ s p th s', Good n s → (s.pc = .kill ∧ s.tasks = []) → s.mainStep n p th = some s' → s'.pc = .join := by
      rintro s p th s' hg ⟨hp, hT⟩ hs
      unfold TQ.mainStep at hs
      rw [hp] at hs
      have hem := hg.1.emp
      simp [hp, Pc.joined] at hem
      simp [hT, hem] at hs
      cases hs; rfl
    refine Leads.trans (Q := fun s => s.pc = .kill ∧ s.tasks = []) (Leads.now fun s hs => ⟨hs.1, by simpa using hs.2.2⟩) (wf_main h hf ?_ ?_ main)
    · rintro s l s' hg ⟨hp, hT⟩ hs
      rcases step_cases (by simp [hp]) hs with ⟨p, th, hs⟩ | hs
      · exact .inr (main s p th s' hg ⟨hp, hT⟩ hs)
      · left
        refine ⟨hs.pc.trans hp, ?_⟩
        rcases hs.what with ⟨h1, -⟩ | ⟨t, h1, -⟩
        · exact h1.trans hT
        · rw [hT] at h1; cases h1
    · rintro s hg ⟨hp, hT⟩
      have hem := hg.1.emp
      simp [hp, Pc.joined] at hem
      unfold TQ.MainEnabled TQ.mainStep
      rw [hp]
      simp only [hT, hem, if_true, Bool.false_eq_true, if_false]
      exact ⟨0, false, _, rfl⟩
  | succ m ih =>
    let K : TQ → Prop := fun s => s.pc = .kill ∧ s.abort = false ∧ s.tasks.length = m + 1
    let L : TQ → Prop := fun s => s.pc = .kill ∧ Able s ∧ s.tasks.length = m
    have key : ∀ s p th s', Good n s → K s → s.mainStep n p th = some s' → K s' ∧ s' = s.notifyAll := by
      rintro s p th s' hg ⟨hp, ha, hT⟩ hs
      unfold TQ.mainStep at hs
      rw [hp] at hs
      have : s.tasks ≠ [] := by intro h; rw [h] at hT; cases hT
      simp only [this, if_false] at hs
      cases hs
      exact ⟨⟨hp, ha, hT⟩, rfl⟩
    have side : ∀ s s', K s → Side s s' → L s' ∨ K s' ∧ (∀ k t, s.work k = .running t → s'.work k = .running t ∨ s'.work k = .awake) ∧
        (s.empty = false → ∀ k, s.work k = .awake → s'.work k = .awake) := by
      rintro s s' ⟨hp, ha, hT⟩ hs
      have hne : s.tasks ≠ [] := by intro h; rw [h] at hT; cases hT
      rcases hs.what with ⟨h1, h2, h3, h4, h5, -⟩ | ⟨t, h1, -⟩
      · right
        refine ⟨⟨hs.pc.trans hp, hs.abort.trans ha, by rw [h1]; exact hT⟩, fun k t hk => ?_, fun he k hk => h5 k hk hne he ha⟩
        rcases h4 k t hk with h | h
        · exact .inl h
        · exact .inr h.2
      · left
        refine ⟨hs.pc.trans hp, .inl (hs.abort.trans ha), ?_⟩
        rw [h1] at hT; simpa using hT
    have enabled : ∀ s, Good n s → K s → s.MainEnabled n := by
      rintro s hg ⟨hp, ha, hT⟩
      have : s.tasks ≠ [] := by intro h; rw [h] at hT; cases hT
      exact ⟨0, false, s.notifyAll, by unfold TQ.mainStep; rw [hp]; simp only [this, if_false]⟩
    have emp : ∀ s, Good n s → K s → s.empty = false := by
      rintro s hg ⟨hp, -, -⟩
      have hem := hg.1.emp
      simpa [hp, Pc.joined] using hem
    have keepR : ∀ (s : TQ) (k t : Nat), s.work k = .running t → s.notifyAll.work k = .running t := by
      intro s k t hw; simp [TQ.notifyAll, hw]
    have keepA : ∀ (s : TQ) (k : Nat), s.work k = .awake → s.notifyAll.work k = .awake := by
      intro s k hw; simp [TQ.notifyAll, hw]
    -- worker 0 awake takes a task
    have l3 : Leads σ (fun s => K s ∧ s.work 0 = .awake) L := by
      refine wf_worker h hf hn ?_ ?_ ?_
      · rintro s l s' hg ⟨hK, hw⟩ hs
        rcases step_cases (by simp [hK.1]) hs with ⟨p, th, hs⟩ | hs
        · obtain ⟨h1, rfl⟩ := key s p th s' hg hK hs
          exact .inl ⟨h1, keepA s 0 hw⟩
        · rcases side s s' hK hs with h1 | ⟨h1, -, h2⟩
          · exact .inr h1
          · exact .inl ⟨h1, h2 (emp s hg hK) 0 hw⟩
      · rintro s hg ⟨hK, hw⟩
        have hem := emp s hg hK
        obtain ⟨hp, ha, hT⟩ := hK
        have : s.tasks ≠ [] := by intro h; rw [h] at hT; cases hT
        obtain ⟨t, ts, hT⟩ := List.exists_cons_of_ne_nil this
        unfold TQ.workStep
        rw [hw]
        simp [TQ.locked, hp, ha, hem, hT]
      · rintro s s' hg ⟨hK, hw⟩ hs
        have hem := emp s hg hK
        obtain ⟨hp, ha, hT'⟩ := hK
        have : s.tasks ≠ [] := by intro h; rw [h] at hT'; cases hT'
        obtain ⟨t, ts, hT⟩ := List.exists_cons_of_ne_nil this
        unfold TQ.workStep at hs
        rw [hw] at hs
        simp [TQ.locked, hp, ha, hem, hT] at hs
        cases hs
        refine ⟨hp, .inl ha, ?_⟩
        rw [hT] at hT'
        simpa using hT'
    -- worker 0 running finishes
    have l2 : ∀ t, Leads σ (fun s => K s ∧ s.work 0 = .running t) L := by
      intro t
      refine Leads.trans (Q := fun s => L s ∨ (K s ∧ s.work 0 = .awake)) ?_ (Leads.or (Leads.now fun _ h => h) l3)
      refine wf_worker h hf hn ?_ ?_ ?_
      · rintro s l s' hg ⟨hK, hw⟩ hs
        rcases step_cases (by simp [hK.1]) hs with ⟨p, th, hs⟩ | hs
        · obtain ⟨h1, rfl⟩ := key s p th s' hg hK hs
          exact .inl ⟨h1, keepR s 0 t hw⟩
        · rcases side s s' hK hs with h1 | ⟨h1, h2, -⟩
          · exact .inr (.inl h1)
          · rcases h2 0 t hw with h3 | h3
            · exact .inl ⟨h1, h3⟩
            · exact .inr (.inr ⟨h1, h3⟩)
      · rintro s hg ⟨hK, hw⟩
        unfold TQ.workStep; rw [hw]; simp
      · rintro s s' hg ⟨hK, hw⟩ hs
        unfold TQ.workStep at hs
        rw [hw] at hs
        cases hs
        right
        exact ⟨hK, by simp [TQ.setW]⟩
    -- whatever worker 0 is doing
    have l1 : Leads σ K L := by
      have notAsleep : Leads σ (fun s => K s ∧ s.work 0 ≠ .asleep) L := by
        rintro i ⟨hK, hw⟩
        cases hw0 : (σ i).work 0 with
        | asleep => exact absurd hw0 hw
        | awake => exact l3 i ⟨hK, hw0⟩
        | running t => exact l2 t i ⟨hK, hw0⟩
        | exited =>
          rcases (h.good i).2 0 hn hw0 with h1 | h1
          · rw [hK.2.1] at h1; cases h1
          · have := hK.2.2; rw [h1] at this; cases this
      refine Leads.trans (Q := fun s => L s ∨ (K s ∧ s.work 0 ≠ .asleep)) ?_ (Leads.or (Leads.now fun _ h => h) notAsleep)
      have main : ∀ s p th s', Good n s → K s → s.mainStep n p th = some s' → L s' ∨ (K s' ∧ s'.work 0 ≠ .asleep) := by
        intro s p th s' hg hK hs
        obtain ⟨h1, rfl⟩ := key s p th s' hg hK hs
        refine .inr ⟨h1, ?_⟩
        simp only [TQ.notifyAll]
        split <;> simp_all
      refine wf_main h hf ?_ enabled main
      intro s l s' hg hK hs
      rcases step_cases (by simp [hK.1]) hs with ⟨p, th, hs⟩ | hs
      · exact .inr (main s p th s' hg hK hs)
      · rcases side s s' hK hs with h1 | ⟨h1, h2, -⟩
        · exact .inr (.inl h1)
        · exact .inl h1
    refine Leads.trans (Q := K) (Leads.now ?_) (l1.trans ih)
    rintro s ⟨hp, ha, hT⟩
    refine ⟨hp, ha.resolve_right ?_, hT⟩
    intro h; rw [h] at hT; cases hT

/-- The destructor waits for the threads. -/
theorem join_leads (h : Exec n σ lab) (hf : Fair n σ lab) :
    Leads σ (fun s => s.pc = .join) (fun s => s.pc.draining = true ∧ Able s) := by
  let T : TQ → Prop := fun s => s.pc.draining = true ∧ Able s
  let J : Nat → TQ → Prop := fun c s => s.pc = .join ∧ ∀ k, k < c → s.work k = .exited
  have main : ∀ s p th s', Good n s → s.pc = .join → s.mainStep n p th = some s' → T s' := by
    intro s p th s' hg hp hs
    have hem := hg.1.emp
    simp [hp] at hem
    have hT := hg.1.emt hem
    unfold TQ.mainStep at hs
    rw [hp] at hs
    simp only at hs
    split at hs
    · cases hs; exact ⟨rfl, .inr hT⟩
    · cases hs
  have side : ∀ s s', Good n s → s.pc = .join → Side s s' → s'.pc = .join ∧ (∀ k, s.work k = .exited → s'.work k = .exited) ∧
      ∀ k t, s.work k = .running t → s'.work k = .running t ∨ s'.work k = .awake := by
    intro s s' hg hp hs
    have hem := hg.1.emp
    simp [hp] at hem
    have hT := hg.1.emt hem
    refine ⟨hs.pc.trans hp, ?_⟩
    rcases hs.what with ⟨-, -, -, h4, -, -, h7⟩ | ⟨t, h1, -⟩
    · exact ⟨h7, fun k t hk => (h4 k t hk).imp id And.right⟩
    · rw [hT] at h1; cases h1
  have exitStep : ∀ s k s', Good n s → s.pc = .join → s.work k = .awake → s.workStep k = some s' → s' = s.setW k .exited := by
    intro s k s' hg hp hw hs
    have hem := hg.1.emp
    simp [hp] at hem
    unfold TQ.workStep at hs
    rw [hw] at hs
    simp [TQ.locked, hp, hem] at hs
    exact hs.symm
  have all : ∀ c, c ≤ n → Leads σ (fun s => s.pc = .join) (fun s => T s ∨ J c s) := by
    intro c
    induction c with
    | zero => exact fun _ => Leads.now fun s hs => .inr ⟨hs, by simp⟩
    | succ c ih =>
      intro hc
      refine (ih (by omega)).trans (Leads.or (Leads.now fun _ h => .inl h) ?_)
      have done : Leads σ (fun s => J c s ∧ s.work c = .exited) (fun s => T s ∨ J (c + 1) s) := by
        refine Leads.now fun s hs => .inr ⟨hs.1.1, fun k hk => ?_⟩
        rcases Nat.lt_succ_iff_lt_or_eq.1 hk with h | h
        · exact hs.1.2 k h
        · rw [h]; exact hs.2
      have aw : Leads σ (fun s => J c s ∧ s.work c = .awake) (fun s => T s ∨ J (c + 1) s) := by
        refine Leads.trans (Q := fun s => T s ∨ (J c s ∧ s.work c = .exited)) ?_ (Leads.or (Leads.now fun _ h => .inl h) done)
        have wk : ∀ s k s', Good n s → (J c s ∧ s.work c = .awake) → s.work k = .awake → s.workStep k = some s' →
            (J c s' ∧ s'.work c = .awake) ∨ (J c s' ∧ s'.work c = .exited) := by
          rintro s k s' hg ⟨hJ, hw⟩ hk hs
          rw [exitStep s k s' hg hJ.1 hk hs]
          by_cases hkc : k = c
          · right
            refine ⟨⟨hJ.1, fun j hj => ?_⟩, by simp [TQ.setW, hkc]⟩
            simp only [TQ.setW]; split
            · rfl
            · exact hJ.2 j hj
          · left
            refine ⟨⟨hJ.1, fun j hj => ?_⟩, by simp [TQ.setW, Ne.symm hkc, hw]⟩
            simp only [TQ.setW]; split
            · rfl
            · exact hJ.2 j hj
        refine wf_worker h hf (k := c) (by omega) ?_ ?_ ?_
        · rintro s l s' hg ⟨hJ, hw⟩ hs
          cases l with
          | worker k =>
            simp only [TQ.step] at hs
            split at hs
            · rename_i hk
              cases hwk : s.work k with
              | asleep => unfold TQ.workStep at hs; rw [hwk] at hs; cases hs
              | exited => unfold TQ.workStep at hs; rw [hwk] at hs; cases hs
              | awake =>
                rcases wk s k s' hg ⟨hJ, hw⟩ hwk hs with h1 | h1
                · exact .inl h1
                · exact .inr (.inr h1)
              | running t =>
                left
                have h2 := side s s' hg hJ.1 (work_side hs)
                refine ⟨⟨h2.1, fun j hj => h2.2.1 j (hJ.2 j hj)⟩, ?_⟩
                unfold TQ.workStep at hs
                rw [hwk] at hs
                cases hs
                have : c ≠ k := by rintro rfl; rw [hw] at hwk; cases hwk
                simp [TQ.setW, this, hw]
            · cases hs
          | spurious k =>
            simp only [TQ.step] at hs
            split at hs
            · rename_i hk
              cases hs
              left
              have h2 := side s _ hg hJ.1 (Woken.setW hk.2).side
              refine ⟨⟨h2.1, fun j hj => h2.2.1 j (hJ.2 j hj)⟩, ?_⟩
              simp [TQ.setW, hw]
            · cases hs
          | main p th => exact .inr (.inl (main s p th s' hg hJ.1 hs))
          | enqueue t p => simp [TQ.step, hJ.1] at hs
          | drain => simp [TQ.step, hJ.1] at hs
          | single => simp [TQ.step, hJ.1] at hs
          | destroy => simp [TQ.step, hJ.1] at hs
        · rintro s hg ⟨hJ, hw⟩
          have hem := hg.1.emp
          simp [hJ.1] at hem
          unfold TQ.workStep
          rw [hw]
          simp [TQ.locked, hJ.1, hem]
        · rintro s s' hg ⟨hJ, hw⟩ hs
          right
          rw [exitStep s c s' hg hJ.1 hw hs]
          refine ⟨⟨hJ.1, fun j hj => ?_⟩, by simp [TQ.setW]⟩
          simp only [TQ.setW]; split
          · rfl
          · exact hJ.2 j hj
      have rn : ∀ t, Leads σ (fun s => J c s ∧ s.work c = .running t) (fun s => T s ∨ J (c + 1) s) := by
        intro t
        refine Leads.trans (Q := fun s => T s ∨ (J c s ∧ s.work c = .awake)) ?_ (Leads.or (Leads.now fun _ h => .inl h) aw)
        refine wf_worker h hf (k := c) (by omega) ?_ ?_ ?_
        · rintro s l s' hg ⟨hJ, hw⟩ hs
          rcases step_cases (by simp [hJ.1]) hs with ⟨p, th, hs⟩ | hs
          · exact .inr (.inl (main s p th s' hg hJ.1 hs))
          · have h2 := side s s' hg hJ.1 hs
            have hJ' : J c s' := ⟨h2.1, fun j hj => h2.2.1 j (hJ.2 j hj)⟩
            rcases h2.2.2 c t hw with h3 | h3
            · exact .inl ⟨hJ', h3⟩
            · exact .inr (.inr ⟨hJ', h3⟩)
        · rintro s hg ⟨hJ, hw⟩
          unfold TQ.workStep; rw [hw]; simp
        · rintro s s' hg ⟨hJ, hw⟩ hs
          have h2 := side s s' hg hJ.1 (work_side hs)
          right
          refine ⟨⟨h2.1, fun j hj => h2.2.1 j (hJ.2 j hj)⟩, ?_⟩
          unfold TQ.workStep at hs
          rw [hw] at hs
          cases hs
          simp [TQ.setW]
      intro i hJ
      cases hw : (σ i).work c with
      | asleep =>
        have hem := (h.good i).1.emp
        simp [hJ.1] at hem
        exact absurd hw ((h.good i).1.nap hem c (by omega))
      | awake => exact aw i ⟨hJ, hw⟩
      | running t => exact rn t i ⟨hJ, hw⟩
      | exited => exact done i ⟨hJ, hw⟩
  refine (all n (Nat.le_refl n)).trans (Leads.or (Leads.now fun _ h => h) ?_)
  refine wf_main h hf ?_ ?_ (fun s p th s' hg hJ hs => main s p th s' hg hJ.1 hs)
  · intro s l s' hg hJ hs
    rcases step_cases (by simp [hJ.1]) hs with ⟨p, th, hs⟩ | hs
    · exact .inr (main s p th s' hg hJ.1 hs)
    · have h2 := side s s' hg hJ.1 hs
      exact .inl ⟨h2.1, fun j hj => h2.2.1 j (hJ.2 j hj)⟩
  · intro s hg hJ
    unfold TQ.MainEnabled TQ.mainStep
    rw [hJ.1]
    simp only [if_pos hJ.2]
    exact ⟨0, false, _, rfl⟩

/-- Every call returns. -/
theorem call_returns (h : Exec n σ lab) (hf : Fair n σ lab) (hn : 0 < n) (i : Nat) (ha : Able (σ i)) :
    ∃ j, i ≤ j ∧ Ended (σ j) := by
  have dl : Leads σ (fun s => s.pc.draining = true ∧ Able s) Ended := by
    rintro i ⟨h1, h2⟩
    exact drain_leads h hf hn _ i ⟨h1, h2, rfl⟩
  cases hp : (σ i).pc with
  | idle => exact ⟨i, Nat.le_refl i, .inl hp⟩
  | gone => exact ⟨i, Nat.le_refl i, .inr hp⟩
  | tryRes => exact try_leads h hf i hp
  | top d => exact dl i ⟨by simp [hp, Pc.draining], ha⟩
  | res d f => exact dl i ⟨by simp [hp, Pc.draining], ha⟩
  | hold d f => exact dl i ⟨by simp [hp, Pc.draining], ha⟩
  | call t k =>
    rcases k with _ | k
    · exact call_none_leads h hf t i hp
    · exact dl i ⟨by simp [hp, Pc.draining], ha⟩
  | kill => exact ((kill_leads h hf hn _).trans ((join_leads h hf).trans dl)) i ⟨hp, ha, rfl⟩
  | join => exact ((join_leads h hf).trans dl) i hp

end

end OP.Par
