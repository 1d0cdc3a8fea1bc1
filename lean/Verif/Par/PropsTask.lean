import Verif.Par.TaskDrain
/-!
# Properties of the task queue
-/
namespace OP.Par

/-- The tasks handed to `enqueue`, in order. -/
def calls (ls : List Lab) : List Nat := ls.filterMap fun
  | .enqueue t _ => some t
  | _ => none

theorem main_flags {n : Nat} {s s' : TQ} {p : Nat} {th : Bool} (h : s.mainStep n p th = some s') :
    s'.sub = s.sub ∧ s'.exiting = s.exiting ∧ (s.abort = true → s'.abort = true) := by
  unfold TQ.mainStep at h
  have tk : ∀ t rs k, (s.take t rs k).sub = s.sub ∧ (s.take t rs k).exiting = s.exiting ∧ (s.abort = true → (s.take t rs k).abort = true) := by
    intro t rs k; unfold TQ.take; split <;> exact ⟨rfl, rfl, id⟩
  split at h
  · cases h
  · cases h
  · split at h
    · cases h; exact ⟨rfl, rfl, id⟩
    · split at h <;> cases h
      · exact tk _ _ _
      · exact ⟨rfl, rfl, id⟩
  · split at h <;> cases h
    · exact ⟨rfl, rfl, fun _ => rfl⟩
    · exact ⟨rfl, rfl, id⟩
  · simp only at h
    split at h
    · rw [Option.map_eq_some_iff] at h
      obtain ⟨s1, h1, rfl⟩ := h
      obtain ⟨w, rfl⟩ := (Woken.notifyOne h1).same
      exact ⟨rfl, rfl, id⟩
    · cases h; exact ⟨rfl, rfl, id⟩
  · split at h <;> (cases h; exact ⟨rfl, rfl, id⟩)
  · split at h
    · cases h
    · split at h <;> cases h
      exact tk _ _ _
  · split at h
    · split at h <;> (cases h; exact ⟨rfl, rfl, id⟩)
    · cases h; exact ⟨rfl, rfl, id⟩
  · split at h <;> cases h
    exact ⟨rfl, rfl, id⟩

theorem work_flags {s s' : TQ} {k : Nat} (h : s.workStep k = some s') :
    s'.sub = s.sub ∧ s'.exiting = s.exiting ∧ s'.abort = s.abort := by
  unfold TQ.workStep at h
  repeat' split at h
  all_goals cases h
  all_goals exact ⟨rfl, rfl, rfl⟩

theorem step_sub {n : Nat} {s s' : TQ} {l : Lab} (hi : Inv n s) (h : s.step n l = some s') :
    (s'.sub = s.sub ++ calls [l] ∨ s'.sub = s.sub ∧ (s'.abort = true ∨ s'.exiting = true)) ∧
      (s.abort = true → s'.abort = true) ∧ (s.exiting = true → s'.exiting = true) := by
  cases l with
  | enqueue t p =>
    simp only [TQ.step] at h
    split at h
    · rename_i hc
      have hem : s.empty = false := by rw [hi.emp, hc.1]; simp [Pc.joined]
      unfold TQ.enqueue at h
      split at h
      · rename_i hd
        cases h
        simp [hem] at hd
        exact ⟨.inr ⟨rfl, hd.symm⟩, id, id⟩
      · split at h
        · cases h; exact ⟨.inl rfl, id, id⟩
        · rw [Option.map_eq_some_iff] at h
          obtain ⟨s1, h1, rfl⟩ := h
          obtain ⟨w, rfl⟩ := (Woken.notifyOne h1).same
          exact ⟨.inl rfl, id, id⟩
    · cases h
  | drain =>
    simp only [TQ.step] at h
    split at h <;> cases h
    exact ⟨.inl (by simp [calls]), id, id⟩
  | single =>
    simp only [TQ.step] at h
    split at h <;> cases h
    exact ⟨.inl (by simp [calls]), id, id⟩
  | destroy =>
    simp only [TQ.step] at h
    split at h
    · split at h <;> cases h
      · exact ⟨.inl (by simp [calls]), id, id⟩
      · exact ⟨.inl (by simp [calls]), id, fun _ => rfl⟩
    · cases h
  | main p th =>
    obtain ⟨h1, h2, h3⟩ := main_flags h
    exact ⟨.inl (by simp [calls, h1]), h3, fun h => h2.trans h⟩
  | worker k =>
    simp only [TQ.step] at h
    split at h
    · obtain ⟨h1, h2, h3⟩ := work_flags h
      exact ⟨.inl (by simp [calls, h1]), fun h => h3.trans h, fun h => h2.trans h⟩
    · cases h
  | spurious k =>
    simp only [TQ.step] at h
    split at h <;> cases h
    exact ⟨.inl (by simp [calls, TQ.setW]), id, id⟩

theorem run_sub {n : Nat} : ∀ {ls : List Lab} {s s' : TQ}, Inv n s → s.run n ls = some s' →
    ∃ a, s'.sub = s.sub ++ a ∧ List.Sublist a (calls ls) ∧ (s'.abort = false → s'.exiting = false → a = calls ls) ∧
      (s.abort = true → s'.abort = true) ∧ (s.exiting = true → s'.exiting = true)
  | [], s, s', _, h => by cases h; exact ⟨[], by simp, by simp, fun _ _ => rfl, id, id⟩
  | l :: ls, s, s', hi, h => by
    simp only [TQ.run, Option.bind_eq_some_iff] at h
    obtain ⟨s1, h1, h2⟩ := h
    obtain ⟨g1, g2, g3⟩ := step_sub hi h1
    obtain ⟨a, e1, e2, e3, e4, e5⟩ := run_sub (inv_step hi h1) h2
    have hc : calls (l :: ls) = calls [l] ++ calls ls := by
      rw [show l :: ls = [l] ++ ls from rfl]; unfold calls; rw [List.filterMap_append]
    rw [hc]
    rcases g1 with g1 | ⟨g1, g4⟩
    · exact ⟨calls [l] ++ a, by rw [e1, g1, List.append_assoc], (List.Sublist.refl _).append e2,
        fun ha he => by rw [e3 ha he], fun h => e4 (g2 h), fun h => e5 (g3 h)⟩
    · refine ⟨a, by rw [e1, g1], e2.trans (List.sublist_append_right _ _), fun ha he => ?_, fun h => e4 (g2 h), fun h => e5 (g3 h)⟩
      rcases g4 with g4 | g4
      · rw [e4 g4] at ha; cases ha
      · rw [e5 g4] at he; cases he

/-- **C27.**  For any number of threads and any interleaving, whatever throws: the accepted tasks are a
subsequence of the calls of `enqueue` (all of them while nothing has failed and the queue lives), tasks are
started once each and in order, results are delivered once each, in order, and only after the task ran; and a drain
that returns without an exception on a queue that has not failed has delivered everything. -/
theorem C27_exactly_once {n : Nat} {ls : List Lab} {s : TQ} (h : TQ.init.run n ls = some s) :
    (List.Sublist s.sub (calls ls) ∧ (s.abort = false → s.exiting = false → s.sub = calls ls)) ∧
    s.sub.Nodup ∧ s.ran <+: s.sub ∧ s.dlv <+: s.sub ∧
    (∀ t ∈ s.dlv, t ∈ s.ran ∧ s.ready t = true) ∧
    (∀ t, s.ready t = true → t ∈ s.ran) ∧
    (∀ l s', s.step n l = some s' → s.pc.draining = true → s'.pc = .idle ∨ s'.pc = .gone → s'.abort = false →
      s'.dlv = s'.sub ∧ s'.ran = s'.sub) := by
  have hi := inv_run (init_inv n) h
  obtain ⟨a, e1, e2, e3, -, -⟩ := run_sub (init_inv n) h
  simp only [TQ.init, List.nil_append] at e1
  subst e1
  refine ⟨⟨e2, e3⟩, hi.nodup, ⟨s.tasks, hi.ran_eq.symm⟩, ?_, ?_, hi.rdy, ?_⟩
  · refine ⟨s.dropped ++ s.pc.hand ++ s.results ++ s.tasks, ?_⟩
    conv_rhs => rw [hi.sub_eq]
    simp
  · exact fun t ht => ⟨hi.rdy t (hi.dlvd t (by simp [ht])), hi.dlvd t (by simp [ht])⟩
  · intro l s' hs hd hpc hab
    have hi' := inv_step hi hs
    have hne : s.pc ≠ .idle := by intro h; rw [h] at hd; simp [Pc.draining] at hd
    have hdr : s'.dropped = [] := by
      by_contra hc
      rw [hi'.drop hc] at hab; cases hab
    have hh : s'.pc.hand = [] := by rcases hpc with h | h <;> rw [h] <;> rfl
    suffices hz : s'.tasks = [] ∧ s'.results = [] by
      have h1 := hi'.sub_eq
      have h2 := hi'.ran_eq
      rw [hdr, hh, hz.1, hz.2] at h1
      rw [hz.1] at h2
      exact ⟨by simpa using h1.symm, by simpa using h2.symm⟩
    rcases step_cases hne hs with ⟨p, th, hm⟩ | hside
    · unfold TQ.mainStep at hm
      cases hp : s.pc with
      | idle => exact absurd hp hne
      | gone => rw [hp] at hd; simp [Pc.draining] at hd
      | tryRes => rw [hp] at hd; simp [Pc.draining] at hd
      | kill => rw [hp] at hd; simp [Pc.draining] at hd
      | join => rw [hp] at hd; simp [Pc.draining] at hd
      | top d =>
        rw [hp] at hm
        simp only at hm
        split at hm
        · rw [Option.map_eq_some_iff] at hm
          obtain ⟨s1, -, rfl⟩ := hm
          simp at hpc
        · cases hm; simp at hpc
      | res d f =>
        rw [hp] at hm
        simp only at hm
        split at hm
        · cases hm
          cases f
          · simp [nextPc] at hpc
          · exact hi.fin d (.inl hp)
        · cases hm; simp at hpc
      | hold d f =>
        rw [hp] at hm
        simp only at hm
        split at hm
        · cases hm
        · rename_i t rs hR
          split at hm
          · cases hm
            have : f = false := by
              by_contra hc
              have hc : f = true := by simpa using hc
              rw [hc] at hp
              have := (hi.fin d (.inr hp)).2
              rw [hR] at this; cases this
            subst this
            unfold TQ.take at hpc
            split at hpc <;> simp [nextPc] at hpc
          · cases hm
      | call t k =>
        rw [hp] at hm
        simp only at hm
        split at hm
        · cases hm; cases hab
        · cases hm
          rcases k with _ | ⟨d, f⟩
          · rw [hp] at hd; simp [Pc.draining] at hd
          · cases f
            · simp [nextPc] at hpc
            · exact absurd rfl ((hi.hand _ _ hp).2.2 d)
    · exfalso
      rw [hside.pc] at hpc
      rcases hpc with h | h
      · exact hne h
      · rw [h] at hd; simp [Pc.draining] at hd

/-- Two workers, three tasks, out of order completion, then a drain. -/
def schedule : List Lab :=
  [.worker 0, .enqueue 7 0, .enqueue 8 0, .worker 0, .worker 1, .worker 1, .enqueue 9 0, .main 0 false, .drain,
    .main 0 false, .main 0 false, .worker 0, .main 0 false, .main 0 false, .main 0 false, .main 0 false, .main 0 false, .main 0 false, .worker 1,
    .main 0 false, .main 0 false, .worker 1, .main 0 false, .main 0 false, .main 0 false, .main 0 false, .worker 0, .worker 1]

example : (TQ.init.run 2 schedule).map (fun s => (s.sub, s.ran, s.dlv, s.pc, s.work 0, s.work 1)) =
    some ([7, 8, 9], [7, 8, 9], [7, 8, 9], .idle, .asleep, .asleep) := by decide +kernel

/-- **C28, the part that holds.**  In every fair execution of a queue with at least one thread, every call
(`enqueue`, `drain`, `force_single_threaded`, the destructor) returns or throws, provided the queue has not failed or has
no task left.  What is missing: after a failure with tasks left, see below. -/
theorem C28_calls_return_partial {n : Nat} {σ : Nat → TQ} {lab : Nat → Option Lab} (h : Exec n σ lab) (hf : Fair n σ lab) (hn : 0 < n)
    (i : Nat) (ha : (σ i).abort = false ∨ (σ i).tasks = []) :
    ∃ j, i ≤ j ∧ ((σ j).pc = .idle ∨ (σ j).pc = .gone) :=
  call_returns h hf hn i ha

/-- A finite schedule that ends with nothing to do is a fair execution. -/
theorem run_fair {n : Nat} {ls : List Lab} {s : TQ} (h : TQ.init.run n ls = some s) (hp : s.pc = .idle) (hw : ∀ k, k < n → s.work k = .asleep) :
    Exec n (fun i => (TQ.init.run n (ls.take i)).getD s) (fun i => ls[i]?) ∧
      Fair n (fun i => (TQ.init.run n (ls.take i)).getD s) (fun i => ls[i]?) := by
  have app : ∀ (a b : List Lab) (s0 : TQ), s0.run n (a ++ b) = (s0.run n a).bind fun s => s.run n b := by
    intro a
    induction a with
    | nil => intro b s0; rfl
    | cons l a ih =>
      intro b s0
      simp only [List.cons_append, TQ.run]
      cases s0.step n l with
      | none => rfl
      | some s1 => exact ih b s1
  have pre : ∀ i, ∃ s', TQ.init.run n (ls.take i) = some s' := by
    intro i
    have := app (ls.take i) (ls.drop i) TQ.init
    rw [List.take_append_drop, h] at this
    cases hr : TQ.init.run n (ls.take i) with
    | none => rw [hr] at this; cases this
    | some s' => exact ⟨s', rfl⟩
  have late : ∀ j, ls.length ≤ j → (TQ.init.run n (ls.take j)).getD s = s := by
    intro j hj; rw [List.take_of_length_le hj, h]; rfl
  refine ⟨⟨?_, ?_⟩, ⟨?_, ?_⟩⟩
  · simp [TQ.run]
  · intro i
    by_cases hi : i < ls.length
    · rw [List.getElem?_eq_getElem hi]
      obtain ⟨s1, h1⟩ := pre i
      obtain ⟨s2, h2⟩ := pre (i + 1)
      simp only [h1, h2, Option.getD_some]
      rw [List.take_succ_eq_append_getElem hi, app, h1] at h2
      simp only [Option.bind_some, TQ.run] at h2
      cases hs : s1.step n ls[i] with
      | none => rw [hs] at h2; cases h2
      | some s3 => rw [hs] at h2; exact h2
    · rw [List.getElem?_eq_none (by omega)]
      simp only
      rw [late i (by omega), late (i + 1) (by omega)]
  · intro i
    refine ⟨max i ls.length, by omega, .inr ?_⟩
    rw [late _ (by omega)]
    rintro ⟨p, th, s', hm⟩
    unfold TQ.mainStep at hm
    rw [hp] at hm; cases hm
  · intro k hk i
    refine ⟨max i ls.length, by omega, .inr ?_⟩
    rw [late _ (by omega)]
    unfold TQ.workStep
    rw [hw k hk]

/-- The schedule above is a fair execution in which a drain is under way with two results outstanding and a task left. -/
example : ∃ σ lab, Exec 2 σ lab ∧ Fair 2 σ lab ∧ (σ 9).pc = .top false ∧ (σ 9).results = [7, 8] ∧ (σ 9).tasks = [9] := by
  have h0 : ∃ s, TQ.init.run 2 schedule = some s ∧ s.pc = .idle ∧ ∀ k, k < 2 → s.work k = .asleep := by
    have : (TQ.init.run 2 schedule).map (fun s => (s.pc, s.work 0, s.work 1)) = some (.idle, .asleep, .asleep) := by decide +kernel
    rw [Option.map_eq_some_iff] at this
    obtain ⟨s, h1, h2⟩ := this
    simp at h2
    refine ⟨s, h1, h2.1, ?_⟩
    intro k hk
    rcases (by omega : k = 0 ∨ k = 1) with rfl | rfl
    · exact h2.2.1
    · exact h2.2.2
  obtain ⟨s, h1, h2, h3⟩ := h0
  obtain ⟨e, f⟩ := run_fair h1 h2 h3
  refine ⟨_, _, e, f, ?_⟩
  have : (TQ.init.run 2 (schedule.take 9)).map (fun s => (s.pc, s.results, s.tasks)) = some (.top false, [7, 8], [9]) := by decide +kernel
  rw [Option.map_eq_some_iff] at this
  obtain ⟨s', h4, h5⟩ := this
  simp only [h4, Option.getD_some]
  simpa using h5

/-- A call that waits behind a failure with a task left. -/
def Stuck (s : TQ) : Prop :=
  s.abort = true ∧ s.tasks ≠ [] ∧ (s.pc = .top false ∨ s.pc = .res false false ∨ s.pc = .hold false false ∨ s.pc = .kill)

theorem stuck_step {n : Nat} {s s' : TQ} {l : Lab} (h : Stuck s) (hs : s.step n l = some s') : Stuck s' := by
  obtain ⟨ha, hT, hp⟩ := h
  have hne : s.pc ≠ .idle := by rcases hp with h | h | h | h <;> simp [h]
  rcases step_cases hne hs with ⟨p, th, hm⟩ | hside
  · unfold TQ.mainStep at hm
    rcases hp with hp | hp | hp | hp
    · rw [hp] at hm
      simp only at hm
      split at hm
      · rw [Option.map_eq_some_iff] at hm
        obtain ⟨s1, h1, rfl⟩ := hm
        obtain ⟨w, rfl⟩ := (Woken.notifyOne h1).same
        exact ⟨ha, hT, by simp [hT]⟩
      · cases hm; exact ⟨ha, hT, by simp [hT]⟩
    · rw [hp] at hm
      simp only at hm
      split at hm <;> cases hm
      · exact ⟨ha, hT, by simp [nextPc]⟩
      · exact ⟨ha, hT, by simp⟩
    · rw [hp] at hm
      simp only at hm
      split at hm
      · cases hm
      · split at hm <;> cases hm
        unfold TQ.take
        rw [if_pos ha]
        exact ⟨ha, hT, by simp [nextPc]⟩
    · rw [hp] at hm
      simp only [hT, if_false] at hm
      cases hm
      exact ⟨ha, hT, .inr (.inr (.inr hp))⟩
  · refine ⟨hside.abort.trans ha, ?_, by rw [hside.pc]; exact hp⟩
    rcases hside.what with ⟨h1, -⟩ | ⟨t, -, -, h3⟩
    · rw [h1]; exact hT
    · rw [ha] at h3; cases h3

/-- **C28, what is missing.**  Once a task or a callback has thrown while tasks are queued, neither `drain` (nor
`force_single_threaded`) nor the destructor ever returns, for any number of threads and any schedule. -/
theorem C28_abort_never_returns {n : Nat} {s : TQ} (hp : s.pc = .idle) (ha : s.abort = true) (hT : s.tasks ≠ []) (hx : s.exiting = false)
    {l : Lab} (hl : l = .drain ∨ l = .single ∨ l = .destroy) {ls : List Lab} {s' : TQ} (h : s.run n (l :: ls) = some s') :
    s'.pc ≠ .idle ∧ s'.pc ≠ .gone := by
  have all : ∀ (ls : List Lab) (s s' : TQ), Stuck s → s.run n ls = some s' → Stuck s' := by
    intro ls
    induction ls with
    | nil => intro s s' h hs; cases hs; exact h
    | cons l ls ih =>
      intro s s' h hs
      simp only [TQ.run, Option.bind_eq_some_iff] at hs
      obtain ⟨s1, h1, h2⟩ := hs
      exact ih _ _ (stuck_step h h1) h2
  have fin : ∀ s, Stuck s → s.pc ≠ .idle ∧ s.pc ≠ .gone := by
    rintro s ⟨-, -, h | h | h | h⟩ <;> simp [h]
  simp only [TQ.run, Option.bind_eq_some_iff] at h
  obtain ⟨s1, h1, h2⟩ := h
  refine fin _ (all ls s1 s' ?_ h2)
  rcases hl with rfl | rfl | rfl
  · simp only [TQ.step, hp, if_true] at h1; cases h1
    exact ⟨ha, hT, .inl rfl⟩
  · simp only [TQ.step, hp, if_true] at h1; cases h1
    exact ⟨ha, hT, .inl rfl⟩
  · simp only [TQ.step, hp, if_true, hx, Bool.false_eq_true, if_false] at h1; cases h1
    exact ⟨ha, hT, .inr (.inr (.inr rfl))⟩

/-- Such a state is reached by one worker, two tasks, and a first task that throws. -/
theorem C28_abort_reachable : ∃ ls s, TQ.init.run 1 ls = some s ∧ s.pc = .idle ∧ s.abort = true ∧ s.tasks ≠ [] ∧ s.exiting = false := by
  have : (TQ.init.run 1 [.enqueue 0 0, .enqueue 1 0, .worker 0, .worker 0, .drain, .main 0 false, .main 0 false, .main 0 false, .main 0 true]).map
      (fun s => (s.pc, s.abort, s.tasks, s.exiting)) = some (.idle, true, [1], false) := by decide +kernel
  rw [Option.map_eq_some_iff] at this
  obtain ⟨s, h1, h2⟩ := this
  simp at h2
  exact ⟨_, s, h1, h2.1, h2.2.1, by simp [h2.2.2.1], h2.2.2.2⟩

end OP.Par
