import Verif.Par.Task
import Mathlib.Data.List.Nodup
/-!
# The invariant of the task queue
-/
namespace OP.Par

/-- The result the owner is delivering. -/
def Pc.hand : Pc → List Nat
  | .call t _ => [t]
  | _ => []

/-- Inside the destructor. -/
def Pc.dtor : Pc → Bool
  | .kill => true
  | .join => true
  | .gone => true
  | .top d => d
  | .res d _ => d
  | .hold d _ => d
  | .call _ (some (d, _)) => d
  | _ => false

/-- The workers have been joined. -/
def Pc.joined : Pc → Bool
  | .gone => true
  | .top d => d
  | .res d _ => d
  | .hold d _ => d
  | .call _ (some (d, _)) => d
  | _ => false

structure Inv (n : Nat) (s : TQ) : Prop where
  sub_eq : s.sub = s.dlv ++ s.dropped ++ s.pc.hand ++ s.results ++ s.tasks
  ran_eq : s.sub = s.ran ++ s.tasks
  nodup : s.sub.Nodup
  drop : s.dropped ≠ [] → s.abort = true
  hand : ∀ t k, s.pc = .call t k → s.abort = false ∧ s.ready t = true ∧ ∀ d, k ≠ some (d, true)
  dlvd : ∀ t ∈ s.dlv ++ s.dropped, s.ready t = true
  rsl : ∀ t ∈ s.results, s.ready t = false → ∃ k, k < n ∧ s.work k = .running t
  run : ∀ k t, s.work k = .running t → k < n ∧ t ∈ s.results ∧ s.ready t = false
  uniq : ∀ j k t, s.work j = .running t → s.work k = .running t → j = k
  rdy : ∀ t, s.ready t = true → t ∈ s.ran
  fin : ∀ d, s.pc = .res d true ∨ s.pc = .hold d true → s.tasks = [] ∧ s.results = []
  held : ∀ d f, s.pc = .hold d f → s.results ≠ []
  sgl : s.single = true → s.pc ≠ .tryRes ∧ (∀ t, s.pc ≠ .call t none) ∧ (s.pc = .idle → s.abort = false → s.tasks = [] ∧ s.results = [])
  exi : s.exiting = s.pc.dtor
  emp : s.empty = (s.pc.joined || decide (s.pc = .join))
  emt : s.empty = true → s.tasks = []
  exd : ∀ k, k < n → s.work k = .exited → s.exiting = true ∨ s.abort = true
  jnd : s.pc.joined = true → ∀ k, k < n → s.work k = .exited
  nap : s.empty = true → ∀ k, k < n → s.work k ≠ .asleep

theorem init_inv (n : Nat) : Inv n TQ.init := by
  constructor <;> simp [TQ.init, Pc.hand, Pc.dtor, Pc.joined]

/-- Only sleeping threads changed, and only to awake. -/
def Woken (s s' : TQ) : Prop := ∃ w, s' = { s with work := w } ∧ ∀ k, w k = s.work k ∨ s.work k = .asleep ∧ w k = .awake

theorem Woken.setW {s : TQ} {k : Nat} (h : s.work k = .asleep) : Woken s (s.setW k .awake) := by
  refine ⟨_, rfl, fun j => ?_⟩
  by_cases hj : j = k
  · subst hj; exact .inr ⟨h, by simp⟩
  · exact .inl (by simp [hj])

theorem Woken.notifyOne {n : Nat} {s s' : TQ} {p : Nat} (h : s.notifyOne n p = some s') : Woken s s' := by
  unfold TQ.notifyOne at h
  split at h
  · rename_i hc; cases h; exact .setW hc.2
  · split at h
    · cases h; exact ⟨s.work, rfl, fun _ => .inl rfl⟩
    · cases h

theorem Woken.notifyAll (s : TQ) : Woken s s.notifyAll := by
  refine ⟨_, rfl, fun j => ?_⟩
  by_cases hj : s.work j = .asleep
  · exact .inr ⟨hj, by simp [hj]⟩
  · exact .inl (by simp [hj])

theorem Woken.inv {n : Nat} {s s' : TQ} (h : Inv n s) (hw : Woken s s') : Inv n s' := by
  obtain ⟨w, rfl, hw⟩ := hw
  have hr : ∀ k t, w k = .running t ↔ s.work k = .running t := by
    intro k t
    rcases hw k with h | ⟨h1, h2⟩
    · rw [h]
    · rw [h1, h2]; simp
  have he : ∀ k, w k = .exited ↔ s.work k = .exited := by
    intro k
    rcases hw k with h | ⟨h1, h2⟩
    · rw [h]
    · rw [h1, h2]; simp
  have hs : ∀ k, w k = .asleep → s.work k = .asleep := by
    intro k hk
    rcases hw k with h | ⟨h1, h2⟩
    · rw [← h]; exact hk
    · exact h1
  obtain ⟨a1, a2, a3, a4, a5, a6, a7, a8, a9, a10, a11, a12, a13, a14, a15, a16, a17, a18, a19⟩ := h
  refine ⟨a1, a2, a3, a4, a5, a6, ?_, ?_, ?_, a10, a11, a12, a13, a14, a15, a16, ?_, ?_, ?_⟩
  · intro t h1 h2; obtain ⟨k, h3, h4⟩ := a7 t h1 h2; exact ⟨k, h3, (hr k t).2 h4⟩
  · intro k t h1; exact a8 k t ((hr k t).1 h1)
  · intro j k t h1 h2; exact a9 j k t ((hr j t).1 h1) ((hr k t).1 h2)
  · intro k hk h1; exact a17 k hk ((he k).1 h1)
  · intro h1 k hk; exact (he k).2 (a18 h1 k hk)
  · intro h1 k hk h2; exact a19 h1 k hk (hs k h2)

theorem Inv.setPc {n : Nat} {s : TQ} (h : Inv n s) (p : Pc) (hh : p.hand = s.pc.hand) (hd : p.dtor = s.pc.dtor)
    (hj : p.joined = s.pc.joined) (hjn : decide (p = .join) = decide (s.pc = .join)) (hc : ∀ t k, p ≠ .call t k)
    (hf : ∀ d, p = .res d true ∨ p = .hold d true → s.tasks = [] ∧ s.results = [])
    (hl : ∀ d f, p = .hold d f → s.results ≠ [])
    (hs : s.single = true → p ≠ .tryRes ∧ (p = .idle → s.abort = false → s.tasks = [] ∧ s.results = [])) :
    Inv n { s with pc := p } := by
  obtain ⟨a1, a2, a3, a4, a5, a6, a7, a8, a9, a10, a11, a12, a13, a14, a15, a16, a17, a18, a19⟩ := h
  refine ⟨?_, a2, a3, a4, ?_, a6, a7, a8, a9, a10, hf, hl, ?_, ?_, ?_, a16, a17, ?_, a19⟩
  · simp only [hh]; exact a1
  · intro t k h; exact absurd h (hc t k)
  · intro h; exact ⟨(hs h).1, fun t => hc t none, (hs h).2⟩
  · simp only [hd]; exact a14
  · simp only [hj, hjn]; exact a15
  · simp only [hj]; exact a18

theorem inv_enqueue {n : Nat} {s s' : TQ} {t p : Nat} (h : Inv n s) (hi : s.pc = .idle) (ht : t ∉ s.sub)
    (hs : s.enqueue n t p = some s') : Inv n s' := by
  unfold TQ.enqueue at hs
  have hexi := h.exi
  have hemp := h.emp
  simp [hi, Pc.dtor, Pc.joined] at hexi hemp
  split at hs
  · cases hs; exact h
  · rename_i hc
    simp [hexi, hemp] at hc
    have hdr : s.dropped = [] := by
      by_contra hd
      have := h.drop hd
      rw [hc] at this; cases this
    split at hs
    · rename_i hsg
      cases hs
      obtain ⟨hT, hR⟩ := (h.sgl hsg).2.2 hi hc
      have hse := h.sub_eq
      have hre := h.ran_eq
      simp [hi, Pc.hand, hT, hR, hdr] at hse hre
      obtain ⟨a1, a2, a3, a4, a5, a6, a7, a8, a9, a10, a11, a12, a13, a14, a15, a16, a17, a18, a19⟩ := h
      constructor
      · simp [hi, Pc.hand, hT, hR, hdr, hse]
      · simp [hT, hre]
      · rw [List.nodup_append]; exact ⟨a3, by simp, by rintro x hx y hy rfl; simp at hy; subst hy; exact ht hx⟩
      · exact a4
      · simp [hi]
      · intro x hx
        by_cases hxt : x = t
        · simp [hxt]
        · simp only [if_neg hxt]
          refine a6 x ?_
          simp [hxt] at hx ⊢; exact hx
      · simp [hR]
      · intro k x hk
        have := (a8 k x hk).2.1
        rw [hR] at this; simp at this
      · exact a9
      · intro x hx
        by_cases hxt : x = t
        · simp [hxt]
        · simp only [if_neg hxt] at hx
          simp [a10 x hx]
      · simp [hi]
      · simp [hi]
      · exact a13
      · exact a14
      · exact a15
      · exact a16
      · exact a17
      · exact a18
      · exact a19
    · rename_i hsg
      rw [Option.map_eq_some_iff] at hs
      obtain ⟨s1, h1, rfl⟩ := hs
      have hmid : Inv n { s with tasks := s.tasks ++ [t], sub := s.sub ++ [t] } := by
        obtain ⟨a1, a2, a3, a4, a5, a6, a7, a8, a9, a10, a11, a12, a13, a14, a15, a16, a17, a18, a19⟩ := h
        constructor
        · simp only [a1]; simp
        · simp only [a2]; simp
        · rw [List.nodup_append]; exact ⟨a3, by simp, by rintro x hx y hy rfl; simp at hy; subst hy; exact ht hx⟩
        · exact a4
        · exact a5
        · exact a6
        · exact a7
        · exact a8
        · exact a9
        · exact a10
        · simp [hi]
        · exact a12
        · intro h; exact absurd h hsg
        · exact a14
        · exact a15
        · simp [hemp]
        · exact a17
        · exact a18
        · exact a19
      have hw := (Woken.notifyOne h1).inv hmid
      obtain ⟨w, hw1, -⟩ := Woken.notifyOne h1
      have hpc : s1.pc = .idle := by rw [hw1]; exact hi
      have hsg1 : s1.single = false := by rw [hw1]; simpa using hsg
      by_cases hR : s1.results = []
      · rw [if_pos hR]
        exact hw.setPc .idle (by simp [hpc]) (by simp [hpc]) (by simp [hpc]) (by simp [hpc]) (by simp) (by simp) (by simp)
          (by simp [hsg1])
      · rw [if_neg hR]
        exact hw.setPc .tryRes (by simp [hpc, Pc.hand]) (by simp [hpc, Pc.dtor]) (by simp [hpc, Pc.joined]) (by simp [hpc]) (by simp) (by simp) (by simp)
          (by simp [hsg1])

/-- Taking the front result. -/
theorem inv_take {n : Nat} {s : TQ} {t : Nat} {rs : List Nat} {k : Option (Bool × Bool)} (h : Inv n s) (hR : s.results = t :: rs)
    (hr : s.ready t = true) (hh : s.pc.hand = []) (hk : ∀ d, k ≠ some (d, true)) (hsg : s.single = true → k ≠ none)
    (hd : (Pc.call t k).dtor = s.pc.dtor) (hj : (Pc.call t k).joined = s.pc.joined) (hjn : s.pc ≠ .join) : Inv n (s.take t rs k) := by
  have hse := h.sub_eq
  have hnd := h.nodup
  obtain ⟨a1, a2, a3, a4, a5, a6, a7, a8, a9, a10, a11, a12, a13, a14, a15, a16, a17, a18, a19⟩ := h
  have hrun : ∀ k x, s.work k = .running x → k < n ∧ x ∈ rs ∧ s.ready x = false := by
    intro k x hx
    obtain ⟨h1, h2, h3⟩ := a8 k x hx
    refine ⟨h1, ?_, h3⟩
    rw [hR, List.mem_cons] at h2
    rcases h2 with rfl | h2
    · rw [hr] at h3; cases h3
    · exact h2
  have hrsl : ∀ x ∈ rs, s.ready x = false → ∃ k, k < n ∧ s.work k = .running x :=
    fun x hx => a7 x (by rw [hR]; simp [hx])
  unfold TQ.take
  split
  · rename_i hab
    have hnp : (nextPc k).hand = [] ∧ (nextPc k).dtor = s.pc.dtor ∧ (nextPc k).joined = s.pc.joined ∧ nextPc k ≠ .join ∧
        (∀ x y, nextPc k ≠ .call x y) ∧ (∀ d f, nextPc k ≠ .res d f ∧ nextPc k ≠ .hold d f) ∧ nextPc k ≠ .tryRes := by
      rcases k with _ | ⟨d, f⟩
      · refine ⟨rfl, hd, hj, ?_, ?_, ?_, ?_⟩ <;> simp [nextPc]
      · cases f
        · refine ⟨rfl, hd, hj, ?_, ?_, ?_, ?_⟩ <;> simp [nextPc]
        · exact absurd rfl (hk d)
    obtain ⟨n1, n2, n3, n4, n5, n6, n7⟩ := hnp
    constructor
    · simp only [n1]; rw [hse, hh, hR]; simp
    · exact a2
    · exact a3
    · exact fun _ => hab
    · exact fun x y hxy => absurd hxy (n5 x y)
    · intro x hx
      by_cases hxt : x = t
      · rw [hxt]; exact hr
      · exact a6 x (by simp [hxt] at hx ⊢; exact hx)
    · exact hrsl
    · exact hrun
    · exact a9
    · exact a10
    · rintro d (h | h)
      · exact absurd h (n6 d true).1
      · exact absurd h (n6 d true).2
    · exact fun d f h => absurd h (n6 d f).2
    · intro hs
      exact ⟨n7, fun x => n5 x none, fun _ hab' => by simp only at hab'; rw [hab] at hab'; cases hab'⟩
    · exact a14.trans n2.symm
    · simp only [n3, n4, decide_false, Bool.or_false]; rw [a15]; simp [hjn]
    · exact a16
    · exact a17
    · exact fun h => a18 (n3 ▸ h)
    · exact a19
  · rename_i hab
    constructor
    · show s.sub = s.dlv ++ s.dropped ++ [t] ++ rs ++ s.tasks
      rw [hse, hh, hR]; simp
    · exact a2
    · exact a3
    · exact a4
    · intro x y hxy; cases hxy; exact ⟨by simpa using hab, hr, hk⟩
    · exact a6
    · exact hrsl
    · exact hrun
    · exact a9
    · exact a10
    · simp
    · simp
    · intro hs
      refine ⟨by simp, fun x hx => ?_, by simp⟩
      cases hx; exact hsg hs rfl
    · exact a14.trans hd.symm
    · simp only [reduceCtorEq, decide_false, Bool.or_false, hj]; rw [a15]; simp [hjn]
    · exact a16
    · exact a17
    · exact fun h => a18 (hj ▸ h)
    · exact a19

theorem inv_main {n : Nat} {s s' : TQ} {p : Nat} {thrown : Bool} (h : Inv n s) (hs : s.mainStep n p thrown = some s') : Inv n s' := by
  unfold TQ.mainStep at hs
  split at hs
  · cases hs
  · cases hs
  · -- tryRes
    rename_i hpc
    have hsg : s.single = false := by
      by_contra hc
      exact (h.sgl (by simpa using hc)).1 hpc
    have hback : Inv n { s with pc := .idle } :=
      h.setPc .idle (by simp [hpc, Pc.hand]) (by simp [hpc, Pc.dtor]) (by simp [hpc, Pc.joined]) (by simp [hpc]) (by simp) (by simp) (by simp)
        (by simp [hsg])
    split at hs
    · cases hs; exact hback
    · rename_i t rs hR
      split at hs
      · rename_i hr
        cases hs
        exact inv_take h hR hr (by simp [hpc, Pc.hand]) (by simp) (by simp [hsg]) (by simp [hpc, Pc.dtor]) (by simp [hpc, Pc.joined]) (by simp [hpc])
      · cases hs; exact hback
  · -- call
    rename_i t k hpc
    obtain ⟨hab, hr, hk⟩ := h.hand t k hpc
    have hse := h.sub_eq
    obtain ⟨a1, a2, a3, a4, a5, a6, a7, a8, a9, a10, a11, a12, a13, a14, a15, a16, a17, a18, a19⟩ := h
    have hdr : s.dropped = [] := by
      by_contra hd
      rw [a4 hd] at hab; cases hab
    have hd6 : ∀ x ∈ s.dlv ++ [t] ++ s.dropped, s.ready x = true := by
      intro x hx
      by_cases hxt : x = t
      · rw [hxt]; exact hr
      · exact a6 x (by simp [hxt] at hx ⊢; exact hx)
    rw [hpc] at a14 a15 a18
    split at hs
    · cases hs
      have hnp : (thrownPc k).hand = [] ∧ (thrownPc k).dtor = (Pc.call t k).dtor ∧ (thrownPc k).joined = (Pc.call t k).joined ∧ thrownPc k ≠ .join ∧
          (∀ x y, thrownPc k ≠ .call x y) ∧ (∀ d f, thrownPc k ≠ .res d f ∧ thrownPc k ≠ .hold d f) ∧ thrownPc k ≠ .tryRes := by
        rcases k with _ | ⟨_ | _, f⟩ <;> simp [thrownPc, Pc.hand, Pc.dtor, Pc.joined]
      obtain ⟨n1, n2, n3, n4, n5, n6, n7⟩ := hnp
      constructor
      · simp only [n1]; rw [hse, hpc, hdr]; simp [Pc.hand]
      · exact a2
      · exact a3
      · simp [hdr]
      · exact fun x y hxy => absurd hxy (n5 x y)
      · exact hd6
      · exact a7
      · exact a8
      · exact a9
      · exact a10
      · rintro d (h | h)
        · exact absurd h (n6 d true).1
        · exact absurd h (n6 d true).2
      · exact fun d f h => absurd h (n6 d f).2
      · intro hs
        exact ⟨n7, fun x => n5 x none, by simp⟩
      · exact a14.trans n2.symm
      · simp only [n3, n4, decide_false, Bool.or_false]; rw [a15]; simp
      · exact a16
      · intro k hk he; exact .inr rfl
      · exact fun h => a18 (n3 ▸ h)
      · exact a19
    · cases hs
      have hnp : (nextPc k).hand = [] ∧ (nextPc k).dtor = (Pc.call t k).dtor ∧ (nextPc k).joined = (Pc.call t k).joined ∧ nextPc k ≠ .join ∧
          (∀ x y, nextPc k ≠ .call x y) ∧ (∀ d f, nextPc k ≠ .res d f ∧ nextPc k ≠ .hold d f) ∧ nextPc k ≠ .tryRes ∧ (k ≠ none → nextPc k ≠ .idle) := by
        rcases k with _ | ⟨d, f⟩
        · simp [nextPc, Pc.hand, Pc.dtor, Pc.joined]
        · cases f
          · simp [nextPc, Pc.hand, Pc.dtor, Pc.joined]
          · exact absurd rfl (hk d)
      obtain ⟨n1, n2, n3, n4, n5, n6, n7, n8⟩ := hnp
      constructor
      · simp only [n1]; rw [hse, hpc, hdr]; simp [Pc.hand]
      · exact a2
      · exact a3
      · exact a4
      · exact fun x y hxy => absurd hxy (n5 x y)
      · exact hd6
      · exact a7
      · exact a8
      · exact a9
      · exact a10
      · rintro d (h | h)
        · exact absurd h (n6 d true).1
        · exact absurd h (n6 d true).2
      · exact fun d f h => absurd h (n6 d f).2
      · intro hs
        refine ⟨n7, fun x => n5 x none, fun hidle _ => ?_⟩
        have hkn : k ≠ none := by
          rintro rfl
          exact (a13 hs).2.1 t hpc
        exact absurd hidle (n8 hkn)
      · exact a14.trans n2.symm
      · simp only [n3, n4, decide_false, Bool.or_false]; rw [a15]; simp
      · exact a16
      · exact a17
      · exact fun h => a18 (n3 ▸ h)
      · exact a19
  · -- top
    rename_i d hpc
    have key : ∀ s1 : TQ, Woken s s1 → Inv n { s1 with pc := .res d (decide (s.tasks = [] ∧ s.results = [])) } := by
      intro s1 hw
      have h1 := hw.inv h
      obtain ⟨w, rfl, -⟩ := hw
      refine h1.setPc (.res d _) (by simp [hpc, Pc.hand]) (by simp [hpc, Pc.dtor]) (by simp [hpc, Pc.joined]) (by simp [hpc]) (by simp) ?_ (by simp) (by simp)
      rintro d' (h | h)
      · simp at h; exact h.2
      · cases h
    simp only at hs
    split at hs
    · rw [Option.map_eq_some_iff] at hs
      obtain ⟨s1, h1, rfl⟩ := hs
      exact key s1 (Woken.notifyOne h1)
    · cases hs
      exact key s ⟨s.work, rfl, fun _ => .inl rfl⟩
  · -- res
    rename_i d f hpc
    split at hs
    · rename_i hR
      cases hs
      cases f
      · refine h.setPc (.top d) (by simp [hpc, Pc.hand]) (by simp [hpc, Pc.dtor]) (by simp [hpc, Pc.joined]) (by simp [hpc]) (by simp) (by simp) (by simp) (by simp)
      · obtain ⟨h1, h2⟩ := h.fin d (.inl hpc)
        cases d
        · exact h.setPc .idle (by simp [hpc, Pc.hand]) (by simp [hpc, Pc.dtor]) (by simp [hpc, Pc.joined]) (by simp [hpc]) (by simp) (by simp) (by simp)
            (fun _ => ⟨by simp, fun _ _ => ⟨h1, h2⟩⟩)
        · exact h.setPc .gone (by simp [hpc, Pc.hand]) (by simp [hpc, Pc.dtor]) (by simp [hpc, Pc.joined]) (by simp [hpc]) (by simp) (by simp) (by simp) (by simp)
    · rename_i t rs hR
      cases hs
      have hf : f = false := by
        by_contra hc
        have hc : f = true := by simpa using hc
        subst hc
        rw [(h.fin d (.inl hpc)).2] at hR; cases hR
      subst hf
      exact h.setPc (.hold d false) (by simp [hpc, Pc.hand]) (by simp [hpc, Pc.dtor]) (by simp [hpc, Pc.joined]) (by simp [hpc]) (by simp) (by simp)
        (by simp [hR]) (by simp)
  · -- hold
    rename_i d f hpc
    split at hs
    · cases hs
    · rename_i t rs hR
      split at hs
      · rename_i hr
        cases hs
        have hf : f = false := by
          by_contra hc
          have hc : f = true := by simpa using hc
          subst hc
          rw [(h.fin d (.inr hpc)).2] at hR; cases hR
        subst hf
        exact inv_take h hR hr (by simp [hpc, Pc.hand]) (by simp) (by simp) (by simp [hpc, Pc.dtor]) (by simp [hpc, Pc.joined]) (by simp [hpc])
      · cases hs
  · -- kill
    rename_i hpc
    have hem := h.emp
    have hex := h.exi
    simp [hpc, Pc.joined, Pc.dtor] at hem hex
    split at hs
    · rename_i hT
      rw [if_neg (by simp [hem])] at hs
      cases hs
      obtain ⟨a1, a2, a3, a4, a5, a6, a7, a8, a9, a10, a11, a12, a13, a14, a15, a16, a17, a18, a19⟩ := (Woken.notifyAll s).inv h
      constructor
      · exact a1.trans (by simp [TQ.notifyAll, hpc, Pc.hand])
      · exact a2
      · exact a3
      · exact a4
      · simp
      · exact a6
      · exact a7
      · exact a8
      · exact a9
      · exact a10
      · simp
      · simp
      · simp
      · exact hex
      · simp [TQ.notifyAll, Pc.joined]
      · intro _; exact hT
      · exact a17
      · simp [Pc.joined]
      · intro _ k hk
        simp only [TQ.notifyAll]
        split <;> simp_all
    · cases hs
      exact (Woken.notifyAll s).inv h
  · -- join
    rename_i hpc
    split at hs
    · rename_i hall
      cases hs
      have hem := h.emp
      have hex := h.exi
      simp [hpc, Pc.dtor] at hem hex
      obtain ⟨a1, a2, a3, a4, a5, a6, a7, a8, a9, a10, a11, a12, a13, a14, a15, a16, a17, a18, a19⟩ := h
      constructor
      · exact a1.trans (by simp [hpc, Pc.hand])
      · exact a2
      · exact a3
      · exact a4
      · simp
      · exact a6
      · exact a7
      · exact a8
      · exact a9
      · exact a10
      · simp
      · simp
      · simp
      · exact hex
      · simp [hem, Pc.joined]
      · exact a16
      · exact a17
      · exact fun _ => hall
      · exact a19
    · cases hs

theorem inv_worker {n : Nat} {s s' : TQ} {k : Nat} (h : Inv n s) (hk : k < n) (hs : s.workStep k = some s') : Inv n s' := by
  unfold TQ.workStep at hs
  split at hs
  · cases hs
  · cases hs
  · -- a task has run
    rename_i t hw
    cases hs
    obtain ⟨a1, a2, a3, a4, a5, a6, a7, a8, a9, a10, a11, a12, a13, a14, a15, a16, a17, a18, a19⟩ := h
    obtain ⟨b1, b2, b3⟩ := a8 k t hw
    have hj : s.pc.joined = false := by
      by_contra hc
      have := a18 (by simpa using hc) k hk
      rw [hw] at this; cases this
    have hran : t ∈ s.ran := by
      have hts : t ∉ s.tasks := by
        intro hm
        have hn := a3
        rw [a1, List.nodup_append] at hn
        exact hn.2.2 t (by simp [b2]) t hm rfl
      have : t ∈ s.sub := by rw [a1]; simp [b2]
      rw [a2, List.mem_append] at this
      exact this.resolve_right hts
    constructor
    · exact a1
    · exact a2
    · exact a3
    · exact a4
    · intro x y hxy
      obtain ⟨c1, c2, c3⟩ := a5 x y hxy
      exact ⟨c1, by simp only; split <;> simp_all, c3⟩
    · intro x hx
      simp only; split
      · rfl
      · exact a6 x hx
    · intro x hx hr
      simp only at hr
      split at hr
      · cases hr
      · rename_i hxt
        obtain ⟨j, h1, h2⟩ := a7 x hx hr
        refine ⟨j, h1, ?_⟩
        have : j ≠ k := by rintro rfl; rw [hw] at h2; cases h2; exact hxt rfl
        simp [TQ.setW, this, h2]
    · intro j x hx
      simp only [TQ.setW] at hx
      split at hx
      · cases hx
      · rename_i hjk
        obtain ⟨c1, c2, c3⟩ := a8 j x hx
        refine ⟨c1, c2, ?_⟩
        have : x ≠ t := by rintro rfl; exact hjk (a9 j k x hx hw)
        simp [this, c3]
    · intro i j x hi hj
      simp only [TQ.setW] at hi hj
      split at hi
      · cases hi
      · split at hj
        · cases hj
        · exact a9 i j x hi hj
    · intro x hx
      simp only at hx
      split at hx
      · rename_i hxt; rw [hxt]; exact hran
      · exact a10 x hx
    · exact a11
    · exact a12
    · exact a13
    · exact a14
    · exact a15
    · exact a16
    · intro j hj he
      simp only [TQ.setW] at he
      split at he
      · cases he
      · exact a17 j hj he
    · intro hc
      have : s.pc.joined = true := hc
      rw [hj] at this; cases this
    · intro he j hjn
      simp only [TQ.setW]
      split
      · simp
      · exact a19 he j hjn
  · rename_i hw
    have setInv : ∀ w, w = .exited ∧ (s.exiting = true ∨ s.abort = true) ∨ w = .asleep ∧ s.empty = false → Inv n (s.setW k w) := by
      intro w hww
      have hj : s.pc.joined = false := by
        by_contra hc
        have := h.jnd (by simpa using hc) k hk
        rw [hw] at this; cases this
      have hwr : ∀ t, w ≠ .running t := by rcases hww with ⟨rfl, -⟩ | ⟨rfl, -⟩ <;> simp
      obtain ⟨a1, a2, a3, a4, a5, a6, a7, a8, a9, a10, a11, a12, a13, a14, a15, a16, a17, a18, a19⟩ := h
      refine ⟨a1, a2, a3, a4, a5, a6, ?_, ?_, ?_, a10, a11, a12, a13, a14, a15, a16, ?_, ?_, ?_⟩
      · intro x hx hr
        obtain ⟨j, h1, h2⟩ := a7 x hx hr
        refine ⟨j, h1, ?_⟩
        have : j ≠ k := by rintro rfl; rw [hw] at h2; cases h2
        simp [TQ.setW, this, h2]
      · intro j x hx
        simp only [TQ.setW] at hx
        split at hx
        · exact absurd hx (hwr x)
        · exact a8 j x hx
      · intro i j x hi hj
        simp only [TQ.setW] at hi hj
        split at hi
        · exact absurd hi (hwr x)
        · split at hj
          · exact absurd hj (hwr x)
          · exact a9 i j x hi hj
      · intro j hj he
        simp only [TQ.setW] at he
        split at he
        · rcases hww with ⟨-, h⟩ | ⟨rfl, -⟩
          · exact h
          · cases he
        · exact a17 j hj he
      · intro hc
        have : s.pc.joined = true := hc
        rw [hj] at this; cases this
      · intro he j hjn
        simp only [TQ.setW]
        split
        · rcases hww with ⟨rfl, -⟩ | ⟨rfl, h⟩
          · simp
          · have he : s.empty = true := he
            rw [h] at he; cases he
        · exact a19 he j hjn
    split at hs
    · cases hs
    · rename_i hlk
      split at hs
      · split at hs
        · rename_i hea
          cases hs
          refine setInv _ (.inl ⟨rfl, ?_⟩)
          simp at hea
          rcases hea with he | ha
          · left
            rw [h.exi]
            rw [h.emp] at he
            revert he
            cases s.pc with
            | call t k => rcases k with _ | ⟨d, f⟩ <;> simp [Pc.joined, Pc.dtor]
            | _ => simp [Pc.joined, Pc.dtor]
          · exact .inr ha
        · rename_i hea
          simp at hea
          split at hs
          · -- takes a task
            rename_i t ts hT
            cases hs
            have hj : s.pc.joined = false := by
              by_contra hc
              have := h.jnd (by simpa using hc) k hk
              rw [hw] at this; cases this
            obtain ⟨a1, a2, a3, a4, a5, a6, a7, a8, a9, a10, a11, a12, a13, a14, a15, a16, a17, a18, a19⟩ := h
            have htran : t ∉ s.ran := by
              intro hm
              have hn := a3
              rw [a2, List.nodup_append, hT] at hn
              exact hn.2.2 t hm t (by simp) rfl
            have hnr : s.ready t = false := by
              by_contra hc
              exact htran (a10 t (by simpa using hc))
            have hnres : t ∉ s.results := by
              intro hm
              have hn := a3
              rw [a1, List.nodup_append] at hn
              exact hn.2.2 t (by simp [hm]) t (by simp [hT]) rfl
            constructor
            · simp only [TQ.setW]; rw [a1, hT]; simp
            · simp only [TQ.setW]; rw [a2, hT]; simp
            · exact a3
            · exact a4
            · exact a5
            · exact a6
            · intro x hx hr
              simp only [List.mem_append, List.mem_singleton] at hx
              rcases hx with hx | rfl
              · obtain ⟨j, h1, h2⟩ := a7 x hx hr
                refine ⟨j, h1, ?_⟩
                have : j ≠ k := by rintro rfl; rw [hw] at h2; cases h2
                simp [TQ.setW, this, h2]
              · exact ⟨k, hk, by simp [TQ.setW]⟩
            · intro j x hx
              simp only [TQ.setW] at hx
              split at hx
              · rename_i hjk
                cases hx
                exact ⟨hjk ▸ hk, by simp, hnr⟩
              · obtain ⟨c1, c2, c3⟩ := a8 j x hx
                exact ⟨c1, by simp [c2], c3⟩
            · intro i j x hi hj
              simp only [TQ.setW] at hi hj
              split at hi
              · cases hi
                split at hj
                · simp_all
                · exact absurd (a8 j t hj).2.1 hnres
              · split at hj
                · cases hj
                  exact absurd (a8 i t hi).2.1 hnres
                · exact a9 i j x hi hj
            · intro x hx
              have := a10 x hx
              simp [this]
            · intro d hd
              have := (a11 d hd).1
              rw [hT] at this; cases this
            · intro d f hd; simp
            · intro hsg
              refine ⟨(a13 hsg).1, (a13 hsg).2.1, fun h1 h2 => ?_⟩
              have := ((a13 hsg).2.2 h1 h2).1
              rw [hT] at this; cases this
            · exact a14
            · exact a15
            · intro he
              have := a16 he
              rw [hT] at this; cases this
            · intro j hj he
              simp only [TQ.setW] at he
              split at he
              · cases he
              · exact a17 j hj he
            · intro hc
              have : s.pc.joined = true := hc
              rw [hj] at this; cases this
            · intro he j hjn
              simp only [TQ.setW]
              split
              · simp
              · exact a19 he j hjn
          · split at hs
            · rename_i hex
              cases hs
              exact setInv _ (.inl ⟨rfl, .inl hex⟩)
            · cases hs; exact h
      · rename_i hc
        cases hs
        simp at hc
        exact setInv _ (.inr ⟨rfl, by tauto⟩)

theorem inv_step {n : Nat} {s s' : TQ} {l : Lab} (h : Inv n s) (hs : s.step n l = some s') : Inv n s' := by
  cases l with
  | enqueue t p =>
    simp only [TQ.step] at hs
    split at hs
    · rename_i hc; exact inv_enqueue h hc.1 hc.2 hs
    · cases hs
  | drain =>
    simp only [TQ.step] at hs
    split at hs
    · rename_i hpc
      cases hs
      exact h.setPc (.top false) (by simp [hpc, Pc.hand]) (by simp [hpc, Pc.dtor]) (by simp [hpc, Pc.joined]) (by simp [hpc]) (by simp) (by simp) (by simp) (by simp)
    · cases hs
  | single =>
    simp only [TQ.step] at hs
    split at hs
    · rename_i hpc
      cases hs
      have := h.setPc (.top false) (by simp [hpc, Pc.hand]) (by simp [hpc, Pc.dtor]) (by simp [hpc, Pc.joined]) (by simp [hpc]) (by simp) (by simp) (by simp) (by simp)
      obtain ⟨a1, a2, a3, a4, a5, a6, a7, a8, a9, a10, a11, a12, a13, a14, a15, a16, a17, a18, a19⟩ := this
      exact ⟨a1, a2, a3, a4, a5, a6, a7, a8, a9, a10, a11, a12, by simp, a14, a15, a16, a17, a18, a19⟩
    · cases hs
  | destroy =>
    simp only [TQ.step] at hs
    split at hs
    · rename_i hpc
      have hex := h.exi
      have hem := h.emp
      simp [hpc, Pc.dtor, Pc.joined] at hex hem
      rw [if_neg (by simp [hex])] at hs
      cases hs
      obtain ⟨a1, a2, a3, a4, a5, a6, a7, a8, a9, a10, a11, a12, a13, a14, a15, a16, a17, a18, a19⟩ := h
      constructor
      · exact a1.trans (by simp [hpc, Pc.hand])
      · exact a2
      · exact a3
      · exact a4
      · simp
      · exact a6
      · exact a7
      · exact a8
      · exact a9
      · exact a10
      · simp
      · simp
      · simp
      · simp [Pc.dtor]
      · simp [hem, Pc.joined]
      · exact a16
      · simp
      · simp [Pc.joined]
      · exact a19
    · cases hs
  | main p th => exact inv_main h hs
  | worker k =>
    simp only [TQ.step] at hs
    split at hs
    · rename_i hk; exact inv_worker h hk hs
    · cases hs
  | spurious k =>
    simp only [TQ.step] at hs
    split at hs
    · rename_i hk; cases hs; exact (Woken.setW hk.2).inv h
    · cases hs

theorem inv_run {n : Nat} : ∀ {ls : List Lab} {s s' : TQ}, Inv n s → s.run n ls = some s' → Inv n s'
  | [], s, s', h, hs => by cases hs; exact h
  | l :: ls, s, s', h, hs => by
    simp only [TQ.run, Option.bind_eq_some_iff] at hs
    obtain ⟨s1, h1, h2⟩ := hs
    exact inv_run (inv_step h h1) h2

end OP.Par
