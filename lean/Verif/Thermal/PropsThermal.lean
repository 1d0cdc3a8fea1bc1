import Verif.Thermal.Run
import Mathlib.Analysis.SpecialFunctions.Sqrt
/-!
# C46, C75, C76, C77: construction and time steps of the heat flow
-/
namespace OP.Thermal

open Lin Finset

variable {K : Type} [Field K] [LinearOrder K] [IsStrictOrderedRing K]

/-! ## Construction -/

/-- **C77**: sound arguments are accepted, for every number and thickness of layers, mesh and time step: the matrix is positive definite
and the decomposition cannot fail. -/
theorem C77_construct {rt : K → K} (hrt : IsRoot rt) {a : Args K} {lay : Nat → Nat} (h : a.Sound lay) :
    ∃ s, a.make rt = .ok s ∧ s.nt = a.nt ∧ s.nd = a.nd := by
  obtain ⟨s, hs⟩ := make_total hrt h
  obtain ⟨-, -, -, -, h4, h5, -⟩ := make_sound h hs
  exact ⟨s, hs, h5, h4⟩

/-- **C77**: what is accepted is made of whole elements of order 1, 2 or 4, layers of positive thickness, and elements that each lie
within a layer. -/
theorem C77_reject {rt : K → K} {a : Args K} {s : FEM K} (h : a.make rt = .ok s) :
    (a.w = 1 ∨ a.w = 2 ∨ a.w = 4) ∧ a.w < a.n ∧ (a.n - 1) % a.w = 0 ∧ (∀ i, i < a.nl → 0 < a.lh i) ∧
    ∀ e, e < a.m → ∃ l, l < a.nl ∧ a.top l ≤ a.nd (e * a.w) ∧ a.nd (e * a.w + a.w) ≤ a.bot l := by
  obtain ⟨h1, h2, h3, lay, h4, -⟩ := make_ok h
  exact ⟨h1, h2.1, h2.2, h3, fun e he => ⟨lay e, (h4 e he).1, (h4 e he).2.1, (h4 e he).2.2.2⟩⟩

/-- **C77**, a disagreement: a mesh whose second element starts at or below the last layer reads past the array of layers. -/
theorem C77_below_layers (rt : K → K) (lh ld h : K) (hl : 0 < lh) (hh : 0 ≤ h) (nt : Nat → K) (dt : K) :
    ({ nl := 1, lh := fun _ => lh, ld := fun _ => ld, n := 3, nd := fun i => if i = 0 then 0 else if i = 1 then lh else lh + h, nt := nt, dt := dt, w := 1 } : Args K).make rt = .ub := by
  have : ¬ ∃ i ∈ List.range 1, lh ≤ 0 := by rintro ⟨-, -, h⟩; linarith
  unfold Args.make
  simp only [this]
  simp [loopM, loopFromM, Args.elem, Args.seek, Args.lb, not_le.2 hl]

/-- **C77**: reading past the layers is the only undefined behaviour there is with a band width that is not zero: when every element
starts above the bottom of the layers, the constructor ends, with an object or an exception. -/
theorem C77_no_ub {rt : K → K} (hrt : IsRoot rt) {a : Args K} (hw : 0 < a.w) (hnl : 0 < a.nl) (h : ∀ e, e < a.m → a.nd (e * a.w) < a.bot (a.nl - 1)) :
    a.make rt ≠ .ub := by
  unfold Args.make
  by_cases h1 : a.n < a.w + 1
  · rw [if_pos h1]; simp
  rw [if_neg h1, if_neg (by omega)]
  by_cases h3 : (a.n - 1) % a.w > 0
  · rw [if_pos h3]; simp
  by_cases h4 : ∃ i ∈ List.range a.nl, a.lh i ≤ 0
  · rw [if_neg h3, if_pos h4]; simp
  rw [if_neg h3, if_neg h4]
  have hseek : ∀ e il, e < a.m → il < a.nl → a.seek (e * a.w) (a.nl - il) il ≠ .ub := by
    intro e il he hil
    have aux : ∀ k il, 0 < k → il + k = a.nl → a.seek (e * a.w) k il ≠ .ub := by
      intro k
      induction k with
      | zero => intro il h; omega
      | succ k ih =>
        intro il _ hk
        unfold Args.seek
        by_cases hc : a.lb il ≤ a.nd (e * a.w)
        · rw [if_pos hc]
          by_cases hk0 : k = 0
          · have : il = a.nl - 1 := by omega
            rw [this, a.lb_eq] at hc
            exact absurd (h e he) (not_lt_of_ge hc)
          · exact ih (il + 1) (by omega) (by omega)
        · rw [if_neg hc]; simp
    exact aux _ _ (by omega) (by omega)
  have hloop : loopM 0 ((a.n - 1) / a.w) (fun e s => a.elem (e * a.w) s) { il := 0, KK := fun _ => 0, FF := fun _ => 0 } ≠ .ub := by
    unfold loopM
    refine loopFromM_no_ub (fun _ s => s.il < a.nl) _ _ _ hnl ?_
    intro k s _ hk hs
    have hk : k < a.m := by unfold Args.m; omega
    have hne := hseek k s.il hk hs
    unfold Args.elem
    cases e : a.seek (k * a.w) (a.nl - s.il) s.il with
    | ub => exact absurd e hne
    | throw => exact ⟨fun h => (by cases h), fun s' h => (by cases h)⟩
    | ok il =>
      have := seek_ok a _ _ _ _ e
      simp only [Res.ok_bind]
      by_cases hc : a.lb il - a.lh il > a.nd (k * a.w) ∨ a.lb il < a.nd (k * a.w + a.w)
      · rw [if_pos hc]; exact ⟨by simp, by intro s' h; cases h⟩
      · rw [if_neg hc]
        by_cases hww : a.w = 1 ∨ a.w = 2 ∨ a.w = 4
        · rw [if_pos hww]; exact ⟨by simp, by intro s' h; cases h; dsimp only; omega⟩
        · rw [if_neg hww]; exact ⟨by simp, by intro s' h; cases h⟩
  cases e : loopM 0 ((a.n - 1) / a.w) (fun e s => a.elem (e * a.w) s) { il := 0, KK := fun _ => 0, FF := fun _ => 0 } with
  | ub => exact absurd e hloop
  | throw => intro h; cases h
  | ok t =>
    simp only [Res.ok_bind]
    have := (C42_decmp_chol_band_partial hrt (by omega : a.w ≤ a.n) (strip a.n a.w (loop 0 (bSize a.n a.w) (fun i A => set A i (A i + 2 * t.FF i / a.dt)) t.KK)).1).2.1
    cases e2 : decmpCholBand rt a.n a.w (strip a.n a.w (loop 0 (bSize a.n a.w) (fun i A => set A i (A i + 2 * t.FF i / a.dt)) t.KK)).1 with
    | ub => exact absurd e2 this
    | throw => intro h; cases h
    | ok _ => simp

/-! ## Boundaries and equilibrium -/

/-- **C46**: after every history of steps the end nodes have the temperatures last imposed. -/
theorem C46_boundary {rt : K → K} (hrt : IsRoot rt) {a : Args K} {s : FEM K} (hs : a.make rt = .ok s) (hist : List (K × K)) (tt tb : K) :
    (s.run (hist ++ [(tt, tb)])).nt 0 = tt ∧ (s.run (hist ++ [(tt, tb)])).nt (a.n - 1) = tb := by
  obtain ⟨-, -, -, lay, -, hb, hn, -⟩ := make_ok hs
  rw [run_snoc]
  have := (hb.run hist).step_spec hrt tt tb
  rw [(run_const s hist).1, hn] at this
  exact ⟨this.1, this.2.1⟩

/-- A profile in equilibrium is kept by one step. -/
theorem steady_step {rt : K → K} (hrt : IsRoot rt) {a : Args K} {lay : Nat → Nat} (h : a.Sound lay) {s : FEM K} (hb : Built rt s (a.KM lay) a.FM)
    (hn : s.n = a.n) (hdt : s.dt = a.dt) {P : Nat → K} (hP : ∀ i, 0 < i → i + 1 < a.n → row a.n (a.KM lay) P i = 0)
    (hg : ∀ i, i < a.n → s.ng i = 2 * P i / a.dt) :
    (∀ i, i < a.n → (s.step (P 0) (P (a.n - 1))).nt i = P i) ∧ (∀ i, i < a.n → (s.step (P 0) (P (a.n - 1))).ng i = 2 * P i / a.dt) := by
  obtain ⟨h0, h1, h2⟩ := hb.step_spec hrt (P 0) (P (a.n - 1))
  rw [hn] at h1 h2
  rw [hdt] at h2
  have key : ∀ i, i < a.n → (s.step (P 0) (P (a.n - 1))).nt i = P i := fun i hi => by
    refine lhs_unique h h0 h1 (fun i h3 h4 => ?_) hi
    rw [h2 i h3 h4, row_lhs, hP i h3 h4, row_congr (y := fun i => 2 / a.dt * P i) a.FM (fun j hj => by rw [hg j hj]; ring), row_smul, zero_add]
  refine ⟨key, fun i hi => ?_⟩
  have e : (s.step (P 0) (P (a.n - 1))).ng i = -s.ng i + 4 * (s.step (P 0) (P (a.n - 1))).nt i / s.dt := rfl
  rw [e, hg i hi, key i hi, hdt]; ring

theorem steady_run {rt : K → K} (hrt : IsRoot rt) {a : Args K} {lay : Nat → Nat} (h : a.Sound lay) {s : FEM K} (hs : a.make rt = .ok s)
    (hP : ∀ i, 0 < i → i + 1 < a.n → row a.n (a.KM lay) a.nt i = 0) (k : Nat) :
    ∀ i, i < a.n → (s.run (List.replicate k (a.nt 0, a.nt (a.n - 1)))).nt i = a.nt i := by
  obtain ⟨hb, hn, -, hdt, -, hnt, hng⟩ := make_sound h hs
  have : (∀ i, i < a.n → (s.run (List.replicate k (a.nt 0, a.nt (a.n - 1)))).nt i = a.nt i) ∧
      (∀ i, i < a.n → (s.run (List.replicate k (a.nt 0, a.nt (a.n - 1)))).ng i = 2 * a.nt i / a.dt) := by
    induction k with
    | zero => exact ⟨fun i _ => by show s.nt i = _; rw [hnt], fun i _ => by show s.ng i = _; rw [hng]⟩
    | succ k ih =>
      rw [List.replicate_succ', run_snoc]
      obtain ⟨c1, -, c3, -⟩ := run_const s (List.replicate k (a.nt 0, a.nt (a.n - 1)))
      exact steady_step hrt h (hb.run _) (by rw [c1, hn]) (by rw [c3, hdt]) hP ih.2
  exact this.1

/-- Every row of the conduction matrix for a profile that is linear over the nodes of each element: the jump of the flux. -/
theorem flux_row {a : Args K} {lay : Nat → Nat} (h : a.Sound lay) {P : Nat → K} {q : K}
    (hP : ∀ e, e < a.m → ∀ k, k ≤ a.w → P (e * a.w + k) = P (e * a.w) + q * a.len e / a.ld (lay e) * ((k : K) / a.w)) {i : Nat} (h0 : 0 < i) (h1 : i + 1 < a.n) :
    row a.n (a.KM lay) P i = 0 := by
  have hw0 := h.order.pos
  have hn := Args.n_eq h.mesh
  unfold Args.KM
  rw [asm_row (by omega)]
  have e1 : ∀ e ∈ range a.m, a.ld (lay e) * 2 / a.len e * (if e * a.w ≤ i ∧ i ≤ e * a.w + a.w then ∑ k ∈ range (a.w + 1), ke a.w (i - e * a.w) k * P (e * a.w + k) else 0) =
      (if i = e * a.w + a.w then q else 0) - (if i = e * a.w then q else 0) := by
    intro e he
    have he := mem_range.1 he
    have hl := h.len e he
    have hd := h.diff _ (h.lay e he).1
    by_cases hc : e * a.w ≤ i ∧ i ≤ e * a.w + a.w
    · rw [if_pos hc]
      have : ∑ k ∈ range (a.w + 1), ke a.w (i - e * a.w) k * P (e * a.w + k) =
          ∑ k ∈ range (a.w + 1), ke a.w (i - e * a.w) k * (P (e * a.w) + q * a.len e / a.ld (lay e) * ((k : K) / a.w)) :=
        sum_congr rfl fun k hk => by rw [hP e he k (by have := mem_range.1 hk; omega)]
      rw [this, ke_lin h.order (by omega)]
      by_cases c1 : i = e * a.w + a.w
      · rw [if_pos (by omega), if_pos c1, if_neg (by omega)]
        field_simp; ring
      · by_cases c2 : i = e * a.w
        · rw [if_neg (by omega), if_pos (by omega), if_neg c1, if_pos c2]
          field_simp; ring
        · rw [if_neg (by omega), if_neg (by omega), if_neg c1, if_neg c2]; ring
    · rw [if_neg hc, if_neg (by omega), if_neg (by omega)]; ring
  rw [sum_congr rfl e1]
  have e2 : ∀ e, ((if i = e * a.w + a.w then q else 0) - (if i = e * a.w then q else 0) : K) =
      (if i = (e + 1) * a.w then q else 0) - (if i = e * a.w then q else 0) := fun e => by rw [Nat.succ_mul]
  simp only [e2]
  rw [sum_range_sub (fun e => if i = e * a.w then q else 0), if_neg (by omega), if_neg (by omega), sub_self]

/-- **C46**: a uniform profile with both ends held at its temperature is left alone by any number of steps. -/
theorem C46_equilibrium {rt : K → K} (hrt : IsRoot rt) {a : Args K} {lay : Nat → Nat} (h : a.Sound lay) {s : FEM K} (hs : a.make rt = .ok s)
    (T : K) (hT : ∀ i, i < a.n → a.nt i = T) (k : Nat) : ∀ i, i < a.n → (s.run (List.replicate k (T, T))).nt i = T := by
  intro i hi
  have hw0 := h.order.pos
  have hn := Args.n_eq h.mesh
  have := steady_run hrt h hs (fun i h0 h1 => flux_row h (q := 0) (fun e he k hk => by
    have h5 : (e + 1) * a.w ≤ a.m * a.w := Nat.mul_le_mul_right _ he
    rw [Nat.succ_mul] at h5
    rw [hT _ (by omega), hT _ (by omega)]; ring) h0 h1) k i hi
  rwa [hT 0 (by omega), hT (a.n - 1) (by omega), hT i hi] at this

/-- **C46**, the flow in equilibrium: a profile that carries the same flux `q` through every element, whatever the layers, with both ends
held, is left alone by any number of steps. -/
theorem C46_steady_flux {rt : K → K} (hrt : IsRoot rt) {a : Args K} {lay : Nat → Nat} (h : a.Sound lay) {s : FEM K} (hs : a.make rt = .ok s)
    (q : K) (hq : ∀ e, e < a.m → ∀ k, k ≤ a.w → a.nt (e * a.w + k) = a.nt (e * a.w) + q * a.len e / a.ld (lay e) * ((k : K) / a.w)) (k : Nat) :
    ∀ i, i < a.n → (s.run (List.replicate k (a.nt 0, a.nt (a.n - 1)))).nt i = a.nt i :=
  steady_run hrt h hs (fun _ h0 h1 => flux_row h hq h0 h1) k

/-! ## The scheme -/

/-- The equations on the heat that flows at the inner nodes in a step from `T` to `T'`: the change of heat comes from the flux of `T'`
and `η` times that of `T`. -/
def Scheme (a : Args K) (lay : Nat → Nat) (η : K) (T T' : Nat → K) : Prop :=
  ∀ i, 0 < i → i + 1 < a.n → 2 / a.dt * row a.n a.FM (fun j => T' j - T j) i = - (row a.n (a.KM lay) T' i + η * row a.n (a.KM lay) T i)

theorem ng_spec {rt : K → K} (hrt : IsRoot rt) {a : Args K} {lay : Nat → Nat} {s : FEM K} (hb : Built rt s (a.KM lay) a.FM)
    (hn : s.n = a.n) (hdt : s.dt = a.dt) (tt tb : K) {i : Nat} (h0 : 0 < i) (h1 : i + 1 < a.n) :
    row a.n a.FM (s.step tt tb).ng i = 2 / a.dt * row a.n a.FM (s.step tt tb).nt i - row a.n (a.KM lay) (s.step tt tb).nt i := by
  obtain ⟨-, -, h2⟩ := hb.step_spec hrt tt tb
  rw [hn, hdt] at h2
  have := h2 i h0 h1
  rw [row_lhs] at this
  have e : (s.step tt tb).ng = fun j => 4 / a.dt * (s.step tt tb).nt j - s.ng j := by
    funext j
    show -s.ng j + 4 * (s.step tt tb).nt j / s.dt = _
    rw [hdt]; ring
  rw [e, row_sub, row_smul, ← this]; ring

/-- **C75**: every step but the first is a Crank–Nicolson step: the change of heat over the step is the mean of the fluxes before and
after, at every inner node, whatever the temperatures imposed so far. -/
theorem C75_crank_nicolson {rt : K → K} (hrt : IsRoot rt) {a : Args K} {lay : Nat → Nat} (h : a.Sound lay) {s : FEM K} (hs : a.make rt = .ok s)
    (hist : List (K × K)) (hne : hist ≠ []) (t : K × K) : Scheme a lay 1 (s.run hist).nt (s.run (hist ++ [t])).nt := by
  obtain ⟨hb, hn, -, hdt, -, -, -⟩ := make_sound h hs
  intro i h0 h1
  obtain ⟨hist', u, rfl⟩ : ∃ hist' u, hist = hist' ++ [u] := ⟨hist.dropLast, hist.getLast hne, (List.dropLast_append_getLast hne).symm⟩
  rw [run_snoc s (hist' ++ [u]) t]
  obtain ⟨c1, -, c3, -⟩ := run_const s hist'
  have g := ng_spec hrt (hb.run hist') (by rw [c1, hn]) (by rw [c3, hdt]) u.1 u.2 h0 h1
  rw [← run_snoc] at g
  obtain ⟨c1, -, c3, -⟩ := run_const s (hist' ++ [u])
  obtain ⟨-, -, h2⟩ := (hb.run (hist' ++ [u])).step_spec hrt t.1 t.2
  rw [c1, c3, hn, hdt] at h2
  have := h2 i h0 h1
  rw [row_lhs, g] at this
  rw [row_sub]
  linear_combination this

/-- **C75**, a disagreement: the first step is a fully implicit step, which for the same equations covers half of the time. -/
theorem C75_first_step {rt : K → K} (hrt : IsRoot rt) {a : Args K} {lay : Nat → Nat} (h : a.Sound lay) {s : FEM K} (hs : a.make rt = .ok s)
    (t : K × K) : Scheme a lay 0 a.nt (s.run [t]).nt := by
  obtain ⟨hb, hn, -, hdt, -, hnt, hng⟩ := make_sound h hs
  intro i h0 h1
  obtain ⟨-, -, h2⟩ := hb.step_spec hrt t.1 t.2
  rw [hn, hdt] at h2
  have := h2 i h0 h1
  rw [row_lhs, hng, show (fun i => 2 * a.nt i / a.dt) = fun i => 2 / a.dt * a.nt i from funext fun i => by ring, row_smul] at this
  show 2 / a.dt * row a.n a.FM (fun j => (s.step t.1 t.2).nt j - a.nt j) i = - (row a.n (a.KM lay) (s.step t.1 t.2).nt i + 0 * row a.n (a.KM lay) a.nt i)
  rw [row_sub]
  linear_combination this

/-- **C75**: the first step is a Crank–Nicolson step exactly when the initial profile is already in equilibrium at the inner nodes. -/
theorem C75_first_step_iff {rt : K → K} (hrt : IsRoot rt) {a : Args K} {lay : Nat → Nat} (h : a.Sound lay) {s : FEM K} (hs : a.make rt = .ok s)
    (t : K × K) : Scheme a lay 1 a.nt (s.run [t]).nt ↔ ∀ i, 0 < i → i + 1 < a.n → row a.n (a.KM lay) a.nt i = 0 := by
  have hf := C75_first_step hrt h hs t
  refine ⟨fun hc i h0 h1 => ?_, fun hc i h0 h1 => ?_⟩
  · linear_combination (hc i h0 h1) - (hf i h0 h1)
  · linear_combination (hf i h0 h1) + (hc i h0 h1)

/-- **C75**: the equations and the imposed temperatures leave no freedom: whatever satisfies them is what a step gives. -/
theorem C75_unique {rt : K → K} (hrt : IsRoot rt) {a : Args K} {lay : Nat → Nat} (h : a.Sound lay) {s : FEM K} (hs : a.make rt = .ok s)
    (hist : List (K × K)) (hne : hist ≠ []) (t : K × K) (T : Nat → K) (h0 : T 0 = t.1) (h1 : T (a.n - 1) = t.2) (hT : Scheme a lay 1 (s.run hist).nt T) :
    ∀ i, i < a.n → (s.run (hist ++ [t])).nt i = T i := by
  intro i hi
  have hb := C46_boundary hrt hs hist t.1 t.2
  refine lhs_unique h (hb.1.trans h0.symm) (hb.2.trans h1.symm) (fun i g0 g1 => ?_) hi
  have e1 := C75_crank_nicolson hrt h hs hist hne t i g0 g1
  have e2 := hT i g0 g1
  rw [row_sub] at e1 e2
  rw [row_lhs, row_lhs]
  linear_combination e1 - e2

/-! ## Stability -/

/-- The heat norm of a profile: the integral of the square of the temperature. -/
def Args.energy (a : Args K) (x : Nat → K) : K := ∑ i ∈ range a.n, x i * row a.n a.FM x i

theorem energy_nonneg {a : Args K} {lay : Nat → Nat} (h : a.Sound lay) (x : Nat → K) : 0 ≤ a.energy x :=
  F_nonneg (w := a.w) (m := a.m) (n := a.n) h.order (by have := Args.n_eq h.mesh; omega) (fun e he => by have := h.len e he; positivity) x

theorem conduct_nonneg {a : Args K} {lay : Nat → Nat} (h : a.Sound lay) (x : Nat → K) : 0 ≤ ∑ i ∈ range a.n, x i * row a.n (a.KM lay) x i :=
  K_nonneg (w := a.w) (m := a.m) (n := a.n) h.order (by have := Args.n_eq h.mesh; omega) (fun e he => by
    have h1 := h.diff _ (h.lay e he).1
    have h2 := h.len e he
    positivity) x

/-- **C76**: the steps are stable for every time step: with the ends held at those of a profile in equilibrium, the distance to the
equilibrium never grows, from any initial profile and through any number of steps. -/
theorem C76_stable {rt : K → K} (hrt : IsRoot rt) {a : Args K} {lay : Nat → Nat} (h : a.Sound lay) {s : FEM K} (hs : a.make rt = .ok s)
    (P : Nat → K) (hP : ∀ i, 0 < i → i + 1 < a.n → row a.n (a.KM lay) P i = 0) (k : Nat) :
    a.energy (fun i => (s.run (List.replicate (k + 1) (P 0, P (a.n - 1)))).nt i - P i) ≤
      a.energy (fun i => (s.run (List.replicate k (P 0, P (a.n - 1)))).nt i - P i) := by
  have hdt := h.dt
  have hd2 : 0 < 2 / a.dt := by positivity
  generalize hT' : (s.run (List.replicate (k + 1) (P 0, P (a.n - 1)))).nt = T'
  generalize hT : (s.run (List.replicate k (P 0, P (a.n - 1)))).nt = T
  have hb' : T' 0 = P 0 ∧ T' (a.n - 1) = P (a.n - 1) := by
    rw [← hT', List.replicate_succ']; exact C46_boundary hrt hs _ _ _
  have hF := FM_symm (a := a) h.order
  by_cases hk : k = 0
  · subst hk
    have hsc : Scheme a lay 0 T T' := by
      obtain ⟨-, -, -, -, -, hnt, -⟩ := make_sound h hs
      rw [← hT, ← hT']
      show Scheme a lay 0 s.nt (s.run [(P 0, P (a.n - 1))]).nt
      rw [hnt]
      exact C75_first_step hrt h hs _
    -- the deviations
    have e1 : ∑ i ∈ range a.n, (T' i - P i) * (2 / a.dt * row a.n a.FM (fun j => T' j - T j) i) =
        ∑ i ∈ range a.n, (T' i - P i) * (- row a.n (a.KM lay) (fun j => T' j - P j) i) := by
      refine dot_inner (x := fun i => T' i - P i) (by rw [hb'.1, sub_self]) (by rw [hb'.2, sub_self]) (fun i h0 h1 => ?_)
      rw [hsc i h0 h1, row_sub, hP i h0 h1]; ring
    have e2 := conduct_nonneg h (fun j => T' j - P j)
    have e3 := energy_nonneg h (fun j => (T' j - P j) - (T j - P j))
    have e4 : a.energy (fun j => (T' j - P j) - (T j - P j)) = 2 * ∑ i ∈ range a.n, (T' i - P i) * row a.n a.FM (fun j => T' j - T j) i -
        a.energy (fun i => T' i - P i) + a.energy (fun i => T i - P i) := by
      have s1 := dot_symm (n := a.n) hF (fun i => T' i - P i) (fun i => T i - P i)
      have r1 : ∀ i, row a.n a.FM (fun j => T' j - T j) i = row a.n a.FM (fun j => T' j - P j) i - row a.n a.FM (fun j => T j - P j) i := fun i => by
        rw [← row_sub]; congr 1; funext j; ring
      unfold Args.energy
      simp only [r1, row_sub a.n a.FM (fun j => T' j - P j) (fun j => T j - P j)]
      simp only [mul_sub, sub_mul, sum_sub_distrib] at s1 ⊢
      linear_combination s1
    simp only [mul_neg, sum_neg_distrib] at e1
    have e5 : ∑ i ∈ range a.n, (T' i - P i) * (2 / a.dt * row a.n a.FM (fun j => T' j - T j) i) =
        2 / a.dt * ∑ i ∈ range a.n, (T' i - P i) * row a.n a.FM (fun j => T' j - T j) i := by
      rw [mul_sum]; exact sum_congr rfl fun i _ => by ring
    have e6 : ∑ i ∈ range a.n, (T' i - P i) * row a.n a.FM (fun j => T' j - T j) i ≤ 0 := by
      by_contra hc
      have := mul_pos hd2 (lt_of_not_ge hc)
      linarith
    linarith
  · have hb : T 0 = P 0 ∧ T (a.n - 1) = P (a.n - 1) := by
      obtain ⟨j, rfl⟩ : ∃ j, k = j + 1 := ⟨k - 1, by omega⟩
      rw [← hT, List.replicate_succ']; exact C46_boundary hrt hs _ _ _
    have hsc : Scheme a lay 1 T T' := by
      rw [← hT, ← hT', List.replicate_succ']
      exact C75_crank_nicolson hrt h hs _ (by simp [hk]) _
    have e1 : ∑ i ∈ range a.n, ((T' i - P i) + (T i - P i)) * (2 / a.dt * row a.n a.FM (fun j => T' j - T j) i) =
        ∑ i ∈ range a.n, ((T' i - P i) + (T i - P i)) * (- row a.n (a.KM lay) (fun j => (T' j - P j) + (T j - P j)) i) := by
      refine dot_inner (x := fun i => (T' i - P i) + (T i - P i)) (by rw [hb'.1, hb.1]; ring) (by rw [hb'.2, hb.2]; ring) (fun i h0 h1 => ?_)
      rw [hsc i h0 h1, row_add, row_sub, row_sub, hP i h0 h1]; ring
    have e2 := conduct_nonneg h (fun j => (T' j - P j) + (T j - P j))
    have e4 : ∑ i ∈ range a.n, ((T' i - P i) + (T i - P i)) * row a.n a.FM (fun j => T' j - T j) i =
        a.energy (fun i => T' i - P i) - a.energy (fun i => T i - P i) := by
      have s1 := dot_symm (n := a.n) hF (fun i => T' i - P i) (fun i => T i - P i)
      have r1 : ∀ i, row a.n a.FM (fun j => T' j - T j) i = row a.n a.FM (fun j => T' j - P j) i - row a.n a.FM (fun j => T j - P j) i := fun i => by
        rw [← row_sub]; congr 1; funext j; ring
      unfold Args.energy
      simp only [r1]
      simp only [mul_sub, add_mul, sub_mul, sum_sub_distrib, sum_add_distrib] at s1 ⊢
      linear_combination -s1
    simp only [mul_neg, sum_neg_distrib] at e1
    have e5 : ∑ i ∈ range a.n, ((T' i - P i) + (T i - P i)) * (2 / a.dt * row a.n a.FM (fun j => T' j - T j) i) =
        2 / a.dt * ∑ i ∈ range a.n, ((T' i - P i) + (T i - P i)) * row a.n a.FM (fun j => T' j - T j) i := by
      rw [mul_sum]; exact sum_congr rfl fun i _ => by ring
    have e6 : ∑ i ∈ range a.n, ((T' i - P i) + (T i - P i)) * row a.n a.FM (fun j => T' j - T j) i ≤ 0 := by
      by_contra hc
      have := mul_pos hd2 (lt_of_not_ge hc)
      linarith
    linarith

/-! ## Concrete cases -/

/-- Two layers, the lower with four times the diffusivity, one quadratic element in each. -/
def sample : Args ℝ :=
  { nl := 2, lh := fun _ => 2, ld := fun i => if i = 0 then 1 else 4, n := 5, nd := fun i => i, nt := fun i => if i ≤ 2 then 4 * i else 8 + (i - 2), dt := 1, w := 2 }

theorem sample_sound : sample.Sound (fun e => e) := by
  have hm : sample.m = 2 := rfl
  refine ⟨Or.inr (Or.inl rfl), ⟨by decide, by decide⟩, fun i _ => by simp [sample], fun i _ => ?_, by simp [sample], ?_, ?_⟩
  · simp only [sample]; split <;> norm_num
  · intro e he; simp [Args.len, sample]
  · intro e he
    rw [hm] at he
    refine ⟨by simpa [sample] using he, ?_, ?_⟩ <;> interval_cases e <;> simp [sample, Args.top, Args.bot, sum_range_succ] <;> norm_num

theorem sqrt_root : IsRoot Real.sqrt := fun _ hx => ⟨Real.sqrt_pos.mpr hx, Real.mul_self_sqrt (le_of_lt hx)⟩

example : ∃ s, sample.make Real.sqrt = .ok s ∧ s.nt = sample.nt ∧ s.nd = sample.nd := C77_construct sqrt_root sample_sound
/-- The profile of the sample carries the flux 4 through both layers. -/
example : ∀ e, e < sample.m → ∀ k, k ≤ sample.w → sample.nt (e * sample.w + k) = sample.nt (e * sample.w) + 4 * sample.len e / sample.ld e * ((k : ℝ) / sample.w) := by
  intro e he k hk
  have he : e < 2 := he
  have hk : k ≤ 2 := hk
  interval_cases e <;> interval_cases k <;> simp [sample, Args.len] <;> norm_num
example : ∀ e, e < sample.m → sample.nd (e * sample.w) < sample.bot (sample.nl - 1) := by
  intro e he
  have he : e < 2 := he
  interval_cases e <;> simp [sample, Args.bot, sum_range_succ]
/-- A profile that is not in equilibrium. -/
example : row 5 (({ sample with nt := fun i => if i = 1 then 1 else 0 } : Args ℝ).KM (fun e => e)) (fun i => if i = 1 then 1 else 0) 1 ≠ 0 := by
  unfold Args.KM
  rw [asm_row (by decide)]
  simp [Args.m, sample, sum_range_succ, ke, Args.len]

end OP.Thermal
