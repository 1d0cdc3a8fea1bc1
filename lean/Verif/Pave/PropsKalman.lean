import Verif.Pave.Kalman
import Mathlib.Tactic.Linarith
import Mathlib.Tactic.Ring
import Mathlib.Tactic.LinearCombination
import Mathlib.Tactic.NormNum
/-!
# C70: back-calculation steps
-/
namespace OP.Pave.Back

open Finset

/-! ## Specification -/

/-- The gradients of the deflections, each under the load group it was measured under. -/
def Bowl.J (b : Bowl) (j i : Nat) : ℝ := b.grad (b.lg j) j i

/-- The squared misfit of the linearised deflections after a change `X` of the logarithms of the moduli. -/
noncomputable def Bowl.misfit (b : Bowl) (X : Nat → ℝ) : ℝ :=
  ∑ j ∈ range b.dl, (b.measured j - (b.defl (b.lg j) j + ∑ i ∈ range b.nl, b.J j i * X i)) ^ 2

/-- The squared length of a change. -/
noncomputable def len2 (n : Nat) (X : Nat → ℝ) : ℝ := ∑ i ∈ range n, X i ^ 2

/-- All deflections were measured under the default group. -/
def Bowl.OneGroup (b : Bowl) : Prop := ∀ j, j < b.dl → b.lg j = b.clg

/-! ## Lemmas -/

theorem OneGroup_H {b : Bowl} (h : b.OneGroup) {j : Nat} (hj : j < b.dl) (i : Nat) : b.H j i = b.J j i := by
  rw [Bowl.H, Bowl.J, h j hj]

/-- The misfit around a point, to second order. -/
theorem misfit_add (b : Bowl) (W D : Nat → ℝ) : b.misfit (fun i => W i + D i) = b.misfit W
    - 2 * ∑ j ∈ range b.dl, (b.Y j - ∑ i ∈ range b.nl, b.J j i * W i) * ∑ i ∈ range b.nl, b.J j i * D i
    + ∑ j ∈ range b.dl, (∑ i ∈ range b.nl, b.J j i * D i) ^ 2 := by
  simp only [Bowl.misfit, Bowl.Y, mul_sum]
  rw [← sum_sub_distrib, ← sum_add_distrib]
  refine sum_congr rfl fun j _ => ?_
  have : ∑ i ∈ range b.nl, b.J j i * (W i + D i) = (∑ i ∈ range b.nl, b.J j i * W i) + ∑ i ∈ range b.nl, b.J j i * D i := by
    rw [← sum_add_distrib]
    exact sum_congr rfl fun i _ => by ring
  rw [this, ← mul_sum, ← mul_sum]
  ring

theorem len2_add (n : Nat) (W D : Nat → ℝ) : len2 n (fun i => W i + D i) = len2 n W + 2 * ∑ i ∈ range n, W i * D i + len2 n D := by
  simp only [len2, mul_sum, ← sum_add_distrib]
  exact sum_congr rfl fun i _ => by ring

/-- The step is `wt Jᵀ z` with `S z = Y`. -/
theorem step_form (b : Bowl) (wt : ℝ) (inv : Nat → Nat → ℝ) (hg : b.OneGroup)
    (hinv : ∀ i j, i < b.dl → j < b.dl → ∑ k ∈ range b.dl, b.S wt i k * inv k j = if i = j then 1 else 0) :
    ∃ z : Nat → ℝ, (∀ i, b.W wt inv i = wt * ∑ k ∈ range b.dl, b.J k i * z k) ∧
      ∀ j, j < b.dl → b.Y j - ∑ i ∈ range b.nl, b.J j i * b.W wt inv i =
        (b.noise ^ 2 + b.precision ^ 2 / 3) * z j := by
  have hW : ∀ i, b.W wt inv i = wt * ∑ k ∈ range b.dl, b.J k i * ∑ j ∈ range b.dl, inv k j * b.Y j := by
    intro i
    simp only [Bowl.W, sum_mul, mul_sum]
    rw [sum_comm]
    refine sum_congr rfl fun k hk => sum_congr rfl fun j _ => ?_
    rw [OneGroup_H hg (mem_range.1 hk)]
    ring
  refine ⟨fun k => ∑ j ∈ range b.dl, inv k j * b.Y j, hW, ?_⟩
  · intro j hj
    have h1 : ∑ k ∈ range b.dl, b.S wt j k * ∑ l ∈ range b.dl, inv k l * b.Y l = b.Y j := by
      simp only [mul_sum]
      rw [sum_comm]
      have : ∀ l ∈ range b.dl, ∑ k ∈ range b.dl, b.S wt j k * (inv k l * b.Y l) = (if j = l then 1 else 0) * b.Y l := by
        intro l hl
        rw [← hinv j l hj (mem_range.1 hl), sum_mul]
        exact sum_congr rfl fun k _ => by ring
      rw [sum_congr rfl this]
      simp [hj]
    rw [← h1]
    have h2 : ∀ k ∈ range b.dl, b.S wt j k * (∑ l ∈ range b.dl, inv k l * b.Y l) =
        wt * (∑ i ∈ range b.nl, b.J j i * b.J k i) * (∑ l ∈ range b.dl, inv k l * b.Y l) +
        (if j = k then (b.noise ^ 2 + b.precision ^ 2 / 3) * (∑ l ∈ range b.dl, inv k l * b.Y l) else 0) := by
      intro k hk
      have e : ∑ i ∈ range b.nl, b.H j i * b.H k i = ∑ i ∈ range b.nl, b.J j i * b.J k i :=
        sum_congr rfl fun i _ => by rw [OneGroup_H hg hj, OneGroup_H hg (mem_range.1 hk)]
      rw [Bowl.S, e]
      split_ifs <;> ring
    rw [sum_congr rfl h2, sum_add_distrib, sum_ite_eq, if_pos (mem_range.2 hj)]
    have h3 : ∑ i ∈ range b.nl, b.J j i * b.W wt inv i =
        ∑ k ∈ range b.dl, wt * (∑ i ∈ range b.nl, b.J j i * b.J k i) * (∑ l ∈ range b.dl, inv k l * b.Y l) := by
      have key : ∀ z : Nat → ℝ, ∑ i ∈ range b.nl, b.J j i * (wt * ∑ k ∈ range b.dl, b.J k i * z k) =
          ∑ k ∈ range b.dl, wt * (∑ i ∈ range b.nl, b.J j i * b.J k i) * z k := by
        intro z
        simp only [mul_sum, sum_mul]
        rw [sum_comm]
        exact sum_congr rfl fun k _ => sum_congr rfl fun i _ => by ring
      simp only [hW]
      exact key fun k => ∑ l ∈ range b.dl, inv k l * b.Y l
    rw [h3]
    ring

/-! ## Theorems -/

/-- **C70** for deflections of the default group: the Kalman step minimises the misfit of the linearised deflections plus the
squared length of the step, weighted with the variance of the measurements over that of the moduli, among all changes.
`inv` is what the inversion returned, an inverse of `S`. -/
theorem C70_kalman_partial (b : Bowl) (wt : ℝ) (hwt : 0 ≤ wt) (inv : Nat → Nat → ℝ) (hg : b.OneGroup)
    (hinv : ∀ i j, i < b.dl → j < b.dl → ∑ k ∈ range b.dl, b.S wt i k * inv k j = if i = j then 1 else 0) (X : Nat → ℝ) :
    wt * b.misfit (b.W wt inv) + (b.noise ^ 2 + b.precision ^ 2 / 3) * len2 b.nl (b.W wt inv) ≤
      wt * b.misfit X + (b.noise ^ 2 + b.precision ^ 2 / 3) * len2 b.nl X := by
  obtain ⟨z, hW, hY⟩ := step_form b wt inv hg hinv
  set W := b.W wt inv with hWdef
  have e : X = fun i => W i + (X i - W i) := by funext i; ring
  generalize hD : (fun i => X i - W i) = D at *
  have e' : X = fun i => W i + D i := by rw [← hD]; exact e
  rw [e', misfit_add, len2_add]
  have h1 : ∑ j ∈ range b.dl, (b.Y j - ∑ i ∈ range b.nl, b.J j i * W i) * ∑ i ∈ range b.nl, b.J j i * D i =
      (b.noise ^ 2 + b.precision ^ 2 / 3) * ∑ j ∈ range b.dl, z j * ∑ i ∈ range b.nl, b.J j i * D i := by
    rw [mul_sum]
    refine sum_congr rfl fun j hj => ?_
    rw [hY j (mem_range.1 hj)]
    ring
  have h2 : ∑ i ∈ range b.nl, W i * D i = wt * ∑ j ∈ range b.dl, z j * ∑ i ∈ range b.nl, b.J j i * D i := by
    simp only [hW, mul_sum, sum_mul]
    rw [sum_comm]
    exact sum_congr rfl fun j _ => sum_congr rfl fun i _ => by ring
  rw [h1, h2]
  have h3 : 0 ≤ ∑ j ∈ range b.dl, (∑ i ∈ range b.nl, b.J j i * D i) ^ 2 := sum_nonneg fun _ _ => sq_nonneg _
  have h4 : 0 ≤ len2 b.nl D := sum_nonneg fun _ _ => sq_nonneg _
  have h5 : 0 ≤ b.noise ^ 2 + b.precision ^ 2 / 3 := by positivity
  nlinarith [mul_nonneg hwt h3, mul_nonneg h5 h4]

/-- **C70** for deflections of the default group: the Gauss-Newton step minimises the misfit of the linearised deflections.
`W` is what the solver returned, a solution of `S W = Y`. -/
theorem C70_gaussnewton_partial (b : Bowl) (W : Nat → ℝ) (hg : b.OneGroup)
    (hW : ∀ i, i < b.nl → ∑ j ∈ range b.nl, b.gS i j * W j = b.gY i) (X : Nat → ℝ) : b.misfit W ≤ b.misfit X := by
  have e : X = fun i => W i + (X i - W i) := by funext i; ring
  generalize hD : (fun i => X i - W i) = D at *
  have e' : X = fun i => W i + D i := by rw [← hD]; exact e
  rw [e', misfit_add]
  have h1 : ∑ j ∈ range b.dl, (b.Y j - ∑ i ∈ range b.nl, b.J j i * W i) * ∑ i ∈ range b.nl, b.J j i * D i = 0 := by
    have : ∀ i ∈ range b.nl, (∑ j ∈ range b.dl, (b.Y j - ∑ k ∈ range b.nl, b.J j k * W k) * b.J j i) * D i = 0 := by
      intro i hi
      have h := hW i (mem_range.1 hi)
      have e1 : ∑ j ∈ range b.dl, (b.Y j - ∑ k ∈ range b.nl, b.J j k * W k) * b.J j i =
          b.gY i - ∑ j ∈ range b.nl, b.gS i j * W j := by
        simp only [Bowl.gY, Bowl.gS, sum_mul, sub_mul, sum_sub_distrib]
        congr 1
        · exact sum_congr rfl fun j hj => by rw [OneGroup_H hg (mem_range.1 hj)]
        · rw [sum_comm]
          refine sum_congr rfl fun k _ => sum_congr rfl fun j hj => ?_
          rw [OneGroup_H hg (mem_range.1 hj), OneGroup_H hg (mem_range.1 hj)]
          ring
      rw [e1, h, sub_self, zero_mul]
    rw [← sum_eq_zero this]
    simp only [mul_sum, sum_mul]
    rw [sum_comm]
    exact sum_congr rfl fun i _ => sum_congr rfl fun j _ => by ring
  rw [h1]
  have h3 : 0 ≤ ∑ j ∈ range b.dl, (∑ i ∈ range b.nl, b.J j i * D i) ^ 2 := sum_nonneg fun _ _ => sq_nonneg _
  linarith

/-- **C70**, bounds: whatever happens, the moduli after a step lie between `10` and `10⁹`. -/
theorem C70_bounds (b : Bowl) (wt : ℝ) (inv : Nat → Nat → ℝ) (P : Nat → ℝ) (i : Nat) :
    1 ≤ b.kalman wt inv P i ∧ b.kalman wt inv P i ≤ 9 := by
  simp only [Bowl.kalman]
  generalize xadd _ _ _ = y
  have h : 1 ≤ cmax 1 y := by
    cases y with
    | none => exact le_refl 1
    | some y => simp only [cmax]; split_ifs <;> linarith
  unfold cmin
  split_ifs <;> constructor <;> linarith

/-- **C70**, bounds of a Gauss-Newton step: a modulus that stays between `10` and `10⁹` takes the whole step, any other ends at the
bound it would cross. -/
theorem C70_gaussnewton_bounds (W P : Nat → ℝ) (i : Nat) :
    (1 ≤ P i + W i → P i + W i ≤ 9 → gaussnewton W P i = P i + W i) ∧ (P i + W i < 1 → gaussnewton W P i = 1) ∧
    (9 < P i + W i → gaussnewton W P i = 9) := by
  simp only [gaussnewton, cmin, cmax]
  refine ⟨fun h1 h2 => ?_, fun h => ?_, fun h => ?_⟩ <;> split_ifs <;> linarith

/-- A step of each kind. -/
example : gaussnewton (fun _ => 1) (fun i => if i = 0 then 4 else if i = 1 then -3 else 8.5) 0 = 5 ∧
    gaussnewton (fun _ => 1) (fun i => if i = 0 then 4 else if i = 1 then -3 else 8.5) 1 = 1 ∧
    gaussnewton (fun _ => 1) (fun i => if i = 0 then 4 else if i = 1 then -3 else 8.5) 2 = 9 := by
  refine ⟨?_, ?_, ?_⟩
  · rw [(C70_gaussnewton_bounds _ _ 0).1 (by norm_num) (by norm_num)]; norm_num
  · exact (C70_gaussnewton_bounds _ _ 1).2.1 (by norm_num)
  · exact (C70_gaussnewton_bounds _ _ 2).2.2 (by norm_num)

/-- **C70**, length: unless the step vanishes, no step changes the logarithms of admissible moduli by more than one in all. -/
theorem C70_length (b : Bowl) (wt : ℝ) (inv : Nat → Nat → ℝ) (P : Nat → ℝ) (hP : ∀ i, 1 ≤ P i ∧ P i ≤ 9)
    (hs : b.step wt inv ≠ 0) : len2 b.nl (fun i => b.kalman wt inv P i - P i) ≤ 1 := by
  have hpos : 0 < b.step wt inv := lt_of_le_of_ne (Real.sqrt_nonneg _) (Ne.symm hs)
  have hsq : b.step wt inv ^ 2 = ∑ i ∈ range b.nl, b.W wt inv i ^ 2 := by
    have h0 : 0 ≤ ∑ i ∈ range b.nl, b.W wt inv i * b.W wt inv i := sum_nonneg fun i _ => mul_self_nonneg _
    rw [Bowl.step, Real.sq_sqrt h0]
    exact sum_congr rfl fun i _ => by ring
  set s := b.step wt inv with hsdef
  set a := cmin s 1 / s with ha
  have ha1 : a * s ≤ 1 := by
    rw [ha, div_mul_cancel₀ _ hs]
    unfold cmin; split_ifs <;> linarith
  have ha0 : 0 ≤ a := div_nonneg (by unfold cmin; split_ifs <;> linarith) hpos.le
  have hk : ∀ i, |b.kalman wt inv P i - P i| ≤ |a * b.W wt inv i| := by
    intro i
    have hd : xdiv (cmin s 1) s = some a := by simp [xdiv, hs, ha]
    have e : b.kalman wt inv P i = cmin (cmax 1 (some (P i + a * b.W wt inv i))) 9 := by
      simp only [Bowl.kalman, ← hsdef, hd, xadd, Option.map_some]
    rw [e]
    obtain ⟨h1, h2⟩ := hP i
    generalize a * b.W wt inv i = t
    simp only [cmax, cmin]
    rcases le_total 0 t with ht | ht
    · rw [abs_of_nonneg ht, abs_le]
      split_ifs <;> constructor <;> linarith
    · rw [abs_of_nonpos ht, abs_le]
      split_ifs <;> constructor <;> linarith
  calc len2 b.nl (fun i => b.kalman wt inv P i - P i) ≤ ∑ i ∈ range b.nl, (a * b.W wt inv i) ^ 2 :=
        sum_le_sum fun i _ => sq_le_sq.2 (hk i)
    _ = (a * s) ^ 2 := by rw [mul_pow, hsq, mul_sum]; exact sum_congr rfl fun i _ => by ring
    _ ≤ 1 := by nlinarith [mul_nonneg ha0 hpos.le]

theorem zero_step (b : Bowl) (wt : ℝ) (inv : Nat → Nat → ℝ) (hfit : ∀ j, j < b.dl → b.measured j = b.defl (b.lg j) j) :
    b.step wt inv = 0 := by
  have : ∀ i, b.W wt inv i = 0 := fun i => sum_eq_zero fun j hj => by
    rw [Bowl.Y, hfit j (mem_range.1 hj), sub_self, mul_zero]
  simp [Bowl.step, this]

/-- **C70** fails (exact fit): if the moduli reproduce every measured deflection exactly, the Kalman step does not keep them but
replaces all of them by `10`. -/
theorem C70_exact_fit (b : Bowl) (wt : ℝ) (inv : Nat → Nat → ℝ) (P : Nat → ℝ)
    (hfit : ∀ j, j < b.dl → b.measured j = b.defl (b.lg j) j) (i : Nat) : b.kalman wt inv P i = 1 := by
  simp only [Bowl.kalman, zero_step b wt inv hfit, xdiv, if_true, xadd, Option.map_none, cmax, cmin]
  norm_num

/-- **C70** fails (exact fit): a back-calculation that reaches such moduli before its last loop reports success with all moduli
equal to `10`. -/
theorem C70_exact_fit_result (bowl : (Nat → ℝ) → Bowl) (inv : (Nat → Nat → ℝ) → Nat → Nat → ℝ) (wt : Nat → ℝ) (tol : ℝ)
    (htol : 0 < tol) (n k : Nat) (step : ℝ) (P : Nat → ℝ)
    (hfit : ∀ j, j < (bowl P).dl → (bowl P).measured j = (bowl P).defl ((bowl P).lg j) j) :
    (finish bowl inv wt tol (n + 1) k step P).1 ∧ ∀ i, (finish bowl inv wt tol (n + 1) k step P).2 i = 10 := by
  have hz := zero_step (bowl P) (wt k) (inv ((bowl P).S (wt k))) hfit
  simp only [finish, hz, if_pos htol]
  refine ⟨htol.le, fun i => ?_⟩
  rw [C70_exact_fit (bowl P) (wt k) _ P hfit i, Real.rpow_one]

/-- One deflection of group 1 while the default group is 0, and opposite gradients. -/
def twoGroups : Bowl :=
  { nl := 1, dl := 1, defl := fun _ _ => 0, grad := fun g _ _ => if g = 0 then 1 else -1, lg := fun _ => 1
    measured := fun _ => 1, clg := 0, noise := 0, precision := 0 }

/-- **C70** fails (load groups): for a deflection that was not measured under the default group the step uses the gradient
of another group; here it makes the misfit four times as large. -/
theorem C70_group_fails : ¬ twoGroups.OneGroup ∧
    (∀ i j, i < twoGroups.dl → j < twoGroups.dl →
      ∑ k ∈ range twoGroups.dl, twoGroups.S 1 i k * (fun _ _ => (1 : ℝ)) k j = if i = j then 1 else 0) ∧
    twoGroups.misfit (fun _ => 0) = 1 ∧ twoGroups.misfit (twoGroups.W 1 fun _ _ => 1) = 4 ∧
    ∀ i, twoGroups.kalman 1 (fun _ _ => 1) (fun _ => 3) i = 4 := by
  have hW : ∀ i, twoGroups.W 1 (fun _ _ => 1) i = 1 := by
    intro i
    simp [Bowl.W, twoGroups, Bowl.H, Bowl.Y]
  refine ⟨?_, ?_, ?_, ?_, ?_⟩
  · intro h
    have := h 0 (by simp [twoGroups])
    simp [twoGroups] at this
  · intro i j hi hj
    have hi0 : i = 0 := by simpa [twoGroups] using hi
    have hj0 : j = 0 := by simpa [twoGroups] using hj
    subst hi0 hj0
    simp [Bowl.S, Bowl.H, twoGroups]
  · simp [Bowl.misfit, twoGroups]
  · simp only [Bowl.misfit, hW]
    simp [twoGroups, Bowl.J]
    norm_num
  · intro i
    have hs : twoGroups.step 1 (fun _ _ => 1) = 1 := by
      simp only [Bowl.step, hW]
      simp [twoGroups]
    simp only [Bowl.kalman, hs, hW, xdiv, cmin, xadd, cmax]
    norm_num

/-! ## Non-vacuity -/

/-- Two deflections of the default group, with noise, and the inverse of its matrix. -/
def demo : Bowl :=
  { nl := 1, dl := 2, defl := fun _ _ => 0, grad := fun _ j _ => j + 1, lg := fun _ => 0
    measured := fun j => j, clg := 0, noise := 1, precision := 0 }

noncomputable def demoInv : Nat → Nat → ℝ := fun i j => if i = 0 then (if j = 0 then 5 / 6 else -1 / 3) else (if j = 0 then -1 / 3 else 1 / 3)

example : demo.OneGroup ∧ ∀ i j, i < demo.dl → j < demo.dl →
    ∑ k ∈ range demo.dl, demo.S 1 i k * demoInv k j = if i = j then 1 else 0 := by
  refine ⟨fun _ _ => rfl, fun i j hi hj => ?_⟩
  have hi' : i < 2 := hi
  have hj' : j < 2 := hj
  obtain rfl | rfl : i = 0 ∨ i = 1 := by omega
  all_goals obtain rfl | rfl : j = 0 ∨ j = 1 := by omega
  all_goals simp [Bowl.S, Bowl.H, demo, demoInv, sum_range_succ]; norm_num

/-- Its step does not vanish. -/
example : demo.step 1 demoInv ≠ 0 := by
  have : demo.W 1 demoInv 0 = 1 / 3 := by
    simp [Bowl.W, Bowl.H, Bowl.Y, demo, demoInv, sum_range_succ]; norm_num
  simp [Bowl.step, demo] at *
  simp [this]

/-- A bowl that fits exactly, and a solution of the normal equations. -/
example : ∀ j, j < demo.dl → ({ demo with defl := fun _ j => j } : Bowl).measured j =
    ({ demo with defl := fun _ j => j } : Bowl).defl (demo.lg j) j := fun _ _ => rfl

example : ∀ i, i < demo.nl → ∑ j ∈ range demo.nl, demo.gS i j * (fun _ => 2 / 5 : Nat → ℝ) j = demo.gY i := by
  intro i hi
  have : i = 0 := by simpa [demo] using hi
  subst this
  simp [Bowl.gS, Bowl.gY, Bowl.H, Bowl.Y, demo, sum_range_succ]
  norm_num

end OP.Pave.Back
