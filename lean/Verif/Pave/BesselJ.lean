import Verif.Pave.Axial
import Mathlib.Analysis.Calculus.ParametricIntervalIntegral
import Mathlib.Analysis.SpecialFunctions.Integrals.Basic
import Mathlib.MeasureTheory.Integral.IntervalIntegral.IntegrationByParts
/-!
# The Bessel functions of order zero and one

By Bessel's integrals.  They stand for `j0` and `j1` of the C library.
-/
namespace OP.Pave

open MeasureTheory intervalIntegral Real

/-- Bessel's integrals. -/
noncomputable def besselJ : Bessel where
  j0 x := (∫ t in (0 : ℝ)..π, cos (x * sin t)) / π
  j1 x := (∫ t in (0 : ℝ)..π, sin t * sin (x * sin t)) / π

theorem besselJ_j0 (x : ℝ) : HasDerivAt besselJ.j0 (-besselJ.j1 x) x := by
  have h := (hasDerivAt_integral_of_dominated_loc_of_deriv_le (μ := volume) (a := 0) (b := π) (bound := fun _ => 1)
    (F := fun x t => cos (x * sin t)) (F' := fun x t => -(sin t * sin (x * sin t))) (x₀ := x) (s := Set.univ) Filter.univ_mem
    (Filter.Eventually.of_forall fun y => Continuous.aestronglyMeasurable (by fun_prop))
    (Continuous.intervalIntegrable (by fun_prop) _ _) (Continuous.aestronglyMeasurable (by fun_prop))
    (Filter.Eventually.of_forall fun t _ y _ => by
      rw [norm_neg, norm_mul, Real.norm_eq_abs, Real.norm_eq_abs]
      exact mul_le_one₀ (abs_sin_le_one _) (abs_nonneg _) (abs_sin_le_one _))
    (Continuous.intervalIntegrable (by fun_prop) _ _)
    (Filter.Eventually.of_forall fun t _ y _ => by
      have := ((hasDerivAt_id y).mul_const (sin t)).cos
      exact this.congr_deriv (by simp; ring))).2
  have h2 := h.div_const π
  rw [intervalIntegral.integral_neg, neg_div] at h2
  exact h2

theorem besselJ_d (x : ℝ) : HasDerivAt besselJ.j1 ((∫ t in (0 : ℝ)..π, sin t ^ 2 * cos (x * sin t)) / π) x := by
  have h := (hasDerivAt_integral_of_dominated_loc_of_deriv_le (μ := volume) (a := 0) (b := π) (bound := fun _ => 1)
    (F := fun x t => sin t * sin (x * sin t)) (F' := fun x t => sin t ^ 2 * cos (x * sin t)) (x₀ := x) (s := Set.univ) Filter.univ_mem
    (Filter.Eventually.of_forall fun y => Continuous.aestronglyMeasurable (by fun_prop))
    (Continuous.intervalIntegrable (by fun_prop) _ _) (Continuous.aestronglyMeasurable (by fun_prop))
    (Filter.Eventually.of_forall fun t _ y _ => by
      rw [norm_mul, Real.norm_eq_abs, Real.norm_eq_abs]
      refine mul_le_one₀ ?_ (abs_nonneg _) (abs_cos_le_one _)
      rw [abs_pow]
      exact pow_le_one₀ (abs_nonneg _) (abs_sin_le_one _))
    (Continuous.intervalIntegrable (by fun_prop) _ _)
    (Filter.Eventually.of_forall fun t _ y _ => by
      have := (((hasDerivAt_id y).mul_const (sin t)).sin).const_mul (sin t)
      exact this.congr_deriv (by simp; ring))).2
  exact h.div_const π

theorem besselJ_j1 (x : ℝ) (hx : x ≠ 0) : HasDerivAt besselJ.j1 (besselJ.j0 x - besselJ.j1 x / x) x := by
  convert besselJ_d x using 1
  have hb : ∫ t in (0 : ℝ)..π, (-(sin t * sin (x * sin t)) + x * (cos t ^ 2 * cos (x * sin t))) = 0 := by
    have hd : ∀ t ∈ Set.uIcc (0 : ℝ) π, HasDerivAt (fun t => cos t * sin (x * sin t))
        (-(sin t * sin (x * sin t)) + x * (cos t ^ 2 * cos (x * sin t))) t := by
      intro t _
      have := (hasDerivAt_cos t).mul ((((hasDerivAt_sin t).const_mul x)).sin)
      exact this.congr_deriv (by ring)
    rw [integral_eq_sub_of_hasDerivAt hd (Continuous.intervalIntegrable (by fun_prop) _ _)]
    simp
  rw [integral_add (Continuous.intervalIntegrable (by fun_prop) _ _) (Continuous.intervalIntegrable (by fun_prop) _ _), intervalIntegral.integral_neg,
    intervalIntegral.integral_const_mul] at hb
  have hs : (∫ t in (0 : ℝ)..π, cos (x * sin t)) =
      (∫ t in (0 : ℝ)..π, sin t ^ 2 * cos (x * sin t)) + ∫ t in (0 : ℝ)..π, cos t ^ 2 * cos (x * sin t) := by
    rw [← integral_add (Continuous.intervalIntegrable (by fun_prop) _ _) (Continuous.intervalIntegrable (by fun_prop) _ _)]
    congr 1
    funext t
    linear_combination (-cos (x * sin t)) * sin_sq_add_cos_sq t
  simp only [besselJ]
  rw [hs]
  have hpi := pi_ne_zero
  generalize (∫ t in (0 : ℝ)..π, sin t ^ 2 * cos (x * sin t)) = A at *
  generalize (∫ t in (0 : ℝ)..π, cos t ^ 2 * cos (x * sin t)) = B at *
  generalize (∫ t in (0 : ℝ)..π, sin t * sin (x * sin t)) = D at *
  field_simp
  linear_combination hb

theorem besselJ_zero : besselJ.j0 0 = 1 ∧ besselJ.j1 0 = 0 := by
  simp [besselJ, pi_ne_zero]

end OP.Pave
