import Mathlib.Analysis.SpecialFunctions.Gaussian.GaussianIntegral
import Mathlib.MeasureTheory.Integral.IntervalIntegral.FundThmCalculus
import Mathlib.MeasureTheory.Integral.IntegralEqImproper

/-!
The normal distribution itself: its density, its distribution function as an integral, and what the proofs use of them.
-/

namespace OP.Stat

open MeasureTheory Filter Topology

/-- The density of the standard normal distribution. -/
noncomputable def phi (t : ℝ) : ℝ := Real.exp (-t ^ 2 / 2) / √(2 * Real.pi)

/-- The standard normal distribution function. -/
noncomputable def Phi (u : ℝ) : ℝ := ∫ t in Set.Iic u, phi t

theorem phi_pos (t : ℝ) : 0 < phi t := by unfold phi; positivity

theorem phi_neg (t : ℝ) : phi (-t) = phi t := by simp [phi]

theorem phi_continuous : Continuous phi := by unfold phi; fun_prop

theorem phi_integrable : Integrable phi := by
  have h := (integrable_exp_neg_mul_sq (b := 1 / 2) (by norm_num)).div_const (√(2 * Real.pi))
  refine h.congr (Eventually.of_forall fun t => ?_)
  simp only [phi]; congr 2; ring

theorem phi_total : ∫ t, phi t = 1 := by
  have h := integral_gaussian (1 / 2)
  have e : phi = fun t => Real.exp (-(1 / 2) * t ^ 2) / √(2 * Real.pi) := by
    funext t; simp only [phi]; congr 2; ring
  rw [e, integral_div, h]
  rw [show Real.pi / (1 / 2) = 2 * Real.pi by ring]
  exact div_self (by positivity)

theorem Phi_neg (u : ℝ) : Phi (-u) = 1 - Phi u := by
  have h1 : Phi (-u) = ∫ t in Set.Ioi u, phi t := by
    rw [Phi, ← integral_comp_neg_Ioi]
    simp only [phi_neg]
  have h2 := intervalIntegral.integral_Iic_add_Ioi (b := u) (μ := volume) phi_integrable.integrableOn phi_integrable.integrableOn
  rw [phi_total] at h2
  rw [h1, Phi]; linarith

theorem Phi_sub (a b : ℝ) : Phi b - Phi a = ∫ t in a..b, phi t :=
  intervalIntegral.integral_Iic_sub_Iic phi_integrable.integrableOn phi_integrable.integrableOn

theorem hasDerivAt_Phi (u : ℝ) : HasDerivAt Phi (phi u) u := by
  have h := intervalIntegral.integral_hasDerivAt_right (phi_continuous.intervalIntegrable 0 u)
    (phi_continuous.stronglyMeasurableAtFilter _ _) phi_continuous.continuousAt
  have e : Phi = fun u => Phi 0 + ∫ t in (0 : ℝ)..u, phi t := by
    funext v; rw [← Phi_sub]; ring
  rw [e]; exact h.const_add _

theorem Phi_tendsto : Tendsto Phi atTop (𝓝 1) := by
  have h := intervalIntegral_tendsto_integral_Ioi (0 : ℝ) phi_integrable.integrableOn tendsto_id
  have e : Phi = fun u => Phi 0 + ∫ t in (0 : ℝ)..u, phi t := by
    funext v; rw [← Phi_sub]; ring
  have h2 := intervalIntegral.integral_Iic_add_Ioi (b := (0:ℝ)) (μ := volume) phi_integrable.integrableOn phi_integrable.integrableOn
  rw [phi_total] at h2
  rw [e, ← h2]
  exact h.const_add _

theorem Phi_zero : Phi 0 = 1 / 2 := by
  have := Phi_neg 0
  rw [neg_zero] at this; linarith

theorem Phi_strictMono : StrictMono Phi :=
  strictMono_of_hasDerivAt_pos hasDerivAt_Phi phi_pos

theorem Phi_lt_one (u : ℝ) : Phi u < 1 := by
  have h : Phi (u + 1) ≤ 1 := Phi_strictMono.monotone.ge_of_tendsto Phi_tendsto _
  exact (Phi_strictMono (by linarith)).trans_le h

theorem Phi_pos (u : ℝ) : 0 < Phi u := by
  have := Phi_lt_one (-u)
  rw [Phi_neg] at this; linarith

end OP.Stat
