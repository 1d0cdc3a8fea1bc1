import Verif.Fem.Area
import Mathlib.MeasureTheory.Measure.Lebesgue.Integral
import Mathlib.MeasureTheory.Integral.IntervalIntegral.FundThmCalculus
import Mathlib.Analysis.SpecialFunctions.Trigonometric.InverseDeriv
import Mathlib.Analysis.SpecialFunctions.Integrals.Basic
import Mathlib.MeasureTheory.Group.Measure
import Mathlib.MeasureTheory.Measure.Haar.OfBasis
/-!
# Areas of parts of a disc
-/
namespace OP.Fem.Area

open Real MeasureTheory Set

/-- The disc of radius `r` around the origin. -/
def disc (r : ℝ) : Set (ℝ × ℝ) := {p | p.1 ^ 2 + p.2 ^ 2 ≤ r ^ 2}

/-- The area of a part of the plane. -/
noncomputable def area (s : Set (ℝ × ℝ)) : ℝ := (volume s).toReal

/-- The block between `x1` and `x2`, and between `y1` and `y2`, in any order. -/
def block (x1 x2 y1 y2 : ℝ) : Set (ℝ × ℝ) := uIcc x1 x2 ×ˢ uIcc y1 y2

/-- The part of the disc beyond a corner. -/
def beyond (x y r : ℝ) : Set (ℝ × ℝ) := (Ici x ×ˢ Ici y) ∩ disc r

theorem measurable_disc (r : ℝ) : MeasurableSet (disc r) := by
  unfold disc
  exact measurableSet_le (by fun_prop) (by fun_prop)

theorem disc_sub (r : ℝ) : disc r ⊆ Icc (-|r|) |r| ×ˢ Icc (-|r|) |r| := by
  rintro ⟨u, v⟩ h
  simp only [disc, mem_setOf_eq] at h
  have hu : |u| ≤ |r| := sq_le_sq.mp (by nlinarith [sq_nonneg v])
  have hv : |v| ≤ |r| := sq_le_sq.mp (by nlinarith [sq_nonneg u])
  simp only [mem_prod, mem_Icc]
  exact ⟨abs_le.mp hu, abs_le.mp hv⟩

theorem disc_fin (r : ℝ) : volume (disc r) ≠ ⊤ := by
  refine ne_top_of_le_ne_top ?_ (measure_mono (disc_sub r))
  rw [Measure.volume_eq_prod, Measure.prod_prod]
  simp [ENNReal.mul_eq_top]

theorem inter_fin (s : Set (ℝ × ℝ)) (r : ℝ) : volume (s ∩ disc r) ≠ ⊤ :=
  ne_top_of_le_ne_top (disc_fin r) (measure_mono inter_subset_right)

/-- The area of two parts that do not meet. -/
theorem area_union {s t : Set (ℝ × ℝ)} (r : ℝ) (hd : Disjoint s t) (ht : MeasurableSet t) :
    area ((s ∪ t) ∩ disc r) = area (s ∩ disc r) + area (t ∩ disc r) := by
  unfold area
  rw [union_inter_distrib_right, measure_union (hd.mono inter_subset_left inter_subset_left)
    (ht.inter (measurable_disc r)), ENNReal.toReal_add (inter_fin s r) (inter_fin t r)]

theorem area_congr {s t : Set (ℝ × ℝ)} (r : ℝ) (h : s =ᵐ[volume] t) : area (s ∩ disc r) = area (t ∩ disc r) := by
  unfold area
  rw [measure_congr (s := s ∩ disc r) (t := t ∩ disc r) (ae_eq_set_inter h (ae_eq_refl _))]

/-- The antiderivative of the half chord. -/
theorem hasDeriv_chord {r u : ℝ} (hr : 0 < r) (h1 : -r < u) (h2 : u < r) :
    HasDerivAt (fun u => (u * √(r ^ 2 - u ^ 2) + r ^ 2 * arcsin (u / r)) / 2) (√(r ^ 2 - u ^ 2)) u := by
  have hp : 0 < r ^ 2 - u ^ 2 := by nlinarith
  have hs : 0 < √(r ^ 2 - u ^ 2) := sqrt_pos.mpr hp
  have d1 : HasDerivAt (fun u : ℝ => r ^ 2 - u ^ 2) (-(2 * u)) u := by
    simpa using (hasDerivAt_pow 2 u).const_sub (r ^ 2)
  have d2 := d1.sqrt hp.ne'
  have d3 := (hasDerivAt_id u).mul d2
  have hm1 : u / r ≠ -1 := by
    intro h
    rw [div_eq_iff hr.ne'] at h
    linarith
  have hp1 : u / r ≠ 1 := by
    intro h
    rw [div_eq_iff hr.ne'] at h
    linarith
  have d4 : HasDerivAt (fun u : ℝ => arcsin (u / r)) (1 / √(1 - (u / r) ^ 2) * (1 / r)) u := by
    have := (hasDerivAt_arcsin hm1 hp1).comp u ((hasDerivAt_id u).div_const r)
    simpa [Function.comp_def] using this
  have d5 := (d3.add (d4.const_mul (r ^ 2))).div_const 2
  have e1 : √(1 - (u / r) ^ 2) = √(r ^ 2 - u ^ 2) / r := by
    rw [show 1 - (u / r) ^ 2 = (r ^ 2 - u ^ 2) / r ^ 2 by field_simp, sqrt_div hp.le, sqrt_sq hr.le]
  have e2 : √(r ^ 2 - u ^ 2) ^ 2 = r ^ 2 - u ^ 2 := sq_sqrt hp.le
  refine HasDerivAt.congr_deriv (show HasDerivAt
    (fun u => (u * √(r ^ 2 - u ^ 2) + r ^ 2 * arcsin (u / r)) / 2) _ u from d5) ?_
  rw [e1]
  simp only [id]
  field_simp
  nlinarith [e2]

/-- The area of the disc beyond a corner inside it. -/
theorem area_beyond {x y r : ℝ} (hx : 0 ≤ x) (hy : 0 ≤ y) (hr : 0 < r) (h : x ^ 2 + y ^ 2 < r ^ 2) :
    area (beyond x y r) = r * r * (π / 2 - arcsin (x / r) - arcsin (y / r)) / 2
      - (√(r * r - y * y) - x) * y / 2 - (√(r * r - x * x) - y) * x / 2 := by
  set b := √(r ^ 2 - y ^ 2) with hb
  have hb2 : b ^ 2 = r ^ 2 - y ^ 2 := sq_sqrt (by nlinarith [sq_nonneg x])
  have hb0 : 0 ≤ b := sqrt_nonneg _
  have hxb : x ≤ b := by
    apply le_of_sq_le_sq _ hb0
    nlinarith
  have hbr : b ≤ r := by
    apply le_of_sq_le_sq _ hr.le
    nlinarith [sq_nonneg y]
  have hle : ∀ u, u ∈ Icc x b → y ≤ √(r ^ 2 - u ^ 2) := by
    intro u hu
    apply le_sqrt_of_sq_le
    nlinarith [hu.1, hu.2]
  have hslice : ∀ u, volume (Prod.mk u ⁻¹' beyond x y r)
      = (Icc x b).indicator (fun u => ENNReal.ofReal (√(r ^ 2 - u ^ 2) - y)) u := by
    intro u
    by_cases hu : u ∈ Icc x b
    · rw [indicator_of_mem hu, ← Real.volume_Icc]
      congr 1
      ext v
      simp only [beyond, disc, mem_preimage, mem_inter_iff, mem_prod, mem_Ici, mem_setOf_eq, mem_Icc]
      have h0 : 0 ≤ r ^ 2 - u ^ 2 := by nlinarith [hu.1, hu.2]
      constructor
      · rintro ⟨⟨_, hv⟩, h3⟩
        exact ⟨hv, le_sqrt_of_sq_le (by linarith)⟩
      · rintro ⟨hv, h3⟩
        refine ⟨⟨hu.1, hv⟩, ?_⟩
        have := sq_sqrt h0
        nlinarith
    · rw [indicator_of_notMem hu]
      have : Prod.mk u ⁻¹' beyond x y r = ∅ := by
        ext v
        simp only [beyond, disc, mem_preimage, mem_inter_iff, mem_prod, mem_Ici, mem_setOf_eq, mem_empty_iff_false,
          iff_false, not_and]
        rintro ⟨hv, hv2⟩ h3
        apply hu
        refine ⟨hv, le_of_sq_le_sq ?_ hb0⟩
        nlinarith
      rw [this, measure_empty]
  have hcont : ContinuousOn (fun u => √(r ^ 2 - u ^ 2) - y) (Icc x b) := by fun_prop
  have hvol : volume (beyond x y r) = ENNReal.ofReal (∫ u in x..b, (√(r ^ 2 - u ^ 2) - y)) := by
    have hmeas : MeasurableSet (beyond x y r) :=
      ((measurableSet_Ici.prod measurableSet_Ici)).inter (measurable_disc r)
    rw [Measure.volume_eq_prod, Measure.prod_apply hmeas]
    simp_rw [hslice]
    rw [lintegral_indicator measurableSet_Icc, intervalIntegral.integral_of_le hxb,
      ← integral_Icc_eq_integral_Ioc, ofReal_integral_eq_lintegral_ofReal]
    · exact hcont.integrableOn_Icc
    · exact (ae_restrict_iff' measurableSet_Icc).mpr (Filter.Eventually.of_forall fun u hu => sub_nonneg.mpr (hle u hu))
  have hint : ∫ u in x..b, (√(r ^ 2 - u ^ 2) - y)
      = (b * √(r ^ 2 - b ^ 2) + r ^ 2 * arcsin (b / r)) / 2 - y * b
        - ((x * √(r ^ 2 - x ^ 2) + r ^ 2 * arcsin (x / r)) / 2 - y * x) := by
    refine intervalIntegral.integral_eq_sub_of_hasDerivAt_of_le
      (f := fun u => (u * √(r ^ 2 - u ^ 2) + r ^ 2 * arcsin (u / r)) / 2 - y * u) hxb ?_ ?_ ?_
    · have : Continuous fun u : ℝ => arcsin (u / r) := continuous_arcsin.comp (by fun_prop)
      exact Continuous.continuousOn (by fun_prop)
    · intro u hu
      have := (hasDeriv_chord hr (u := u) (by linarith [hu.1]) (by linarith [hu.2])).sub
        ((hasDerivAt_id u).const_mul y)
      refine HasDerivAt.congr_deriv (show HasDerivAt
        (fun u => (u * √(r ^ 2 - u ^ 2) + r ^ 2 * arcsin (u / r)) / 2 - y * u) _ u from this) (by simp)
    · exact ContinuousOn.intervalIntegrable (by rw [uIcc_of_le hxb]; exact hcont)
  have hnn : 0 ≤ ∫ u in x..b, (√(r ^ 2 - u ^ 2) - y) :=
    intervalIntegral.integral_nonneg hxb fun u hu => sub_nonneg.mpr (hle u hu)
  have e1 : √(r ^ 2 - b ^ 2) = y := by
    rw [hb2, show r ^ 2 - (r ^ 2 - y ^ 2) = y ^ 2 by ring, sqrt_sq hy]
  have e2 : arcsin (b / r) = π / 2 - arcsin (y / r) := by
    have : b / r = √(1 - (y / r) ^ 2) := by
      rw [show 1 - (y / r) ^ 2 = (r ^ 2 - y ^ 2) / r ^ 2 by field_simp, sqrt_div (by nlinarith [sq_nonneg x]),
        sqrt_sq hr.le]
    have h1 : arcsin (y / r) = arccos (b / r) := by rw [this]; exact arcsin_eq_arccos (by positivity)
    rw [h1, arccos]
    ring
  unfold area
  rw [hvol, ENNReal.toReal_ofReal hnn, hint, e1, e2, show r * r - y * y = r ^ 2 - y ^ 2 by ring,
    show r * r - x * x = r ^ 2 - x ^ 2 by ring, ← hb]
  ring

/-- A corner outside the disc has nothing beyond it. -/
theorem area_beyond_out {x y r : ℝ} (hx : 0 ≤ x) (hy : 0 ≤ y) (h : r ^ 2 ≤ x ^ 2 + y ^ 2) :
    area (beyond x y r) = 0 := by
  have : beyond x y r ⊆ {(x, y)} := by
    rintro ⟨u, v⟩ ⟨⟨hu, hv⟩, hd⟩
    simp only [disc, mem_setOf_eq, mem_Ici] at hu hv hd
    have h1 : u ^ 2 - x ^ 2 = (u - x) * (u + x) := by ring
    have h2 : v ^ 2 - y ^ 2 = (v - y) * (v + y) := by ring
    have h3 : 0 ≤ (u - x) * (u + x) := mul_nonneg (by linarith) (by linarith)
    have h4 : 0 ≤ (v - y) * (v + y) := mul_nonneg (by linarith) (by linarith)
    have h5 : u ^ 2 = x ^ 2 := by linarith
    have h6 : v ^ 2 = y ^ 2 := by linarith
    have h7 : u = x := by nlinarith
    have h8 : v = y := by nlinarith
    simp [h7, h8]
  have : volume (beyond x y r) = 0 := measure_mono_null this (by
    rw [Measure.volume_eq_prod, ← singleton_prod_singleton, Measure.prod_prod]
    simp)
  simp [area, this]

theorem hypot_le {x y r : ℝ} (hr : 0 ≤ r) : hypot x y ≤ r ↔ x ^ 2 + y ^ 2 ≤ r ^ 2 := by
  unfold hypot
  rw [sqrt_le_left hr]

theorem le_hypot {x y r : ℝ} (hr : 0 ≤ r) : r ≤ hypot x y ↔ r ^ 2 ≤ x ^ 2 + y ^ 2 := by
  unfold hypot
  exact le_sqrt hr (by positivity)

/-- What `circlearea` calculates. -/
theorem circlearea_eq (x y : ℝ) {r : ℝ} (hr : 0 ≤ r) : circlearea x y r = area (beyond |x| |y| r) := by
  unfold circlearea
  by_cases h : r ≤ hypot |x| |y|
  · simp only [h, if_true]
    rw [area_beyond_out (abs_nonneg x) (abs_nonneg y) ((le_hypot hr).mp h)]
  · simp only [h, if_false]
    have h' : |x| ^ 2 + |y| ^ 2 < r ^ 2 := by
      rw [le_hypot hr] at h
      exact not_le.mp h
    have hr' : 0 < r := by
      rcases hr.lt_or_eq with h0 | h0
      · exact h0
      · rw [← h0] at h'
        nlinarith [sq_nonneg |x|, sq_nonneg |y|]
    rw [area_beyond (abs_nonneg x) (abs_nonneg y) hr' h']

end OP.Fem.Area
