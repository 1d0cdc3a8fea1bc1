import Verif.Stat.Dist
import Verif.Stat.PropsNormal
import Mathlib.Probability.Distributions.Gaussian.Real

/-!
# C104: the distributions

The specification is the distribution of `scale_stdnormal z` for a standard normal `z`: its expectation and its variance are
integrals over Mathlib's `gaussianReal 0 1`.
-/

namespace OP.Stat

open MeasureTheory ProbabilityTheory Filter Topology Dbl

/-- The standard normal distribution. -/
noncomputable abbrev N01 : Measure ℝ := gaussianReal 0 1

/-- `f z` has mean `m` and variance `w` for a standard normal `z`. -/
def Moments (f : ℝ → ℝ) (m w : ℝ) : Prop :=
  Integrable f N01 ∧ Integrable (fun z => (f z - m) ^ 2) N01 ∧ ∫ z, f z ∂N01 = m ∧ ∫ z, (f z - m) ^ 2 ∂N01 = w

theorem int_id : Integrable (fun z : ℝ => z) N01 := (memLp_id_gaussianReal 1).integrable (by simp)

theorem int_sq : Integrable (fun z : ℝ => z ^ 2) N01 := by
  have := (memLp_id_gaussianReal (μ := 0) (v := 1) 2).integrable_sq
  simpa using this

theorem sq_mean : ∫ z, z ^ 2 ∂N01 = 1 := by
  have h := variance_fun_id_gaussianReal (μ := 0) (v := 1)
  rw [variance_eq_integral (by fun_prop)] at h
  simpa [integral_id_gaussianReal] using h

/-- The normal distribution has the mean and the standard deviation it was made with, if that is not negative. -/
theorem C104_normal (m s : ℝ) : ∃ v f, make .normal (.fin m) (.fin s) = .ok v ∧ v.mean = .fin m ∧ v.stddev = .fin s ∧
    (∀ z, v.scale (.fin z) = .fin (f z)) ∧ Moments f m (s ^ 2) := by
  refine ⟨_, fun z => m + s * z, rfl, rfl, rfl, fun z => rfl, ?_, ?_, ?_, ?_⟩
  · exact (integrable_const m).add (int_id.const_mul s)
  · have : (fun z : ℝ => (m + s * z - m) ^ 2) = fun z => s ^ 2 * z ^ 2 := by funext z; ring
    rw [this]; exact int_sq.const_mul _
  · rw [integral_add (integrable_const m) (int_id.const_mul s), integral_const_mul, integral_id_gaussianReal]
    simp
  · have : (fun z : ℝ => (m + s * z - m) ^ 2) = fun z => s ^ 2 * z ^ 2 := by funext z; ring
    rw [this, integral_const_mul, sq_mean, mul_one]

/-- Nothing refuses a negative standard deviation, which is then reported although the values spread by its opposite. -/
theorem C104_normal_negative (m s : ℝ) (hs : s < 0) : ∃ v, make .normal (.fin m) (.fin s) = .ok v ∧
    v.stddev = .fin s ∧ v.randomizable = true ∧
    ∃ w, make .normal (.fin m) (.fin (-s)) = .ok w ∧ ∀ z, v.scale (.fin z) = w.scale (.fin (-z)) := by
  refine ⟨_, rfl, rfl, rfl, _, rfl, fun z => ?_⟩
  simp [Rv.scale, add, mul]

theorem logSd_fin (m s : ℝ) (hm : 0 < m) : logSd (.fin m) (.fin s) = .fin (√(Real.log (1 + s ^ 2 / m ^ 2))) := by
  have h : 0 ≤ s ^ 2 / m ^ 2 := by positivity
  have h2 : 0 ≤ Real.log (1 + s ^ 2 / m ^ 2) := Real.log_nonneg (by linarith)
  have e : 1 + s * s * m⁻¹ * m⁻¹ = 1 + s ^ 2 / m ^ 2 := by field_simp
  simp only [logSd, divBy, mul, add, log, e]
  rw [if_neg (by linarith), if_neg (by linarith)]
  simp only [sqrt]
  rw [if_neg (by linarith)]

theorem make_lognormal (m s : ℝ) (hm : 0 < m) (hs : 0 ≤ s) : make .lognormal (.fin m) (.fin s) =
    .ok ⟨.lognormal, .fin (Real.log m - Real.log (1 + s ^ 2 / m ^ 2) / 2), .fin (√(Real.log (1 + s ^ 2 / m ^ 2)))⟩ := by
  have h : 0 ≤ s ^ 2 / m ^ 2 := by positivity
  have h2 : 0 ≤ Real.log (1 + s ^ 2 / m ^ 2) := Real.log_nonneg (by linarith)
  have hb : bad (.fin m) (.fin s) = false := by
    simp [bad, isnan, le0, lt0, hm, hs]
  simp only [make, hb, isinf, logSd_fin m s hm]
  simp only [Bool.false_eq_true, if_false, mul, divBy, log]
  rw [if_neg (by linarith), if_neg hm.ne']
  simp only [sub, neg, add]
  rw [Real.mul_self_sqrt h2]
  congr 3

theorem exp_mean (c : ℝ) : ∫ z, Real.exp (c * z) ∂N01 = Real.exp (c ^ 2 / 2) := by
  have h := congrFun (mgf_id_gaussianReal (μ := 0) (v := 1)) c
  simpa [mgf] using h

/-- The lognormal distribution has the mean and the standard deviation it was made with, and its values are above 0. -/
theorem C104_lognormal (m s : ℝ) (hm : 0 < m) (hs : 0 ≤ s) : ∃ v f, make .lognormal (.fin m) (.fin s) = .ok v ∧
    v.mean = .fin m ∧ v.stddev = .fin s ∧ (∀ z, v.scale (.fin z) = .fin (f z)) ∧ (∀ z, 0 < f z) ∧ Monotone f ∧
    Moments f m (s ^ 2) := by
  have h : 0 ≤ s ^ 2 / m ^ 2 := by positivity
  have h2 : 0 ≤ Real.log (1 + s ^ 2 / m ^ 2) := Real.log_nonneg (by linarith)
  have hE : Real.exp (Real.log (1 + s ^ 2 / m ^ 2)) = 1 + s ^ 2 / m ^ 2 := Real.exp_log (by linarith)
  have hsq := Real.mul_self_sqrt h2
  set L := Real.log (1 + s ^ 2 / m ^ 2) with hL
  have hmean : Real.exp (Real.log m - L / 2 + √L * √L * 2⁻¹) = m := by
    rw [hsq, show Real.log m - L / 2 + L * 2⁻¹ = Real.log m by ring, Real.exp_log hm]
  have hf : ∀ z, Real.exp (Real.log m - L / 2 + √L * z) = Real.exp (Real.log m - L / 2) * Real.exp (√L * z) := by
    intro z; rw [Real.exp_add]
  have hf2 : ∀ z, Real.exp (Real.log m - L / 2 + √L * z) ^ 2 =
      Real.exp (Real.log m - L / 2) ^ 2 * Real.exp ((2 * √L) * z) := by
    intro z; rw [hf, mul_pow, ← Real.exp_nat_mul (√L * z)]; congr 2; push_cast; ring
  have hi1 : Integrable (fun z => Real.exp (Real.log m - L / 2 + √L * z)) N01 := by
    simp only [hf]; exact (integrable_exp_mul_gaussianReal _).const_mul _
  have hi2 : Integrable (fun z => Real.exp (Real.log m - L / 2 + √L * z) ^ 2) N01 := by
    simp only [hf2]; exact (integrable_exp_mul_gaussianReal _).const_mul _
  have hm1 : ∫ z, Real.exp (Real.log m - L / 2 + √L * z) ∂N01 = m := by
    simp only [hf]
    rw [integral_const_mul, exp_mean, ← Real.exp_add, pow_two, ← hmean]
    congr 1; rw [hmean]; ring
  have hm2 : ∫ z, Real.exp (Real.log m - L / 2 + √L * z) ^ 2 ∂N01 = m ^ 2 + s ^ 2 := by
    simp only [hf2]
    rw [integral_const_mul, exp_mean, ← Real.exp_nat_mul, ← Real.exp_add]
    have : (2 : ℕ) * (Real.log m - L / 2) + (2 * √L) ^ 2 / 2 = Real.log m + Real.log m + L := by
      push_cast
      have : (2 * √L) ^ 2 = 4 * (√L * √L) := by ring
      rw [this, hsq]; ring
    rw [this, Real.exp_add, Real.exp_add, Real.exp_log hm, hE]
    field_simp
  have hexp : (fun z => (Real.exp (Real.log m - L / 2 + √L * z) - m) ^ 2) =
      fun z => (Real.exp (Real.log m - L / 2 + √L * z) ^ 2 + -(2 * m) * Real.exp (Real.log m - L / 2 + √L * z)) + m ^ 2 := by
    funext z; ring
  have hi3 : Integrable (fun z => Real.exp (Real.log m - L / 2 + √L * z) ^ 2 +
      -(2 * m) * Real.exp (Real.log m - L / 2 + √L * z)) N01 := hi2.add (hi1.const_mul _)
  refine ⟨_, fun z => Real.exp (Real.log m - L / 2 + √L * z), make_lognormal m s hm hs, ?_, ?_, fun z => ?_,
    fun z => Real.exp_pos _, fun a b hab => ?_, hi1, ?_, hm1, ?_⟩
  · simp [Rv.mean, isinf, isnan, exp, add, divBy, mul, ← hL, hmean]
  · simp only [Rv.stddev, Rv.mean, isinf, isnan, exp, add, divBy, mul, ← hL, hmean]
    simp only [Bool.false_eq_true, Bool.or_false, if_false, sub, neg, add, hsq, hE]
    rw [show 1 + s ^ 2 / m ^ 2 + -1 = (s / m) ^ 2 by rw [div_pow]; ring]
    simp only [sqrt]
    rw [if_neg (by have := sq_nonneg (s / m); linarith), Real.sqrt_sq (by positivity)]
    simp only [mul]
    congr 1; field_simp
  · simp [Rv.scale, isinf, isnan, exp, add, mul, ← hL]
  · have : √L * a ≤ √L * b := mul_le_mul_of_nonneg_left hab (Real.sqrt_nonneg _)
    exact Real.exp_le_exp.2 (by linarith)
  · rw [hexp]; exact (hi2.add (hi1.const_mul _)).add (integrable_const _)
  · rw [hexp, integral_add hi3 (integrable_const _), integral_add hi2 (hi1.const_mul _),
      integral_const_mul, hm1, hm2]
    simp; ring

example : (0 : ℝ) < 3 ∧ (0 : ℝ) ≤ 2 := by norm_num

/-- Any other finite parameters make a lognormal variable that answers not-a-number and cannot be rolled. -/
theorem C104_lognormal_bad (m s : ℝ) (h : m ≤ 0 ∨ s < 0) : ∃ v, make .lognormal (.fin m) (.fin s) = .ok v ∧
    v.mean = .nan ∧ v.stddev = .nan ∧ v.randomizable = false ∧ ∀ z, v.scale z = .nan := by
  have hb : bad (.fin m) (.fin s) = true := by
    simp only [bad, isnan, le0, lt0]
    rcases h with h | h
    · simp [h]
    · simp [h]
  refine ⟨⟨.lognormal, .nan, .nan⟩, ?_, ?_, ?_, ?_, ?_⟩
  · simp [make, hb, isinf]
  all_goals simp [Rv.mean, Rv.stddev, Rv.randomizable, Rv.scale, isinf, isnan, isfinite]

/-! The uniform distribution. -/

theorem cdfR_lt {u v : ℝ} (h : u < v) : cdfR u < cdfR v := by
  obtain ⟨a, b, ha, hb, _, h2, _⟩ := C102_cdf_mono u v h
  simp only [cdf, Dbl.fin.injEq] at ha hb
  rw [ha, hb]; exact h2

theorem cdfR_range (u : ℝ) : 0 < cdfR u ∧ cdfR u < 1 := by
  obtain ⟨a, b, ha, hb, h1, h2, h3⟩ := C102_cdf_mono u (u + 1) (by linarith)
  simp only [cdf, Dbl.fin.injEq] at ha
  rw [ha]; exact ⟨h1, h2.trans h3⟩

theorem cdfR_neg (u : ℝ) : cdfR (-u) = 1 - cdfR u := by
  obtain ⟨c, h1, h2⟩ := C102_cdf_sym u
  simp only [cdf, Dbl.fin.injEq] at h1 h2
  rw [h1, h2]

theorem cdfR_mono : StrictMono cdfR := fun _ _ h => cdfR_lt h

theorem bounded_int {f : ℝ → ℝ} (hf : Measurable f) (c : ℝ) (h : ∀ z, |f z| ≤ c) : Integrable f N01 :=
  Integrable.of_bound hf.aestronglyMeasurable c (Eventually.of_forall fun z => by rw [Real.norm_eq_abs]; exact h z)

theorem cdfR_int : Integrable cdfR N01 :=
  bounded_int cdfR_mono.monotone.measurable 1 fun z => by
    have := cdfR_range z
    rw [abs_le]; constructor <;> linarith [this.1, this.2]

theorem neg_int (f : ℝ → ℝ) : ∫ z, f (-z) ∂N01 = ∫ z, f z ∂N01 := by
  have h : N01.map (fun x => -x) = N01 := by rw [gaussianReal_map_neg, neg_zero]
  have e := integral_map_equiv (μ := N01) (MeasurableEquiv.neg ℝ) f
  have h2 : N01.map (MeasurableEquiv.neg ℝ) = N01 := h
  rw [h2] at e
  rw [e]; rfl

theorem cdfR_mean : ∫ z, cdfR z ∂N01 = 1 / 2 := by
  have h := neg_int cdfR
  simp only [cdfR_neg] at h
  rw [integral_sub (integrable_const _) cdfR_int] at h
  simp at h; linarith

theorem pdf_eq (z : ℝ) : gaussianPDFReal 0 1 z = phi z := by
  simp only [gaussianPDFReal, phi]
  simp
  ring_nf

theorem Phi_tendsto_bot : Tendsto Phi atBot (𝓝 0) := by
  have h : Tendsto (fun u => 1 - Phi (-u)) atBot (𝓝 (1 - 1)) := (Phi_tendsto.comp tendsto_neg_atBot_atTop).const_sub 1
  rw [sub_self] at h
  refine h.congr fun u => ?_
  rw [Phi_neg]; ring

/-- The distribution function of a normal variable is uniform. -/
theorem Phi_var : ∫ z, (Phi z - 1 / 2) ^ 2 ∂N01 = 1 / 12 := by
  rw [integral_gaussianReal_eq_integral_smul (by norm_num)]
  simp only [pdf_eq, smul_eq_mul]
  have hd : ∀ x, HasDerivAt (fun u => (Phi u - 1 / 2) ^ 3 / 3) (phi x * (Phi x - 1 / 2) ^ 2) x := by
    intro x
    refine ((((hasDerivAt_Phi x).sub_const (1 / 2)).fun_pow 3).div_const 3).congr_deriv ?_
    push_cast; ring
  have hb : ∀ x, |Phi x - 1 / 2| ≤ 1 := fun x => by
    have h1 := Phi_pos x; have h2 := Phi_lt_one x
    rw [abs_le]; constructor <;> linarith
  have hcont : Continuous Phi := continuous_iff_continuousAt.2 fun x => (hasDerivAt_Phi x).continuousAt
  have hi : Integrable (fun x => phi x * (Phi x - 1 / 2) ^ 2) := by
    refine phi_integrable.mono (by have := phi_continuous; fun_prop) (Eventually.of_forall fun x => ?_)
    rw [norm_mul]
    have : ‖(Phi x - 1 / 2) ^ 2‖ ≤ 1 := by
      rw [norm_pow, Real.norm_eq_abs]; exact pow_le_one₀ (abs_nonneg _) (hb x)
    calc _ ≤ ‖phi x‖ * 1 := mul_le_mul_of_nonneg_left this (norm_nonneg _)
      _ = _ := mul_one _
  rw [integral_of_hasDerivAt_of_tendsto hd hi
    ((((Phi_tendsto_bot.sub_const (1 / 2)).pow 3).div_const 3)) ((((Phi_tendsto.sub_const (1 / 2)).pow 3).div_const 3))]
  norm_num

theorem cdfR_var : |∫ z, (cdfR z - 1 / 2) ^ 2 ∂N01 - 1 / 12| ≤ 5 / 10 ^ 16 := by
  have hcont : Continuous Phi := continuous_iff_continuousAt.2 fun x => (hasDerivAt_Phi x).continuousAt
  have i1 : Integrable (fun z => (cdfR z - 1 / 2) ^ 2) N01 := by
    refine bounded_int ((cdfR_mono.monotone.measurable.sub_const _).pow_const 2) 1 fun z => ?_
    have h := cdfR_range z
    rw [abs_pow]
    exact pow_le_one₀ (abs_nonneg _) (by rw [abs_le]; constructor <;> linarith [h.1, h.2])
  have i2 : Integrable (fun z => (Phi z - 1 / 2) ^ 2) N01 := by
    refine bounded_int ((hcont.measurable.sub_const _).pow_const 2) 1 fun z => ?_
    have h1 := Phi_pos z; have h2 := Phi_lt_one z
    rw [abs_pow]
    exact pow_le_one₀ (abs_nonneg _) (by rw [abs_le]; constructor <;> linarith)
  rw [← Phi_var, ← integral_sub i1 i2]
  rw [← Real.norm_eq_abs]
  refine le_trans (norm_integral_le_of_norm_le_const (μ := N01) (C := 5 / 10 ^ 16) (Eventually.of_forall fun z => ?_))
    (by rw [probReal_univ, mul_one])
  have hc := cdfR_near z
  have hr := cdfR_range z
  have h1 := Phi_pos z
  have h2 := Phi_lt_one z
  have hm : min (Phi z) (1 - Phi z) ≤ 1 := (min_le_left _ _).trans h2.le
  rw [Real.norm_eq_abs, show (cdfR z - 1 / 2) ^ 2 - (Phi z - 1 / 2) ^ 2 = (cdfR z - Phi z) * (cdfR z + Phi z - 1) by ring, abs_mul]
  have : |cdfR z + Phi z - 1| ≤ 1 := by rw [abs_le]; constructor <;> linarith [hr.1, hr.2]
  calc _ ≤ (5 / 10 ^ 16 * min (Phi z) (1 - Phi z)) * 1 := mul_le_mul hc this (abs_nonneg _) (by
        have : 0 < min (Phi z) (1 - Phi z) := lt_min h1 (by linarith)
        positivity)
    _ ≤ (5 / 10 ^ 16 * 1) * 1 := by gcongr
    _ = _ := by ring

/-- A uniform variable stays strictly between its bounds, grows with the normal number, is the quantile of the uniform
distribution within a relative 5e-16, and has the mean and the variance it reports: the mean exactly, the variance within
the same error. -/
theorem C104_uniform (a b : ℝ) (hab : a < b) : ∃ v f x w, make .uniform (.fin a) (.fin b) = .ok v ∧
    v.mean = .fin ((a + b) / 2) ∧ v.stddev = .fin x ∧ 0 < x ∧ x ^ 2 = (b - a) ^ 2 / 12 ∧ v.randomizable = true ∧
    (∀ z, v.scale (.fin z) = .fin (f z)) ∧ StrictMono f ∧ (∀ z, a < f z ∧ f z < b) ∧
    (∀ z, |f z - (a + (b - a) * Phi z)| ≤ 5 / 10 ^ 16 * (b - a)) ∧
    Moments f ((a + b) / 2) w ∧ |w - x ^ 2| ≤ 5 / 10 ^ 16 * (b - a) ^ 2 := by
  have hr3 : 0 < root12 := by rw [root12]; positivity
  have hr4 : root12 ^ 2 = 12 := by rw [root12, mul_pow, Real.sq_sqrt (by norm_num)]; norm_num
  have hba : 0 < b - a := by linarith
  have hsq : ((b + -a) * root12⁻¹) ^ 2 = (b - a) ^ 2 / 12 := by rw [mul_pow, inv_pow, hr4]; ring
  have hvar : (fun z => (a + (b + -a) * cdfR z - (a + b) / 2) ^ 2) = fun z => (b - a) ^ 2 * (cdfR z - 1 / 2) ^ 2 := by
    funext z; ring
  refine ⟨⟨.uniform, .fin a, .fin b⟩, fun z => a + (b + -a) * cdfR z, (b + -a) * root12⁻¹,
    (b - a) ^ 2 * ∫ z, (cdfR z - 1 / 2) ^ 2 ∂N01, rfl, ?_, ?_, ?_, hsq, ?_, fun z => rfl, ?_, ?_, ?_, ⟨?_, ?_, ?_, ?_⟩, ?_⟩
  · simp [Rv.mean, divBy, add, mul]; ring
  · simp [Rv.stddev, divBy, sub, neg, add, mul]
  · have : 0 < b + -a := by linarith
    positivity
  · simp [Rv.randomizable, isfinite, ne, hab.ne']
  · intro x y hxy
    have := mul_lt_mul_of_pos_left (cdfR_lt hxy) (show 0 < b + -a by linarith)
    dsimp only; linarith
  · intro z
    have h := cdfR_range z
    have h1 := mul_pos (show 0 < b + -a by linarith) h.1
    have h2 := mul_lt_mul_of_pos_left h.2 (show 0 < b + -a by linarith)
    constructor <;> linarith
  · intro z
    have h := cdfR_near z
    have hm : min (Phi z) (1 - Phi z) ≤ 1 := (min_le_left _ _).trans (Phi_lt_one z).le
    dsimp only
    rw [show a + (b + -a) * cdfR z - (a + (b - a) * Phi z) = (b - a) * (cdfR z - Phi z) by ring, abs_mul, abs_of_pos hba,
      mul_comm]
    refine mul_le_mul_of_nonneg_right (h.trans ?_) hba.le
    calc _ ≤ (5 / 10 ^ 16 : ℝ) * 1 := mul_le_mul_of_nonneg_left hm (by norm_num)
      _ = _ := mul_one _
  · exact (integrable_const a).add (cdfR_int.const_mul _)
  · rw [hvar]
    refine (bounded_int ((cdfR_mono.monotone.measurable.sub_const _).pow_const 2) 1 fun z => ?_).const_mul _
    have h := cdfR_range z
    rw [abs_pow]
    exact pow_le_one₀ (abs_nonneg _) (by rw [abs_le]; constructor <;> linarith [h.1, h.2])
  · rw [integral_add (integrable_const a) (cdfR_int.const_mul _), integral_const_mul, cdfR_mean]
    simp; ring
  · rw [hvar, integral_const_mul]
  · rw [hsq, show (b - a) ^ 2 * ∫ z, (cdfR z - 1 / 2) ^ 2 ∂N01 - (b - a) ^ 2 / 12 =
      (b - a) ^ 2 * (∫ z, (cdfR z - 1 / 2) ^ 2 ∂N01 - 1 / 12) by ring, abs_mul, abs_of_nonneg (sq_nonneg _), mul_comm]
    exact mul_le_mul_of_nonneg_right cdfR_var (sq_nonneg _)

/-! The discrete distribution. -/

/-- Exactly the discrete distribution refuses parameters, and exactly those that are not whole. -/
theorem C104_refused (k : Kind) (m s : ℝ) : make k (.fin m) (.fin s) = .throw ↔
    k = .discrete ∧ ¬((∃ a : ℤ, m = a) ∧ ∃ b : ℤ, s = b) := by
  have hc : ∀ x : ℝ, ((⌈x⌉ : ℤ) : ℝ) = x ↔ ∃ a : ℤ, x = a := by
    intro x
    constructor
    · intro h; exact ⟨_, h.symm⟩
    · rintro ⟨a, rfl⟩; simp
  cases k
  · simp [make]
  · simp [make]
  · simp [make]
  · simp [make]
  · simp only [make, ceil, ne, true_and, ne_eq]
    rw [← hc, ← hc]
    by_cases h1 : ((⌈m⌉ : ℤ) : ℝ) = m <;> by_cases h2 : ((⌈s⌉ : ℤ) : ℝ) = s <;> simp [h1, h2]

theorem make_discrete (a b : ℤ) : make .discrete (.fin a) (.fin b) = .ok ⟨.discrete, .fin a, .fin b⟩ := by
  simp [make, ceil, ne]

/-- A discrete variable takes whole values between its bounds, value `k` where the distribution function is in the share
of `k`; it reports their mean, which is also the mean of its values. -/
theorem C104_discrete (a b : ℤ) (hab : a ≤ b) : ∃ v f, make .discrete (.fin a) (.fin b) = .ok v ∧
    v.mean = .fin ((a + b) / 2) ∧ (∀ z, v.scale (.fin z) = .fin (f z : ℤ)) ∧ Monotone f ∧ (∀ z, a ≤ f z ∧ f z ≤ b) ∧
    (∀ z k, f z = k ↔ (k - a : ℝ) / (b - a + 1) < cdfR z ∧ cdfR z ≤ (k - a + 1) / (b - a + 1)) ∧
    Integrable (fun z => (f z : ℝ)) N01 ∧ ∫ z, (f z : ℝ) ∂N01 = (a + b) / 2 := by
  have hn : (0 : ℝ) < b + -a + 1 := by
    have : (a : ℝ) ≤ b := by exact_mod_cast hab
    linarith
  set f : ℝ → ℤ := fun z => a - 1 + ⌈((b : ℝ) + -a + 1) * cdfR z⌉ with hf
  have hrange : ∀ z, a ≤ f z ∧ f z ≤ b := by
    intro z
    have h := cdfR_range z
    have h1 : 0 < ⌈((b : ℝ) + -a + 1) * cdfR z⌉ := Int.ceil_pos.2 (mul_pos hn h.1)
    have h2 : ⌈((b : ℝ) + -a + 1) * cdfR z⌉ ≤ b + -a + 1 := by
      rw [Int.ceil_le]
      push_cast
      calc _ ≤ ((b : ℝ) + -a + 1) * 1 := mul_le_mul_of_nonneg_left h.2.le hn.le
        _ = _ := mul_one _
    simp only [hf]
    constructor <;> omega
  have hmono : Monotone f := by
    intro x y hxy
    have := Int.ceil_mono (mul_le_mul_of_nonneg_left (cdfR_mono.monotone hxy) hn.le)
    simp only [hf]; omega
  have hmeas : Measurable fun z => (f z : ℝ) := (Int.cast_mono.comp hmono).measurable
  have hint : Integrable (fun z => (f z : ℝ)) N01 := by
    refine bounded_int hmeas (|(a : ℝ)| + |(b : ℝ)|) fun z => ?_
    have h1 : (a : ℝ) ≤ f z := by exact_mod_cast (hrange z).1
    have h2 : (f z : ℝ) ≤ b := by exact_mod_cast (hrange z).2
    have h3 := neg_abs_le (a : ℝ)
    have h4 := le_abs_self (b : ℝ)
    have h5 := abs_nonneg (a : ℝ)
    have h6 := abs_nonneg (b : ℝ)
    rw [abs_le]; constructor <;> linarith
  refine ⟨_, f, make_discrete a b, ?_, fun z => ?_, hmono, hrange, fun z k => ?_, hint, ?_⟩
  · simp [Rv.mean, divBy, add, mul]; ring
  · simp only [Rv.scale, cdf, sub, neg, add, mul, ceil, hf]
    push_cast; congr 1
  · have hd : (b : ℝ) - a + 1 = b + -a + 1 := by ring
    rw [hd, div_lt_iff₀ hn, le_div_iff₀ hn]
    simp only [hf]
    rw [show a - 1 + ⌈((b : ℝ) + -a + 1) * cdfR z⌉ = k ↔ ⌈((b : ℝ) + -a + 1) * cdfR z⌉ = k - a + 1 by omega,
      Int.ceil_eq_iff]
    push_cast
    constructor
    · rintro ⟨h1, h2⟩; constructor <;> linarith
    · rintro ⟨h1, h2⟩; constructor <;> linarith
  · have hae : ∀ᵐ z ∂N01, (f (-z) : ℝ) = a + b - f z := by
      have hcount : (cdfR ⁻¹' (Set.range fun k : ℤ => (k : ℝ) / (b + -a + 1))).Countable :=
        (Set.countable_range _).preimage cdfR_mono.injective
      have hna : NullSingletonClass N01 := nullSingletonClass_gaussianReal (by norm_num)
      have hnull : N01 (cdfR ⁻¹' (Set.range fun k : ℤ => (k : ℝ) / (b + -a + 1))) = 0 := hcount.measure_zero N01
      rw [ae_iff]
      refine measure_mono_null (fun z hz => ?_) hnull
      by_contra hno
      refine hz ?_
      have hni : ((⌊((b : ℝ) + -a + 1) * cdfR z⌋ : ℤ) : ℝ) ≠ (b + -a + 1) * cdfR z := by
        intro he
        refine hno ⟨⌊((b : ℝ) + -a + 1) * cdfR z⌋, ?_⟩
        dsimp only
        rw [he]; field_simp
      have hcf : ⌈((b : ℝ) + -a + 1) * cdfR z⌉ = ⌊((b : ℝ) + -a + 1) * cdfR z⌋ + 1 := by
        rw [Int.ceil_eq_iff]
        have h1 := Int.floor_le (((b : ℝ) + -a + 1) * cdfR z)
        have h2 := Int.lt_floor_add_one (((b : ℝ) + -a + 1) * cdfR z)
        have h3 := lt_of_le_of_ne h1 hni
        push_cast
        constructor <;> linarith
      have e : f (-z) = a + b - f z := by
        simp only [hf]
        rw [cdfR_neg, show ((b : ℝ) + -a + 1) * (1 - cdfR z) = -(((b : ℝ) + -a + 1) * cdfR z) + ((b + -a + 1 : ℤ) : ℝ) by
          push_cast; ring, Int.ceil_add_intCast, Int.ceil_neg, hcf]
        omega
      rw [e]; push_cast; ring
    have h := neg_int fun z => (f z : ℝ)
    rw [integral_congr_ae hae, integral_sub (integrable_const _) hint] at h
    simp at h; linarith

/-- The standard deviation of the whole numbers from `a` to `b`, each as likely as the others. -/
noncomputable def trueVar (a b : ℤ) : ℝ :=
  (∑ i ∈ Finset.range (b - a + 1).toNat, ((a + i : ℝ) - (a + b) / 2) ^ 2) / (b - a + 1)

theorem sq_sum (n : ℕ) (c : ℝ) : ∑ i ∈ Finset.range n, ((i : ℝ) - c) ^ 2 =
    n * ((n - 1) * (2 * n - 1) / 6 - c * (n - 1) + c ^ 2) := by
  induction n with
  | zero => simp
  | succ n ih => rw [Finset.sum_range_succ, ih]; push_cast; ring

theorem trueVar_eq (a b : ℤ) (hab : a ≤ b) : trueVar a b = (((b - a + 1 : ℝ)) ^ 2 - 1) / 12 := by
  have hn : (((b - a + 1).toNat : ℕ) : ℝ) = b - a + 1 := by
    have : (((b - a + 1).toNat : ℕ) : ℤ) = b - a + 1 := Int.toNat_of_nonneg (by omega)
    have h := congrArg (Int.cast (R := ℝ)) this
    push_cast at h; exact h
  have hn0 : (b : ℝ) - a + 1 ≠ 0 := by
    have : (a : ℝ) ≤ b := by exact_mod_cast hab
    linarith
  have e : ∀ i : ℕ, ((a + i : ℝ) - (a + b) / 2) ^ 2 = ((i : ℝ) - (b - a) / 2) ^ 2 := by intro i; ring
  simp only [trueVar, e]
  rw [sq_sum, hn]
  field_simp
  ring

/-- The standard deviation that a discrete variable reports is too small, however many values it has, unless it has only
one: the code takes the square root of the number of values instead of its square. -/
theorem C104_discrete_stddev (a b : ℤ) (hab : a ≤ b) : ∃ v x, make .discrete (.fin a) (.fin b) = .ok v ∧
    v.stddev = .fin x ∧ 0 ≤ x ∧ (a = b → x ^ 2 = trueVar a b) ∧ (a < b → x ^ 2 < trueVar a b) := by
  have h1 : (1 : ℝ) ≤ b + -a + 1 := by
    have : (a : ℝ) ≤ b := by exact_mod_cast hab
    linarith
  have hr3 : 0 < root12 := by rw [root12]; positivity
  have hr4 : root12 ^ 2 = 12 := by rw [root12, mul_pow, Real.sq_sqrt (by norm_num)]; norm_num
  have hs : 1 ≤ √((b : ℝ) + -a + 1) := by rw [Real.one_le_sqrt]; exact h1
  have hss := Real.sq_sqrt (show (0 : ℝ) ≤ b + -a + 1 by linarith)
  refine ⟨_, (√((b : ℝ) + -a + 1) + -1) * root12⁻¹, make_discrete a b, ?_, ?_, ?_, ?_⟩
  · simp only [Rv.stddev, sub, neg, add, sqrt]
    rw [if_neg (by linarith)]
    rfl
  · have : 0 ≤ √((b : ℝ) + -a + 1) + -1 := by linarith
    positivity
  · intro e
    subst e
    rw [trueVar_eq a a le_rfl]
    simp
  · intro hlt
    rw [trueVar_eq a b hab, mul_pow, inv_pow, hr4]
    have h2 : (2 : ℝ) ≤ b + -a + 1 := by
      have : (a : ℝ) + 1 ≤ b := by exact_mod_cast hlt
      linarith
    have e : (b : ℝ) - a + 1 = b + -a + 1 := by ring
    rw [e]
    generalize √((b : ℝ) + -a + 1) = q at *
    generalize (b : ℝ) + -a + 1 = n at *
    subst hss
    nlinarith

example : (1 : ℤ) < 6 := by norm_num

/-- At minus infinity a discrete variable is below its bounds. -/
theorem C104_discrete_below (a b : ℤ) : ∃ v, make .discrete (.fin a) (.fin b) = .ok v ∧ v.scale .ninf = .fin (a - 1) := by
  refine ⟨_, make_discrete a b, ?_⟩
  simp [Rv.scale, cdf, sub, neg, add, mul, ceil]
  ring

/-- A variable with finite parameters that says it is not randomizable has the same value for every normal number: its
mean. -/
theorem C104_constant (k : Kind) (m s : ℝ) (v : Rv) (hv : make k (.fin m) (.fin s) = .ok v)
    (hd : ∃ x, v.d0 = .fin x) (h : v.randomizable = false) (z : ℝ) : v.scale (.fin z) = v.mean := by
  cases k
  · simp only [make, Res.ok.injEq] at hv
    subst hv
    simp [Rv.randomizable, isfinite] at h
  · by_cases hb : m ≤ 0 ∨ s < 0
    · obtain ⟨w, hw, _, _, _, _⟩ := C104_lognormal_bad m s hb
      have hbad : bad (.fin m) (.fin s) = true := by
        simp only [bad, isnan, le0, lt0]
        rcases hb with h | h <;> simp [h]
      simp only [make, Res.ok.injEq] at hv
      subst hv
      obtain ⟨x, hx⟩ := hd
      simp [hbad, isinf] at hx
    · push Not at hb
      rw [make_lognormal m s hb.1 hb.2, Res.ok.injEq] at hv
      subst hv
      simp [Rv.randomizable, isfinite] at h
  · simp only [make, Res.ok.injEq] at hv
    subst hv
    simp [Rv.randomizable, isfinite, ne] at h
    subst h
    simp [Rv.scale, Rv.mean, cdf, sub, neg, add, mul, divBy]
    ring
  · simp only [make, Res.ok.injEq] at hv
    subst hv
    rfl
  · by_cases hw : (∃ a : ℤ, m = a) ∧ ∃ b : ℤ, s = b
    · obtain ⟨⟨a, rfl⟩, b, rfl⟩ := hw
      rw [make_discrete, Res.ok.injEq] at hv
      subst hv
      simp [Rv.randomizable, isfinite, ne] at h
      subst h
      have hr := cdfR_range z
      have hc : ⌈cdfR z⌉ = 1 := by
        rw [Int.ceil_eq_iff]; push_cast; constructor <;> linarith [hr.1, hr.2]
      simp [Rv.scale, Rv.mean, cdf, sub, neg, add, mul, ceil, divBy, hc]
      ring
    · have := (C104_refused .discrete m s).2 ⟨rfl, hw⟩
      rw [this] at hv
      cases hv

example : ∃ v, make .uniform (.fin 2) (.fin 2) = .ok v ∧ (∃ x, v.d0 = .fin x) ∧ v.randomizable = false :=
  ⟨_, rfl, ⟨2, rfl⟩, by simp [Rv.randomizable, isfinite, ne]⟩

end OP.Stat
