import Verif.Stat.CdfCert
import Verif.Stat.Gauss
import Mathlib.Analysis.Real.Pi.Bounds
import Mathlib.Analysis.Calculus.Deriv.MeanValue
import Mathlib.Analysis.SpecialFunctions.ExpDeriv
import Mathlib.Analysis.Complex.Exponential

/-!
From the differential equation to the distribution function: how far `stdnormal_cdf` is from the integral, and that
it increases.
-/

namespace OP.Stat

open Filter Topology

theorem up_of_deriv {f f' : ℝ → ℝ} {a b : ℝ} (h : ∀ x ∈ Set.Icc a b, HasDerivAt f (f' x) x)
    (h0 : ∀ x ∈ Set.Icc a b, 0 ≤ f' x) (hab : a ≤ b) : f a ≤ f b := by
  rcases hab.eq_or_lt with e | hlt
  · rw [e]
  · obtain ⟨c, hc, e⟩ := exists_hasDerivAt_eq_slope f f' hlt
      (fun x hx => (h x hx).continuousAt.continuousWithinAt) (fun x hx => h x (Set.Ioo_subset_Icc_self hx))
    have := h0 c (Set.Ioo_subset_Icc_self hc)
    rw [e, le_div_iff₀ (by linarith)] at this
    linarith

theorem down_of_deriv {f f' : ℝ → ℝ} {a b : ℝ} (h : ∀ x ∈ Set.Icc a b, HasDerivAt f (f' x) x)
    (h0 : ∀ x ∈ Set.Icc a b, f' x < 0) (hab : a < b) : f b < f a := by
  obtain ⟨c, hc, e⟩ := exists_hasDerivAt_eq_slope f f' hab
    (fun x hx => (h x hx).continuousAt.continuousWithinAt) (fun x hx => h x (Set.Ioo_subset_Icc_self hx))
  have := h0 c (Set.Ioo_subset_Icc_self hc)
  rw [e, div_lt_iff₀ (by linarith)] at this
  linarith

/-- `1 / √(2π)`. -/
noncomputable def kap : ℝ := 1 / √(2 * Real.pi)

theorem phi_eq (t : ℝ) : phi t = kap * Real.exp (-t ^ 2 / 2) := by simp only [phi, kap]; ring

theorem kap_lo : rootK - 1 / 10 ^ 20 ≤ kap := by
  have h := Real.pi_lt_d20
  have h2 : √(2 * Real.pi) ≤ 1 / (rootK - 1 / 10 ^ 20) := by
    apply Real.sqrt_le_iff.mpr
    constructor
    · norm_num [rootK]
    · refine le_trans (b := 2 * 3.14159265358979323847) (by linarith) ?_
      norm_num [rootK]
  have h3 : (0 : ℝ) < √(2 * Real.pi) := by positivity
  rw [kap, le_div_iff₀ h3]
  have h4 : (0 : ℝ) < rootK - 1 / 10 ^ 20 := by norm_num [rootK]
  rw [le_div_iff₀ h4] at h2
  linarith

theorem kap_hi : kap ≤ rootK + 1 / 10 ^ 20 := by
  have h := Real.pi_gt_d20
  have h2 : 1 / (rootK + 1 / 10 ^ 20) ≤ √(2 * Real.pi) := by
    apply Real.le_sqrt_of_sq_le
    refine le_trans (b := 2 * 3.14159265358979323846) ?_ (by linarith)
    norm_num [rootK]
  have h3 : (0 : ℝ) < √(2 * Real.pi) := by positivity
  have h4 : (0 : ℝ) < rootK + 1 / 10 ^ 20 := by norm_num [rootK]
  rw [kap, div_le_iff₀ h3]
  rw [div_le_iff₀ h4] at h2
  linarith

theorem rootK_gt : (0.398 : ℝ) < rootK := by norm_num [rootK]
theorem rootK_lt : rootK < 0.399 := by norm_num [rootK]

theorem kap_gt : 0.398 < kap := by have := kap_lo; norm_num [rootK] at *; linarith
theorem kap_lt : kap < 0.399 := by have := kap_hi; norm_num [rootK] at *; linarith

/-- A factor with the exponential. -/
noncomputable def withExp (g : ℝ → ℝ) (v : ℝ) : ℝ := g v * Real.exp (-v ^ 2 / 2)

theorem hasDerivAt_withExp {g : ℝ → ℝ} {g' v : ℝ} (h : HasDerivAt g g' v) :
    HasDerivAt (withExp g) ((g' - v * g v) * Real.exp (-v ^ 2 / 2)) v := by
  have h1 : HasDerivAt (fun v : ℝ => -v ^ 2 / 2) (-v) v := by
    refine (((hasDerivAt_id v).fun_pow 2).fun_neg.div_const 2).congr_deriv ?_
    simp only [id]; push_cast; ring
  refine (h.fun_mul h1.exp).congr_deriv ?_
  ring

/-- What is added or taken away from the tail of the distribution. -/
theorem hasDerivAt_gap {g : ℝ → ℝ} {g' v : ℝ} (h : HasDerivAt g g' v) (e : ℝ) :
    HasDerivAt (fun v => withExp g v - (1 + e) * (1 - Phi v))
      ((g' - v * g v + (1 + e) * kap) * Real.exp (-v ^ 2 / 2)) v := by
  refine ((hasDerivAt_withExp h).fun_sub (((hasDerivAt_Phi v).const_sub 1).const_mul (1 + e))).congr_deriv ?_
  rw [phi_eq]; ring

theorem tail_tendsto : Tendsto (withExp tail) atTop (𝓝 0) := by
  have hc : ContinuousAt (fun z : ℝ => z * (rootK - z * z * (ev iP (z * z) / ev iQ (z * z)))) 0 := by
    have h1 : ContinuousAt (fun z : ℝ => z * z) 0 := by fun_prop
    have hP : ContinuousAt (fun z : ℝ => ev iP (z * z)) 0 :=
      ContinuousAt.comp (f := fun z : ℝ => z * z) (g := ev iP) (hasDerivAt_ev iP _).continuousAt h1
    have hQ : ContinuousAt (fun z : ℝ => ev iQ (z * z)) 0 :=
      ContinuousAt.comp (f := fun z : ℝ => z * z) (g := ev iQ) (hasDerivAt_ev iQ _).continuousAt h1
    have hne : ev iQ ((0 : ℝ) * 0) ≠ 0 := (iQ_pos _ (by simp)).ne'
    exact continuousAt_id.mul (continuousAt_const.sub (h1.mul (hP.div hQ hne)))
  have hinv : Tendsto (fun v : ℝ => 1 / v) atTop (𝓝 0) := by
    simpa [one_div] using tendsto_inv_atTop_zero (𝕜 := ℝ)
  have ht : Tendsto tail atTop (𝓝 0) := by
    have h := hc.tendsto.comp hinv
    simp only [zero_mul] at h
    exact h.congr fun v => by rw [Function.comp, tail_eq]
  refine squeeze_zero_norm (a := fun v => |tail v|) (fun v => ?_) (by simpa using ht.abs)
  rw [withExp, Real.norm_eq_abs, abs_mul, abs_of_pos (Real.exp_pos _)]
  have : Real.exp (-v ^ 2 / 2) ≤ 1 := Real.exp_le_one_iff.mpr (by nlinarith [sq_nonneg v])
  nlinarith [abs_nonneg (tail v)]

theorem gap_tendsto (e : ℝ) : Tendsto (fun v => withExp tail v - (1 + e) * (1 - Phi v)) atTop (𝓝 0) := by
  have h := tail_tendsto.sub ((Phi_tendsto.const_sub 1).const_mul (1 + e))
  simpa using h

theorem tail_upper (v : ℝ) (hv : 5.6568 ≤ v) : withExp tail v ≤ (1 + 5 / 10 ^ 17) * (1 - Phi v) := by
  have h : ∀ᶠ b in atTop, withExp tail v - (1 + 5 / 10 ^ 17) * (1 - Phi v) ≤
      withExp tail b - (1 + 5 / 10 ^ 17) * (1 - Phi b) := by
    filter_upwards [eventually_ge_atTop v] with b hb
    refine up_of_deriv (f := fun v => withExp tail v - (1 + 5 / 10 ^ 17) * (1 - Phi v))
      (fun x hx => hasDerivAt_gap (hasDerivAt_tail x (by have := hx.1; norm_num at *; linarith)) _) (fun x hx => ?_) hb
    have h1 := (tail_resid x (by linarith [hx.1])).1
    have h2 := kap_lo
    have h3 := kap_gt
    have : 0 ≤ tailD x - x * tail x + (1 + 5 / 10 ^ 17) * kap := by norm_num at *; linarith
    positivity
  have := ge_of_tendsto (gap_tendsto _) h
  linarith

theorem tail_lower (v : ℝ) (hv : 5.6568 ≤ v) : (1 - 5 / 10 ^ 17) * (1 - Phi v) ≤ withExp tail v := by
  have h : ∀ᶠ b in atTop, -(withExp tail v - (1 + -(5 / 10 ^ 17)) * (1 - Phi v)) ≤
      -(withExp tail b - (1 + -(5 / 10 ^ 17)) * (1 - Phi b)) := by
    filter_upwards [eventually_ge_atTop v] with b hb
    refine up_of_deriv (f := fun v => -(withExp tail v - (1 + -(5 / 10 ^ 17)) * (1 - Phi v)))
      (fun x hx => (hasDerivAt_gap (hasDerivAt_tail x (by have := hx.1; norm_num at *; linarith)) _).fun_neg)
      (fun x hx => ?_) hb
    have h1 := (tail_resid x (by linarith [hx.1])).2
    have h2 := kap_hi
    have h3 := kap_gt
    have : tailD x - x * tail x + (1 + -(5 / 10 ^ 17)) * kap ≤ 0 := by norm_num at *; linarith
    have hE := Real.exp_pos (-x ^ 2 / 2)
    nlinarith
  have h2 := ge_of_tendsto (gap_tendsto _).neg h
  simp only [neg_zero] at h2
  linarith

/-! The join of the last two regions. -/

theorem join_lo : tail u1 < middle u1 := by
  simp only [tail, middle, hor, cc, cd, cp, cq, List.foldl, u1, rootK]; norm_num

theorem join_hi : middle u1 ≤ (1 + 1 / 10 ^ 17) * tail u1 := by
  simp only [tail, middle, hor, cc, cd, cp, cq, List.foldl, u1, rootK]; norm_num

theorem middle_upper (v : ℝ) (h0 : 0.66 ≤ v) (h1 : v ≤ u1) : withExp middle v ≤ (1 + 1 / 10 ^ 16) * (1 - Phi v) := by
  have hu1 : u1 ≤ 5.657 := by norm_num [u1]
  have hu1' : 5.6568 ≤ u1 := by norm_num [u1]
  have h := up_of_deriv (f := fun v => withExp middle v - (1 + 1 / 10 ^ 16) * (1 - Phi v)) (a := v) (b := u1)
    (fun x hx => hasDerivAt_gap (hasDerivAt_middle x (by have := hx.1; norm_num at *; linarith)) _)
    (fun x hx => by
      have h1 := (middle_resid x (by linarith [hx.1]) (by linarith [hx.2])).1
      have h2 := kap_lo
      have h3 := kap_gt
      have : 0 ≤ middleD x - x * middle x + (1 + 1 / 10 ^ 16) * kap := by norm_num at *; linarith
      positivity) h1
  have ht := tail_upper u1 hu1'
  have hj := join_hi
  have hE := Real.exp_pos (-u1 ^ 2 / 2)
  have hq : 0 < 1 - Phi u1 := by linarith [Phi_lt_one u1]
  have : withExp middle u1 ≤ (1 + 1 / 10 ^ 17) * withExp tail u1 := by
    simp only [withExp]; nlinarith
  norm_num at *
  linarith

theorem middle_lower (v : ℝ) (h0 : 0.66 ≤ v) (h1 : v ≤ u1) : (1 - 3 / 10 ^ 16) * (1 - Phi v) ≤ withExp middle v := by
  have hu1 : u1 ≤ 5.657 := by norm_num [u1]
  have hu1' : 5.6568 ≤ u1 := by norm_num [u1]
  have h := up_of_deriv (f := fun v => -(withExp middle v - (1 + -(3 / 10 ^ 16)) * (1 - Phi v))) (a := v) (b := u1)
    (fun x hx => (hasDerivAt_gap (hasDerivAt_middle x (by have := hx.1; norm_num at *; linarith)) _).fun_neg)
    (fun x hx => by
      have h1 := (middle_resid x (by linarith [hx.1]) (by linarith [hx.2])).2
      have h2 := kap_hi
      have h3 := kap_gt
      have : middleD x - x * middle x + (1 + -(3 / 10 ^ 16)) * kap ≤ 0 := by norm_num at *; linarith
      have hE := Real.exp_pos (-x ^ 2 / 2)
      nlinarith) h1
  have ht := tail_lower u1 hu1'
  have hj := join_lo
  have hE := Real.exp_pos (-u1 ^ 2 / 2)
  have hq : 0 < 1 - Phi u1 := by linarith [Phi_lt_one u1]
  have : withExp tail u1 ≤ withExp middle u1 := by
    simp only [withExp]; nlinarith
  norm_num at *
  linarith

/-! Near the middle. -/

theorem series_near (y : ℝ) (h0 : 0 ≤ y) (h1 : y ≤ 0.44) : |Real.exp (-y / 2) - ev iT y / iL| ≤ 1 / 10 ^ 20 := by
  have h := Real.exp_bound (x := -y / 2) (by rw [abs_le]; constructor <;> linarith) (n := 15) (by norm_num)
  have e : ∑ m ∈ Finset.range 15, (-y / 2) ^ m / (m.factorial : ℝ) = ev iT y / iL := by
    simp only [Finset.sum_range_succ, Finset.sum_range_zero, Nat.factorial, ev, iT, iL]
    push_cast
    ring
  rw [e] at h
  refine h.trans ?_
  have h2 : |-y / 2| ≤ 0.22 := by rw [abs_le]; constructor <;> linarith
  have h3 : |-y / 2| ^ 15 ≤ 0.22 ^ 15 := pow_le_pow_left₀ (abs_nonneg _) h2 15
  refine le_trans (mul_le_mul_of_nonneg_right h3 (by positivity)) ?_
  norm_num [Nat.factorial]

theorem central_near (u : ℝ) (h : u * u ≤ 0.44) :
    -(151 / 10 ^ 18) ≤ centralD u - phi u ∧ centralD u - phi u ≤ -(89 / 10 ^ 18) := by
  obtain ⟨h1, h2⟩ := central_resid u h
  have h3 := abs_le.mp (series_near (u * u) (mul_self_nonneg u) h)
  have e : phi u = kap * Real.exp (-(u * u) / 2) := by rw [phi_eq]; congr 3; ring
  have hE : Real.exp (-(u * u) / 2) ≤ 1 := Real.exp_le_one_iff.mpr (by nlinarith [mul_self_nonneg u])
  have hE0 := Real.exp_pos (-(u * u) / 2)
  rw [e]
  generalize Real.exp (-(u * u) / 2) = E at *
  generalize ev iT (u * u) / iL = T at *
  have k1 := kap_lo
  have k2 := kap_hi
  have k3 : kap * E - rootK * T = (kap - rootK) * E + rootK * (E - T) := by ring
  have k4 := rootK_lt
  have k5 := rootK_gt
  have k6 : |(kap - rootK) * E| ≤ 1 / 10 ^ 20 := by
    rw [abs_mul, abs_of_pos hE0]
    have : |kap - rootK| ≤ 1 / 10 ^ 20 := abs_le.mpr ⟨by linarith, by linarith⟩
    nlinarith [abs_nonneg (kap - rootK)]
  have k7 : |rootK * (E - T)| ≤ 1 / 10 ^ 20 := by
    rw [abs_mul, abs_of_pos (by linarith)]
    have : |E - T| ≤ 1 / 10 ^ 20 := abs_le.mpr ⟨by linarith, by linarith⟩
    nlinarith [abs_nonneg (E - T)]
  rw [abs_le] at k6 k7
  constructor <;> norm_num at * <;> linarith

theorem central_zero : central 0 = 0 := by simp [central]

theorem central_neg (u : ℝ) : central (-u) = -central u := by
  simp only [central, neg_mul_neg]; ring

theorem sq_small {x v : ℝ} (h0 : 0 ≤ x) (h1 : x ≤ v) (hv : v ≤ u0) : x * x ≤ 0.44 := by
  have : x ≤ u0 := h1.trans hv
  calc x * x ≤ u0 * u0 := mul_le_mul this this h0 (by norm_num [u0])
    _ ≤ 0.44 := by norm_num [u0]

theorem central_upper (v : ℝ) (h0 : 0 ≤ v) (h1 : v ≤ u0) : 0.5 - central v ≤ (1 - Phi v) + 151 / 10 ^ 18 * v := by
  have h := up_of_deriv (f := fun v => central v - Phi v + 151 / 10 ^ 18 * v)
    (f' := fun v => centralD v - phi v + 151 / 10 ^ 18 * 1) (a := 0) (b := v)
    (fun x hx => ((hasDerivAt_central x).fun_sub (hasDerivAt_Phi x)).fun_add ((hasDerivAt_id x).const_mul _))
    (fun x hx => by
      have := (central_near x (sq_small hx.1 hx.2 h1)).1
      norm_num at *; linarith) h0
  simp only [central_zero, Phi_zero] at h
  norm_num at *
  linarith

theorem central_lower (v : ℝ) (h0 : 0 ≤ v) (h1 : v ≤ u0) : (1 - Phi v) + 89 / 10 ^ 18 * v ≤ 0.5 - central v := by
  have h := up_of_deriv (f := fun v => -(central v - Phi v + 89 / 10 ^ 18 * v))
    (f' := fun v => -(centralD v - phi v + 89 / 10 ^ 18 * 1)) (a := 0) (b := v)
    (fun x hx => (((hasDerivAt_central x).fun_sub (hasDerivAt_Phi x)).fun_add
      ((hasDerivAt_id x).const_mul _)).fun_neg)
    (fun x hx => by
      have := (central_near x (sq_small hx.1 hx.2 h1)).2
      norm_num at *; linarith) h0
  simp only [central_zero, Phi_zero] at h
  norm_num at *
  linarith

theorem tail_big (v : ℝ) (h0 : 0 ≤ v) (h1 : v ≤ u0) : 0.235 ≤ 1 - Phi v := by
  have h := up_of_deriv (f := fun v => 0.399 * v - Phi v) (f' := fun v => 0.399 * 1 - phi v) (a := 0) (b := v)
    (fun x hx => ((hasDerivAt_id x).const_mul _).fun_sub (hasDerivAt_Phi x))
    (fun x hx => by
      have hE : Real.exp (-x ^ 2 / 2) ≤ 1 := Real.exp_le_one_iff.mpr (by nlinarith [sq_nonneg x])
      have := kap_lt
      have := kap_gt
      simp only [phi_eq]
      nlinarith) h0
  simp only [Phi_zero] at h
  norm_num [u0] at *
  linarith

/-! The upper tail as the code has it. -/

noncomputable def upper (v : ℝ) : ℝ :=
  if v ≤ u0 then 0.5 - central v else if v ≤ u1 then withExp middle v else withExp tail v

theorem u0_pos : 0 < u0 := by norm_num [u0]
theorem u0_lt_u1 : u0 < u1 := by norm_num [u0, u1]

theorem cdfR_eq (u : ℝ) : cdfR u = if u < 0 then upper (-u) else 1 - upper u := by
  have hexp : ∀ z : ℝ, Real.exp (-0.5 * z * z) * Real.exp (-0.5 * (u - z) * (u + z)) = Real.exp (-u ^ 2 / 2) := by
    intro z; rw [← Real.exp_add]; congr 1; ring
  simp only [cdfR, hexp]
  by_cases hu : u < 0
  · simp only [abs_of_neg hu, if_pos hu, upper]
    by_cases h0 : -u ≤ u0
    · simp only [if_pos h0, central_neg]; ring
    · by_cases h1 : -u ≤ u1
      · simp only [if_neg h0, if_pos h1, withExp, neg_sq]
      · simp only [if_neg h0, if_neg h1, withExp, neg_sq]
  · simp only [abs_of_nonneg (not_lt.mp hu), if_neg hu, upper]
    by_cases h0 : u ≤ u0
    · simp only [if_pos h0]; norm_num; ring
    · by_cases h1 : u ≤ u1
      · simp only [if_neg h0, if_pos h1, withExp]
      · simp only [if_neg h0, if_neg h1, withExp]

theorem upper_near (v : ℝ) (hv : 0 ≤ v) : |upper v - (1 - Phi v)| ≤ 5 / 10 ^ 16 * (1 - Phi v) := by
  have hq : 0 < 1 - Phi v := by linarith [Phi_lt_one v]
  rw [upper, abs_le]
  by_cases h0 : v ≤ u0
  · rw [if_pos h0]
    have h1 := central_upper v hv h0
    have h2 := central_lower v hv h0
    have h3 := tail_big v hv h0
    have h4 : v ≤ 0.663 := h0.trans (by norm_num [u0])
    constructor <;> norm_num at * <;> nlinarith
  · rw [if_neg h0]
    have h0' : 0.66 ≤ v := le_trans (by norm_num [u0]) (not_le.mp h0).le
    by_cases h1 : v ≤ u1
    · rw [if_pos h1]
      have h2 := middle_upper v h0' h1
      have h3 := middle_lower v h0' h1
      constructor <;> norm_num at * <;> linarith
    · rw [if_neg h1]
      have h0' : 5.6568 ≤ v := le_trans (by norm_num [u1]) (not_le.mp h1).le
      have h2 := tail_upper v h0'
      have h3 := tail_lower v h0'
      constructor <;> norm_num at * <;> linarith

theorem join_zero : withExp middle u0 < 0.5 - central u0 := by
  have h1 := central_lower u0 u0_pos.le le_rfl
  have h2 := middle_upper u0 (by norm_num [u0]) u0_lt_u1.le
  have h3 : Phi 0 < Phi u0 := Phi_strictMono u0_pos
  rw [Phi_zero] at h3
  norm_num [u0] at *
  linarith

theorem middle_down {v w : ℝ} (h0 : u0 ≤ v) (hvw : v < w) (h1 : w ≤ u1) : withExp middle w < withExp middle v := by
  have hu1 : u1 ≤ 5.657 := by norm_num [u1]
  have hu0 : 0.66 ≤ u0 := by norm_num [u0]
  refine down_of_deriv (fun x hx => hasDerivAt_withExp (hasDerivAt_middle x (by
    have := hx.1; norm_num at *; linarith))) (fun x hx => ?_) hvw
  have h1 := (middle_resid x (by linarith [hx.1]) (by linarith [hx.2])).2
  have h2 := rootK_gt
  have : middleD x - x * middle x < 0 := by norm_num at *; linarith
  exact mul_neg_of_neg_of_pos this (Real.exp_pos _)

theorem tail_down {v w : ℝ} (h0 : u1 ≤ v) (hvw : v < w) : withExp tail w < withExp tail v := by
  have hu1 : 5.6568 ≤ u1 := by norm_num [u1]
  refine down_of_deriv (fun x hx => hasDerivAt_withExp (hasDerivAt_tail x (by
    have := hx.1; norm_num at *; linarith))) (fun x hx => ?_) hvw
  have h1 := (tail_resid x (by linarith [hx.1])).2
  have h2 := rootK_gt
  have : tailD x - x * tail x < 0 := by norm_num at *; linarith
  exact mul_neg_of_neg_of_pos this (Real.exp_pos _)

theorem central_up {v w : ℝ} (h0 : 0 ≤ v) (hvw : v < w) (h1 : w ≤ u0) : 0.5 - central w < 0.5 - central v := by
  refine down_of_deriv (f := fun v => 0.5 - central v) (fun x hx => (hasDerivAt_central x).const_sub 0.5)
    (fun x hx => ?_) hvw
  have hx2 := sq_small (h0.trans hx.1) hx.2 h1
  have h2 := (central_near x hx2).1
  have hE := Real.add_one_le_exp (-x ^ 2 / 2)
  have h3 := kap_gt
  rw [phi_eq] at h2
  have : 0.3 ≤ kap * Real.exp (-x ^ 2 / 2) := by
    have : 0.78 ≤ Real.exp (-x ^ 2 / 2) := by norm_num at *; nlinarith
    norm_num at *; nlinarith
  norm_num at *; linarith

theorem upper_anti {v w : ℝ} (h0 : 0 ≤ v) (hvw : v < w) : upper w < upper v := by
  have hj0 := join_zero
  have hj1 : withExp tail u1 < withExp middle u1 := by
    have := join_lo
    exact mul_lt_mul_of_pos_right this (Real.exp_pos _)
  have hm := middle_down (v := u0) (w := u1) le_rfl u0_lt_u1 le_rfl
  -- from a value in a region to the end of the region
  have hC : ∀ v, 0 ≤ v → v ≤ u0 → 0.5 - central u0 ≤ 0.5 - central v := fun v hv h => by
    rcases h.eq_or_lt with e | hlt
    · rw [e]
    · exact (central_up hv hlt le_rfl).le
  have hM : ∀ v, u0 ≤ v → v ≤ u1 → withExp middle u1 ≤ withExp middle v := fun v hv h => by
    rcases h.eq_or_lt with e | hlt
    · rw [e]
    · exact (middle_down hv hlt le_rfl).le
  simp only [upper]
  by_cases hv0 : v ≤ u0
  · rw [if_pos hv0]
    by_cases hw0 : w ≤ u0
    · rw [if_pos hw0]; exact central_up h0 hvw hw0
    · rw [if_neg hw0]
      have a := hC v h0 hv0
      by_cases hw1 : w ≤ u1
      · rw [if_pos hw1]
        have b := middle_down le_rfl (not_le.mp hw0) hw1
        linarith
      · rw [if_neg hw1]
        have b := tail_down le_rfl (not_le.mp hw1)
        linarith
  · have hw0 : ¬ w ≤ u0 := fun h => hv0 (hvw.le.trans h)
    rw [if_neg hv0, if_neg hw0]
    have hv0' := (not_le.mp hv0).le
    by_cases hv1 : v ≤ u1
    · rw [if_pos hv1]
      by_cases hw1 : w ≤ u1
      · rw [if_pos hw1]; exact middle_down hv0' hvw hw1
      · rw [if_neg hw1]
        have a := hM v hv0' hv1
        have b := tail_down le_rfl (not_le.mp hw1)
        linarith
    · have hw1 : ¬ w ≤ u1 := fun h => hv1 (hvw.le.trans h)
      rw [if_neg hv1, if_neg hw1]
      exact tail_down (not_le.mp hv1).le hvw

theorem upper_zero : upper 0 = 0.5 := by rw [upper, if_pos u0_pos.le, central_zero]; norm_num

end OP.Stat
