import Verif.Stat.Halley

/-!
# C102: the standard normal distribution function and its inverse

The specification is `phi`, the density, and `Phi`, its integral (Verif/Stat/Gauss.lean).
-/

namespace OP.Stat

/-- The value of `stdnormal_cdf` at any finite number is the integral of the density up to it, with a relative error of at
most 5e-16 in the smaller of the two tails. -/
theorem C102_cdf (u : ℝ) : ∃ c, cdf (.fin u) = .fin c ∧
    |c - ∫ t in Set.Iic u, Real.exp (-t ^ 2 / 2) / √(2 * Real.pi)| ≤ 5 / 10 ^ 16 * min (Phi u) (1 - Phi u) :=
  ⟨_, rfl, cdfR_near u⟩

theorem upper_pos {v : ℝ} (hv : 0 ≤ v) : 0 < upper v := by
  have h := (abs_le.mp (upper_near v hv)).1
  have h2 := Phi_lt_one v
  nlinarith

theorem upper_le {v : ℝ} (hv : 0 ≤ v) : upper v ≤ 0.5 := by
  rw [← upper_zero]
  rcases hv.eq_or_lt with h | h
  · rw [← h]
  · exact (upper_anti le_rfl h).le

/-- It is strictly between 0 and 1, and it never stops growing or goes back, not even where the code changes from one
formula to another. -/
theorem C102_cdf_mono (u v : ℝ) (h : u < v) : ∃ a b, cdf (.fin u) = .fin a ∧ cdf (.fin v) = .fin b ∧ 0 < a ∧ a < b ∧ b < 1 := by
  refine ⟨_, _, rfl, rfl, ?_, ?_, ?_⟩
  · rw [cdfR_eq]
    by_cases hu : u < 0
    · rw [if_pos hu]; exact upper_pos (by linarith)
    · rw [if_neg hu]
      have := upper_le (not_lt.1 hu)
      norm_num at *; linarith
  · rw [cdfR_eq, cdfR_eq]
    by_cases hv : v < 0
    · rw [if_pos hv, if_pos (h.trans hv)]
      exact upper_anti (by linarith) (by linarith)
    · rw [if_neg hv]
      have h1 := upper_le (not_lt.1 hv)
      by_cases hu : u < 0
      · rw [if_pos hu]
        have h2 := upper_anti le_rfl (show (0 : ℝ) < -u by linarith)
        rw [upper_zero] at h2
        norm_num at *; linarith
      · rw [if_neg hu]
        have := upper_anti (not_lt.1 hu) h
        linarith
  · rw [cdfR_eq]
    by_cases hv : v < 0
    · rw [if_pos hv]
      have := upper_le (show 0 ≤ -v by linarith)
      norm_num at *; linarith
    · rw [if_neg hv]
      have := upper_pos (not_lt.1 hv)
      linarith

/-- The two tails agree exactly. -/
theorem C102_cdf_sym (u : ℝ) : ∃ c, cdf (.fin u) = .fin c ∧ cdf (.fin (-u)) = .fin (1 - c) := by
  refine ⟨_, rfl, ?_⟩
  simp only [cdf, Dbl.fin.injEq]
  rw [cdfR_eq, cdfR_eq]
  rcases lt_trichotomy u 0 with h | h | h
  · rw [if_pos h, if_neg (show ¬ -u < 0 by linarith)]
  · subst h
    simp only [neg_zero, lt_irrefl, if_false, upper_zero]; norm_num
  · rw [if_neg (show ¬ u < 0 by linarith), if_pos (show -u < 0 by linarith), neg_neg]; ring

/-- The median and the values that are not finite. -/
theorem C102_cdf_special : cdf (.fin 0) = .fin 0.5 ∧ cdf .ninf = .fin 0 ∧ cdf .pinf = .fin 1 ∧ cdf .nan = .nan := by
  refine ⟨?_, rfl, rfl, rfl⟩
  simp only [cdf, Dbl.fin.injEq]
  rw [cdfR_eq, if_neg (lt_irrefl _), upper_zero]; norm_num

/-- The density is the derivative of the distribution function, up to the last digits of the constant. -/
theorem C102_pdf (u : ℝ) : HasDerivAt Phi (phi u) u ∧ |pdf u - phi u| ≤ 1 / 10 ^ 18 * phi u := by
  refine ⟨hasDerivAt_Phi u, ?_⟩
  have hp := phi_pos u
  have e : pdf u * (rootL * kap) = phi u := by
    rw [phi_eq, pdf, show -u * u / 2 = -u ^ 2 / 2 by ring]
    have : rootL ≠ 0 := by norm_num [rootL]
    field_simp
  have hr := abs_le.mp rootL_near
  have h0 : 0 < rootL * kap := by norm_num at *; linarith [hr.1]
  have hq : 0 < pdf u := by
    rw [← e] at hp
    exact pos_of_mul_pos_left hp h0.le
  rw [abs_le]
  generalize rootL * kap = x at *
  rw [← e]
  have a1 := mul_le_mul_of_nonneg_left hr.1 hq.le
  have a2 := mul_le_mul_of_nonneg_left hr.2 hq.le
  constructor <;> norm_num at * <;> nlinarith

/-- `stdnormal_inv` is the inverse of the distribution function: for every probability that a double can hold, the
distribution function of what it returns is that probability, with a relative error of at most 1.2e-14 in the smaller of
the two tails.  (2^-1074 is the smallest positive double.) -/
theorem C102_inv (p : ℝ) (h0 : (1 / 2) ^ 1074 ≤ p) (h1 : p ≤ 1 - (1 / 2) ^ 1074) :
    ∃ u, inv (.fin p) = .fin u ∧
      |(∫ t in Set.Iic u, Real.exp (-t ^ 2 / 2) / √(2 * Real.pi)) - p| ≤ 12 / 10 ^ 15 * min p (1 - p) := by
  have hp : (0 : ℝ) < (1 / 2) ^ 1074 := by positivity
  refine ⟨invR p, ?_, invR_near p h0 (by linarith)⟩
  simp only [inv]
  rw [if_neg (by push Not; constructor <;> linarith), if_neg (by linarith), if_neg (by linarith)]

set_option exponentiation.threshold 2000 in
example : ∃ u, inv (.fin (1 / 10 ^ 300)) = .fin u ∧
    |(∫ t in Set.Iic u, Real.exp (-t ^ 2 / 2) / √(2 * Real.pi)) - 1 / 10 ^ 300| ≤
      12 / 10 ^ 15 * min (1 / 10 ^ 300) (1 - 1 / 10 ^ 300) :=
  C102_inv _ (by norm_num) (by norm_num)

/-- The functions of the code undo each other. -/
theorem C102_round (p : ℝ) (h0 : (1 / 2) ^ 1074 ≤ p) (h1 : p ≤ 1 - (1 / 2) ^ 1074) :
    ∃ u c, inv (.fin p) = .fin u ∧ cdf (.fin u) = .fin c ∧ |c - p| ≤ 13 / 10 ^ 15 * min p (1 - p) := by
  obtain ⟨u, hu, h⟩ := C102_inv p h0 h1
  change |Phi u - p| ≤ _ at h
  refine ⟨u, _, hu, rfl, ?_⟩
  have hc := cdfR_near u
  have hp : (0 : ℝ) < (1 / 2) ^ 1074 := by positivity
  have hm0 : 0 < min p (1 - p) := lt_min (by linarith) (by linarith)
  have hm : min (Phi u) (1 - Phi u) ≤ min p (1 - p) + |Phi u - p| := by
    have h2 := abs_le.mp (le_refl |Phi u - p|)
    rcases le_total p (1 - p) with h | h
    · rw [min_eq_left h]; exact (min_le_left _ _).trans (by linarith [h2.2])
    · rw [min_eq_right h]; exact (min_le_right _ _).trans (by linarith [h2.1])
  have ht : |cdfR u - p| ≤ |cdfR u - Phi u| + |Phi u - p| := abs_sub_le _ _ _
  generalize min p (1 - p) = m at *
  generalize min (Phi u) (1 - Phi u) = m' at *
  norm_num at *; linarith

/-- The inverse keeps the order of two probabilities, as soon as they differ by more than the error. -/
theorem C102_inv_mono (p r : ℝ) (h0 : (1 / 2) ^ 1074 ≤ p) (h1 : r ≤ 1 - (1 / 2) ^ 1074)
    (h : p + 12 / 10 ^ 15 * (min p (1 - p) + min r (1 - r)) < r) :
    ∃ u v, inv (.fin p) = .fin u ∧ inv (.fin r) = .fin v ∧ u < v := by
  have hq : (0 : ℝ) < (1 / 2) ^ 1074 := by positivity
  have hpr : p < r := by
    by_contra hn
    push Not at hn
    generalize ((1 / 2 : ℝ)) ^ 1074 = z at *
    rcases le_total p (1 - p) with a | a
    · rw [min_eq_left a] at h
      rcases le_total r (1 - r) with b | b
      · rw [min_eq_left b] at h; norm_num at *; linarith
      · rw [min_eq_right b] at h; norm_num at *; linarith
    · rw [min_eq_right a] at h
      rcases le_total r (1 - r) with b | b
      · rw [min_eq_left b] at h; norm_num at *; linarith
      · rw [min_eq_right b] at h; norm_num at *; linarith
  obtain ⟨u, hu, a⟩ := C102_inv p h0 (by linarith)
  obtain ⟨v, hv, b⟩ := C102_inv r (by linarith) h1
  refine ⟨u, v, hu, hv, ?_⟩
  rw [← Phi_strictMono.lt_iff_lt]
  have a2 := (abs_le.mp a).2
  have b2 := (abs_le.mp b).1
  change Phi u - p ≤ _ at a2
  change _ ≤ Phi v - r at b2
  linarith

set_option exponentiation.threshold 2000 in
example : ∃ u v, inv (.fin 0.3) = .fin u ∧ inv (.fin 0.300001) = .fin v ∧ u < v :=
  C102_inv_mono _ _ (by norm_num) (by norm_num) (by
    rw [min_eq_left (by norm_num), min_eq_left (by norm_num)]; norm_num)

/-- Probabilities on the two sides of one half give opposite values. -/
theorem C102_inv_sym (p : ℝ) (h0 : 0 < p) (h1 : p < 1) (h : p ≠ 0.5) :
    ∃ u, inv (.fin p) = .fin u ∧ inv (.fin (1 - p)) = .fin (-u) := by
  have e : ∀ x : ℝ, 0 < x → x < 1 → inv (.fin x) = .fin (invR x) := by
    intro x a b
    simp only [inv]
    rw [if_neg (by push Not; constructor <;> linarith), if_neg (by linarith), if_neg (by linarith)]
  refine ⟨_, e p h0 h1, ?_⟩
  rw [e _ (by linarith) (by linarith)]
  simp only [invR, Dbl.fin.injEq]
  rw [show 1 - (1 - p) = p by ring, min_comm (1 - p) p]
  rcases lt_or_gt_of_ne h with a | a
  · rw [if_pos (by norm_num at *; linarith), if_neg (by linarith)]
  · rw [if_neg (by norm_num at *; linarith), if_pos (by linarith), neg_neg]

/-- The median, the ends and everything that is not a probability. -/
theorem C102_inv_special : inv (.fin 0.5) = .fin 0 ∧ inv (.fin 0) = .ninf ∧ inv (.fin 1) = .pinf ∧
    (∀ p, p < 0 ∨ 1 < p → inv (.fin p) = .nan) ∧ inv .nan = .nan ∧ inv .ninf = .nan ∧ inv .pinf = .nan := by
  refine ⟨?_, ?_, ?_, ?_, rfl, rfl, rfl⟩
  · simp only [inv]
    rw [if_neg (by norm_num), if_neg (by norm_num), if_neg (by norm_num)]
    simp only [invR, Dbl.fin.injEq]
    rw [min_eq_left (by norm_num), if_neg (lt_irrefl _)]
    have e : invStart 0.5 = 0 := by simp only [invStart]; rw [if_pos (by norm_num)]; simp
    have e2 : cdfR 0 = 0.5 := by rw [cdfR_eq, if_neg (lt_irrefl _), upper_zero]; norm_num
    rw [e, halley, e2]
    simp
  · simp [inv]
  · simp [inv]
  · intro p hp
    simp only [inv]
    rw [if_pos hp.symm]

end OP.Stat
