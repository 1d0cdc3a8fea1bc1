import Verif.Fem.PropsBessel
import Mathlib.Analysis.Calculus.MeanValue
import Mathlib.Analysis.SpecialFunctions.Log.Deriv
/-!
# C129: the relation between the functions from 2 to 3.75

The functions of the first kind are polynomials here and those of the second kind have an exponential and a root, so the logarithm of what should be 1 is followed by its derivative.
-/
namespace OP.Fem.Field
open OP.Num Real

/-- The derivative of a polynomial -/
def pder : List ℚ → List ℚ
  | [] => []
  | _ :: p => padd p (0 :: pder p)

theorem rev_der (x : ℝ) : ∀ p : List ℚ, HasDerivAt (fun x => rev p x) (rev (pder p) x) x
  | [] => by simpa [rev_nil, pder] using hasDerivAt_const x (0 : ℝ)
  | a :: p => by
    have h := ((hasDerivAt_id x).mul (rev_der x p)).const_add (a : ℝ)
    rw [pder, rev_add, rev_cons]
    refine h.congr_deriv ?_
    simp

/-- A polynomial of degree 6 in `2/x`, times `x^6` -/
def flip7 : List ℚ → List ℚ
  | [a, b, c, d, e, f, g] => [64 * g, 32 * f, 16 * e, 8 * d, 4 * c, 2 * b, a]
  | _ => []

theorem rev_flip (a b c d e f g : ℚ) {x : ℝ} (hx : x ≠ 0) : rev (flip7 [a, b, c, d, e, f, g]) x = x ^ 6 * rev [a, b, c, d, e, f, g] (2 / x) := by
  simp only [flip7, rev_cons, rev_nil]
  push_cast
  field_simp
  ring

/-- `x^6` times the sum of products, without the exponential and the root -/
def midT : List ℚ := padd (pmul (psq (pdil (16 / 225) cI0)) (flip7 cK1')) (0 :: pmul (psq (pdil (16 / 225) cI1)) (flip7 cK0'))

/-- `x` times the derivative of the logarithm, times `midT` -/
def midE : List ℚ := padd (0 :: pder midT) (pscale (-1) (pmul [11 / 2, 1] midT))

theorem mid_sum {x : ℝ} (h2 : 2 < x) (h3 : x < 3.75) : x * (bessi0 x * bessk1 x + bessi1 x * bessk0 x) = rev midT x / x ^ 6 * √x * exp (-x) := by
  have h0 : 0 < x := by linarith
  have h4 : |x| < 3.75 := by rw [abs_of_pos h0]; exact h3
  have e1 := rev_flip 1.25331414 0.23498619 (-0.3655620e-1) 0.1504268e-1 (-0.780353e-2) 0.325614e-2 (-0.68245e-3) h0.ne'
  have e0 := rev_flip 1.25331414 (-0.7832358e-1) 0.2189568e-1 (-0.1062446e-1) 0.587872e-2 (-0.251540e-2) 0.53208e-3 h0.ne'
  change rev (flip7 cK1') x = x ^ 6 * rev cK1' (2 / x) at e1
  change rev (flip7 cK0') x = x ^ 6 * rev cK0' (2 / x) at e0
  have a : ((16 / 225 : ℚ) : ℝ) * (x * x) = x / 3.75 * (x / 3.75) := by push_cast; ring
  rw [bessk0, bessk1, if_neg (not_le.2 h2), if_neg (not_le.2 h2), bessi1_small h4, bessi0, if_pos h4, midT, rev_add, rev_cons, rev_mul, rev_mul, rev_sq, rev_sq, rev_dil, rev_dil, a, e1, e0]
  generalize rev cI0 _ = A, rev cI1 _ = B, rev cK0' _ = C, rev cK1' _ = D
  have s0 : √x ≠ 0 := (sqrt_pos.2 h0).ne'
  have s1 : √x * √x = x := mul_self_sqrt h0.le
  have : x * (exp (-x) / √x) = √x * exp (-x) := by
    field_simp
    rw [sq, s1]
  push_cast
  rw [show x * (A * (exp (-x) / √x * D) + x * B * (exp (-x) / √x * C)) = (A * D + x * (B * C)) * (x * (exp (-x) / √x)) by ring, this]
  field_simp
  ring

theorem mid_check1 : pcheck 1 (pshift 2 (7 / 4) (padd [-1] midT)) = true := by decide +kernel
theorem mid_check2 : pcheck 8 (pshift 2 (7 / 4) (padd (pscale 6e-7 (0 :: midT)) midE)) = true := by decide +kernel
theorem mid_check3 : pcheck 24 (pshift 2 (7 / 4) (padd (pscale 6e-7 (0 :: midT)) (pscale (-1) midE))) = true := by decide +kernel

theorem rev_midE (x : ℝ) : rev midE x = x * rev (pder midT) x - (11 / 2 + x) * rev midT x := by
  rw [midE, rev_add, rev_scale, rev_mul, rev_cons, rev_cons, rev_cons, rev_nil]
  generalize rev midT x = T, rev (pder midT) x = D
  push_cast
  ring

theorem mid_range {x : ℝ} (h2 : 2 ≤ x) (h3 : x ≤ 3.75) : 1 ≤ rev midT x ∧ |x * rev (pder midT) x - (11 / 2 + x) * rev midT x| ≤ 6e-7 * (x * rev midT x) := by
  have a : 0 ≤ (x - 2) / 1.75 := div_nonneg (by linarith) (by norm_num)
  have b : (x - 2) / 1.75 ≤ 1 := by rw [div_le_one (by norm_num)]; norm_num at h3 ⊢; linarith
  have e : ((2 : ℚ) : ℝ) + ((7 / 4 : ℚ) : ℝ) * ((x - 2) / 1.75) = x := by push_cast; ring
  have c1 := pcheck_sound (by norm_num) mid_check1 a b
  have c2 := pcheck_sound (by norm_num) mid_check2 a b
  have c3 := pcheck_sound (by norm_num) mid_check3 a b
  rw [rev_shift, e, rev_add, rev_cons, rev_nil] at c1
  rw [rev_shift, e, rev_add, rev_scale, rev_cons] at c2
  rw [rev_shift, e, rev_add, rev_scale, rev_scale, rev_cons] at c3
  rw [← rev_midE]
  generalize rev midT x = T, rev midE x = E at *
  push_cast at c1 c2 c3
  rw [zero_add] at c2 c3
  exact ⟨by linarith, abs_le.2 ⟨by linarith, by linarith⟩⟩

/-- The logarithm of what should be 1 -/
noncomputable def midL (x : ℝ) : ℝ := log (rev midT x) - 11 / 2 * log x - x

theorem mid_der {x : ℝ} (h2 : 2 ≤ x) (h3 : x ≤ 3.75) : HasDerivAt midL (rev (pder midT) x / rev midT x - 11 / 2 * x⁻¹ - 1) x ∧ |rev (pder midT) x / rev midT x - 11 / 2 * x⁻¹ - 1| ≤ 6e-7 := by
  have h0 : 0 < x := by linarith
  obtain ⟨t, d⟩ := mid_range h2 h3
  have t0 : 0 < rev midT x := by linarith
  refine ⟨((rev_der x midT).log t0.ne' |>.sub ((hasDerivAt_log h0.ne').const_mul _)).sub (hasDerivAt_id x), ?_⟩
  have : rev (pder midT) x / rev midT x - 11 / 2 * x⁻¹ - 1 = (x * rev (pder midT) x - (11 / 2 + x) * rev midT x) / (x * rev midT x) := by
    field_simp
    ring
  rw [this, abs_div, abs_of_pos (mul_pos h0 t0), div_le_iff₀ (mul_pos h0 t0)]
  exact d

theorem mid_exp {x : ℝ} (h2 : 2 ≤ x) (h3 : x ≤ 3.75) : rev midT x / x ^ 6 * √x * exp (-x) = exp (midL x) := by
  have h0 : 0 < x := by linarith
  have t0 : 0 < rev midT x := by linarith [(mid_range h2 h3).1]
  have s0 := sqrt_pos.2 h0
  rw [midL, show log (rev midT x) - 11 / 2 * log x - x = log (rev midT x) - 6 * log x + log x / 2 + -x by ring, ← log_sqrt h0.le, exp_add, exp_add, exp_sub, exp_log t0, exp_log s0,
    show (6 : ℝ) * log x = ((6 : ℕ) : ℝ) * log x by norm_num, exp_nat_mul, exp_log h0]

theorem rev_rat (p : List ℚ) (q : ℚ) : rev p (q : ℝ) = ((pev p q : ℚ) : ℝ) := by
  induction p with
  | nil => simp [rev_nil, pev]
  | cons a p ih =>
    rw [rev_cons, ih]
    simp [pev]

theorem mid_two : |midL 2| ≤ 1e-8 := by
  have e := mid_exp (x := 2) le_rfl (by norm_num)
  have b1 := Real.exp_neg_one_gt_d9
  have b2 := Real.exp_neg_one_lt_d9
  have b3 : exp (-2) = exp (-1) * exp (-1) := by rw [← exp_add]; norm_num
  have r1 : (1.4142135623 : ℝ) ≤ √2 := le_sqrt_of_sq_le (by norm_num)
  have r2 : √2 ≤ (1.4142135624 : ℝ) := (sqrt_le_left (by norm_num)).2 (by norm_num)
  have t : rev midT 2 = ((pev midT 2 : ℚ) : ℝ) := by simpa using rev_rat midT 2
  have t1 : (334.3905069 : ℝ) ≤ rev midT 2 := by
    have : (3343905069 / 10000000 : ℚ) ≤ pev midT 2 := by decide +kernel
    rw [t]
    have := (Rat.cast_le (K := ℝ)).2 this
    norm_num at this ⊢
    exact this
  have t2 : rev midT 2 ≤ (334.390507 : ℝ) := by
    have : pev midT 2 ≤ (334390507 / 1000000 : ℚ) := by decide +kernel
    rw [t]
    have := (Rat.cast_le (K := ℝ)).2 this
    norm_num at this ⊢
    exact this
  have p1 := exp_pos (-1)
  have u1 : exp (-1) * exp (-1) ≤ 0.3678794412 * 0.3678794412 := mul_le_mul b2.le b2.le p1.le (by norm_num)
  have l1 : 0.36787944116 * 0.36787944116 ≤ exp (-1) * exp (-1) := mul_le_mul b1.le b1.le (by norm_num) p1.le
  have u2 : √2 * exp (-2) ≤ 1.4142135624 * (0.3678794412 * 0.3678794412) := by rw [b3]; exact mul_le_mul r2 u1 (mul_pos p1 p1).le (by norm_num)
  have l2 : 1.4142135623 * (0.36787944116 * 0.36787944116) ≤ √2 * exp (-2) := by rw [b3]; exact mul_le_mul r1 l1 (by norm_num) (sqrt_nonneg 2)
  have u3 : rev midT 2 * (√2 * exp (-2)) ≤ 334.390507 * (1.4142135624 * (0.3678794412 * 0.3678794412)) := mul_le_mul t2 u2 (mul_nonneg (sqrt_nonneg 2) (exp_pos _).le) (by norm_num)
  have l3 : 334.3905069 * (1.4142135623 * (0.36787944116 * 0.36787944116)) ≤ rev midT 2 * (√2 * exp (-2)) := mul_le_mul t1 l2 (by norm_num) (by linarith)
  rw [show rev midT 2 / 2 ^ 6 * √2 * exp (-2) = rev midT 2 * (√2 * exp (-2)) / 64 by ring] at e
  have e1 := add_one_le_exp (midL 2)
  have e2 := add_one_le_exp (-midL 2)
  have e3 : exp (midL 2) * exp (-midL 2) = 1 := by rw [← exp_add]; simp
  have e5 := exp_pos (-midL 2)
  rw [← e] at e1 e3
  generalize rev midT 2 * (√2 * exp (-2)) = H at *
  have u4 : H / 64 ≤ 1 + 1e-8 := by norm_num at u3 ⊢; linarith
  have l4 : 1 - 9e-9 ≤ H / 64 := by norm_num at l3 ⊢; linarith
  refine abs_le.2 ⟨?_, by linarith⟩
  have : (1 - 9e-9) * exp (-midL 2) ≤ 1 := (mul_le_mul_of_nonneg_right l4 e5.le).trans e3.le
  norm_num at this ⊢
  linarith

theorem wronskian_mid {x : ℝ} (h2 : 2 < x) (h3 : x < 3.75) : |x * (bessi0 x * bessk1 x + bessi1 x * bessk0 x) - 1| ≤ 1.1e-6 := by
  have hm := (convex_Icc (2 : ℝ) 3.75).norm_image_sub_le_of_norm_hasDerivWithin_le (f := midL) (f' := fun x => rev (pder midT) x / rev midT x - 11 / 2 * x⁻¹ - 1) (C := 6e-7)
    (fun y hy => (mid_der hy.1 hy.2).1.hasDerivWithinAt) (fun y hy => by rw [Real.norm_eq_abs]; exact (mid_der hy.1 hy.2).2) (x := 2) (y := x) ⟨le_rfl, by norm_num⟩ ⟨h2.le, h3.le⟩
  rw [Real.norm_eq_abs, Real.norm_eq_abs, abs_of_pos (sub_pos.2 h2)] at hm
  have h4 := mid_two
  obtain ⟨p, q⟩ := abs_le.1 hm
  obtain ⟨r, s⟩ := abs_le.1 h4
  have u : midL x ≤ 1.07e-6 := by norm_num at *; linarith
  have l : -1.07e-6 ≤ midL x := by norm_num at *; linarith
  rw [mid_sum h2 h3, mid_exp h2.le h3.le]
  have e1 := add_one_le_exp (midL x)
  have e2 := add_one_le_exp (-midL x)
  have e3 : exp (midL x) * exp (-midL x) = 1 := by rw [← exp_add]; simp
  have e4 := exp_pos (midL x)
  refine abs_le.2 ⟨by norm_num at *; linarith, ?_⟩
  have : exp (midL x) * (1 - 1.07e-6) ≤ 1 := by
    rw [← e3]
    exact mul_le_mul_of_nonneg_left (by linarith) e4.le
  norm_num at *
  linarith

/-- **C129**: the four functions belong together (the Wronskian is `1/x`), for every argument. -/
theorem C129_wronskian_all {x : ℝ} (h0 : 0 < x) : |x * (bessi0 x * bessk1 x + bessi1 x * bessk0 x) - 1| ≤ 1.1e-6 := by
  by_cases h2 : x ≤ 2
  · exact (C129_wronskian h0 (.inl h2)).trans (by norm_num)
  by_cases h3 : 3.75 ≤ x
  · exact (C129_wronskian h0 (.inr h3)).trans (by norm_num)
  exact wronskian_mid (not_le.1 h2) (not_le.1 h3)

example : |(3 : ℝ) * (bessi0 3 * bessk1 3 + bessi1 3 * bessk0 3) - 1| ≤ 1.1e-6 := C129_wronskian_all (by norm_num)

end OP.Fem.Field
