import Verif.Fem.Gauss
import Mathlib.Analysis.SpecialFunctions.Integrals.Basic
import Mathlib.Algebra.Polynomial.Eval.Degree
import Mathlib.Topology.Algebra.Polynomial
/-!
# C87: integration over the elements
-/
namespace OP.Fem

/-! ## Specification -/

/-- The rule integrates all polynomials of degree at most `d` over the interval. -/
def Exact (g : List (ℝ × ℝ)) (a b : ℝ) (d : Nat) : Prop :=
  ∀ p : Polynomial ℝ, p.natDegree ≤ d → (g.map fun q => q.2 * p.eval q.1).sum = ∫ x in a..b, p.eval x

/-- The degree that the rule of each shape has to integrate: twice that of its functions, plus one. -/
def degree : Shape → Nat
  | .linear => 3
  | .quadratic => 5
  | .cubic => 7
  | .absolute => 3
  | .infPos => 7
  | .infNeg => 7

/-! ## Proof -/

theorem exact_of_pow {g : List (ℝ × ℝ)} {a b : ℝ} {d : Nat}
    (h : ∀ k ≤ d, (g.map fun q => q.2 * q.1 ^ k).sum = (b ^ (k + 1) - a ^ (k + 1)) / (k + 1)) : Exact g a b d := by
  intro p hp
  have e : ∀ x, p.eval x = ∑ i ∈ Finset.range (d + 1), p.coeff i * x ^ i := fun x =>
    Polynomial.eval_eq_sum_range' (by omega) x
  simp only [e]
  rw [intervalIntegral.integral_finset_sum fun i _ =>
    (Continuous.intervalIntegrable (by fun_prop) a b)]
  have hs : (g.map fun q => q.2 * ∑ i ∈ Finset.range (d + 1), p.coeff i * q.1 ^ i).sum =
      ∑ i ∈ Finset.range (d + 1), p.coeff i * (g.map fun q => q.2 * q.1 ^ i).sum := by
    clear h
    induction g with
    | nil => simp
    | cons q g ih =>
      simp only [List.map_cons, List.sum_cons, mul_add, Finset.sum_add_distrib]
      rw [ih, Finset.mul_sum]
      congr 1
      exact Finset.sum_congr rfl fun i _ => by ring
  rw [hs]
  refine Finset.sum_congr rfl fun i hi => ?_
  rw [h i (by have := Finset.mem_range.1 hi; omega), intervalIntegral.integral_const_mul, integral_pow]

theorem gp2_exact : Exact gp2 (-1) 1 3 := by
  apply exact_of_pow
  have h : (1 / √3 : ℝ) ^ 2 = 1 / 3 := by rw [div_pow, Real.sq_sqrt (by norm_num)]; norm_num
  have e : gp2 = [(-(1 / √3), 1), (1 / √3, 1)] := by rw [gp2, neg_div]
  rw [e]
  generalize (1 / √3 : ℝ) = x at h
  intro k hk
  interval_cases k <;> simp <;> norm_num
  · linear_combination 2 * h
  · ring

theorem gp3_exact : Exact gp3 (-1) 1 5 := by
  apply exact_of_pow
  have h : (√(3 / 5) : ℝ) ^ 2 = 3 / 5 := Real.sq_sqrt (by norm_num)
  unfold gp3
  generalize (√(3 / 5) : ℝ) = x at h
  intro k hk
  interval_cases k <;> simp <;> norm_num
  · linear_combination 10 / 9 * h
  · ring
  · linear_combination 10 / 9 * (x ^ 2 + 3 / 5) * h
  · ring

theorem sqrt30 : (√30 : ℝ) ^ 2 = 30 ∧ 0 < (√30 : ℝ) ∧ (√30 : ℝ) < 6 := by
  refine ⟨Real.sq_sqrt (by norm_num), Real.sqrt_pos.2 (by norm_num), ?_⟩
  rw [Real.sqrt_lt' (by norm_num)]; norm_num

theorem gp4_exact : Exact gp4 (-1) 1 7 := by
  apply exact_of_pow
  obtain ⟨hs, hs0, hs6⟩ := sqrt30
  have hx : (√(525 + 70 * √30) / 35 : ℝ) ^ 2 = (525 + 70 * √30) / 1225 := by
    rw [div_pow, Real.sq_sqrt (by positivity)]; norm_num
  have hy : (√(525 - 70 * √30) / 35 : ℝ) ^ 2 = (525 - 70 * √30) / 1225 := by
    rw [div_pow, Real.sq_sqrt (by linarith)]; norm_num
  unfold gp4
  rw [neg_div, neg_div]
  generalize (√(525 + 70 * √30) / 35 : ℝ) = x at hx
  generalize (√(525 - 70 * √30) / 35 : ℝ) = y at hy
  generalize (√30 : ℝ) = s at *
  have odd : ∀ k, ((-x) ^ (2 * k + 1) = - x ^ (2 * k + 1)) ∧ ((-y) ^ (2 * k + 1) = - y ^ (2 * k + 1)) := fun k =>
    ⟨Odd.neg_pow ⟨k, rfl⟩ x, Odd.neg_pow ⟨k, rfl⟩ y⟩
  have hx4 : x ^ 4 = ((525 + 70 * s) / 1225) ^ 2 := by rw [← hx]; ring
  have hy4 : y ^ 4 = ((525 - 70 * s) / 1225) ^ 2 := by rw [← hy]; ring
  have hx6 : x ^ 6 = ((525 + 70 * s) / 1225) ^ 3 := by rw [← hx]; ring
  have hy6 : y ^ 6 = ((525 - 70 * s) / 1225) ^ 3 := by rw [← hy]; ring
  intro k hk
  interval_cases k
  · simp; norm_num; ring
  · simp
  · simp [hx, hy]; norm_num; linear_combination (-2 / 315) * hs
  · simp [(odd 1).1, (odd 1).2]; norm_num
  · simp [Even.neg_pow (show Even 4 by decide), hx4, hy4]; norm_num; linear_combination 4 / 3675 * hs
  · simp [(odd 2).1, (odd 2).2]; norm_num
  · simp [Even.neg_pow (show Even 6 by decide), hx6, hy6]; norm_num
    linear_combination 1 / 385875 * (1890 - 8 * (s ^ 2 + 30)) * hs
  · simp [(odd 3).1, (odd 3).2]; norm_num

theorem gl4_exact : Exact gl4 (-1) 1 5 := by
  apply exact_of_pow
  have h : (√5 / 5 : ℝ) ^ 2 = 1 / 5 := by rw [div_pow, Real.sq_sqrt (by norm_num)]; norm_num
  unfold gl4
  rw [neg_div]
  generalize (√5 / 5 : ℝ) = x at h
  intro k hk
  interval_cases k <;> simp <;> norm_num
  · linear_combination 5 / 3 * h
  · ring
  · linear_combination 5 / 3 * (x ^ 2 + 1 / 5) * h
  · ring

theorem gpA_exact : Exact (gpA.take 2) (-1) 0 3 ∧ Exact (gpA.drop 2) 0 1 3 := by
  have h : (1 / √3 : ℝ) ^ 2 = 1 / 3 := by rw [div_pow, Real.sq_sqrt (by norm_num)]; norm_num
  unfold gpA
  generalize (1 / √3 : ℝ) = x at h
  constructor
  · apply exact_of_pow
    intro k hk
    interval_cases k <;> simp <;> norm_num
    · ring
    · linear_combination 1 / 4 * h
    · linear_combination (-3 / 8) * h
  · apply exact_of_pow
    intro k hk
    interval_cases k <;> simp <;> norm_num
    · ring
    · linear_combination 1 / 4 * h
    · linear_combination 3 / 8 * h

/-- C87: the rule of each shape integrates the polynomials of its degree, which include the product of two of its functions or
derivatives and a linear factor; that of the shape with a kink does so on either side of it. -/
theorem C87_exact (s : Shape) : (s ≠ .absolute → Exact (getgauss s) (-1) 1 (degree s)) ∧
    (s = .absolute → Exact ((getgauss s).take 2) (-1) 0 (degree s) ∧ Exact ((getgauss s).drop 2) 0 1 (degree s)) := by
  cases s
  · exact ⟨fun _ => gp2_exact, nofun⟩
  · exact ⟨fun _ => gp3_exact, nofun⟩
  · exact ⟨fun _ => gp4_exact, nofun⟩
  · exact ⟨fun h => absurd rfl h, fun _ => gpA_exact⟩
  · exact ⟨fun _ => gp4_exact, nofun⟩
  · exact ⟨fun _ => gp4_exact, nofun⟩

/-- C87: the rule for loads. -/
theorem C87_load : Exact gl4 (-1) 1 5 := gl4_exact

/-- C87: all points lie inside the element, where infinite ends are finite, and all weights are positive. -/
theorem C87_inside (s : Shape) {q : ℝ × ℝ} (hq : q ∈ getgauss s) : -1 < q.1 ∧ q.1 < 1 ∧ 0 < q.2 := by
  have h3 : (0 : ℝ) < 1 / √3 ∧ 1 / √3 < 1 := by
    have : (1 : ℝ) < √3 := by rw [Real.lt_sqrt (by norm_num)]; norm_num
    exact ⟨by positivity, by rw [div_lt_one (by linarith)]; exact this⟩
  obtain ⟨hs, hs0, hs6⟩ := sqrt30
  have h4 : (0 : ℝ) ≤ √(525 + 70 * √30) / 35 ∧ √(525 + 70 * √30) / 35 < 1 := by
    refine ⟨by positivity, ?_⟩
    rw [div_lt_one (by norm_num), Real.sqrt_lt' (by norm_num)]; linarith
  have h5 : (0 : ℝ) ≤ √(525 - 70 * √30) / 35 ∧ √(525 - 70 * √30) / 35 < 1 := by
    refine ⟨by positivity, ?_⟩
    rw [div_lt_one (by norm_num), Real.sqrt_lt' (by norm_num)]; linarith
  have h6 : (0 : ℝ) ≤ √(3 / 5) ∧ √(3 / 5) < 1 := by
    refine ⟨by positivity, ?_⟩
    rw [Real.sqrt_lt' (by norm_num)]; norm_num
  have k4 : q ∈ gp4 → -1 < q.1 ∧ q.1 < 1 ∧ 0 < q.2 := by
    intro hq
    simp only [gp4, List.mem_cons, List.not_mem_nil, or_false, neg_div] at hq
    rcases hq with rfl | rfl | rfl | rfl <;> dsimp only <;> refine ⟨by linarith, by linarith, by linarith⟩
  cases s
  · simp only [getgauss, gp2, List.mem_cons, List.not_mem_nil, or_false, neg_div] at hq
    rcases hq with rfl | rfl <;> dsimp only <;> refine ⟨by linarith, by linarith, by linarith⟩
  · simp only [getgauss, gp3, List.mem_cons, List.not_mem_nil, or_false] at hq
    rcases hq with rfl | rfl | rfl <;> dsimp only <;> refine ⟨by linarith, by linarith, by linarith⟩
  · exact k4 hq
  · simp only [getgauss, gpA, List.mem_cons, List.not_mem_nil, or_false] at hq
    rcases hq with rfl | rfl | rfl | rfl <;> dsimp only <;> refine ⟨by linarith, by linarith, by linarith⟩
  · exact k4 hq
  · exact k4 hq

/-- A polynomial of the degree of the rule. -/
example : (gp2.map fun q => q.2 * (Polynomial.X ^ 2 : Polynomial ℝ).eval q.1).sum = 2 / 3 := by
  rw [gp2_exact _ (by simp)]
  simp [integral_pow]
  norm_num

end OP.Fem
