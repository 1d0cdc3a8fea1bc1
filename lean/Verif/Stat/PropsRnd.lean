import Verif.Stat.Normal
import Mathlib.RingTheory.RootsOfUnity.Complex
import Mathlib.Algebra.Field.GeomSum
import Mathlib.Algebra.BigOperators.Field

/-!
# C103: the generator of normal numbers
-/

namespace OP.Stat

open Finset

/-- A program calls the generator `n` times: what the generator keeps, how many numbers of `std::rand` were used, and the
values, last first.  `r` is the sequence that `std::rand` gives. -/
noncomputable def draws (m : ℕ) (r : ℕ → ℕ) : ℕ → Rnd × ℕ × List ℝ
  | 0 => (Rnd.init, 0, [])
  | n + 1 =>
    let (s, k, l) := draws m r n
    let (s', x, c) := rnd m s (r k, r (k + 1))
    (s', k + c, x :: l)

/-- The radius and the angle that two numbers stand for. -/
noncomputable def radius (m a : ℕ) : ℝ := √(-2 * Real.log ((a + 1) / (m + 1)))
noncomputable def angle (m b : ℕ) : ℝ := 2 * Real.pi * (b + 1) / (m + 1)

/-- The `i`th value of the sequence. -/
noncomputable def value (m : ℕ) (r : ℕ → ℕ) (i : ℕ) : ℝ :=
  if i % 2 = 0 then radius m (r i) * Real.sin (angle m (r (i + 1)))
  else radius m (r (i - 1)) * Real.cos (angle m (r i))

theorem draws_even (m : ℕ) (r : ℕ → ℕ) (k : ℕ) :
    (draws m r (2 * k)).1.i = true ∧ (draws m r (2 * k)).2.1 = 2 * k ∧
    (draws m r (2 * k)).2.2 = ((List.range (2 * k)).map (value m r)).reverse := by
  induction k with
  | zero => simp [draws, Rnd.init]
  | succ k ih =>
    obtain ⟨h1, h2, h3⟩ := ih
    rw [show 2 * (k + 1) = 2 * k + 1 + 1 by ring]
    simp only [draws, h2, h3]
    simp only [rnd, h1, if_true]
    refine ⟨by simp, by simp, ?_⟩
    rw [List.range_succ, List.range_succ]
    simp [value, radius, angle]

/-- Whatever `std::rand` gives, the values come in pairs: the first call of each pair uses two of its numbers and returns
the radius times the sine of the angle, the second uses none and returns the radius times the cosine. -/
theorem C103_pairs (m : ℕ) (r : ℕ → ℕ) (n : ℕ) :
    (draws m r n).2.2 = ((List.range n).map (value m r)).reverse ∧ (draws m r n).2.1 = 2 * ((n + 1) / 2) := by
  rcases Nat.even_or_odd' n with ⟨k, rfl | rfl⟩
  · obtain ⟨_, h2, h3⟩ := draws_even m r k
    exact ⟨h3, by omega⟩
  · obtain ⟨h1, h2, h3⟩ := draws_even m r k
    constructor
    · rw [List.range_succ]
      simp only [draws, h2, h3]
      simp [rnd, h1, value, radius, angle]
    · simp only [draws, h2]
      simp only [rnd, h1, if_true]
      omega

theorem frac_pos (m a : ℕ) : 0 < ((a + 1 : ℝ) / (m + 1)) := by positivity

/-- The squares of a pair add up to minus twice the logarithm of the first number, so no value is further from 0 than
`√(2 log (RAND_MAX + 1))`; the square root is never taken of a negative number. -/
theorem C103_radius (m : ℕ) (r : ℕ → ℕ) (hr : ∀ i, r i ≤ m) (k : ℕ) :
    value m r (2 * k) ^ 2 + value m r (2 * k + 1) ^ 2 = -2 * Real.log ((r (2 * k) + 1) / (m + 1)) ∧
    ∀ i, |value m r i| ≤ √(2 * Real.log (m + 1)) := by
  have hle : ∀ a : ℕ, a ≤ m → Real.log ((a + 1 : ℝ) / (m + 1)) ≤ 0 := by
    intro a ha
    apply Real.log_nonpos (frac_pos m a).le
    rw [div_le_one (by positivity)]
    have : (a : ℝ) ≤ m := by exact_mod_cast ha
    linarith
  have hrad : ∀ a : ℕ, a ≤ m → 0 ≤ radius m a ∧ radius m a ≤ √(2 * Real.log (m + 1)) := by
    intro a _
    refine ⟨Real.sqrt_nonneg _, Real.sqrt_le_sqrt ?_⟩
    rw [Real.log_div (by positivity) (by positivity)]
    have : 0 ≤ Real.log ((a : ℝ) + 1) := Real.log_nonneg (by have := Nat.cast_nonneg (α := ℝ) a; linarith)
    linarith
  constructor
  · have e1 : value m r (2 * k) = radius m (r (2 * k)) * Real.sin (angle m (r (2 * k + 1))) := by simp [value]
    have e2 : value m r (2 * k + 1) = radius m (r (2 * k)) * Real.cos (angle m (r (2 * k + 1))) := by simp [value]
    have h := Real.sq_sqrt (show 0 ≤ -2 * Real.log ((r (2 * k) + 1 : ℝ) / (m + 1)) by linarith [hle _ (hr (2 * k))])
    rw [e1, e2]
    calc _ = radius m (r (2 * k)) ^ 2 * (Real.sin (angle m (r (2 * k + 1))) ^ 2 + Real.cos (angle m (r (2 * k + 1))) ^ 2) := by ring
      _ = _ := by rw [Real.sin_sq_add_cos_sq, mul_one, radius, h]
  · intro i
    simp only [value]
    by_cases hi : i % 2 = 0
    · rw [if_pos hi, abs_mul, abs_of_nonneg (hrad _ (hr i)).1]
      calc _ ≤ radius m (r i) * 1 := mul_le_mul_of_nonneg_left (Real.abs_sin_le_one _) (hrad _ (hr i)).1
        _ ≤ _ := by rw [mul_one]; exact (hrad _ (hr i)).2
    · rw [if_neg hi, abs_mul, abs_of_nonneg (hrad _ (hr (i - 1))).1]
      calc _ ≤ radius m (r (i - 1)) * 1 := mul_le_mul_of_nonneg_left (Real.abs_cos_le_one _) (hrad _ (hr (i - 1))).1
        _ ≤ _ := by rw [mul_one]; exact (hrad _ (hr (i - 1))).2

example : ∀ i, (fun _ => 7 : ℕ → ℕ) i ≤ 2147483647 := fun _ => by norm_num

/-- The sum of the powers of a root of 1. -/
theorem root_sum {M : ℕ} {x : ℂ} (hx : x ≠ 1) (h : x ^ M = 1) : ∑ j ∈ range M, x ^ (j + 1) = 0 := by
  have := geom_sum_eq hx M
  rw [h, sub_self, zero_div] at this
  simp only [pow_succ]
  rw [← Finset.sum_mul, this, zero_mul]

theorem exp_angle (m c b : ℕ) : Complex.exp ((c * angle m b : ℝ) * Complex.I) =
    (Complex.exp (2 * Real.pi * Complex.I / ((m + 1 : ℕ) : ℂ)) ^ c) ^ (b + 1) := by
  rw [← pow_mul, ← Complex.exp_nat_mul]
  congr 1
  simp only [angle]
  push_cast
  ring

theorem trig_sum (m c : ℕ) (h : ¬ m + 1 ∣ c) :
    ∑ b ∈ range (m + 1), Real.cos (c * angle m b) = 0 ∧ ∑ b ∈ range (m + 1), Real.sin (c * angle m b) = 0 := by
  have hz := Complex.isPrimitiveRoot_exp (m + 1) (by omega)
  have e : ∑ b ∈ range (m + 1), Complex.exp ((c * angle m b : ℝ) * Complex.I) = 0 := by
    simp only [exp_angle]
    refine root_sum (fun hx => h (hz.dvd_of_pow_eq_one c hx)) ?_
    rw [← pow_mul, mul_comm c, pow_mul, hz.pow_eq_one, one_pow]
  have e2 : ∑ b ∈ range (m + 1), Complex.exp ((c * angle m b : ℝ) * Complex.I) =
      ((∑ b ∈ range (m + 1), Real.cos (c * angle m b) : ℝ) : ℂ) +
      ((∑ b ∈ range (m + 1), Real.sin (c * angle m b) : ℝ) : ℂ) * Complex.I := by
    push_cast
    rw [Finset.sum_mul, ← Finset.sum_add_distrib]
    refine Finset.sum_congr rfl fun b _ => ?_
    rw [Complex.exp_mul_I]
  rw [e2] at e
  have h1 := congrArg Complex.re e
  have h2 := congrArg Complex.im e
  simp only [Complex.add_re, Complex.add_im, Complex.re_ofReal_mul, Complex.im_ofReal_mul, Complex.I_re, Complex.I_im,
    Complex.ofReal_re, Complex.ofReal_im, Complex.zero_re, Complex.zero_im, mul_zero, mul_one, add_zero, zero_add] at h1 h2
  exact ⟨h1, h2⟩

/-- When every pair of numbers of `std::rand` is as likely as any other, the two values of a pair have mean 0, are
uncorrelated, and have the same variance, `-(log of the product of the fractions) / (RAND_MAX + 1)`. -/
theorem C103_moments (m : ℕ) (hm : 2 ≤ m) :
    ∑ a ∈ range (m + 1), ∑ b ∈ range (m + 1), radius m a * Real.sin (angle m b) = 0 ∧
    ∑ a ∈ range (m + 1), ∑ b ∈ range (m + 1), radius m a * Real.cos (angle m b) = 0 ∧
    ∑ a ∈ range (m + 1), ∑ b ∈ range (m + 1), (radius m a * Real.sin (angle m b)) * (radius m a * Real.cos (angle m b)) = 0 ∧
    ∑ a ∈ range (m + 1), ∑ b ∈ range (m + 1), (radius m a * Real.sin (angle m b)) ^ 2 =
      (m + 1) * ∑ a ∈ range (m + 1), -Real.log ((a + 1) / (m + 1)) ∧
    ∑ a ∈ range (m + 1), ∑ b ∈ range (m + 1), (radius m a * Real.cos (angle m b)) ^ 2 =
      (m + 1) * ∑ a ∈ range (m + 1), -Real.log ((a + 1) / (m + 1)) := by
  obtain ⟨c1, s1⟩ := trig_sum m 1 (fun h => by have := Nat.le_of_dvd (by norm_num) h; omega)
  obtain ⟨c2, s2⟩ := trig_sum m 2 (fun h => by have := Nat.le_of_dvd (by norm_num) h; omega)
  simp only [Nat.cast_one, one_mul] at c1 s1
  have hsq : ∀ a ∈ range (m + 1), radius m a ^ 2 = -2 * Real.log ((a + 1 : ℝ) / (m + 1)) := by
    intro a ha
    apply Real.sq_sqrt
    have : Real.log ((a + 1 : ℝ) / (m + 1)) ≤ 0 := by
      apply Real.log_nonpos (frac_pos m a).le
      rw [div_le_one (by positivity)]
      have : (a : ℝ) ≤ m := by have := Finset.mem_range.1 ha; exact_mod_cast (by omega : a ≤ m)
      linarith
    linarith
  have hs : ∑ b ∈ range (m + 1), Real.sin (angle m b) ^ 2 = (m + 1) / 2 := by
    have : ∀ b, Real.sin (angle m b) ^ 2 = 1 / 2 - Real.cos ((2 : ℕ) * angle m b) / 2 := by
      intro b; push_cast; rw [Real.cos_two_mul, ← Real.sin_sq_add_cos_sq (angle m b)]; ring
    simp only [this]
    rw [Finset.sum_sub_distrib, ← Finset.sum_div, ← Finset.sum_div, c2]
    simp
  have hc : ∑ b ∈ range (m + 1), Real.cos (angle m b) ^ 2 = (m + 1) / 2 := by
    have : ∀ b, Real.cos (angle m b) ^ 2 = 1 / 2 + Real.cos ((2 : ℕ) * angle m b) / 2 := by
      intro b; push_cast; rw [Real.cos_two_mul]; ring
    simp only [this]
    rw [Finset.sum_add_distrib, ← Finset.sum_div, ← Finset.sum_div, c2]
    simp
  refine ⟨?_, ?_, ?_, ?_, ?_⟩
  · simp only [← Finset.mul_sum, s1]; simp
  · simp only [← Finset.mul_sum, c1]; simp
  · have : ∀ a b, (radius m a * Real.sin (angle m b)) * (radius m a * Real.cos (angle m b)) =
        radius m a ^ 2 / 2 * Real.sin ((2 : ℕ) * angle m b) := by
      intro a b; push_cast; rw [Real.sin_two_mul]; ring
    simp only [this, ← Finset.mul_sum, s2]; simp
  · simp only [mul_pow, ← Finset.mul_sum, hs]
    rw [← Finset.sum_mul, Finset.sum_congr rfl hsq, ← Finset.mul_sum, Finset.sum_neg_distrib]; ring
  · simp only [mul_pow, ← Finset.mul_sum, hc]
    rw [← Finset.sum_mul, Finset.sum_congr rfl hsq, ← Finset.mul_sum, Finset.sum_neg_distrib]; ring

end OP.Stat
