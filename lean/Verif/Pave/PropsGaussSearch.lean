import Verif.Pave.PropsGauss
import Mathlib.Algebra.Polynomial.Splits
/-!
# C100: the search for the first point

From above its largest zero a polynomial with only real zeros is searched without passing the zero, because `p' / p` is the sum of `1 / (z - x)` over the zeros `x`.
-/
namespace OP.Pave.Gauss
open Polynomial

/-- A step of Newton's method from above the largest zero does not pass it, and goes at least the `n`th part of the way. -/
theorem step_from_above {n : Nat} {a : ℝ} (ha : (LP n).1.eval a = 0) (hmax : ∀ x, (LP n).1.eval x = 0 → x ≤ a) {z : ℝ} (hz : a < z) :
    (z - a) / n ≤ (LP n).1.eval z / (derivative (LP n).1).eval z ∧ (LP n).1.eval z / (derivative (LP n).1).eval z ≤ z - a := by
  have hc : Multiset.card (LP n).1.roots = n := by
    rw [← Multiset.toFinset_card_of_nodup (LP_roots_nodup n)]
    exact LP_roots_card n
  have hs : (LP n).1.Splits := splits_iff_card_roots.2 (by rw [hc, LP_natDegree])
  have h0 : (LP n).1.eval z ≠ 0 := fun h => absurd (hmax z h) (not_le.2 hz)
  have h1 := hs.eval_derivative_div_eval_of_ne_zero h0
  have hd : 0 < z - a := sub_pos.2 hz
  have hmem : a ∈ (LP n).1.roots := (mem_roots (LP_ne n)).2 ha
  have hle : ∀ x ∈ (LP n).1.roots, x ≤ a := fun x hx => hmax x ((mem_roots (LP_ne n)).1 hx)
  obtain ⟨T, hT⟩ : ∃ T, T = (((LP n).1.roots.map fun x => 1 / (z - x)).sum) := ⟨_, rfl⟩
  have h2 : 1 / (z - a) ≤ T := by
    rw [hT]
    refine Multiset.single_le_sum (fun y hy => ?_) _ (Multiset.mem_map_of_mem _ hmem)
    obtain ⟨x, hx, rfl⟩ := Multiset.mem_map.1 hy
    have := hle x hx
    exact (one_div_pos.2 (by linarith)).le
  have h3 : T ≤ n * (1 / (z - a)) := by
    rw [hT]
    refine (Multiset.sum_le_card_nsmul _ (1 / (z - a)) fun y hy => ?_).trans_eq (by rw [Multiset.card_map, hc, nsmul_eq_mul])
    obtain ⟨x, hx, rfl⟩ := Multiset.mem_map.1 hy
    exact one_div_le_one_div_of_le hd (by linarith [hle x hx])
  have hT0 : 0 < T := (one_div_pos.2 hd).trans_le h2
  have e : (LP n).1.eval z / (derivative (LP n).1).eval z = 1 / T := by
    rw [hT, ← h1, one_div_div]
  rw [e]
  have hn : (0 : ℝ) < n := by
    by_contra h
    have : (n : ℝ) * (1 / (z - a)) ≤ 0 := mul_nonpos_of_nonpos_of_nonneg (not_lt.1 h) (one_div_pos.2 hd).le
    linarith
  constructor
  · rw [div_le_div_iff₀ hn hT0, one_mul]
    rw [mul_one_div, le_div_iff₀ hd] at h3
    linarith
  · rw [div_le_iff₀ hT0]
    rw [div_le_iff₀ hd] at h2
    linarith

/-- **C100** (the first point): from every start between the largest zero and one, the search ends for every tolerance.  It does not pass the zero, and ends less than `n` tolerances from it. -/
theorem C100_search {eps : ℝ} (he : 0 < eps) {n : Nat} {a : ℝ} (ha : (legendre n a).1 = 0) (hmax : ∀ x, (legendre n x).1 = 0 → x ≤ a) {z : ℝ} (hz : a ≤ z) (hz1 : z < 1) :
    ∃ fuel r, newton eps n fuel z = some r ∧ a ≤ r.1 ∧ r.1 ≤ z ∧ r.1 - a ≤ (n - 1) * eps := by
  simp only [legendre_eval] at ha hmax
  have hn0 : 0 < n := by
    rcases Nat.eq_zero_or_pos n with rfl | h
    · simp [LP] at ha
    · exact h
  have hn : (1 : ℝ) ≤ n := by exact_mod_cast hn0
  have ha1 := (root_simple n a ha).2
  have ha2 : -1 < a := by nlinarith
  have key : ∀ k (z : ℝ), a ≤ z → z < 1 → (z - a) * (1 - 1 / n) ^ k ≤ eps → ∃ fuel r, newton eps n fuel z = some r ∧ a ≤ r.1 ∧ r.1 ≤ z ∧ r.1 - a ≤ (n - 1) * eps := by
    intro k
    induction k with
    | zero =>
      intro z hz hz1 hk
      rw [pow_zero, mul_one] at hk
      rcases hz.eq_or_lt with rfl | hz
      · refine ⟨1, _, C100_fixed eps he.le n 0 a (by rw [legendre_eval]; exact ha), le_rfl, le_rfl, ?_⟩
        rw [sub_self]
        exact mul_nonneg (by linarith) he.le
      obtain ⟨h1, h2⟩ := step_from_above ha hmax hz
      refine ⟨1, (z - (legendre n z).1 / slope n z, slope n z), ?_, ?_⟩
      · rw [newton]
        rw [legendre_eval, slope_eval n z (by nlinarith), if_neg]
        rw [not_lt, abs_of_nonneg ((div_nonneg (by linarith) (by linarith)).trans h1)]
        exact h2.trans hk
      · dsimp only
        rw [legendre_eval, slope_eval n z (by nlinarith)]
        have h3 : 0 ≤ (z - a) / n := div_nonneg (by linarith) (by linarith)
        refine ⟨by linarith, by linarith, ?_⟩
        have h4 : (z - a) - (z - a) / n ≤ (n - 1) * eps := by
          have : (z - a) - (z - a) / n = (n - 1) * ((z - a) / n) := by field_simp
          rw [this]
          exact mul_le_mul_of_nonneg_left ((div_le_self (by linarith) hn).trans hk) (by linarith)
        linarith
    | succ k ih =>
      intro z hz hz1 hk
      rcases hz.eq_or_lt with rfl | hz
      · refine ⟨1, _, C100_fixed eps he.le n 0 a (by rw [legendre_eval]; exact ha), le_rfl, le_rfl, ?_⟩
        rw [sub_self]
        exact mul_nonneg (by linarith) he.le
      obtain ⟨h1, h2⟩ := step_from_above ha hmax hz
      have h3 : 0 ≤ (z - a) / n := div_nonneg (by linarith) (by linarith)
      have e : (legendre n z).1 / slope n z = (LP n).1.eval z / (derivative (LP n).1).eval z := by
        rw [legendre_eval, slope_eval n z (by nlinarith)]
      by_cases hc : eps < |(legendre n z).1 / slope n z|
      · obtain ⟨fuel, r, f1, f2, f3, f4⟩ := ih (z - (legendre n z).1 / slope n z) (by rw [e]; linarith) (by rw [e]; linarith) (by
          rw [e]
          refine le_trans ?_ hk
          rw [pow_succ', ← mul_assoc]
          refine mul_le_mul_of_nonneg_right ?_ (pow_nonneg (by rw [sub_nonneg]; exact (div_le_one (by linarith)).2 hn) k)
          have : (z - a) * (1 - 1 / n) = (z - a) - (z - a) / n := by ring
          rw [this]
          linarith)
        refine ⟨fuel + 1, r, ?_, f2, by rw [e] at f3; linarith, f4⟩
        rw [newton]
        rw [if_pos hc]
        exact f1
      · refine ⟨1, (z - (legendre n z).1 / slope n z, slope n z), ?_, ?_⟩
        · rw [newton]
          rw [if_neg hc]
        · rw [e, not_lt, abs_of_nonneg (h3.trans h1)] at hc
          dsimp only
          rw [e]
          refine ⟨by linarith, by linarith, ?_⟩
          -- what is left is at most `n - 1` steps
          have h5 : z - a ≤ n * ((LP n).1.eval z / (derivative (LP n).1).eval z) := by
            rw [div_le_iff₀ (by linarith)] at h1
            linarith
          have h6 := mul_le_mul_of_nonneg_left hc (by linarith : (0 : ℝ) ≤ n - 1)
          linarith
  have hq0 : 0 ≤ 1 - 1 / (n : ℝ) := by rw [sub_nonneg]; exact (div_le_one (by linarith)).2 hn
  have hq1 : 1 - 1 / (n : ℝ) < 1 := by linarith [one_div_pos.2 (by linarith : (0 : ℝ) < n)]
  obtain ⟨k, hk⟩ := exists_pow_lt_of_lt_one (show (0 : ℝ) < eps / (z - a + 1) from div_pos he (by linarith)) hq1
  refine key k z hz hz1 ?_
  rw [lt_div_iff₀ (by linarith)] at hk
  have := pow_nonneg hq0 k
  linarith

/-- **C100** (the point in the middle): of an odd number of points the last search starts at zero, which is the point in the middle, and ends there at once. -/
theorem C100_middle {eps : ℝ} (he : 0 ≤ eps) (k fuel : Nat) : newton eps (2 * k + 1) (fuel + 1) (guess (2 * k + 1) k) = some (0, slope (2 * k + 1) 0) ∧
    (legendre (2 * k + 1) 0).1 = 0 ∧ slope (2 * k + 1) 0 ≠ 0 := by
  have h0 : guess (2 * k + 1) k = 0 := by
    have := (C100_guess (2 * k + 1)).2.2 k (by omega)
    rw [show 2 * k + 1 - 1 - k = k by omega] at this
    linarith
  have h1 : (LP (2 * k + 1)).1.eval 0 = 0 := by
    have := (LP_neg 0 (2 * k + 1)).1
    rw [neg_zero, pow_succ, pow_mul] at this
    norm_num at this
    linarith
  refine ⟨?_, by rw [legendre_eval]; exact h1, ?_⟩
  · rw [h0]
    exact C100_fixed eps he _ fuel 0 (by rw [legendre_eval]; exact h1)
  · rw [slope_eval _ _ (by norm_num)]
    exact (root_simple _ 0 h1).1

/-- **C100** (two points): the guess of the code is above the zero, so the table of two points is found for every tolerance. -/
theorem C100_two_points {eps : ℝ} (he : 0 < eps) : ∃ fuel r, newton eps 2 fuel (guess 2 0) = some r ∧ 1 / √3 ≤ r.1 ∧ r.1 - 1 / √3 ≤ eps := by
  have e2 : ∀ z : ℝ, (legendre 2 z).1 = (3 * z ^ 2 - 1) / 2 := fun z => by
    rw [legendre_eval]
    simp [LP]
    ring
  have h3 : √3 * √3 = (3 : ℝ) := Real.mul_self_sqrt (by norm_num)
  have h3p : (0 : ℝ) < √3 := Real.sqrt_pos.2 (by norm_num)
  have ha : (1 / √3) ^ 2 = (1 / 3 : ℝ) := by rw [div_pow, one_pow, sq, h3]
  have hap : (0 : ℝ) < 1 / √3 := one_div_pos.2 h3p
  have h5 : √5 * √5 = (5 : ℝ) := Real.mul_self_sqrt (by norm_num)
  have h5p : (0 : ℝ) ≤ √5 := Real.sqrt_nonneg 5
  have hg : guess 2 0 = Real.sin (Real.pi / 5) := by
    rw [guess, ← Real.cos_pi_div_two_sub]
    congr 1
    norm_num
    ring
  have hs := Real.sin_sq_add_cos_sq (Real.pi / 5)
  rw [Real.cos_pi_div_five] at hs
  have hsp : 0 < Real.sin (Real.pi / 5) := Real.sin_pos_of_pos_of_lt_pi (by positivity) (by linarith [Real.pi_pos])
  obtain ⟨fuel, r, h1, h2, -, h4⟩ := C100_search he (n := 2) (a := 1 / √3) (by rw [e2, ha]; norm_num) (fun x hx => by
    rw [e2] at hx
    refine le_of_not_gt fun h => ?_
    nlinarith) (z := guess 2 0) (by
      rw [hg]
      have h6 : √5 < 7 / 3 := (Real.sqrt_lt' (by norm_num)).2 (by norm_num)
      refine (pow_le_pow_iff_left₀ hap.le hsp.le two_ne_zero).1 ?_
      rw [ha]
      linarith) ((C100_guess 2).1 0 (by norm_num)).2
  exact ⟨fuel, r, h1, h2, by norm_num at h4 ⊢; linarith⟩

/-- Every polynomial of the table has a largest zero, and there is room above it to start from. -/
example (n : Nat) (hn : 0 < n) : ∃ a z : ℝ, (legendre n a).1 = 0 ∧ (∀ x, (legendre n x).1 = 0 → x ≤ a) ∧ a < z ∧ z < 1 := by
  have hne : (LP n).1.roots.toFinset.Nonempty := Finset.card_pos.1 (by rw [LP_roots_card]; exact hn)
  obtain ⟨a, ha, hm⟩ := Finset.exists_max_image _ id hne
  rw [Multiset.mem_toFinset, mem_roots (LP_ne n)] at ha
  have h1 := (root_simple n a ha).2
  refine ⟨a, (a + 1) / 2, by rw [legendre_eval]; exact ha, fun x hx => ?_, by nlinarith, by nlinarith⟩
  rw [legendre_eval] at hx
  exact hm x (by rw [Multiset.mem_toFinset, mem_roots (LP_ne n)]; exact hx)

end OP.Pave.Gauss
