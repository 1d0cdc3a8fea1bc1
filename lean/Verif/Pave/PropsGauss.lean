import Verif.Pave.Gauss
import Mathlib.Algebra.Polynomial.FieldDivision
import Mathlib.Algebra.Polynomial.Derivative
import Mathlib.Topology.Algebra.Polynomial
import Mathlib.Analysis.Calculus.Deriv.Polynomial
import Mathlib.MeasureTheory.Integral.IntervalIntegral.FundThmCalculus
import Mathlib.LinearAlgebra.Lagrange
import Mathlib.Data.Finset.Sort
import Mathlib.Tactic.FieldSimp
import Mathlib.Tactic.LinearCombination
/-!
# C100: the points and weights of the integration
-/
namespace OP.Pave.Gauss

open OP.Lin Polynomial Finset

/-! ## Legendre polynomials -/

/-- The polynomial that the inner loop evaluates, and the one before. -/
noncomputable def LP : Nat → ℝ[X] × ℝ[X]
  | 0 => (1, 0)
  | n + 1 => (X * (LP n).1 + C ((n : ℝ) / (n + 1)) * (X * (LP n).1 - (LP n).2), (LP n).1)

theorem legendre_eval (n : Nat) (z : ℝ) : legendre n z = ((LP n).1.eval z, (LP n).2.eval z) := by
  have := loop_rule (f := fun j (p : ℝ × ℝ) => (z * p.1 + j * (z * p.1 - p.2) / (j + 1), p.1)) (s := (1, 0)) (lo := 0) (hi := n)
    (fun k p => p = ((LP k).1.eval z, (LP k).2.eval z)) (Nat.zero_le _) (by simp [LP]) (fun k p _ _ h => by
      rw [h, LP]
      refine Prod.ext ?_ rfl
      simp only [eval_add, eval_mul, eval_X, eval_C, eval_sub]
      ring)
  exact this

theorem rec_C (n : Nat) : C ((n : ℝ) + 1) * (LP (n + 1)).1 = C (2 * (n : ℝ) + 1) * X * (LP n).1 - C (n : ℝ) * (LP n).2 := by
  have h : (n : ℝ) + 1 ≠ 0 := by positivity
  have e : C ((n : ℝ) + 1) * C ((n : ℝ) / (n + 1)) = C (n : ℝ) := by rw [← C_mul]; congr 1; field_simp
  rw [LP, mul_add, ← mul_assoc (C _) (C _), e]
  simp only [C_add, C_mul, C_1, map_ofNat]
  ring

/-- The derivatives of the polynomial and of the one before. -/
theorem rec_deriv : ∀ n : Nat, (X ^ 2 - 1) * derivative (LP n).1 = C (n : ℝ) * (X * (LP n).1 - (LP n).2) ∧
    (X ^ 2 - 1) * derivative (LP n).2 = C (n : ℝ) * ((LP n).1 - X * (LP n).2)
  | 0 => by simp [LP]
  | n + 1 => by
    obtain ⟨h1, h2⟩ := rec_deriv n
    have hr := rec_C n
    have hd : C ((n : ℝ) + 1) * derivative (LP (n + 1)).1 =
        C (2 * (n : ℝ) + 1) * ((LP n).1 + X * derivative (LP n).1) - C (n : ℝ) * derivative (LP n).2 := by
      have := congrArg derivative hr
      simp only [derivative_mul, derivative_sub, derivative_C, derivative_X, zero_mul, zero_add] at this
      rw [this]; ring
    have e2 : (LP (n + 1)).2 = (LP n).1 := rfl
    have hC : (C ((n : ℝ) + 1) : ℝ[X]) ≠ 0 := by rw [Ne, C_eq_zero]; positivity
    push_cast
    constructor
    · refine mul_left_cancel₀ hC ?_
      rw [e2]
      simp only [C_add, C_mul, C_1, map_ofNat] at hr hd ⊢
      linear_combination (X ^ 2 - 1) * hd + (2 * C (n : ℝ) + 1) * X * h1 - C (n : ℝ) * h2 - (C (n : ℝ) + 1) * X * hr
    · rw [e2, h1]
      simp only [C_add, C_mul, C_1, map_ofNat] at hr ⊢
      linear_combination -hr

theorem sq_sub_ne : (X ^ 2 - 1 : ℝ[X]) ≠ 0 := by
  intro h
  have := congrArg (eval 0) h
  simp at this

/-- Legendre's equation. -/
theorem rec_ode (n : Nat) : derivative ((X ^ 2 - 1) * derivative (LP n).1) = C ((n : ℝ) * (n + 1)) * (LP n).1 := by
  obtain ⟨h1, h2⟩ := rec_deriv n
  have key : X * derivative (LP n).1 - derivative (LP n).2 = C (n : ℝ) * (LP n).1 := by
    refine mul_left_cancel₀ sq_sub_ne ?_
    linear_combination X * h1 - h2
  rw [h1]
  simp only [derivative_mul, derivative_sub, derivative_C, derivative_X, zero_mul, zero_add, one_mul]
  simp only [C_mul, C_add, C_1]
  linear_combination C (n : ℝ) * key

theorem LP_degree : ∀ n : Nat, (LP n).1.natDegree ≤ n ∧ (LP n).2.natDegree ≤ n ∧ 0 < (LP n).1.coeff n
  | 0 => by simp [LP]
  | n + 1 => by
    obtain ⟨h1, h2, h3⟩ := LP_degree n
    have hX : (X * (LP n).1).natDegree ≤ n + 1 := natDegree_mul_le.trans (by rw [natDegree_X]; omega)
    refine ⟨?_, by show (LP n).1.natDegree ≤ n + 1; omega, ?_⟩
    · rw [LP]
      refine natDegree_add_le_of_degree_le hX ?_
      refine (natDegree_C_mul_le _ _).trans (natDegree_sub_le_of_le hX (by omega) |>.trans (by simp))
    · rw [LP]
      simp only [coeff_add, coeff_C_mul, coeff_sub, coeff_X_mul]
      rw [coeff_eq_zero_of_natDegree_lt (show (LP n).2.natDegree < n + 1 by omega), sub_zero]
      positivity

theorem LP_natDegree (n : Nat) : (LP n).1.natDegree = n :=
  le_antisymm (LP_degree n).1 (le_natDegree_of_ne_zero (LP_degree n).2.2.ne')

/-! ## Integrals -/

/-- The integral of a polynomial over the interval. -/
noncomputable def I (q : ℝ[X]) : ℝ := ∫ x in (-1 : ℝ)..1, q.eval x

theorem I_add (p q : ℝ[X]) : I (p + q) = I p + I q := by
  simp only [I, eval_add]
  exact intervalIntegral.integral_add (p.continuous.intervalIntegrable _ _) (q.continuous.intervalIntegrable _ _)

theorem I_C (c : ℝ) (q : ℝ[X]) : I (C c * q) = c * I q := by
  simp only [I, eval_mul, eval_C]
  exact intervalIntegral.integral_const_mul _ _

theorem I_sub (p q : ℝ[X]) : I (p - q) = I p - I q := by
  simp only [I, eval_sub]
  exact intervalIntegral.integral_sub (p.continuous.intervalIntegrable _ _) (q.continuous.intervalIntegrable _ _)

theorem I_sum {ι : Type} (s : Finset ι) (f : ι → ℝ[X]) : I (∑ i ∈ s, f i) = ∑ i ∈ s, I (f i) := by
  simp only [I, eval_finsetSum]
  exact intervalIntegral.integral_finset_sum fun i _ => (f i).continuous.intervalIntegrable _ _

theorem I_derivative (q : ℝ[X]) : I (derivative q) = q.eval 1 - q.eval (-1) :=
  intervalIntegral.integral_eq_sub_of_hasDerivAt (fun x _ => q.hasDerivAt x) ((derivative q).continuous.intervalIntegrable _ _)

theorem I_one : I 1 = 2 := by
  simp only [I, eval_one, intervalIntegral.integral_const, smul_eq_mul]; norm_num

theorem green (p q : ℝ[X]) : I (derivative ((X ^ 2 - 1) * derivative p) * q) = I (p * derivative ((X ^ 2 - 1) * derivative q)) := by
  have h := I_derivative ((X ^ 2 - 1) * (derivative p * q - p * derivative q))
  have e : derivative ((X ^ 2 - 1) * (derivative p * q - p * derivative q)) =
      derivative ((X ^ 2 - 1) * derivative p) * q - p * derivative ((X ^ 2 - 1) * derivative q) := by
    simp only [derivative_mul, derivative_sub]; ring
  rw [e, I_sub] at h
  have e1 : ((X ^ 2 - 1) * (derivative p * q - p * derivative q)).eval 1 = 0 := by rw [eval_mul]; simp
  have e2 : ((X ^ 2 - 1) * (derivative p * q - p * derivative q)).eval (-1) = 0 := by rw [eval_mul]; simp
  rw [e1, e2] at h
  linarith

theorem deriv_pow : ∀ k : Nat, derivative ((X ^ 2 - 1) * derivative (X ^ k : ℝ[X])) =
    C ((k : ℝ) * (k + 1)) * X ^ k - C ((k : ℝ) * (k - 1)) * X ^ (k - 2)
  | 0 => by simp
  | 1 => by
    simp [← two_mul, one_add_one_eq_two]
  | m + 2 => by
    simp only [derivative_X_pow, Nat.add_sub_cancel, show m + 2 - 1 = m + 1 by omega, derivative_mul, derivative_sub, derivative_one,
      derivative_natCast, map_natCast, show m + 1 - 1 = m by omega]
    simp only [C_mul, C_add, C_sub, C_1, map_natCast]
    push_cast
    ring

theorem low_zero (n : Nat) : ∀ k < n, (∀ m < k, m < n → I ((LP n).1 * X ^ m) = 0) → ((k : ℝ) * (k - 1)) * I ((LP n).1 * X ^ (k - 2)) = 0
  | 0, _, _ => by simp
  | 1, _, _ => by simp
  | m + 2, hk, ih => by rw [show m + 2 - 2 = m by omega, ih m (by omega) (by omega), mul_zero]

/-- The polynomials are orthogonal to the lower powers. -/
theorem orth_pow (n : Nat) : ∀ k < n, I ((LP n).1 * X ^ k) = 0 := by
  intro k
  induction k using Nat.strong_induction_on with
  | _ k ih =>
    intro hk
    have hg := green (LP n).1 (X ^ k)
    rw [rec_ode, mul_assoc, I_C] at hg
    rw [deriv_pow, mul_sub, I_sub, mul_left_comm, I_C, mul_left_comm, I_C] at hg
    have h0 := low_zero n k hk ih
    rw [h0, sub_zero] at hg
    have hkn : (k : ℝ) + 1 ≤ n := by exact_mod_cast hk
    have hk0 : (0 : ℝ) ≤ k := Nat.cast_nonneg k
    have : ((n : ℝ) * (n + 1) - k * (k + 1)) * I ((LP n).1 * X ^ k) = 0 := by linarith
    exact (mul_eq_zero.1 this).resolve_left (by nlinarith)

theorem orth_poly (n : Nat) (q : ℝ[X]) (hq : q.natDegree < n) : I ((LP n).1 * q) = 0 := by
  conv_lhs => rw [as_sum_range' q n hq]
  rw [mul_sum, I_sum]
  refine sum_eq_zero fun k hk => ?_
  rw [← C_mul_X_pow_eq_monomial, mul_left_comm, I_C, orth_pow n k (mem_range.1 hk), mul_zero]

/-! ## The kernel -/

/-- The kernel of Christoffel and Darboux. -/
noncomputable def K (n : Nat) (z : ℝ) : ℝ[X] := ∑ k ∈ range n, C ((2 * (k : ℝ) + 1) * (LP k).1.eval z) * (LP k).1

theorem K_eq (z : ℝ) : ∀ n : Nat, (X - C z) * K n z = C (n : ℝ) * (C ((LP n).2.eval z) * (LP n).1 - C ((LP n).1.eval z) * (LP n).2)
  | 0 => by simp [K]
  | n + 1 => by
    have h := K_eq z n
    have hr := rec_C n
    have hz := congrArg (fun p => C (eval z p)) hr
    simp only [eval_mul, eval_sub, eval_C, eval_X] at hz
    simp only [C_mul, C_sub, C_add, C_1, map_ofNat] at hz hr
    have e : K (n + 1) z = K n z + C ((2 * (n : ℝ) + 1) * (LP n).1.eval z) * (LP n).1 := sum_range_succ _ _
    have e2 : (LP (n + 1)).2 = (LP n).1 := rfl
    rw [e, mul_add, h, e2]
    push_cast
    simp only [C_mul, C_add, C_1, map_ofNat]
    linear_combination -C ((LP n).1.eval z) * hr + hz * (LP n).1

theorem K_natDegree (n : Nat) (h : 0 < n) (z : ℝ) : (K n z).natDegree < n := by
  have : (K n z).natDegree ≤ n - 1 := natDegree_sum_le_of_forall_le _ _ fun k hk =>
    (natDegree_C_mul_le _ _).trans ((LP_natDegree k).le.trans (by have := mem_range.1 hk; omega))
  omega

theorem I_LP (k : Nat) (h : 0 < k) : I (LP k).1 = 0 := by
  have := orth_poly k 1 (by simpa using h)
  rwa [mul_one] at this

theorem I_K (n : Nat) (h : 0 < n) (z : ℝ) : I (K n z) = 2 := by
  rw [K, I_sum, sum_eq_single 0]
  · rw [I_C]; simp [LP, I_one]
  · intro k _ hk
    rw [I_C, I_LP k (by omega), mul_zero]
  · intro hn
    exact absurd (mem_range.2 h) hn

theorem K_self (n : Nat) (z : ℝ) : (K n z).eval z = ∑ k ∈ range n, (2 * (k : ℝ) + 1) * (LP k).1.eval z ^ 2 := by
  rw [K, eval_finsetSum]
  refine sum_congr rfl fun k _ => ?_
  simp only [eval_mul, eval_C]; ring

theorem K_self_ge (n : Nat) (h : 0 < n) (z : ℝ) : 1 ≤ (K n z).eval z := by
  rw [K_self]
  have := single_le_sum (f := fun k : Nat => (2 * (k : ℝ) + 1) * (LP k).1.eval z ^ 2) (fun k _ => by positivity) (mem_range.2 h)
  simpa [LP] using this

theorem K_root (n : Nat) (z : ℝ) (hz : (LP n).1.eval z = 0) : (K n z).eval z = (1 - z ^ 2) * (derivative (LP n).1).eval z ^ 2 := by
  have h := congrArg (fun p => eval z (derivative p)) (K_eq z n)
  rw [hz] at h
  have h1 := congrArg (eval z) (rec_deriv n).1
  simp [derivative_mul, hz] at h h1
  linear_combination h + (derivative (LP n).1).eval z * h1

theorem K_other (n : Nat) (z y : ℝ) (hz : (LP n).1.eval z = 0) (hy : (LP n).1.eval y = 0) (h : y ≠ z) : (K n z).eval y = 0 := by
  have := congrArg (eval y) (K_eq z n)
  simp [hz, hy] at this
  exact this.resolve_left (sub_ne_zero.2 h)

/-- The weights that the kernel gives integrate polynomials exactly. -/
theorem exact (n : Nat) (hn : 0 < n) (v : Nat → ℝ) (hv : Set.InjOn v (range n)) (hr : ∀ i < n, (LP n).1.eval (v i) = 0)
    (q : ℝ[X]) (hq : q.natDegree < 2 * n) : ∑ i ∈ range n, 2 / (K n (v i)).eval (v i) * q.eval (v i) = I q := by
  have hne : (LP n).1 ≠ 0 := fun h => by have := (LP_degree n).2.2; rw [h] at this; simp at this
  have hd := LP_natDegree n
  set r := q % (LP n).1 with hrd
  have hrdeg : r.degree < n := by
    have := EuclideanDomain.mod_lt q hne
    have h2 : r.degree < (LP n).1.degree := degree_mod_lt q hne
    rwa [degree_eq_natDegree hne, hd] at h2
  have hdm : (LP n).1 * (q / (LP n).1) + r = q := EuclideanDomain.div_add_mod q _
  have hqd : (q / (LP n).1).natDegree < n := by
    by_cases h0 : q / (LP n).1 = 0
    · rw [h0]; simpa using hn
    · have hle : (LP n).1.degree ≤ q.degree := by
        by_contra hc
        exact h0 ((Polynomial.div_eq_zero_iff hne).2 (not_le.1 hc))
      have := degree_add_div hne hle
      have hq0 : q ≠ 0 := fun h => h0 (by rw [h, EuclideanDomain.zero_div])
      rw [degree_eq_natDegree hne, degree_eq_natDegree h0, degree_eq_natDegree hq0, hd] at this
      have : n + (q / (LP n).1).natDegree = q.natDegree := by exact_mod_cast this
      omega
  have hI : I q = I r := by
    conv_lhs => rw [← hdm]
    rw [I_add, orth_poly n _ hqd, zero_add]
  have hqr : ∀ i < n, q.eval (v i) = r.eval (v i) := fun i hi => by
    conv_lhs => rw [← hdm]
    rw [eval_add, eval_mul, hr i hi, zero_mul, zero_add]
  have hrep : r = ∑ i ∈ range n, C (r.eval (v i) / (K n (v i)).eval (v i)) * K n (v i) := by
    refine eq_of_degrees_lt_of_eval_index_eq (range n) hv (by rwa [card_range]) ?_ fun j hj => ?_
    · rw [card_range]
      refine (degree_sum_le _ _).trans_lt ((Finset.sup_lt_iff (by exact_mod_cast WithBot.bot_lt_coe n)).2 fun i _ => ?_)
      refine lt_of_le_of_lt (degree_le_of_natDegree_le (natDegree_C_mul_le _ _)) ?_
      exact_mod_cast K_natDegree n hn (v i)
    · rw [eval_finsetSum, sum_eq_single j]
      · have := K_self_ge n hn (v j)
        rw [eval_mul, eval_C, div_mul_cancel₀ _ (by linarith)]
      · intro i hi hij
        rw [eval_mul, K_other n _ _ (hr i (mem_range.1 hi)) (hr j (mem_range.1 hj)) (fun h => hij (hv hj hi h).symm), mul_zero]
      · intro h; exact absurd hj h
  rw [hI]
  conv_rhs => rw [hrep]
  rw [I_sum]
  refine sum_congr rfl fun i hi => ?_
  rw [I_C, I_K n hn, hqr i (mem_range.1 hi)]; ring

/-! ## The roots -/

theorem root_simple (n : Nat) (z : ℝ) (hz : (LP n).1.eval z = 0) : (derivative (LP n).1).eval z ≠ 0 ∧ z ^ 2 < 1 := by
  have hn : 0 < n := by
    rcases Nat.eq_zero_or_pos n with rfl | h
    · simp [LP] at hz
    · exact h
  have h := K_self_ge n hn z
  rw [K_root n z hz] at h
  refine ⟨fun h0 => ?_, ?_⟩
  · rw [h0] at h; norm_num at h
  · by_contra hc
    have := mul_nonneg (show 0 ≤ z ^ 2 - 1 by linarith) (sq_nonneg ((derivative (LP n).1).eval z))
    linarith

theorem LP_ne (n : Nat) : (LP n).1 ≠ 0 := fun h => by
  have := (LP_degree n).2.2
  rw [h] at this; simp at this

theorem LP_roots_nodup (n : Nat) : (LP n).1.roots.Nodup := by
  rw [Multiset.nodup_iff_count_le_one]
  intro z
  rw [count_roots]
  by_contra hc
  have h2 : 2 ≤ (LP n).1.rootMultiplicity z := by omega
  have hd := (le_rootMultiplicity_iff (LP_ne n)).1 h2
  obtain ⟨w, hw⟩ := hd
  have hz : (LP n).1.eval z = 0 := by rw [hw]; simp
  refine (root_simple n z hz).1 ?_
  rw [hw]
  simp [derivative_mul, derivative_pow]

theorem LP_roots_card (n : Nat) : (LP n).1.roots.toFinset.card = n := by
  rw [Multiset.toFinset_card_of_nodup (LP_roots_nodup n)]
  refine le_antisymm ((card_roots' _).trans (LP_natDegree n).le) ?_
  by_contra hc
  set q := ((LP n).1.roots.map fun a => X - C a).prod with hq
  obtain ⟨w, hw⟩ := prod_multiset_X_sub_C_dvd (LP n).1
  rw [← hq] at hw
  have hqd : q.natDegree < n := by
    rw [hq, natDegree_multiset_prod_X_sub_C_eq_card]; omega
  have hI := orth_poly n q hqd
  have hwr : ∀ x, w.eval x ≠ 0 := by
    intro x hx
    have hz : (LP n).1.eval x = 0 := by rw [hw, eval_mul, hx, mul_zero]
    have hqx : q.eval x = 0 := by
      rw [hq, eval_multiset_prod, Multiset.prod_eq_zero_iff]
      refine Multiset.mem_map.2 ⟨X - C x, Multiset.mem_map.2 ⟨x, (mem_roots (LP_ne n)).2 hz, rfl⟩, by simp⟩
    refine (root_simple n x hz).1 ?_
    rw [hw, derivative_mul, eval_add, eval_mul, eval_mul, hx, hqx]; ring
  have hq0 : q ≠ 0 := fun h => LP_ne n (by rw [hw, h, zero_mul])
  have hpos : ∀ u : ℝ[X], (∀ x, 0 < u.eval x) → 0 < I (q * u * q) := by
    intro u hu
    have hne : ∃ c ∈ Set.Icc (-1 : ℝ) 1, q.eval c ≠ 0 := by
      by_contra hcon
      push Not at hcon
      exact hq0 (eq_zero_of_infinite_isRoot q ((Set.Icc_infinite (by norm_num)).mono fun c hc => hcon c hc))
    obtain ⟨c, hc, hqc⟩ := hne
    have := intervalIntegral.integral_pos (a := (-1 : ℝ)) (b := 1) (f := fun x => (q * u * q).eval x) (by norm_num)
      ((q * u * q).continuous.continuousOn) (fun x _ => by
        have := (hu x).le
        simp only [eval_mul]
        nlinarith [mul_nonneg this (sq_nonneg (q.eval x))]) ⟨c, hc, by
        have := hu c
        have h2 : 0 < q.eval c ^ 2 := by positivity
        simp only [eval_mul]
        nlinarith [mul_pos this h2]⟩
    exact this
  have hsign : (∀ x, 0 < w.eval x) ∨ ∀ x, 0 < (-w).eval x := by
    by_contra hcon
    push Not at hcon
    obtain ⟨⟨a, ha⟩, b, hb⟩ := hcon
    rw [eval_neg] at hb
    obtain ⟨c, hc⟩ := mem_range_of_exists_le_of_exists_ge w.continuous ⟨a, ha⟩ ⟨b, by linarith⟩
    exact hwr c hc
  rw [hw] at hI
  rcases hsign with h | h
  · exact (hpos w h).ne' hI
  · have := hpos (-w) h
    rw [show q * -w * q = C (-1) * (q * w * q) by simp, I_C, hI] at this
    simp at this

theorem LP_neg (z : ℝ) : ∀ n : Nat, (LP n).1.eval (-z) = (-1) ^ n * (LP n).1.eval z ∧ (LP n).2.eval (-z) = -((-1) ^ n * (LP n).2.eval z)
  | 0 => by simp [LP]
  | n + 1 => by
    obtain ⟨h1, h2⟩ := LP_neg z n
    constructor
    · rw [LP]
      simp only [eval_add, eval_mul, eval_X, eval_C, eval_sub, h1, h2]
      ring
    · show (LP n).1.eval (-z) = -((-1) ^ (n + 1) * (LP n).1.eval z)
      rw [h1]; ring

theorem K_neg (n : Nat) (z : ℝ) : (K n (-z)).eval (-z) = (K n z).eval z := by
  rw [K_self, K_self]
  refine sum_congr rfl fun k _ => ?_
  rw [(LP_neg z k).1, mul_pow, ← pow_mul, mul_comm k 2, pow_mul]; norm_num

theorem slope_eval (n : Nat) (z : ℝ) (h : z ^ 2 ≠ 1) : slope n z = (derivative (LP n).1).eval z := by
  have h1 := congrArg (eval z) (rec_deriv n).1
  simp only [eval_mul, eval_sub, eval_pow, eval_X, eval_one, eval_C] at h1
  have hz : z * z - 1 ≠ 0 := fun h0 => h (by linarith [pow_two z])
  rw [slope, legendre_eval, div_eq_iff hz, ← h1]; ring

/-! ## The table -/

theorem row_get (n : Nat) (z pp : Nat → ℝ) (j : Nat) (hj : j < n) :
    (row n z pp).1 j = (if 2 * j + 1 < n then -z j else z (n - 1 - j)) ∧
    (row n z pp).2 j = if 2 * j + 1 < n then 2 / (1 - z j * z j) / pp j / pp j
      else 2 / (1 - z (n - 1 - j) * z (n - 1 - j)) / pp (n - 1 - j) / pp (n - 1 - j) := by
  have := loop_rule (f := fun i (t : (Nat → ℝ) × (Nat → ℝ)) =>
      let w := 2 / (1 - z i * z i) / pp i / pp i
      (Lin.set (Lin.set t.1 i (-z i)) (n - 1 - i) (z i), Lin.set (Lin.set t.2 (n - 1 - i) w) i w)) (s := (fun _ => 0, fun _ => 0))
    (lo := 0) (hi := (n + 1) / 2)
    (fun k t => ∀ j < n, (2 * j + 1 < n → j < k → t.1 j = -z j ∧ t.2 j = 2 / (1 - z j * z j) / pp j / pp j) ∧
      (¬2 * j + 1 < n → n - 1 - j < k → t.1 j = z (n - 1 - j) ∧
        t.2 j = 2 / (1 - z (n - 1 - j) * z (n - 1 - j)) / pp (n - 1 - j) / pp (n - 1 - j))) (Nat.zero_le _)
    (fun j _ => ⟨fun _ h => absurd h (by omega), fun _ h => absurd h (by omega)⟩) (fun k t _ hk ih j hj => by
      obtain ⟨i1, i2⟩ := ih j hj
      dsimp only
      refine ⟨fun h1 h2 => ?_, fun h1 h2 => ?_⟩
      · rw [set_ne _ _ (show j ≠ n - 1 - k by omega)]
        by_cases e : j = k
        · subst e; rw [set_same, set_same]; exact ⟨rfl, rfl⟩
        · rw [set_ne _ _ e, set_ne _ _ e, set_ne _ _ (show j ≠ n - 1 - k by omega)]
          exact i1 h1 (by omega)
      · by_cases e : n - 1 - j = k
        · have e' : j = n - 1 - k := by omega
          rw [e, e', set_same]
          by_cases e2 : n - 1 - k = k
          · rw [e2, set_same]; exact ⟨rfl, rfl⟩
          · rw [set_ne _ _ e2, set_same]; exact ⟨rfl, rfl⟩
        · rw [set_ne _ _ (show j ≠ n - 1 - k by omega), set_ne _ _ (show j ≠ k by omega), set_ne _ _ (show j ≠ k by omega),
            set_ne _ _ (show j ≠ n - 1 - k by omega)]
          exact i2 h1 (by omega))
  obtain ⟨h1, h2⟩ := this j hj
  by_cases h : 2 * j + 1 < n
  · rw [if_pos h, if_pos h]; exact h1 h (by omega)
  · rw [if_neg h, if_neg h]; exact h2 h (by omega)

/-! ## The properties -/

/-- The points that the search is meant to end with: zeros of the polynomial, decreasing, and none below zero. -/
structure Found (n : Nat) (z : Nat → ℝ) : Prop where
  zero : ∀ i, 2 * i + 1 ≤ n → (legendre n (z i)).1 = 0
  anti : ∀ i j, i < j → 2 * j + 1 ≤ n → z j < z i
  pos : ∀ i, 2 * i + 1 < n → 0 < z i
  mid : ∀ i, 2 * i + 1 = n → z i = 0

/-- **C100**: the loop evaluates the Legendre polynomial: a polynomial of degree `n` that is one at one and is orthogonal to every
polynomial of lower degree. -/
theorem C100_legendre (n : Nat) : ∃ p : ℝ[X], p.natDegree = n ∧ p.eval 1 = 1 ∧ (∀ z, (legendre n z).1 = p.eval z) ∧
    ∀ q : ℝ[X], q.natDegree < n → ∫ x in (-1 : ℝ)..1, (legendre n x).1 * q.eval x = 0 := by
  refine ⟨(LP n).1, LP_natDegree n, ?_, fun z => by rw [legendre_eval], fun q hq => ?_⟩
  · have : ∀ n, (LP n).1.eval 1 = 1 ∧ (n ≠ 0 → (LP n).2.eval 1 = 1) := by
      intro n
      induction n with
      | zero => simp [LP]
      | succ n ih =>
        refine ⟨?_, fun _ => ih.1⟩
        rw [LP]
        simp only [eval_add, eval_mul, eval_X, eval_C, eval_sub, ih.1]
        rcases Nat.eq_zero_or_pos n with rfl | h
        · simp
        · rw [ih.2 (by omega)]; ring
    exact (this n).1
  · have := orth_poly n q hq
    simp only [I, eval_mul] at this
    simpa only [legendre_eval] using this

/-- **C100**: the search is Newton's: the divisor of each step is the derivative of the polynomial. -/
theorem C100_newton (n : Nat) (z : ℝ) (h : z ^ 2 ≠ 1) : HasDerivAt (fun x => (legendre n x).1) (slope n z) z := by
  rw [slope_eval n z h]
  simpa only [legendre_eval] using (LP n).1.hasDerivAt z

/-- **C100**: when the search ends, its last step was a step of Newton's method of at most the tolerance. -/
theorem C100_stop (eps : ℝ) (n : Nat) : ∀ (fuel : Nat) (z : ℝ) (r : ℝ × ℝ), newton eps n fuel z = some r →
    ∃ y, r.1 = y - (legendre n y).1 / slope n y ∧ r.2 = slope n y ∧ |r.1 - y| ≤ eps
  | 0, _, _, h => by simp [newton] at h
  | m + 1, z, r, h => by
    rw [newton] at h
    split at h
    · exact C100_stop eps n m _ r h
    · rename_i hc
      refine ⟨z, ?_⟩
      cases h
      refine ⟨rfl, rfl, ?_⟩
      rw [sub_sub_cancel_left, abs_neg]
      exact not_lt.1 hc

/-- **C100**: a zero of the polynomial is where the search stays, and where it ends at once. -/
theorem C100_fixed (eps : ℝ) (he : 0 ≤ eps) (n fuel : Nat) (z : ℝ) (hz : (legendre n z).1 = 0) :
    newton eps n (fuel + 1) z = some (z, slope n z) := by
  rw [newton]
  rw [hz, zero_div, abs_zero, if_neg (not_lt.2 he), sub_zero]

/-- **C100**: for every number of points there are such zeros, and they are inside the interval. -/
theorem C100_roots (n : Nat) : ∃ z, Found n z ∧ ∀ i, 2 * i + 1 ≤ n → |z i| < 1 := by
  have hc := LP_roots_card n
  set S := (LP n).1.roots.toFinset with hS
  have hmem : ∀ x, x ∈ S ↔ (LP n).1.eval x = 0 := fun x => by
    rw [hS, Multiset.mem_toFinset, mem_roots (LP_ne n)]; rfl
  let e := S.orderEmbOfFin hc
  have he : ∀ i, (LP n).1.eval (e i) = 0 := fun i => (hmem _).1 (S.orderEmbOfFin_mem hc i)
  have hrev : ∀ i, e i = -e i.rev := by
    have hm : StrictMono fun i : Fin n => -e i.rev := fun i j h => by
      have : e j.rev < e i.rev := e.strictMono (Fin.rev_lt_rev.2 h)
      show -e i.rev < -e j.rev
      linarith
    have := S.orderEmbOfFin_unique hc (f := fun i : Fin n => -e i.rev) (fun i => (hmem _).2 (by rw [(LP_neg _ n).1, he, mul_zero])) hm
    exact fun i => (congrFun this i).symm
  have hlt : ∀ i : Nat, 2 * i + 1 ≤ n → n - 1 - i < n := fun i h => by omega
  refine ⟨fun i => if h : 2 * i + 1 ≤ n then e ⟨n - 1 - i, hlt i h⟩ else 0, ⟨fun i h => ?_, fun i j hij hj => ?_, fun i h => ?_, fun i h => ?_⟩, fun i h => ?_⟩
  · rw [dif_pos h, legendre_eval]; exact he _
  · rw [dif_pos hj, dif_pos (by omega)]
    exact e.strictMono (Fin.mk_lt_mk.2 (by omega))
  · rw [dif_pos (by omega)]
    have h1 := hrev ⟨i, by omega⟩
    have e1 : Fin.rev (⟨i, by omega⟩ : Fin n) = ⟨n - 1 - i, by omega⟩ := Fin.ext (by simp only [Fin.val_rev]; omega)
    rw [e1] at h1
    have h2 : e ⟨i, by omega⟩ < e ⟨n - 1 - i, by omega⟩ := e.strictMono (Fin.mk_lt_mk.2 (by omega))
    linarith
  · rw [dif_pos (by omega)]
    have h1 := hrev ⟨n - 1 - i, by omega⟩
    have e1 : Fin.rev (⟨n - 1 - i, by omega⟩ : Fin n) = ⟨n - 1 - i, by omega⟩ := Fin.ext (by simp only [Fin.val_rev]; omega)
    rw [e1] at h1
    linarith
  · show |dite _ _ _| < 1
    rw [dif_pos h]
    have := (root_simple n _ (he ⟨n - 1 - i, hlt i h⟩)).2
    exact (sq_lt_one_iff_abs_lt_one _).1 this

/-- **C100**: the searches start from different points, which decrease from one end of the interval to the other, as the zeros do, and
lie as symmetrically: the middle one of an odd number starts at the zero in the middle. -/
theorem C100_guess (n : Nat) : (∀ i < n, -1 < guess n i ∧ guess n i < 1) ∧ (∀ i j, i < j → j < n → guess n j < guess n i) ∧
    (∀ i < n, guess n (n - 1 - i) = -guess n i) := by
  have hn : (0 : ℝ) < n + 0.5 := by positivity
  have ang : ∀ i < n, 0 < Real.pi * (i + 0.75) / (n + 0.5) ∧ Real.pi * (i + 0.75) / (n + 0.5) < Real.pi := by
    intro i hi
    have h1 : (i : ℝ) + 1 ≤ n := by exact_mod_cast hi
    refine ⟨by have := Real.pi_pos; positivity, ?_⟩
    rw [div_lt_iff₀ hn]
    have := Real.pi_pos
    nlinarith
  refine ⟨fun i hi => ?_, fun i j hij hj => ?_, fun i hi => ?_⟩
  · obtain ⟨h0, h1⟩ := ang i hi
    constructor
    · rw [guess, ← Real.cos_pi]
      exact Real.cos_lt_cos_of_nonneg_of_le_pi h0.le le_rfl h1
    · rw [guess, ← Real.cos_zero]
      exact Real.cos_lt_cos_of_nonneg_of_le_pi le_rfl h1.le h0
  · refine Real.cos_lt_cos_of_nonneg_of_le_pi (ang i (by omega)).1.le (ang j hj).2.le ?_
    have h1 : (i : ℝ) < j := by exact_mod_cast hij
    have := Real.pi_pos
    gcongr
  · rw [guess, guess, ← Real.cos_pi_sub]
    congr 1
    rw [Nat.cast_sub (by omega), Nat.cast_sub (by omega)]
    field_simp
    push_cast
    ring

/-- **C100** (partial): with those zeros and slopes, the table of `n` points and weights integrates every polynomial of degree below `2n`
exactly, the points increase inside the interval, and the weights are positive.  That the searches end at such zeros is
`C100_searches`, for the numbers of points of the code.  Missing: that they do for more than sixteen; and the error from ending within a tolerance. -/
theorem C100_exact_partial (n : Nat) (hn : 0 < n) (z pp : Nat → ℝ) (hz : Found n z) (hp : ∀ i, 2 * i + 1 ≤ n → pp i = slope n (z i)) :
    (∀ q : ℝ[X], q.natDegree < 2 * n →
      ∑ j ∈ range n, (row n z pp).2 j * q.eval ((row n z pp).1 j) = ∫ x in (-1 : ℝ)..1, q.eval x) ∧
    (∀ i j, i < j → j < n → (row n z pp).1 i < (row n z pp).1 j) ∧
    ∀ j < n, |(row n z pp).1 j| < 1 ∧ 0 < (row n z pp).2 j := by
  have hroot : ∀ i, 2 * i + 1 ≤ n → (LP n).1.eval (z i) = 0 := fun i h => by
    have := hz.zero i h
    rwa [legendre_eval] at this
  have hw : ∀ i, 2 * i + 1 ≤ n → 2 / (1 - z i * z i) / pp i / pp i = 2 / (K n (z i)).eval (z i) := fun i h => by
    rw [hp i h, slope_eval n _ (root_simple n _ (hroot i h)).2.ne, K_root n _ (hroot i h), div_div, div_div]
    congr 1; ring
  have g1 : ∀ j < n, (LP n).1.eval ((row n z pp).1 j) = 0 := fun j hj => by
    rw [(row_get n z pp j hj).1]
    by_cases h : 2 * j + 1 < n
    · rw [if_pos h, (LP_neg _ n).1, hroot j h.le, mul_zero]
    · rw [if_neg h]; exact hroot _ (by omega)
  have g2 : ∀ j < n, (row n z pp).2 j = 2 / (K n ((row n z pp).1 j)).eval ((row n z pp).1 j) := fun j hj => by
    rw [(row_get n z pp j hj).1, (row_get n z pp j hj).2]
    by_cases h : 2 * j + 1 < n
    · rw [if_pos h, if_pos h, K_neg, hw j h.le]
    · rw [if_neg h, if_neg h, hw _ (by omega)]
  have nn : ∀ i, 2 * i + 1 ≤ n → 0 ≤ z i := fun i h => by
    rcases h.lt_or_eq with h | h
    · exact (hz.pos i h).le
    · rw [hz.mid i h]
  have g3 : ∀ i j, i < j → j < n → (row n z pp).1 i < (row n z pp).1 j := fun i j hij hj => by
    rw [(row_get n z pp i (by omega)).1, (row_get n z pp j hj).1]
    by_cases h : 2 * j + 1 < n
    · rw [if_pos h, if_pos (by omega)]
      have := hz.anti i j hij h.le
      linarith
    · rw [if_neg h]
      by_cases h' : 2 * i + 1 < n
      · rw [if_pos h']
        have := hz.pos i h'
        have := nn (n - 1 - j) (by omega)
        linarith
      · rw [if_neg h']
        exact hz.anti _ _ (by omega) (by omega)
  refine ⟨fun q hq => ?_, g3, fun j hj => ?_⟩
  · rw [← show I q = ∫ x in (-1 : ℝ)..1, q.eval x from rfl, ← exact n hn (row n z pp).1 ?_ g1 q hq]
    · exact sum_congr rfl fun j hj => by rw [g2 j (mem_range.1 hj)]
    · intro i hi j hj he
      have hi := mem_range.1 (mem_coe.1 hi)
      have hj := mem_range.1 (mem_coe.1 hj)
      rcases lt_trichotomy i j with h | h | h
      · exact absurd he (g3 i j h hj).ne
      · exact h
      · exact absurd he (g3 j i h hi).ne'
  · have h1 := K_self_ge n hn ((row n z pp).1 j)
    refine ⟨(sq_lt_one_iff_abs_lt_one _).1 (root_simple n _ (g1 j hj)).2, ?_⟩
    rw [g2 j hj]; positivity

/-- Not vacuous: for every number of points some zeros and slopes meet the hypotheses. -/
example (n : Nat) : ∃ z pp : Nat → ℝ, Found n z ∧ ∀ i, 2 * i + 1 ≤ n → pp i = slope n (z i) := by
  obtain ⟨z, h, _⟩ := C100_roots n
  exact ⟨z, fun i => slope n (z i), h, fun _ _ => rfl⟩

end OP.Pave.Gauss
