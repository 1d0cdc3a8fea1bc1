import Verif.Pave.PropsGaussSearch
import Mathlib.Analysis.Real.Pi.Bounds
/-!
# C100: the first guess

The polynomial is positive from the first guess of the code on.  In `s = (1 - z) / 2` it is an alternating sum, of which four terms are enough.
-/
namespace OP.Pave.Gauss
open Polynomial Finset

/-- The polynomial as a polynomial in `(1 - z) / 2`. -/
noncomputable def Q (n : Nat) : ℝ[X] := (LP n).1.comp (1 - C 2 * X)

theorem Q_eval (n : Nat) (s : ℝ) : (Q n).eval s = (LP n).1.eval (1 - 2 * s) := by
  rw [Q, eval_comp]
  simp

theorem Q_ode (n : Nat) : derivative (X * ((X - 1) * derivative (Q n))) = C ((n : ℝ) * (n + 1)) * Q n := by
  have h := congrArg (fun p : ℝ[X] => p.comp (1 - C 2 * X)) (rec_ode n)
  have h1 := derivative_comp ((X ^ 2 - 1) * derivative (LP n).1) (1 - C 2 * X)
  have h2 : derivative (Q n) = -C 2 * (derivative (LP n).1).comp (1 - C 2 * X) := by
    rw [Q, derivative_comp]
    simp
  have h3 : ((X ^ 2 - 1) * derivative (LP n).1).comp (1 - C 2 * X) = -C 2 * (X * ((X - 1) * derivative (Q n))) := by
    rw [h2, mul_comp]
    simp only [sub_comp, pow_comp, X_comp, one_comp, map_ofNat]
    ring
  rw [mul_comp, C_comp] at h
  rw [h3, h] at h1
  have h4 : derivative (1 - C 2 * X : ℝ[X]) = -C 2 := by simp
  rw [h4, ← C_neg, derivative_C_mul] at h1
  have h5 : (C (-2 : ℝ)) ≠ 0 := by rw [Ne, C_eq_zero]; norm_num
  exact mul_left_cancel₀ h5 h1

theorem Q_coeff (n k : Nat) : ((k : ℝ) + 1) ^ 2 * (Q n).coeff (k + 1) = (k * (k + 1) - n * (n + 1)) * (Q n).coeff k := by
  have h := congrArg (fun p : ℝ[X] => p.coeff k) (Q_ode n)
  rw [coeff_derivative, coeff_X_mul, sub_mul, one_mul, coeff_sub, coeff_C_mul] at h
  have h1 : (X * derivative (Q n)).coeff k = k * (Q n).coeff k := by
    cases k with
    | zero => simp
    | succ k => rw [coeff_X_mul, coeff_derivative]; push_cast; ring
  rw [h1, coeff_derivative] at h
  linarith

theorem Q_natDegree (n : Nat) : (Q n).natDegree ≤ n := by
  refine natDegree_comp_le.trans ?_
  rw [LP_natDegree]
  have : (1 - C 2 * X : ℝ[X]).natDegree ≤ 1 := by compute_degree
  calc n * _ ≤ n * 1 := Nat.mul_le_mul_left n this
    _ = n := Nat.mul_one n

/-- The terms of the alternating sum. -/
noncomputable def term (n : Nat) (s : ℝ) (k : Nat) : ℝ := (-1) ^ k * (Q n).coeff k * s ^ k

theorem term_zero (n : Nat) (s : ℝ) : term n s 0 = 1 := by
  have h : (Q n).coeff 0 = 1 := by
    rw [coeff_zero_eq_eval_zero, Q_eval]
    obtain ⟨p, -, h1, h2, -⟩ := C100_legendre n
    have h3 := h2 1
    rw [h1, legendre_eval] at h3
    rw [mul_zero, sub_zero]
    exact h3
  rw [term, h]
  simp

theorem term_succ (n : Nat) (s : ℝ) (k : Nat) : ((k : ℝ) + 1) ^ 2 * term n s (k + 1) = (n * (n + 1) - k * (k + 1)) * s * term n s k := by
  have h := Q_coeff n k
  rw [term, term, pow_succ, pow_succ]
  linear_combination (-1) ^ k * -1 * (s ^ k * s) * h

theorem term_nonneg (n : Nat) {s : ℝ} (hs : 0 ≤ s) : ∀ k, 0 ≤ term n s k
  | 0 => by rw [term_zero]; exact zero_le_one
  | k + 1 => by
    rcases Nat.lt_or_ge n (k + 1) with h | h
    · rw [term, coeff_eq_zero_of_natDegree_lt ((Q_natDegree n).trans_lt h)]
      simp
    · have h1 := term_succ n s k
      have hk : (k : ℝ) + 1 ≤ n := by exact_mod_cast h
      have hk0 : (0 : ℝ) ≤ k := Nat.cast_nonneg k
      have h2 : 0 ≤ ((n : ℝ) * (n + 1) - k * (k + 1)) := by nlinarith
      have h3 := mul_nonneg (mul_nonneg h2 hs) (term_nonneg n hs k)
      rw [← h1] at h3
      exact nonneg_of_mul_nonneg_right h3 (by positivity)

theorem term_anti (n : Nat) {s : ℝ} (hs : 0 ≤ s) (hy : n * (n + 1) * s ≤ 4) (k : Nat) (hk : 1 ≤ k) : term n s (k + 1) ≤ term n s k := by
  have h1 := term_succ n s k
  have h0 := term_nonneg n hs k
  have hk1 : (1 : ℝ) ≤ k := by exact_mod_cast hk
  have h2 : ((n : ℝ) * (n + 1) - k * (k + 1)) * s ≤ ((k : ℝ) + 1) ^ 2 := by
    have : 0 ≤ (k : ℝ) * (k + 1) * s := by positivity
    nlinarith
  have h3 := mul_le_mul_of_nonneg_right h2 h0
  rw [← h1] at h3
  exact le_of_mul_le_mul_left h3 (by positivity)

/-- The polynomial is at least the sum of the first four terms. -/
theorem four_terms (n : Nat) {s : ℝ} (hs : 0 ≤ s) (hy : n * (n + 1) * s ≤ 4) :
    term n s 0 - term n s 1 + term n s 2 - term n s 3 ≤ (LP n).1.eval (1 - 2 * s) := by
  have h : ∀ j, term n s 0 - term n s 1 + term n s 2 - term n s 3 ≤ ∑ k ∈ range (2 * j + 4), (-1) ^ k * term n s k := by
    intro j
    induction j with
    | zero =>
      simp only [Nat.mul_zero, Nat.zero_add, sum_range_succ, range_zero, sum_empty]
      refine le_of_eq ?_
      ring
    | succ j ih =>
      rw [show 2 * (j + 1) + 4 = (2 * j + 4) + 1 + 1 by ring, sum_range_succ, sum_range_succ]
      have := term_anti n hs hy (2 * j + 4) (by omega)
      have e : (-1 : ℝ) ^ (2 * j + 4) = 1 := Even.neg_one_pow ⟨j + 2, by ring⟩
      have e' : (-1 : ℝ) ^ (2 * j + 4 + 1) = -1 := by rw [pow_succ, e, one_mul]
      rw [e, e']
      linarith
  refine (h n).trans_eq ?_
  rw [← Q_eval, eval_eq_sum_range' (n := 2 * n + 4) (by have := Q_natDegree n; omega)]
  refine sum_congr rfl fun k _ => ?_
  rw [term, ← mul_assoc, ← mul_assoc, ← mul_pow]
  norm_num

/-- The sum of the four terms. -/
noncomputable def four (M s : ℝ) : ℝ := 1 - M * s + M * (M - 2) * s ^ 2 / 4 - M * (M - 2) * (M - 6) * s ^ 3 / 36

theorem four_eq (n : Nat) (s : ℝ) : term n s 0 - term n s 1 + term n s 2 - term n s 3 = four (n * (n + 1)) s := by
  have h0 := term_succ n s 0
  have h1 := term_succ n s 1
  have h2 := term_succ n s 2
  rw [term_zero] at h0
  norm_num at h0 h1 h2
  rw [h0] at h1
  have h1' : term n s 2 = ((n : ℝ) * (n + 1) - 2) * s * (n * (n + 1) * s) / 4 := by linarith
  rw [h1'] at h2
  have h2' : term n s 3 = ((n : ℝ) * (n + 1) - 6) * s * (((n : ℝ) * (n + 1) - 2) * s * (n * (n + 1) * s) / 4) / 9 := by linarith
  rw [term_zero, h0, h1', h2', four]
  ring

theorem four_anti {M s S : ℝ} (hM : 6 ≤ M) (hs : 0 ≤ s) (h : s ≤ S) (hS : M * S ≤ 2) : four M S ≤ four M s := by
  have e : four M s - four M S = (S - s) * M * (1 - (M - 2) * (s + S) / 4 + (M - 2) * (M - 6) * (s ^ 2 + s * S + S ^ 2) / 36) := by
    rw [four, four]
    ring
  have h1 : 0 ≤ (M - 2) * (M - 6) * (s ^ 2 + s * S + S ^ 2) / 36 := by
    have : 0 ≤ S := hs.trans h
    have : 0 ≤ M - 2 := by linarith
    have : 0 ≤ M - 6 := by linarith
    positivity
  have h2 : (M - 2) * (s + S) ≤ 4 := by nlinarith
  have : 0 ≤ four M s - four M S := by
    rw [e]
    exact mul_nonneg (mul_nonneg (by linarith) (by linarith)) (by linarith)
  linarith

/-- The bound of `(1 - z) / 2` at the first guess, from `x = 1 / (n + 1 / 2) ^ 2`. -/
theorem four_pos {x M : ℝ} (hx : 0 < x) (hx1 : x ≤ 4 / 25) (hM : M * x = 1 - x / 4) :
    0 < four M (x * (1.38792 * (1 - 1.38792 * x / 4))) := by
  obtain ⟨p, hp⟩ : ∃ p : ℝ, p = 1.38792 * (1 - 1.38792 * x / 4) := ⟨_, rfl⟩
  rw [← hp]
  have e : four M (x * p) = 1 - (1 - x / 4) * p + ((1 - x / 4) * p) ^ 2 / 4 - (1 - x / 4) * p * (x * p) / 2 - ((1 - x / 4) * p) ^ 3 / 36
      + (8 * ((1 - x / 4) * p) ^ 2 * (x * p) - 12 * ((1 - x / 4) * p) * (x * p) ^ 2) / 36 := by
    rw [← hM, four]
    ring
  rw [e, hp]
  have h2 : 0 ≤ x * (4 / 25 - x) := mul_nonneg hx.le (by linarith)
  have h3 : 0 ≤ x ^ 3 * (4 / 25 - x) := mul_nonneg (by positivity) (by linarith)
  have h5 : 0 ≤ x ^ 5 * (4 / 25 - x) := mul_nonneg (by positivity) (by linarith)
  have p3 : 0 ≤ x ^ 3 := by positivity
  have p5 : 0 ≤ x ^ 5 := by positivity
  ring_nf
  ring_nf at h2 h3 h5
  linarith

/-- **C100**: the first guess of the code is above all zeros, for every number of points from two on. -/
theorem C100_above (n : Nat) (hn : 2 ≤ n) {r : ℝ} (hr : (legendre n r).1 = 0) : r < guess n 0 := by
  replace hr : (LP n).1.eval r = 0 := by rw [legendre_eval] at hr; exact hr
  by_contra hlt
  rw [not_lt] at hlt
  have hr1 : r ≤ 1 := by nlinarith [(root_simple n r hr).2]
  have hn2 : (2 : ℝ) ≤ n := by exact_mod_cast hn
  obtain ⟨N, hN⟩ : ∃ N : ℝ, N = n + 0.5 := ⟨_, rfl⟩
  have hN0 : 5 / 2 ≤ N := by rw [hN]; norm_num; linarith
  obtain ⟨t, ht⟩ : ∃ t : ℝ, t = 3 / 8 * Real.pi / N := ⟨_, rfl⟩
  have hg : guess n 0 = 2 * Real.cos t ^ 2 - 1 := by
    rw [← Real.cos_two_mul, guess, ht, hN]
    congr 1
    norm_num
    ring
  obtain ⟨x, hx⟩ : ∃ x : ℝ, x = 1 / N ^ 2 := ⟨_, rfl⟩
  have hx0 : 0 < x := by rw [hx]; positivity
  have hx1 : x ≤ 4 / 25 := by
    rw [hx, div_le_div_iff₀ (by positivity) (by norm_num)]
    nlinarith
  have ht2 : t ^ 2 ≤ 1.38792 * x := by
    rw [ht, hx, div_pow, mul_one_div]
    refine div_le_div_of_nonneg_right ?_ (by positivity)
    have := Real.pi_lt_d4
    have := Real.pi_pos
    nlinarith
  have hM : (n * (n + 1) : ℝ) * x = 1 - x / 4 := by
    have : x * N ^ 2 = 1 := by rw [hx]; field_simp
    rw [hN] at this
    norm_num at this
    linarith
  have hc : 1 - t ^ 2 / 2 ≤ Real.cos t := Real.one_sub_sq_div_two_le_cos
  have hs : (1 - r) / 2 ≤ x * (1.38792 * (1 - 1.38792 * x / 4)) := by
    have h1 : 0 ≤ 1 - 1.38792 * x / 2 := by norm_num; linarith
    have h2 : 1 - 1.38792 * x / 2 ≤ Real.cos t := by linarith
    have h3 : (1 - 1.38792 * x / 2) ^ 2 ≤ Real.cos t ^ 2 := pow_le_pow_left₀ h1 h2 2
    rw [hg] at hlt
    linarith
  have hM6 : (6 : ℝ) ≤ n * (n + 1) := by nlinarith
  have hS : (n * (n + 1) : ℝ) * (x * (1.38792 * (1 - 1.38792 * x / 4))) ≤ 2 := by
    rw [← mul_assoc, hM]
    have : (1 - x / 4) * (1.38792 * (1 - 1.38792 * x / 4)) ≤ 1 * (1.38792 * 1) := by
      refine mul_le_mul (by linarith) ?_ ?_ zero_le_one
      · refine mul_le_mul_of_nonneg_left ?_ (by norm_num)
        linarith
      · refine mul_nonneg (by norm_num) ?_
        linarith
    norm_num at this ⊢
    linarith
  have hs0 : 0 ≤ (1 - r) / 2 := by linarith
  have h1 := four_anti hM6 hs0 hs hS
  have h2 := four_pos hx0 hx1 hM
  have h3 := four_terms n hs0 (by
    have := mul_le_mul_of_nonneg_left hs (by linarith : (0 : ℝ) ≤ n * (n + 1))
    linarith)
  rw [four_eq, show 1 - 2 * ((1 - r) / 2) = r by ring, hr] at h3
  linarith

/-- **C100** (the first search): for every number of points and every tolerance the search from the first guess of the code ends, less than `n` tolerances above the
largest zero. -/
theorem C100_first {eps : ℝ} (he : 0 < eps) {n : Nat} (hn : 0 < n) : ∃ a fuel r, (legendre n a).1 = 0 ∧ (∀ x, (legendre n x).1 = 0 → x ≤ a) ∧
    newton eps n fuel (guess n 0) = some r ∧ a ≤ r.1 ∧ r.1 - a ≤ (n - 1) * eps := by
  have hne : (LP n).1.roots.toFinset.Nonempty := Finset.card_pos.1 (by rw [LP_roots_card]; exact hn)
  obtain ⟨a, ha, hm⟩ := Finset.exists_max_image _ id hne
  rw [Multiset.mem_toFinset, mem_roots (LP_ne n)] at ha
  have hm' : ∀ x, (legendre n x).1 = 0 → x ≤ a := fun x hx => by
    rw [legendre_eval] at hx
    exact hm x (by rw [Multiset.mem_toFinset, mem_roots (LP_ne n)]; exact hx)
  have ha' : (legendre n a).1 = 0 := by rw [legendre_eval]; exact ha
  have hle : a ≤ guess n 0 := by
    rcases Nat.lt_or_ge n 2 with h | h
    · obtain rfl : n = 1 := by omega
      have h0 := (C100_guess 1).2.2 0 (by norm_num)
      have h1 : a = 0 := by
        have : (LP 1).1.eval a = 0 := ha
        simpa [LP] using this
      rw [h1]
      norm_num at h0
      linarith
    · exact (C100_above n h ha').le
  obtain ⟨fuel, r, h1, h2, -, h4⟩ := C100_search he ha' hm' hle ((C100_guess n).1 0 hn).2
  exact ⟨a, fuel, r, ha', hm', h1, h2, h4⟩

/-- **C100** (up to three points): all searches end, within two tolerances of the zeros that the table is made of. -/
theorem C100_small {eps : ℝ} (he : 0 < eps) {n : Nat} (hn : 0 < n) (h3 : n ≤ 3) : ∃ z, Found n z ∧ ∀ i, 2 * i + 1 ≤ n →
    ∃ fuel r, newton eps n fuel (guess n i) = some r ∧ |r.1 - z i| ≤ 2 * eps := by
  obtain ⟨z, hz, -⟩ := C100_roots n
  refine ⟨z, hz, fun i hi => ?_⟩
  rcases eq_or_ne (2 * i + 1) n with hm | hm
  · subst hm
    refine ⟨1, _, (C100_middle he.le i 0).1, ?_⟩
    rw [hz.mid i rfl, sub_zero, abs_zero]
    linarith
  · obtain rfl : i = 0 := by omega
    obtain ⟨a, fuel, r, h1, h2, h4, h5, h6⟩ := C100_first he hn
    have hn' : (n : ℝ) ≤ 3 := by exact_mod_cast h3
    have hpos := hz.pos 0 (by omega)
    have hza := h2 _ (hz.zero 0 (by omega))
    -- there is one positive zero
    have ha : a = z 0 := by
      obtain rfl | rfl : n = 2 ∨ n = 3 := by omega
      · have e : ∀ x : ℝ, (legendre 2 x).1 = (3 * x ^ 2 - 1) / 2 := fun x => by
          rw [legendre_eval]
          simp [LP]
          ring
        have h7 := hz.zero 0 (by omega)
        rw [e] at h1 h7
        have : (a - z 0) * (a + z 0) = 0 := by linear_combination 2 / 3 * h1 - 2 / 3 * h7
        rcases mul_eq_zero.1 this with h | h <;> linarith
      · have e : ∀ x : ℝ, (legendre 3 x).1 = x * (5 * x ^ 2 - 3) / 2 := fun x => by
          rw [legendre_eval]
          simp [LP]
          ring
        have h7 := hz.zero 0 (by omega)
        rw [e] at h1 h7
        have g1 : 5 * a ^ 2 - 3 = 0 := by
          rcases mul_eq_zero.1 (show a * (5 * a ^ 2 - 3) = 0 by linarith) with h | h
          · linarith
          · exact h
        have g2 : 5 * z 0 ^ 2 - 3 = 0 := by
          rcases mul_eq_zero.1 (show z 0 * (5 * z 0 ^ 2 - 3) = 0 by linarith) with h | h
          · linarith
          · exact h
        have : (a - z 0) * (a + z 0) = 0 := by linear_combination 1 / 5 * g1 - 1 / 5 * g2
        rcases mul_eq_zero.1 this with h | h <;> linarith
    refine ⟨fuel, r, h4, ?_⟩
    rw [← ha, abs_of_nonneg (by linarith)]
    refine h6.trans (mul_le_mul_of_nonneg_right (by linarith) he.le)

/-- Three points with a tolerance of a trillionth: the zero found is the square root of three fifths. -/
example : ∃ fuel r, newton (1 / 10 ^ 12) 3 fuel (guess 3 0) = some r ∧ √(3 / 5) ≤ r.1 ∧ r.1 - √(3 / 5) ≤ 2 / 10 ^ 12 := by
  obtain ⟨a, fuel, r, h1, h2, h3, h4, h5⟩ := C100_first (eps := 1 / 10 ^ 12) (by positivity) (n := 3) (by norm_num)
  have e : ∀ z : ℝ, (legendre 3 z).1 = (5 * z ^ 3 - 3 * z) / 2 := fun z => by
    rw [legendre_eval]
    simp [LP]
    ring
  have hq : √(3 / 5) ^ 2 = (3 / 5 : ℝ) := Real.sq_sqrt (by norm_num)
  have hq0 : (0 : ℝ) < √(3 / 5) := Real.sqrt_pos.2 (by norm_num)
  have h6 : √(3 / 5) ≤ a := h2 _ (by rw [e, pow_succ, hq]; ring)
  rw [e] at h1
  have h7 : (a - √(3 / 5)) * (a * (a + √(3 / 5))) = 0 := by linear_combination 2 / 5 * h1 - a * hq
  have ha : 0 < a := hq0.trans_le h6
  have h8 : 0 < a * (a + √(3 / 5)) := by positivity
  have h9 : a = √(3 / 5) := by
    rcases mul_eq_zero.1 h7 with h | h
    · linarith
    · exact absurd h h8.ne'
  rw [h9] at h4 h5
  refine ⟨fuel, r, h3, h4, h5.trans_eq ?_⟩
  norm_num

end OP.Pave.Gauss
