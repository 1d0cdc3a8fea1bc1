import Verif.Fem.Bessel
import Verif.Fem.PropsField
import Mathlib.Analysis.SpecificLimits.Normed
import Mathlib.Analysis.Complex.ExponentialBounds
/-!
# C129: the modified Bessel functions, and the correlations made of them
-/
namespace OP.Fem.Field

open OP.Num Real

/-! ## Specification -/

/-- The modified Bessel functions of the first kind of order 0 and 1, by their power series -/
noncomputable def seriesI0 (x : ℝ) : ℝ := ∑' k : ℕ, (x ^ 2 / 4) ^ k / ((k.factorial : ℝ) * k.factorial)
@[inherit_doc seriesI0]
noncomputable def seriesI1 (x : ℝ) : ℝ := x / 2 * ∑' k : ℕ, (x ^ 2 / 4) ^ k / ((k.factorial : ℝ) * (k + 1).factorial)

/-! ## Proofs -/

/-- A power series whose coefficients fall fast, cut off after twelve terms -/
theorem cut_series {a : ℕ → ℝ} (ha : ∀ k, 0 < a k) (hg : ∀ k, 12 ≤ k → 100 * a k ≤ a (k + 1)) {t : ℝ} (h0 : 0 ≤ t) (h1 : t ≤ 4) :
    |(∑' k, t ^ k / a k) - ∑ k ∈ Finset.range 12, t ^ k / a k| ≤ 2 * (4 ^ 12 / a 12) := by
  have hb : ∀ k, t ^ (k + 12) / a (k + 12) ≤ 4 ^ 12 / a 12 * (1 / 2) ^ k := by
    intro k
    induction k with
    | zero =>
      rw [pow_zero, mul_one, Nat.zero_add]
      gcongr
      exact (ha 12).le
    | succ k ih =>
      have h2 := hg (k + 12) (by omega)
      have h3 := ha (k + 12)
      calc t ^ (k + 1 + 12) / a (k + 1 + 12) = t * (t ^ (k + 12) / a (k + 12 + 1)) := by
            rw [show k + 1 + 12 = k + 12 + 1 by omega, pow_succ]; ring
        _ ≤ 4 * (t ^ (k + 12) / (100 * a (k + 12))) := by
            gcongr
            exact div_nonneg (pow_nonneg h0 _) (ha _).le
        _ ≤ 1 / 2 * (t ^ (k + 12) / a (k + 12)) := by
            have : 0 ≤ t ^ (k + 12) / a (k + 12) := by positivity
            rw [show t ^ (k + 12) / (100 * a (k + 12)) = t ^ (k + 12) / a (k + 12) / 100 by field_simp]
            linarith
        _ ≤ 1 / 2 * (4 ^ 12 / a 12 * (1 / 2) ^ k) := by gcongr
        _ = _ := by rw [pow_succ]; ring
  have hs : Summable fun k : ℕ => 4 ^ 12 / a 12 * (1 / 2 : ℝ) ^ k := summable_geometric_two.mul_left _
  have hn : ∀ k, 0 ≤ t ^ (k + 12) / a (k + 12) := fun k => div_nonneg (pow_nonneg h0 _) (ha _).le
  have hs12 : Summable fun k => t ^ (k + 12) / a (k + 12) := Summable.of_nonneg_of_le hn hb hs
  have hs' : Summable fun k => t ^ k / a k := (summable_nat_add_iff 12).1 hs12
  rw [← hs'.sum_add_tsum_nat_add 12, add_sub_cancel_left, abs_of_nonneg (tsum_nonneg hn)]
  refine (hs12.tsum_le_tsum hb hs).trans ?_
  rw [tsum_mul_left, tsum_geometric_two]
  linarith

/-- The first twelve terms as polynomials in `(x / 3.75)²` -/
def sI0 : List ℚ := (List.range 12).map fun k => (225 / 64) ^ k / ((k.factorial : ℚ) * k.factorial)
@[inherit_doc sI0]
def sI1 : List ℚ := (List.range 12).map fun k => (225 / 64) ^ k / (2 * ((k.factorial : ℚ) * (k + 1).factorial))

theorem near_I0 {y : ℝ} (h0 : 0 ≤ y) (h1 : y ≤ 1) : |rev cI0 y - rev sI0 y| ≤ 1.9e-7 := by
  have := pcheck_abs (n := 24) (p := padd cI0 (pscale (-1) sI0)) (ε := 1.9e-7) (by norm_num) (by decide +kernel) h0 h1
  rw [rev_add, rev_scale] at this
  push_cast at this
  convert this using 2
  · ring

theorem near_I1 {y : ℝ} (h0 : 0 ≤ y) (h1 : y ≤ 1) : |rev cI1 y - rev sI1 y| ≤ 1.8e-8 := by
  have := pcheck_abs (n := 24) (p := padd cI1 (pscale (-1) sI1)) (ε := 1.8e-8) (by norm_num) (by decide +kernel) h0 h1
  rw [rev_add, rev_scale] at this
  push_cast at this
  convert this using 2
  · ring

theorem arg_unit {x : ℝ} (hx : |x| < 3.75) : 0 ≤ x / 3.75 * (x / 3.75) ∧ x / 3.75 * (x / 3.75) ≤ 1 ∧ x ^ 2 / 4 = 225 / 64 * (x / 3.75 * (x / 3.75)) ∧ x ^ 2 / 4 ≤ 4 := by
  have h2 : x ^ 2 < 3.75 ^ 2 := sq_lt_sq' (by linarith [(abs_lt.1 hx).1]) (abs_lt.1 hx).2
  refine ⟨mul_self_nonneg _, ?_, ?_, ?_⟩
  · rw [div_mul_div_comm, div_le_one (by norm_num)]; nlinarith
  · ring_nf
  · norm_num at h2; linarith

/-- **C129**, order 0: for arguments below 3.75 in size the value is within 2·10⁻⁷ of the power series. -/
theorem C129_i0 {x : ℝ} (hx : |x| < 3.75) : |bessi0 x - seriesI0 x| ≤ 2e-7 := by
  obtain ⟨h0, h1, h2, h3⟩ := arg_unit hx
  have hc := cut_series (a := fun k => (k.factorial : ℝ) * k.factorial) (fun k => by positivity) (fun k hk => by
    have hk' : (12 : ℝ) ≤ k := by exact_mod_cast hk
    have hf : (0 : ℝ) < k.factorial := by positivity
    rw [Nat.factorial_succ]
    push_cast
    nlinarith [mul_pos hf hf, mul_nonneg (mul_pos hf hf).le (show (0 : ℝ) ≤ (k + 1) * (k + 1) - 100 by nlinarith)]) (t := x ^ 2 / 4) (by positivity) h3
  have hp : rev sI0 (x / 3.75 * (x / 3.75)) = ∑ k ∈ Finset.range 12, (x ^ 2 / 4) ^ k / ((k.factorial : ℝ) * k.factorial) := by
    rw [sI0, rev_range]
    refine Finset.sum_congr rfl fun k _ => ?_
    rw [h2]
    generalize x / 3.75 * (x / 3.75) = z
    push_cast
    ring
  have hn := near_I0 h0 h1
  rw [hp] at hn
  have hnum : 2 * ((4 : ℝ) ^ 12 / (((12 : ℕ).factorial : ℝ) * (12 : ℕ).factorial)) ≤ 1e-9 := by
    norm_num [Nat.factorial]
  rw [bessi0, if_pos hx]
  change |_ - ∑' k : ℕ, _| ≤ _
  rw [abs_le] at hn hc ⊢
  constructor <;> linarith [hn.1, hn.2, hc.1, hc.2]

/-- The value of `bessi1` -/
theorem bessi1_small {x : ℝ} (hx : |x| < 3.75) : bessi1 x = x * rev cI1 (x / 3.75 * (x / 3.75)) := by
  unfold bessi1
  dsimp only
  rw [if_pos hx]
  by_cases h : x < 0
  · rw [if_pos h, abs_of_neg h]; ring
  · rw [if_neg h, abs_of_nonneg (not_lt.1 h)]

/-- **C129**, order 1: for arguments below 3.75 in size the value is within 2·10⁻⁸ of the power series, relative to the argument. -/
theorem C129_i1 {x : ℝ} (hx : |x| < 3.75) : |bessi1 x - seriesI1 x| ≤ 2e-8 * |x| := by
  obtain ⟨h0, h1, h2, h3⟩ := arg_unit hx
  have hc := cut_series (a := fun k => (k.factorial : ℝ) * (k + 1).factorial) (fun k => by positivity) (fun k hk => by
    have hk' : (12 : ℝ) ≤ k := by exact_mod_cast hk
    have hf : (0 : ℝ) < k.factorial * (k + 1).factorial := by positivity
    rw [Nat.factorial_succ (k + 1), Nat.factorial_succ k] at *
    push_cast at *
    nlinarith [mul_nonneg hf.le (show (0 : ℝ) ≤ (k + 1) * (k + 1 + 1) - 100 by nlinarith)]) (t := x ^ 2 / 4) (by positivity) h3
  have hp : rev sI1 (x / 3.75 * (x / 3.75)) = 1 / 2 * ∑ k ∈ Finset.range 12, (x ^ 2 / 4) ^ k / ((k.factorial : ℝ) * (k + 1).factorial) := by
    rw [sI1, rev_range, Finset.mul_sum]
    refine Finset.sum_congr rfl fun k _ => ?_
    rw [h2]
    generalize x / 3.75 * (x / 3.75) = z
    push_cast
    rw [mul_pow]
    field_simp
  have hn := near_I1 h0 h1
  rw [hp] at hn
  have hnum : 2 * ((4 : ℝ) ^ 12 / (((12 : ℕ).factorial : ℝ) * (12 + 1 : ℕ).factorial)) ≤ 1e-9 := by
    norm_num [Nat.factorial]
  rw [bessi1_small hx]
  change |_ - x / 2 * ∑' k : ℕ, _| ≤ _
  set S := ∑' k : ℕ, (x ^ 2 / 4) ^ k / ((k.factorial : ℝ) * (k + 1).factorial)
  rw [show x * rev cI1 (x / 3.75 * (x / 3.75)) - x / 2 * S = (rev cI1 (x / 3.75 * (x / 3.75)) - S / 2) * x by ring, abs_mul]
  gcongr
  rw [abs_le] at hn hc ⊢
  constructor <;> linarith [hn.1, hn.2, hc.1, hc.2]

/-- **C129**: the function of order 0 is even and that of order 1 is odd, for all arguments. -/
theorem C129_parity (x : ℝ) : bessi0 (-x) = bessi0 x ∧ bessi1 (-x) = -bessi1 x := by
  constructor
  · unfold bessi0
    rw [abs_neg, neg_div, neg_mul_neg]
  · unfold bessi1
    dsimp only
    rw [abs_neg, neg_div, neg_mul_neg]
    rcases lt_trichotomy x 0 with h | h | h
    · rw [if_neg (show ¬ -x < 0 by linarith), if_pos h, neg_neg]
    · subst h; simp
    · rw [if_pos (show -x < 0 by linarith), if_neg (show ¬ x < 0 by linarith)]

/-- The argument of the polynomials below 2 -/
theorem arg_small {x : ℝ} (h0 : 0 < x) (h2 : x ≤ 2) : |x| < 3.75 ∧ x / 3.75 * (x / 3.75) = ((64 / 225 : ℚ) : ℝ) * (x * x / 4) ∧ 0 < x * x / 4 ∧ x * x / 4 ≤ 1 := by
  refine ⟨by rw [abs_of_pos h0]; norm_num; linarith, ?_, by positivity, by nlinarith⟩
  push_cast
  ring

theorem small_i0 {x : ℝ} (h0 : 0 < x) (h2 : x ≤ 2) : bessi0 x = rev (pdil (64 / 225) cI0) (x * x / 4) := by
  obtain ⟨h3, h4, -, -⟩ := arg_small h0 h2
  rw [bessi0, if_pos h3, h4, rev_dil]

theorem small_i1 {x : ℝ} (h0 : 0 < x) (h2 : x ≤ 2) : bessi1 x = x * rev (pdil (64 / 225) cI1) (x * x / 4) := by
  obtain ⟨h3, h4, -, -⟩ := arg_small h0 h2
  rw [bessi1_small h3, h4, rev_dil]

/-- **C129**: the four functions belong together (the Wronskian is `1/x`), for arguments up to 2 and from 3.75. -/
theorem C129_wronskian {x : ℝ} (h0 : 0 < x) (h : x ≤ 2 ∨ 3.75 ≤ x) :
    |x * (bessi0 x * bessk1 x + bessi1 x * bessk0 x) - 1| ≤ 5e-8 := by
  rcases h with h2 | h2
  · obtain ⟨-, -, h3, h4⟩ := arg_small h0 h2
    have := pcheck_abs (n := 12) (p := padd (padd (pmul (pdil (64 / 225) cI0) cK1) (pscale 4 (0 :: pmul (pdil (64 / 225) cI1) cK0))) [-1]) (ε := 5e-8) (by norm_num)
      (by decide +kernel) h3.le h4
    rw [rev_add, rev_add, rev_scale, rev_cons, rev_mul, rev_mul, rev_cons, rev_nil] at this
    rw [bessk0, bessk1, if_pos h2, if_pos h2, small_i0 h0 h2, small_i1 h0 h2]
    push_cast at this
    convert this using 2
    · field_simp
      ring
  · have h3 : 0 < 3.75 / x := by positivity
    have h4 : 3.75 / x ≤ 1 := by rw [div_le_one h0]; exact h2
    have := pcheck_abs (n := 48) (p := padd (padd (pmul cI0' (pdil (8 / 15) cK1')) (pmul cI1' (pdil (8 / 15) cK0'))) [-1]) (ε := 5e-8) (by norm_num)
      (by decide +kernel) h3.le h4
    rw [rev_add, rev_add, rev_mul, rev_mul, rev_dil, rev_dil, rev_cons, rev_nil] at this
    have h5 : ((8 / 15 : ℚ) : ℝ) * (3.75 / x) = 2 / x := by push_cast; field_simp; norm_num
    rw [h5] at this
    have h6 : ¬ x ≤ 2 := by norm_num at h2; linarith
    have h7 : ¬ |x| < 3.75 := by rw [abs_of_pos h0]; exact not_lt.2 h2
    unfold bessk0 bessk1 bessi0 bessi1
    dsimp only
    rw [if_neg h6, if_neg h6, if_neg h7, if_neg h7, if_neg (not_lt.2 h0.le), abs_of_pos h0]
    have h8 : x * (exp x / √x * (exp (-x) / √x)) = 1 := by
      rw [div_mul_div_comm, ← exp_add, add_neg_cancel, exp_zero, mul_self_sqrt h0.le]
      field_simp
    push_cast at this
    convert this using 2
    · linear_combination (rev cI0' (3.75 / x) * rev cK1' (2 / x) + rev cI1' (3.75 / x) * rev cK0' (2 / x)) * h8

/-- `x` times the function of order 1, up to 2 -/
theorem small_k1 {x : ℝ} (h0 : 0 < x) (h2 : x ≤ 2) :
    x * bessk1 x = 4 * (x * x / 4) * log (x / 2) * rev (pdil (64 / 225) cI1) (x * x / 4) + rev cK1 (x * x / 4) := by
  rw [bessk1, if_pos h2, small_i1 h0 h2]
  field_simp

/-- Bounds of the factors beyond 2 -/
theorem large_k {x : ℝ} (h2 : 2 < x) : (0 ≤ rev cK0' (2 / x) ∧ rev cK0' (2 / x) ≤ 1.26) ∧ 0 ≤ rev cK1' (2 / x) ∧ rev cK1' (2 / x) ≤ 1.5 := by
  have h0 : (0 : ℝ) < x := by linarith
  have a : 0 ≤ 2 / x := by positivity
  have b : 2 / x ≤ 1 := by rw [div_le_one h0]; exact h2.le
  have c1 := pcheck_sound (n := 8) (p := cK0') (by norm_num) (by decide +kernel) a b
  have c2 := pcheck_sound (n := 8) (p := padd [1.26] (pscale (-1) cK0')) (by norm_num) (by decide +kernel) a b
  have c3 := pcheck_sound (n := 8) (p := cK1') (by norm_num) (by decide +kernel) a b
  have c4 := pcheck_sound (n := 8) (p := padd [1.5] (pscale (-1) cK1')) (by norm_num) (by decide +kernel) a b
  rw [rev_add, rev_scale, rev_cons, rev_nil] at c2 c4
  norm_num at c2 c4
  exact ⟨⟨c1, by norm_num; linarith⟩, c3, by norm_num; linarith⟩

theorem exp_facts {x : ℝ} (h2 : 2 < x) : 0 < √x ∧ √x ≤ x ∧ x * exp (-x) ≤ 0.368 ∧ x ^ 2 * exp (-x) ≤ 0.542 := by
  have h0 : (0 : ℝ) < x := by linarith
  have e1 : exp (-1) ≤ 0.3679 := by
    have := Real.exp_neg_one_lt_d9
    norm_num at this ⊢
    linarith
  have p1 : 0 < exp (-1) := exp_pos _
  refine ⟨sqrt_pos.2 h0, ?_, ?_, ?_⟩
  · rw [sqrt_le_left h0.le]; nlinarith
  · have h := add_one_le_exp (x - 1)
    have : exp (x - 1) * exp (-x) = exp (-1) := by rw [← exp_add]; congr 1; ring
    have hp := exp_pos (-x)
    have : x * exp (-x) ≤ exp (-1) := by rw [← this]; gcongr; linarith
    norm_num at e1 ⊢
    linarith
  · have h := add_one_le_exp (x / 2 - 1)
    have hx : x / 2 ≤ exp (x / 2 - 1) := by linarith
    have h3 : (x / 2) ^ 2 * exp (-x) ≤ exp (x / 2 - 1) ^ 2 * exp (-x) := by gcongr
    have : exp (x / 2 - 1) ^ 2 * exp (-x) = exp (-1) ^ 2 := by
      rw [pow_two, pow_two, ← exp_add, ← exp_add, ← exp_add]; congr 1; ring
    rw [this] at h3
    have h4 : exp (-1) ^ 2 ≤ 0.3679 ^ 2 := by gcongr
    norm_num at h4 ⊢
    nlinarith

/-- The factor of the correlation of order 1 -/
theorem whittle_unit {x : ℝ} (h0 : 0 < x) : 0 ≤ x * bessk1 x ∧ x * bessk1 x ≤ 1 := by
  rcases le_or_gt x 2 with h2 | h2
  · obtain ⟨-, -, h3, h4⟩ := arg_small h0 h2
    have hR := pcheck_sound (n := 1) (p := pdil (64 / 225) cI1) (by norm_num) (by decide +kernel) h3.le h4
    rw [small_k1 h0 h2]
    set w := x * x / 4 with hw
    set R := rev (pdil (64 / 225) cI1) w with hRd
    constructor
    · have hu0 : 0 < x / 2 := by positivity
      have hu1 : x / 2 ≤ 1 := by linarith
      have hl : 1 - (x / 2)⁻¹ ≤ log (x / 2) := one_sub_inv_le_log_of_pos hu0
      have hc := pcheck_sound (n := 16) (p := padd (psq cK1) (pscale 4 (pmul [0, -1, 1] (psq (pdil (64 / 225) cI1))))) (by norm_num) (by decide +kernel) hu0.le hu1
      rw [rev_add, rev_scale, rev_mul, rev_sq, rev_sq, rev_cons, rev_cons, rev_cons, rev_nil, show x / 2 * (x / 2) = w by rw [hw]; ring, ← hRd] at hc
      push_cast at hc
      have h5 : 4 * w * (1 - (x / 2)⁻¹) = 4 * (x / 2 * (-1 + x / 2)) := by rw [hw]; field_simp; ring
      have h6 : 4 * w * (1 - (x / 2)⁻¹) * R ≤ 4 * w * log (x / 2) * R := by gcongr
      rw [h5] at h6
      nlinarith
    · have hl : log (x / 2) ≤ (w - 1) / 2 := by
        have : log w ≤ w - 1 := log_le_sub_one_of_pos h3
        have h7 : log w = 2 * log (x / 2) := by
          rw [show w = (x / 2) ^ 2 by rw [hw]; ring, log_pow]; push_cast; ring
        linarith
      have hc := pcheck_sound (n := 16) (p := pscale (-1) (padd cK1.tail (pscale 2 (pmul [-1, 1] (pdil (64 / 225) cI1))))) (by norm_num) (by decide +kernel) h3.le h4
      rw [rev_scale, rev_add, rev_scale, rev_mul, rev_cons, rev_cons, rev_nil, ← hRd] at hc
      have h8 : rev cK1 w = 1 + w * rev cK1.tail w := by
        conv_lhs => rw [show cK1 = 1 :: cK1.tail from rfl, rev_cons]
        push_cast; ring
      rw [h8]
      push_cast at hc
      have h9 : 4 * w * log (x / 2) * R ≤ 4 * w * ((w - 1) / 2) * R := by gcongr
      nlinarith [mul_nonneg h3.le hc]
  · obtain ⟨h3, h4, h5, -⟩ := exp_facts h2
    obtain ⟨-, h6, h7⟩ := large_k h2
    have he : x * bessk1 x = √x * exp (-x) * rev cK1' (2 / x) := by
      rw [bessk1, if_neg (not_le.2 h2)]
      have : x = √x * √x := (mul_self_sqrt h0.le).symm
      field_simp
      rw [sq_sqrt h0.le]
    have hp := exp_pos (-x)
    rw [he]
    refine ⟨by positivity, ?_⟩
    have : √x * exp (-x) ≤ 0.368 := le_trans (by gcongr) h5
    calc √x * exp (-x) * rev cK1' (2 / x) ≤ 0.368 * 1.5 := by gcongr
      _ ≤ 1 := by norm_num

/-- **C129**: the correlation of Whittle with these functions is between 0 and 1 at every distance and for every range. -/
theorem C129_whittle {h r : ℝ} (h0 : 0 ≤ h) (hr : 0 < r) : 0 ≤ whittle bessk1 h r ∧ whittle bessk1 h r ≤ 1 := by
  unfold whittle
  by_cases h1 : h = 0
  · rw [if_pos h1]; norm_num
  by_cases h2 : h > 600 * r
  · rw [if_neg h1, if_pos h2]; norm_num
  rw [if_neg h1, if_neg h2]
  exact whittle_unit (div_pos (lt_of_le_of_ne h0 (Ne.symm h1)) hr)

/-- The factor of the correlation of order 2 -/
theorem matern_unit {x : ℝ} (h0 : 0 < x) : 0 ≤ x ^ 2 / 2 * bessk0 x + x * bessk1 x ∧ x ^ 2 / 2 * bessk0 x + x * bessk1 x ≤ 1 := by
  rcases le_or_gt x 2 with h2 | h2
  · obtain ⟨-, -, h3, h4⟩ := arg_small h0 h2
    rw [small_k1 h0 h2, bessk0, if_pos h2, small_i0 h0 h2]
    set w := x * x / 4 with hw
    have hD : rev (pdil (64 / 225) cI0) w - 2 * rev (pdil (64 / 225) cI1) w = w * rev (padd (pdil (64 / 225) cI0) (pscale (-2) (pdil (64 / 225) cI1))).tail w := by
      have h8 : rev (padd (pdil (64 / 225) cI0) (pscale (-2) (pdil (64 / 225) cI1))) w = rev (pdil (64 / 225) cI0) w - 2 * rev (pdil (64 / 225) cI1) w := by
        rw [rev_add, rev_scale]; push_cast; ring
      rw [← h8]
      conv_lhs => rw [show padd (pdil (64 / 225) cI0) (pscale (-2) (pdil (64 / 225) cI1)) = 0 :: (padd (pdil (64 / 225) cI0) (pscale (-2) (pdil (64 / 225) cI1))).tail by decide +kernel, rev_cons]
      push_cast; ring
    set D := rev (padd (pdil (64 / 225) cI0) (pscale (-2) (pdil (64 / 225) cI1))).tail w with hDd
    have hD0 : 0 ≤ D := pcheck_sound (n := 1) (by norm_num) (by decide +kernel) h3.le h4
    have hlw : log w = 2 * log (x / 2) := by
      rw [show w = (x / 2) ^ 2 by rw [hw]; ring, log_pow]; push_cast; ring
    have hl0 : log w ≤ 0 := log_nonpos h3.le h4
    have hl1 : 1 - w⁻¹ ≤ log w := one_sub_inv_le_log_of_pos h3
    have hv : x ^ 2 / 2 * (-log (x / 2) * rev (pdil (64 / 225) cI0) w + rev cK0 w) + (4 * w * log (x / 2) * rev (pdil (64 / 225) cI1) w + rev cK1 w)
        = -(w * log w) * (w * D) + 2 * w * rev cK0 w + rev cK1 w := by
      rw [← hD, hlw, show x ^ 2 / 2 = 2 * w by rw [hw]; ring]; ring
    rw [hv]
    have hwl : -(w * log w) ≤ 1 - w := by
      have : w * (1 - w⁻¹) ≤ w * log w := by gcongr
      rw [mul_sub, mul_inv_cancel₀ h3.ne'] at this
      linarith
    have hwl0 : 0 ≤ -(w * log w) := by nlinarith
    constructor
    · have hc := pcheck_sound (n := 16) (p := padd (pscale 2 (0 :: cK0)) cK1) (by norm_num) (by decide +kernel) h3.le h4
      rw [rev_add, rev_scale, rev_cons] at hc
      push_cast at hc
      nlinarith [mul_nonneg hwl0 (mul_nonneg h3.le hD0)]
    · have hc := pcheck_sound (n := 16) (p := pscale (-1) (padd (padd (pmul [1, -1] (padd (pdil (64 / 225) cI0) (pscale (-2) (pdil (64 / 225) cI1))).tail) (pscale 2 cK0)) cK1.tail))
        (by norm_num) (by decide +kernel) h3.le h4
      rw [rev_scale, rev_add, rev_add, rev_mul, rev_scale, rev_cons, rev_cons, rev_nil, ← hDd] at hc
      have h8 : rev cK1 w = 1 + w * rev cK1.tail w := by
        conv_lhs => rw [show cK1 = 1 :: cK1.tail from rfl, rev_cons]
        push_cast; ring
      rw [h8]
      push_cast at hc
      have h9 : -(w * log w) * (w * D) ≤ (1 - w) * (w * D) := by gcongr
      nlinarith [mul_nonneg h3.le hc]
  · obtain ⟨h3, h4, h5, h6⟩ := exp_facts h2
    obtain ⟨⟨a1, a2⟩, b1, b2⟩ := large_k h2
    have hp := exp_pos (-x)
    have he : x ^ 2 / 2 * bessk0 x + x * bessk1 x = √x * exp (-x) * (x / 2 * rev cK0' (2 / x) + rev cK1' (2 / x)) := by
      rw [bessk0, bessk1, if_neg (not_le.2 h2), if_neg (not_le.2 h2)]
      have hq : x / √x = √x := div_sqrt
      linear_combination (x / 2 * exp (-x) * rev cK0' (2 / x) + exp (-x) * rev cK1' (2 / x)) * hq
    rw [he]
    refine ⟨by positivity, ?_⟩
    calc √x * exp (-x) * (x / 2 * rev cK0' (2 / x) + rev cK1' (2 / x)) ≤ x * exp (-x) * (x / 2 * 1.26 + 1.5) := by gcongr
      _ = 0.63 * (x ^ 2 * exp (-x)) + 1.5 * (x * exp (-x)) := by ring
      _ ≤ 0.63 * 0.542 + 1.5 * 0.368 := by gcongr
      _ ≤ 1 := by norm_num

/-- **C129**: the correlation of Matérn of order 2 with these functions is between 0 and 1 at every distance and for every range. -/
theorem C129_matern {h r : ℝ} (h0 : 0 ≤ h) (hr : 0 < r) : 0 ≤ matern bessk0 bessk1 2 h r ∧ matern bessk0 bessk1 2 h r ≤ 1 := by
  unfold matern
  by_cases h1 : h = 0
  · rw [if_pos h1]; norm_num
  by_cases h2 : h > 600 * r
  · rw [if_neg h1, if_pos h2]; norm_num
  rw [if_neg h1, if_neg h2]
  have hx : 0 < h / r := div_pos (lt_of_le_of_ne h0 (Ne.symm h1)) hr
  have := matern_unit hx
  set x := h / r
  have hk : bessk bessk0 bessk1 ((2 : ℕ) : ℤ) x = bessk0 x + 2 * bessk1 x / x := by
    simp [bessk, besskLoop, OP.Lin.loop, OP.Lin.loopFrom]
  have h5 : (2 : ℝ) ^ (1 - ((2 : ℕ) : ℝ)) / gamma 2 * x ^ ((2 : ℕ) : ℝ) * bessk bessk0 bessk1 ((2 : ℕ) : ℤ) x = x ^ 2 / 2 * bessk0 x + x * bessk1 x := by
    rw [hk, C112_gamma, rpow_natCast]
    rw [show (1 - ((2 : ℕ) : ℝ)) = -1 by norm_num, rpow_neg_one]
    field_simp
    norm_num
  dsimp only
  rw [h5]
  exact this

example : |bessi0 (-3) - seriesI0 (-3)| ≤ 2e-7 ∧ |bessi1 3 - seriesI1 3| ≤ 2e-8 * |3| :=
  ⟨C129_i0 (by rw [abs_neg, abs_of_pos (by norm_num)]; norm_num), C129_i1 (by rw [abs_of_pos (by norm_num)]; norm_num)⟩

example : |(2 : ℝ) * (bessi0 2 * bessk1 2 + bessi1 2 * bessk0 2) - 1| ≤ 5e-8 := C129_wronskian (by norm_num) (.inl le_rfl)

end OP.Fem.Field
