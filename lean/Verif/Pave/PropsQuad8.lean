import Verif.Pave.Quad8
import Verif.Pave.PropsBouss
import Mathlib.Analysis.SpecialFunctions.Log.Deriv
import Mathlib.Analysis.SpecialFunctions.Integrals.Basic
import Mathlib.Algebra.Polynomial.Eval.Degree
import Mathlib.Topology.Algebra.Polynomial
import Mathlib.Tactic.IntervalCases
/-!
# C99: the adaptive integration of circular loads
-/
namespace OP.Pave.Bouss

open OP.Lin Real

/-! ## Specification -/

/-- The rule with nine points on an interval. -/
noncomputable def nine (g : ℝ → ℝ) (A B : ℝ) : ℝ := ∑ i ∈ Finset.range 9, (B - A) / 8 * wNc.getD i 0 / 14175 * g (A + i * ((B - A) / 8))

/-- A sum of such rules over the parts of an interval that was halved, and its parts again, up to `d` times. -/
inductive Halved (g : ℝ → ℝ) : Nat → ℝ → ℝ → ℝ → Prop
  | one (d : Nat) (A B : ℝ) : Halved g d A B (nine g A B)
  | two (d : Nat) (A B x y : ℝ) : Halved g d A ((A + B) / 2) x → Halved g d ((A + B) / 2) B y → Halved g (d + 1) A B (x + y)

/-! ## The rule -/

theorem nine_add (f g : ℝ → ℝ) (A B : ℝ) : nine (fun x => f x + g x) A B = nine f A B + nine g A B := by
  simp only [nine, mul_add, Finset.sum_add_distrib]

theorem nine_mul (c : ℝ) (g : ℝ → ℝ) (A B : ℝ) : nine (fun x => c * g x) A B = c * nine g A B := by
  rw [nine, nine, Finset.mul_sum]
  exact Finset.sum_congr rfl fun i _ => by ring

theorem nine_pow (n : Nat) (hn : n < 10) (A B : ℝ) : nine (fun x => x ^ n) A B = (B ^ (n + 1) - A ^ (n + 1)) / (n + 1) := by
  simp only [nine, Finset.sum_range_succ, Finset.sum_range_zero, wNc, List.getD_cons_succ, List.getD_cons_zero]
  interval_cases n <;> push_cast <;> ring

theorem nine_sum (s : Finset Nat) (g : Nat → ℝ → ℝ) (A B : ℝ) : nine (fun x => ∑ i ∈ s, g i x) A B = ∑ i ∈ s, nine (g i) A B := by
  simp only [nine, Finset.mul_sum]
  rw [Finset.sum_comm]

/-- The rule is exact for polynomials of degree up to nine. -/
theorem nine_poly (p : Polynomial ℝ) (hp : p.natDegree < 10) (A B : ℝ) : nine (fun x => p.eval x) A B = ∫ x in A..B, p.eval x := by
  have e : (fun x => p.eval x) = fun x => ∑ i ∈ Finset.range 10, p.coeff i * x ^ i := by
    funext x; exact Polynomial.eval_eq_sum_range' hp x
  rw [e, nine_sum, intervalIntegral.integral_finset_sum]
  · refine Finset.sum_congr rfl fun i hi => ?_
    rw [nine_mul, nine_pow i (Finset.mem_range.1 hi), intervalIntegral.integral_const_mul, integral_pow]
  · intro i _
    exact (continuous_const.mul (continuous_pow i)).intervalIntegrable _ _

theorem halved_poly {g : ℝ → ℝ} {p : Polynomial ℝ} (hp : p.natDegree < 10) (hg : ∀ x, g x = p.eval x) {d : Nat} {A B x : ℝ}
    (h : Halved g d A B x) : x = ∫ t in A..B, g t := by
  have e : g = fun x => p.eval x := funext hg
  induction h with
  | one d A B => rw [e]; exact nine_poly p hp A B
  | two d A B x y _ _ h1 h2 =>
    rw [h1, h2, intervalIntegral.integral_add_adjacent_intervals] <;>
    · rw [e]; exact p.continuous.intervalIntegrable _ _

/-- The nine weights are not all positive, but they add up to less than three halves of the length. -/
theorem nine_near {f g : ℝ → ℝ} {A B e : ℝ} (hAB : A ≤ B) (h : ∀ x, A ≤ x → x ≤ B → |f x - g x| ≤ e) :
    |nine f A B - nine g A B| ≤ 3 / 2 * (B - A) * e := by
  have he : 0 ≤ e := (abs_nonneg _).trans (h A le_rfl hAB)
  rw [nine, nine, ← Finset.sum_sub_distrib]
  have h1 : ∀ i ∈ Finset.range 9, |(B - A) / 8 * wNc.getD i 0 / 14175 * f (A + i * ((B - A) / 8)) -
      (B - A) / 8 * wNc.getD i 0 / 14175 * g (A + i * ((B - A) / 8))| ≤ (B - A) / 8 * |wNc.getD i 0| / 14175 * e := by
    intro i hi
    have hi8 : (i : ℝ) ≤ 8 := by
      have : i ≤ 8 := by have := Finset.mem_range.1 hi; omega
      exact_mod_cast this
    have hi0 : (0 : ℝ) ≤ i := Nat.cast_nonneg i
    have hx := h (A + i * ((B - A) / 8)) (by nlinarith) (by nlinarith)
    rw [← mul_sub, abs_mul, abs_div, abs_mul, abs_of_nonneg (show 0 ≤ (B - A) / 8 by linarith), abs_of_pos (show (0 : ℝ) < 14175 by norm_num)]
    exact mul_le_mul_of_nonneg_left hx (by have : 0 ≤ (B - A) / 8 := by linarith
                                           positivity)
  refine (Finset.abs_sum_le_sum_abs _ _).trans ((Finset.sum_le_sum h1).trans ?_)
  simp only [Finset.sum_range_succ, Finset.sum_range_zero, wNc, List.getD_cons_succ, List.getD_cons_zero]
  norm_num [abs_of_pos, abs_of_neg]
  have := mul_nonneg (sub_nonneg.2 hAB) he
  nlinarith

theorem halved_near {f g : ℝ → ℝ} {e : ℝ} {d : Nat} {A B x : ℝ} (hf : Halved f d A B x) : A ≤ B → (∀ x, A ≤ x → x ≤ B → |f x - g x| ≤ e) →
    ∃ y, Halved g d A B y ∧ |x - y| ≤ 3 / 2 * (B - A) * e := by
  induction hf with
  | one d A B => exact fun hAB h => ⟨_, .one d A B, nine_near hAB h⟩
  | two d A B x y _ _ h1 h2 =>
    intro hAB h
    obtain ⟨x', a1, a2⟩ := h1 (by linarith) fun x u w => h x u (by linarith)
    obtain ⟨y', b1, b2⟩ := h2 (by linarith) fun x u w => h x (by linarith) w
    refine ⟨x' + y', .two d A B x' y' a1 b1, ?_⟩
    have := abs_add_le (x - x') (y - y')
    rw [show x + y - (x' + y') = x - x' + (y - y') by ring]
    refine this.trans ((add_le_add a2 b2).trans ?_)
    linarith

theorem rule8_nine (g : ℝ → ℝ) (A B : ℝ) : rule8 g A ((B - A) / 16) 0 = nine g A ((A + B) / 2) ∧
    rule8 g A ((B - A) / 16) 8 = nine g ((A + B) / 2) B := by
  constructor <;>
  · rw [rule8, loop_add _ _ (Nat.zero_le _), zero_add, ← Finset.range_eq_Ico, nine]
    refine Finset.sum_congr rfl fun i _ => ?_
    congr 1
    · ring
    · congr 1; push_cast; ring

/-! ## The recursion -/

theorem quad8_spec (g : ℝ → ℝ) : ∀ (m : Nat) (A B Q : ℝ) (t : QSt), 13 ≤ m + t.level → t.level ≤ 12 →
    ∃ y, quad8 g m A B Q t = some (if t.level = 0 then y / π else y, t) ∧ Halved g (13 - t.level) A B y
  | 0, _, _, _, _, h1, h2 => absurd h1 (by omega)
  | m + 1, A, B, Q, t, hm, hl => by
    obtain ⟨e1, e2⟩ := rule8_nine g A B
    rw [quad8]
    dsimp only
    have e3 : t.level + 1 - 1 = t.level := by omega
    have e4 : 13 - t.level = (13 - (t.level + 1)) + 1 := by omega
    by_cases h : t.tol * |rule8 g A ((B - A) / 16) 0 + rule8 g A ((B - A) / 16) 8| <
        |rule8 g A ((B - A) / 16) 0 + rule8 g A ((B - A) / 16) 8 - Q| ∧ t.level + 1 ≤ 12
    · rw [if_pos h]
      obtain ⟨x, hx, hx2⟩ := quad8_spec g m A ((A + B) / 2) (rule8 g A ((B - A) / 16) 0) ⟨t.level + 1, t.tol / 2⟩ (by dsimp only; omega) h.2
      obtain ⟨y, hy, hy2⟩ := quad8_spec g m ((A + B) / 2) B (rule8 g A ((B - A) / 16) 8) ⟨t.level + 1, t.tol / 2⟩ (by dsimp only; omega) h.2
      dsimp only at hx2 hy2
      rw [hx, Option.bind_some, hy, Option.bind_some]
      dsimp only
      rw [if_neg (Nat.succ_ne_zero _), if_neg (Nat.succ_ne_zero _), e3, e4, show t.tol / 2 * 2 = t.tol by ring]
      exact ⟨x + y, rfl, .two _ A B x y hx2 hy2⟩
    · rw [if_neg h, e1, e2, e3, e4]
      exact ⟨_, rfl, .two _ A B _ _ (.one _ A _) (.one _ _ B)⟩

/-! ## The integrands -/

/-- The distance from the point, `D` off the line. -/
noncomputable def away (t D x : ℝ) : ℝ := √((x - t) ^ 2 + D)

theorem away_sq (t : ℝ) {D : ℝ} (hD : 0 < D) (x : ℝ) : away t D x ^ 2 = (x - t) ^ 2 + D := sq_sqrt (by positivity)

theorem away_pos (t : ℝ) {D : ℝ} (hD : 0 < D) (x : ℝ) : 0 < away t D x := sqrt_pos.2 (by positivity)

theorem away_gt (t : ℝ) {D : ℝ} (hD : 0 < D) (x : ℝ) : 0 < x - t + away t D x := by
  have : |x - t| < away t D x := by
    rw [← sqrt_sq_eq_abs]
    exact sqrt_lt_sqrt (sq_nonneg _) (by linarith)
  have := neg_abs_le (x - t)
  linarith

theorem away_deriv (t : ℝ) {D : ℝ} (hD : 0 < D) (x : ℝ) : HasDerivAt (away t D) ((x - t) / away t D x) x := by
  have h1 : HasDerivAt (fun y : ℝ => (y - t) ^ 2 + D) (2 * (x - t)) x := by
    simpa using (((hasDerivAt_id' x).sub_const t).fun_pow 2).add_const D
  refine (h1.sqrt (by positivity)).congr_deriv ?_
  have := (away_pos t hD x).ne'
  rw [show √((x - t) ^ 2 + D) = away t D x from rfl]
  field_simp

theorem away_cont (t D : ℝ) : Continuous (away t D) := by
  unfold away
  fun_prop

/-- The distance from the point at distance `r` of the centre to a part of the load at distance `ρ` of the centre, at an angle `θ`. -/
noncomputable def apart (r θ ρ : ℝ) : ℝ := hypot (ρ - r * cos θ) (r * sin θ)

theorem apart_pos {r θ : ℝ} (hr : 0 < r) (hθ : sin θ ≠ 0) (ρ : ℝ) : 0 < apart r θ ρ :=
  sqrt_pos.2 (by have : 0 < (r * sin θ) ^ 2 := by positivity
                 positivity)

theorem apart_away {r θ : ℝ} (z ρ : ℝ) : hypot (apart r θ ρ) z = away (cos θ * r) (z * z + r * r - (cos θ * r) * (cos θ * r)) ρ := by
  rw [hypot, away, apart, hypot_sq]
  congr 1
  have := sin_sq_add_cos_sq θ
  linear_combination r ^ 2 * this

theorem gap_pos {r θ : ℝ} (hr : 0 < r) (hθ : sin θ ≠ 0) (z : ℝ) : 0 < z * z + r * r - (cos θ * r) * (cos θ * r) := by
  have h1 := sin_sq_add_cos_sq θ
  have h2 : 0 < (r * sin θ) ^ 2 := by positivity
  nlinarith [mul_self_nonneg z]

/-- **C99**, deflection: at each angle, the integrand is the deflection caused by point loads along a ray of the circle. -/
theorem C99_ray_vdp (r z a v θ : ℝ) (hr : 0 < r) (hz : 0 ≤ z) (hθ : sin θ ≠ 0) :
    angVdp r z a v θ = ∫ ρ in (0 : ℝ)..a, 2 * ρ * vdp z (apart r θ ρ) 1 v 1 (hypot (apart r θ ρ) z) 0 := by
  have hD := gap_pos hr hθ z
  set t := cos θ * r with ht
  set D := z * z + r * r - t * t with hDd
  have e1 : ∀ ρ, 2 * ρ * vdp z (apart r θ ρ) 1 v 1 (hypot (apart r θ ρ) z) 0 =
      (1 + v) * (2 * (1 - v) * ρ / away t D ρ + z ^ 2 * ρ / away t D ρ ^ 3) := by
    intro ρ
    rw [vdp, if_pos (apart_pos hr hθ ρ), apart_away]
    have := (away_pos t hD ρ).ne'
    rw [← ht, ← hDd]
    field_simp
  simp only [e1]
  rw [intervalIntegral.integral_eq_sub_of_hasDerivAt (f := fun x => (1 + v) * (2 * (1 - v) * (away t D x + t * log (x - t + away t D x)) +
    z ^ 2 * (t * x - (t ^ 2 + D)) / (D * away t D x)))]
  · have ha : away t D a = √(z * z - 2 * a * t + a * a + r * r) := by
      rw [away]; congr 1; rw [hDd]; ring
    have h0 : away t D 0 = hypot z r := by
      rw [away, hypot]; congr 1; rw [hDd]; ring
    have hS := (away_pos t hD a).ne'
    have hc := (away_pos t hD 0).ne'
    have hcq := away_sq t hD 0
    have hlt : t < r := by
      rw [ht]
      have : cos θ < 1 := by
        refine lt_of_le_of_ne (cos_le_one θ) fun h => hθ ?_
        have := sin_sq_add_cos_sq θ
        rw [h] at this
        have : sin θ ^ 2 = 0 := by linarith
        exact pow_eq_zero_iff (two_ne_zero) |>.1 this
      nlinarith
    unfold angVdp
    rw [← ht]
    dsimp only
    by_cases q : z = 0
    · have h0' : away t D 0 = r := by rw [h0, q, hypot_zero hr.le]
      have ha' : √(a * a - 2 * a * t + r * r) = away t D a := by rw [ha, q]; congr 1; ring
      rw [if_pos q, if_neg hlt.ne, ha', h0', q]
      rw [show 0 - t + r = r - t by ring]
      ring
    · rw [if_neg q, if_neg (fun h => hD.ne' (by rw [hDd]; linarith)), ← ha, ← h0, show (0 : ℝ) - t + away t D 0 = away t D 0 - t by ring]
      have e5 : t * t - z * z - r * r = -D := by rw [hDd]; ring
      have e6 : z * z + r * r - t * a = t ^ 2 + D - t * a := by rw [hDd]; ring
      rw [e5, e6]
      have hD0 := hD.ne'
      clear_value D t
      generalize log (away t D 0 - t) = l0
      generalize log (a - t + away t D a) = l1
      generalize away t D a = S at *
      generalize away t D 0 = c at *
      field_simp
      grind
  · intro x _
    have hS := (away_pos t hD x).ne'
    have hq := away_sq t hD x
    have hg := (away_gt t hD x).ne'
    have dS := away_deriv t hD x
    have ix := hasDerivAt_id' x
    have hD0 := hD.ne'
    refine (((dS.fun_add ((((ix.sub_const t).fun_add dS).log hg).const_mul t)).const_mul (2 * (1 - v))).fun_add
      ((((ix.const_mul t).sub_const (t ^ 2 + D)).const_mul (z ^ 2)).fun_div (dS.const_mul D) (mul_ne_zero hD0 hS)) |>.const_mul (1 + v)).congr_deriv ?_
    clear dS
    clear_value D t
    generalize away t D x = S at *
    field_simp
    grind
  · refine Continuous.intervalIntegrable ?_ _ _
    have hc := away_cont t D
    have hn : ∀ x, away t D x ≠ 0 := fun x => (away_pos t hD x).ne'
    exact continuous_const.mul (((continuous_const.mul continuous_id).div hc hn).add
      ((continuous_const.mul continuous_id).div (hc.pow 3) fun x => pow_ne_zero _ (hn x)))

/-- **C99**, stress: at each angle, the integrand is the vertical stress caused by point loads along a ray of the circle. -/
theorem C99_ray_vse (r z a θ : ℝ) (hr : 0 < r) (hθ : sin θ ≠ 0) :
    angVse r z a θ = ∫ ρ in (0 : ℝ)..a, 2 * ρ * vse z (apart r θ ρ) 1 (hypot (apart r θ ρ) z) 0 := by
  have hD := gap_pos hr hθ z
  set t := cos θ * r with ht
  set D := z * z + r * r - t * t with hDd
  have e1 : ∀ ρ, 2 * ρ * vse z (apart r θ ρ) 1 (hypot (apart r θ ρ) z) 0 = -3 * z ^ 3 * ρ / away t D ρ ^ 5 := by
    intro ρ
    rw [vse, if_pos (apart_pos hr hθ ρ), apart_away]
    have := (away_pos t hD ρ).ne'
    rw [← ht, ← hDd]
    field_simp
  simp only [e1]
  rw [intervalIntegral.integral_eq_sub_of_hasDerivAt (f := fun x => -z ^ 3 * (-1 / away t D x ^ 3 + t * (x - t) / (D * away t D x ^ 3) +
    2 * t * (x - t) / (D ^ 2 * away t D x)))]
  · have ha : √(a * a - 2 * r * a * cos θ + r * r + z * z) = away t D a := by
      rw [away]; congr 1; rw [hDd, ht]; ring
    have h0 : hypot r z = away t D 0 := by
      rw [away, hypot]; congr 1; rw [hDd]; ring
    have hS := (away_pos t hD a).ne'
    have hc := (away_pos t hD 0).ne'
    have hcq := away_sq t hD 0
    have hSq := away_sq t hD a
    unfold angVse
    dsimp only
    rw [ha, h0]
    have e5 : (1 - cos θ * cos θ) * r * r + z * z = D := by rw [hDd, ht]; ring
    have e6 : cos θ * cos θ * r * r + r * r + z * z = 2 * t ^ 2 + D := by rw [hDd, ht]; ring
    have e7 : r * r + z * z - 3 * r * a * cos θ = t ^ 2 + D - 3 * a * t := by rw [hDd, ht]; ring
    have e8 : 2 * cos θ * r * a * (a * a - 3 * a * cos θ * r) = 2 * t * a * (a * a - 3 * a * t) := by rw [ht]; ring
    rw [e5, e6, e7, e8]
    have hD0 := hD.ne'
    clear_value D t
    generalize away t D a = S at *
    generalize away t D 0 = c at *
    field_simp
    grind
  · intro x _
    have hS := (away_pos t hD x).ne'
    have hq := away_sq t hD x
    have dS := away_deriv t hD x
    have ix := (hasDerivAt_id' x).sub_const t
    have hD0 := hD.ne'
    refine (((((hasDerivAt_const x (-1 : ℝ)).fun_div (dS.fun_pow 3) (pow_ne_zero _ hS)).fun_add
      ((ix.const_mul t).fun_div ((dS.fun_pow 3).const_mul D) (mul_ne_zero hD0 (pow_ne_zero _ hS)))).fun_add
      ((ix.const_mul (2 * t)).fun_div (dS.const_mul (D ^ 2)) (mul_ne_zero (pow_ne_zero _ hD0) hS))).const_mul (-z ^ 3)).congr_deriv ?_
    clear dS ix
    clear_value D t
    generalize away t D x = S at *
    field_simp
    grind
  · refine Continuous.intervalIntegrable ?_ _ _
    have hc := away_cont t D
    have hn : ∀ x, away t D x ≠ 0 := fun x => (away_pos t hD x).ne'
    exact (continuous_const.mul continuous_id).div (hc.pow 5) fun x => pow_ne_zero _ (hn x)

/-! ## C99 -/

/-- **C99**, the recursion: a call ends, leaves the static variables as it found them, and returns the mean over half a turn of a
nine-point rule, with the parts of the half turn halved up to thirteen times. -/
theorem C99_runs (r z a v : ℝ) (ha : a ≠ 0) (hr : r ≠ 0) (t : QSt) (h0 : t.level = 0) :
    (∃ y, quadVdp 13 r z a v t = some (y / π, t) ∧ Halved (angVdp r z a v) 13 0 π y) ∧
    (z ≠ 0 → ∃ y, quadVse 13 r z a t = some (y / π, t) ∧ Halved (angVse r z a) 13 0 π y) := by
  constructor
  · obtain ⟨y, h1, h2⟩ := quad8_spec (angVdp r z a v) 13 0 π 10 t (by omega) (by omega)
    rw [h0] at h2
    rw [quadVdp, if_neg ha, if_neg hr, h1, if_pos h0]
    exact ⟨y, rfl, h2⟩
  · intro hz
    obtain ⟨y, h1, h2⟩ := quad8_spec (angVse r z a) 13 0 π 10 t (by omega) (by omega)
    rw [h0] at h2
    rw [quadVse, if_neg ha, if_neg hz, if_neg hr, h1, if_pos h0]
    exact ⟨y, rfl, h2⟩

/-- **C99**, accuracy: what such a rule returns for a function that lies within `e` of a polynomial of degree nine at most is within
`5 e / 2` of its mean; for such a polynomial, it is exact. -/
theorem C99_accuracy_partial (g : ℝ → ℝ) (hg : IntervalIntegrable g MeasureTheory.volume 0 π) (p : Polynomial ℝ) (hp : p.natDegree ≤ 9) (e : ℝ)
    (he : ∀ x, 0 ≤ x → x ≤ π → |g x - p.eval x| ≤ e) (y : ℝ) (hy : Halved g 13 0 π y) :
    |y / π - (∫ x in (0 : ℝ)..π, g x) / π| ≤ 5 / 2 * e := by
  obtain ⟨w, h1, h2⟩ := halved_near hy pi_pos.le he
  have h3 := halved_poly (show p.natDegree < 10 by omega) (fun x => rfl) h1
  have h4 : |∫ x in (0 : ℝ)..π, (p.eval x - g x)| ≤ e * |π - 0| := by
    rw [← norm_eq_abs]
    refine intervalIntegral.norm_integral_le_of_norm_le_const fun x hx => ?_
    rw [Set.uIoc_of_le pi_pos.le] at hx
    rw [norm_eq_abs, abs_sub_comm]
    exact he x hx.1.le hx.2
  rw [intervalIntegral.integral_sub (p.continuous.intervalIntegrable _ _) hg, ← h3, sub_zero, abs_of_pos pi_pos] at h4
  have h5 := abs_add_le (y - w) (w - ∫ x in (0 : ℝ)..π, g x)
  rw [sub_add_sub_cancel] at h5
  rw [← sub_div, abs_div, abs_of_pos pi_pos, div_le_iff₀ pi_pos]
  linarith

/-- **C99**, axis: under the centre of the load, the results are those of `boussinesq_vdp` and `boussinesq_vse`, for a modulus of one. -/
theorem C99_axis (z a v : ℝ) (ha : 0 < a) (t : QSt) :
    quadVdp 13 0 z a v t = some (vdp z 0 a v 1 (hypot 0 z) (hypot z a), t) ∧
    quadVse 13 0 z a t = some (vse z 0 a (hypot 0 z) (hypot z a), t) := by
  have hA := (hypot_pos' z ha).ne'
  have hq := hypot_sq z a
  constructor
  · rw [quadVdp, if_neg ha.ne', if_pos rfl, vdp, if_neg (lt_irrefl _)]
    generalize hypot z a = A at *
    congr 2
    field_simp
    grind
  · rw [quadVse, if_neg ha.ne', vse, if_neg (lt_irrefl _)]
    by_cases q : z = 0
    · rw [if_pos q, if_neg ha.ne, if_pos ha, q]; simp
    · rw [if_neg q, if_pos rfl, div_pow]

/-- **C99**, directly: a load of no radius does nothing, and on the surface the vertical stress is minus the pressure inside the load, half of
it under the edge and none outside, whatever the tables say. -/
theorem C99_direct (r z a v : ℝ) (t : QSt) :
    quadVdp 13 r z 0 v t = some (0, t) ∧ quadVse 13 r z 0 t = some (0, t) ∧
    (a ≠ 0 → (r < a → quadVse 13 r 0 a t = some (-1, t)) ∧ (a < r → quadVse 13 r 0 a t = some (0, t)) ∧ quadVse 13 a 0 a t = some (-1 / 2, t)) := by
  refine ⟨by rw [quadVdp, if_pos rfl], by rw [quadVse, if_pos rfl], fun ha => ⟨fun h => ?_, fun h => ?_, ?_⟩⟩
  · rw [quadVse, if_neg ha, if_pos rfl, if_neg h.ne, if_pos h]
  · rw [quadVse, if_neg ha, if_pos rfl, if_neg h.ne', if_neg h.not_gt]
  · rw [quadVse, if_neg ha, if_pos rfl, if_pos rfl]; norm_num

/-- **C99**, the first estimate is not always checked: each estimate is compared with that of the level above, and the first one with the
number ten.  If it happens to be ten, it is returned as it is, however wrong. -/
theorem C99_unchecked (g : ℝ → ℝ) (h : nine g 0 (π / 2) + nine g (π / 2) π = 10) :
    quad8 g 13 0 π 10 QSt.init = some (10 / π, QSt.init) := by
  obtain ⟨e1, e2⟩ := rule8_nine g 0 π
  rw [zero_add] at e1 e2
  rw [quad8]
  dsimp only
  have q : ¬(QSt.init.tol * |(10 : ℝ)| < |(10 : ℝ) - 10| ∧ QSt.init.level + 1 ≤ 12) := by
    rintro ⟨q, -⟩
    norm_num [QSt.init] at q
  rw [e1, e2, h, if_neg q, if_pos (show QSt.init.level + 1 - 1 = 0 from rfl)]
  rfl

/-- Such functions exist, with integrals as large as one likes. -/
example (M : ℝ) : ∃ g : ℝ → ℝ, Continuous g ∧ nine g 0 (π / 2) + nine g (π / 2) π = 10 ∧ M < ∫ x in (0 : ℝ)..π, g x := by
  let s : ℝ → ℝ := fun x => (sin (16 * x)) ^ 2
  have hs : ∀ A : ℝ, ∀ i : Nat, (A = 0 ∨ A = π / 2) → s (A + i * (π / 2 / 8)) = 0 := by
    intro A i hA
    have : ∃ n : ℤ, 16 * (A + i * (π / 2 / 8)) = n * π := by
      rcases hA with rfl | rfl
      · exact ⟨i, by push_cast; ring⟩
      · exact ⟨8 + i, by push_cast; ring⟩
    obtain ⟨n, hn⟩ := this
    simp only [s]
    rw [hn, sin_int_mul_pi]; ring
  have hsc : Continuous s := by simp only [s]; fun_prop
  have hI : ∫ x in (0 : ℝ)..π, s x = π / 2 := by
    have h1 := intervalIntegral.integral_comp_mul_left (a := 0) (b := π) (fun x => sin x ^ 2) (show (16 : ℝ) ≠ 0 by norm_num)
    simp only [s]
    rw [h1, integral_sin_sq]
    have : sin (16 * π) = 0 := by exact_mod_cast sin_int_mul_pi 16
    rw [this, mul_zero, sin_zero, smul_eq_mul]
    ring
  have hn : ∀ A B : ℝ, B - A = π / 2 → (A = 0 ∨ A = π / 2) → ∀ c : ℝ, nine (fun x => 10 / π + c * s x) A B = 10 / π * (π / 2) := by
    intro A B hAB hA c
    rw [nine_add, nine_mul]
    have z1 : nine s A B = 0 := by
      rw [nine]
      refine Finset.sum_eq_zero fun i _ => ?_
      rw [hAB, hs A i hA, mul_zero]
    have z2 : nine (fun _ => 10 / π) A B = 10 / π * (B - A) := by
      have := nine_mul (10 / π) (fun x => x ^ 0) A B
      simp only [pow_zero, mul_one] at this
      rw [this, show (fun _ : ℝ => (1 : ℝ)) = fun x => x ^ 0 by funext x; rw [pow_zero], nine_pow 0 (by norm_num)]
      push_cast; ring
    rw [z1, z2, hAB]; ring
  refine ⟨fun x => 10 / π + 2 * (|M| + 1) / π * s x, continuous_const.add (continuous_const.mul hsc), ?_, ?_⟩
  · rw [hn 0 (π / 2) (by ring) (Or.inl rfl), hn (π / 2) π (by ring) (Or.inr rfl)]
    have := pi_pos.ne'
    field_simp
    norm_num
  · dsimp only
    have hi : IntervalIntegrable (fun x => 2 * (|M| + 1) / π * s x) MeasureTheory.volume 0 π := (continuous_const.mul hsc).intervalIntegrable _ _
    rw [intervalIntegral.integral_add (continuous_const.intervalIntegrable _ _) hi, intervalIntegral.integral_const_mul, hI]
    have := pi_pos.ne'
    have e : 2 * (|M| + 1) / π * (π / 2) = |M| + 1 := by field_simp
    rw [e, intervalIntegral.integral_const, smul_eq_mul, sub_zero]
    have e2 : π * (10 / π) = 10 := by field_simp
    rw [e2]
    have := le_abs_self M
    linarith

/-- The hypotheses of `C99_ray_vdp`: a point at a depth of one and a distance of two, at right angles. -/
example : (0 : ℝ) < 2 ∧ (0 : ℝ) ≤ 1 ∧ sin (π / 2) ≠ 0 := ⟨by norm_num, by norm_num, by rw [sin_pi_div_two]; norm_num⟩

end OP.Pave.Bouss
