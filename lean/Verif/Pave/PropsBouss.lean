import Verif.Pave.Bouss
import Mathlib.Analysis.Calculus.Deriv.Inv
import Mathlib.Analysis.Calculus.Deriv.Pow
import Mathlib.MeasureTheory.Integral.IntegralEqImproper
import Mathlib.MeasureTheory.Integral.IntervalIntegral.FundThmCalculus
import Mathlib.Tactic.FieldSimp
import Mathlib.Tactic.Positivity
import Mathlib.Tactic.Linarith
import Mathlib.Tactic.LinearCombination
import Mathlib.Tactic.NormNum
/-!
# C97: Boussinesq's equations
-/
namespace OP.Pave.Bouss

open Real Set Filter Topology

/-! ## Lengths -/

theorem hypot_sq (x y : ℝ) : hypot x y ^ 2 = x ^ 2 + y ^ 2 := Real.sq_sqrt (by positivity)

theorem hypot_pos {x : ℝ} (h : 0 < x) (y : ℝ) : 0 < hypot x y := Real.sqrt_pos.2 (by positivity)

theorem hypot_gt {x : ℝ} (h : 0 < x) (y : ℝ) : 0 < hypot x y + y := by
  have : |y| < hypot x y := by
    rw [← Real.sqrt_sq_eq_abs]
    exact Real.sqrt_lt_sqrt (sq_nonneg _) (by nlinarith)
  have := neg_abs_le y
  linarith

theorem hypot_deriv_left {x : ℝ} (h : 0 < x) (y : ℝ) : HasDerivAt (fun t => hypot t y) (x / hypot x y) x := by
  have h1 : HasDerivAt (fun t : ℝ => t ^ 2 + y ^ 2) (2 * x) x := by
    simpa using (hasDerivAt_pow 2 x).add_const (y ^ 2)
  have h2 := h1.sqrt (show x ^ 2 + y ^ 2 ≠ 0 by positivity)
  have h3 := (hypot_pos h y).ne'
  refine h2.congr_deriv ?_
  rw [show √(x ^ 2 + y ^ 2) = hypot x y from rfl]
  field_simp

theorem hypot_deriv_right {x : ℝ} (h : 0 < x) (y : ℝ) : HasDerivAt (fun t => hypot x t) (y / hypot x y) y := by
  have h1 : HasDerivAt (fun t : ℝ => x ^ 2 + t ^ 2) (2 * y) y := by
    simpa using (hasDerivAt_pow 2 y).const_add (x ^ 2)
  have h2 := h1.sqrt (show x ^ 2 + y ^ 2 ≠ 0 by positivity)
  have h3 := (hypot_pos h y).ne'
  refine h2.congr_deriv ?_
  rw [show √(x ^ 2 + y ^ 2) = hypot x y from rfl]
  field_simp

/-- A function of the radius, given near a positive one. -/
theorem near {f g : ℝ → ℝ} {d r : ℝ} (hr : 0 < r) (h : ∀ x, 0 < x → f x = g x) (hg : HasDerivAt g d r) : HasDerivAt f d r :=
  hg.congr_of_eventuallyEq (by filter_upwards [lt_mem_nhds hr] with x hx using h x hx)

/-! ## C97 -/

/-- **C97**, Hooke's law: away from the axis, the strains that belong to the displacements of a point load are those that
belong to its stresses. -/
theorem C97_hooke (z r a v E : ℝ) (hr : 0 < r) (hE : 0 < E) :
    HasDerivAt (fun x => rdp z x a v E (hypot x z))
      ((rse z r a v (hypot r z) 0 - v * (tse z r a v (hypot r z) + vse z r a (hypot r z) 0)) / E) r ∧
    rdp z r a v E (hypot r z) / r =
      (tse z r a v (hypot r z) - v * (rse z r a v (hypot r z) 0 + vse z r a (hypot r z) 0)) / E ∧
    HasDerivAt (fun x => vdp x r a v E (hypot r x) 0)
      ((vse z r a (hypot r z) 0 - v * (rse z r a v (hypot r z) 0 + tse z r a v (hypot r z))) / E) z ∧
    ∃ du dw, HasDerivAt (fun x => rdp x r a v E (hypot r x)) du z ∧ HasDerivAt (fun x => vdp z x a v E (hypot x z) 0) dw r ∧
      du + dw = 2 * (1 + v) / E * sse z r a (hypot r z) := by
  have hR := hypot_pos hr z
  have hz := hypot_gt hr z
  have hq := hypot_sq r z
  have dr := hypot_deriv_left hr z
  have dz := hypot_deriv_right hr z
  set R := hypot r z with hRd
  have hR0 := hR.ne'
  have hz0 := hz.ne'
  have hr0 := hr.ne'
  have hE0 := hE.ne'
  have ir := hasDerivAt_id' r
  have iz := hasDerivAt_id' z
  rw [rse, tse, vse, sse, if_pos hr, if_pos hr, if_pos hr, if_pos hr]
  refine ⟨?_, ?_, ?_, ?_⟩
  · refine near hr (fun x hx => by rw [rdp, if_pos hx]) ?_
    refine ((((hasDerivAt_const r (1 + v)).fun_div ((dr.const_mul 2).mul_const E) (by positivity)).const_mul (a * a)).fun_mul
      (((ir.const_mul z).fun_div (dr.fun_mul dr) (by positivity)).fun_sub
        ((ir.const_mul (1 - 2 * v)).fun_div (dr.add_const z) hz0))).congr_deriv ?_
    rw [← hRd]
    clear_value R
    clear dr dz ir iz
    field_simp
    grind
  · rw [rdp, if_pos hr]
    clear_value R
    clear dr dz ir iz
    field_simp
    grind
  · simp only [vdp, if_pos hr]
    refine ((((hasDerivAt_const z (1 + v)).fun_div ((dz.const_mul 2).mul_const E) (by positivity)).const_mul (a * a)).fun_mul
      (((iz.fun_mul iz).fun_div (dz.fun_mul dz) (by positivity)).const_add (2 * (1 - v)))).congr_deriv ?_
    rw [← hRd]
    clear_value R
    clear dr dz ir iz
    field_simp
    grind
  · simp only [rdp, vdp, if_pos hr]
    refine ⟨_, _, (((hasDerivAt_const z (1 + v)).fun_div ((dz.const_mul 2).mul_const E) (by positivity)).const_mul (a * a)).fun_mul
      (((iz.mul_const r).fun_div (dz.fun_mul dz) (by positivity)).fun_sub
        ((hasDerivAt_const z ((1 - 2 * v) * r)).fun_div (dz.fun_add iz) hz0)), near hr (fun x hx => by rw [if_pos hx])
      ((((hasDerivAt_const r (1 + v)).fun_div ((dr.const_mul 2).mul_const E) (by positivity)).const_mul (a * a)).fun_mul
        (((hasDerivAt_const r (z * z)).fun_div (dr.fun_mul dr) (by positivity)).const_add (2 * (1 - v)))), ?_⟩
    rw [← hRd]
    clear_value R
    clear dr dz ir iz
    field_simp
    grind

/-- **C97**, equilibrium: away from the axis, the stresses of a point load leave no force on any element. -/
theorem C97_equilibrium (z r a v : ℝ) (hr : 0 < r) :
    (∃ d1 d2, HasDerivAt (fun x => rse z x a v (hypot x z) 0) d1 r ∧ HasDerivAt (fun x => sse x r a (hypot r x)) d2 z ∧
      d1 + d2 + (rse z r a v (hypot r z) 0 - tse z r a v (hypot r z)) / r = 0) ∧
    ∃ d3 d4, HasDerivAt (fun x => sse z x a (hypot x z)) d3 r ∧ HasDerivAt (fun x => vse x r a (hypot r x) 0) d4 z ∧
      d3 + d4 + sse z r a (hypot r z) / r = 0 := by
  have hR := hypot_pos hr z
  have hz := hypot_gt hr z
  have hq := hypot_sq r z
  have dr := hypot_deriv_left hr z
  have dz := hypot_deriv_right hr z
  set R := hypot r z with hRd
  have hR0 := hR.ne'
  have hz0 := hz.ne'
  have hr0 := hr.ne'
  have ir := hasDerivAt_id' r
  have iz := hasDerivAt_id' z
  rw [rse, tse, sse, if_pos hr, if_pos hr, if_pos hr]
  constructor
  · simp only [sse, if_pos hr]
    refine ⟨_, _, near hr (fun x hx => by rw [rse, if_pos hx]) (((((ir.const_mul (3 * z)).fun_mul ir).fun_div (dr.fun_pow 4) (by positivity)).fun_sub
      ((hasDerivAt_const r (1 - 2 * v)).fun_div (dr.add_const z) hz0)).const_mul (-a * a) |>.fun_div (dr.const_mul 2) (by positivity)),
      (((iz.const_mul (-3 * a * a)).fun_mul iz).mul_const r).fun_div ((dz.fun_pow 5).const_mul 2) (by positivity), ?_⟩
    rw [← hRd]
    clear_value R
    clear dr dz ir iz
    field_simp
    grind
  · simp only [vse, if_pos hr]
    refine ⟨_, _, near hr (fun x hx => by rw [sse, if_pos hx]) ((ir.const_mul (-3 * a * a * z * z)).fun_div ((dr.fun_pow 5).const_mul 2) (by positivity)),
      ((iz.fun_pow 3).const_mul (-3 * a * a)).fun_div ((dz.fun_pow 5).const_mul 2) (by positivity), ?_⟩
    rw [← hRd]
    clear_value R
    clear dr dz ir iz
    field_simp
    grind

/-- **C97**, surface: outside the load, no stress acts on the surface. -/
theorem C97_surface (r a : ℝ) (hr : 0 < r) : vse 0 r a (hypot r 0) 0 = 0 ∧ sse 0 r a (hypot r 0) = 0 := by
  rw [vse, sse, if_pos hr, if_pos hr]
  constructor <;> simp

theorem hypot_pos' (x : ℝ) {y : ℝ} (h : 0 < y) : 0 < hypot x y := Real.sqrt_pos.2 (by positivity)

theorem hypot_left (x : ℝ) {y : ℝ} (h : 0 < y) : HasDerivAt (fun t => hypot t y) (x / hypot x y) x := by
  have h1 : HasDerivAt (fun t : ℝ => t ^ 2 + y ^ 2) (2 * x) x := by
    simpa using (hasDerivAt_pow 2 x).add_const (y ^ 2)
  have h2 := h1.sqrt (show x ^ 2 + y ^ 2 ≠ 0 by positivity)
  have h3 := (hypot_pos' x h).ne'
  refine h2.congr_deriv ?_
  rw [show √(x ^ 2 + y ^ 2) = hypot x y from rfl]
  field_simp

theorem hypot_cont (y : ℝ) : Continuous fun t => hypot t y := by
  unfold hypot
  fun_prop

theorem hypot_zero {y : ℝ} (h : 0 ≤ y) : hypot 0 y = y := by
  rw [hypot, show (0 : ℝ) ^ 2 + y ^ 2 = y ^ 2 by ring, Real.sqrt_sq h]

theorem hypot_zero_right {x : ℝ} (h : 0 ≤ x) : hypot x 0 = x := by
  rw [hypot, show x ^ 2 + (0 : ℝ) ^ 2 = x ^ 2 by ring, Real.sqrt_sq h]

theorem hypot_comm (x y : ℝ) : hypot x y = hypot y x := by rw [hypot, hypot, add_comm]

/-- **C97**, total: the vertical stresses on any horizontal plane below the surface carry the load. -/
theorem C97_total (z a : ℝ) (hz : 0 < z) : ∫ r in Ioi 0, 2 * π * r * vse z r a (hypot r z) 0 = -(π * a ^ 2) := by
  have h := MeasureTheory.integral_Ioi_of_hasDerivAt_of_nonpos (a := 0) (l := 0) (g := fun r => π * a ^ 2 * z ^ 3 / hypot r z ^ 3)
    (g' := fun r => 2 * π * r * vse z r a (hypot r z) 0) ?_ ?_ ?_ ?_
  · rw [h, hypot_zero hz.le]
    field_simp
    ring
  · refine Continuous.continuousWithinAt ?_
    exact continuous_const.div ((hypot_cont z).pow 3) fun x => pow_ne_zero _ (hypot_pos' x hz).ne'
  · intro r hr
    have hr : 0 < r := hr
    have hR := hypot_pos hr z
    refine ((hasDerivAt_const r (π * a ^ 2 * z ^ 3)).fun_div ((hypot_left r hz).fun_pow 3) (by positivity)).congr_deriv ?_
    rw [vse, if_pos hr]
    field_simp
    ring
  · intro r hr
    have hr : 0 < r := hr
    have hR := hypot_pos hr z
    rw [vse, if_pos hr]
    have : 0 ≤ 2 * π * r * (3 * a * a * z ^ 3 / (2 * hypot r z ^ 5)) := by
      have : 0 ≤ a * a := mul_self_nonneg a
      have : 0 ≤ 3 * a * a * z ^ 3 := by rw [mul_assoc 3 a a]; positivity
      positivity
    have e : 2 * π * r * (-3 * a * a * z ^ 3 / (2 * hypot r z ^ 5)) = -(2 * π * r * (3 * a * a * z ^ 3 / (2 * hypot r z ^ 5))) := by ring
    show 2 * π * r * (-3 * a * a * z ^ 3 / (2 * hypot r z ^ 5)) ≤ 0
    rw [e]
    linarith
  · have h1 : Tendsto (fun r => hypot r z) atTop atTop := by
      refine tendsto_atTop_mono (fun r => ?_) tendsto_id
      exact Real.le_sqrt_of_sq_le (by simp only [id]; nlinarith)
    exact Tendsto.div_atTop tendsto_const_nhds ((tendsto_pow_atTop (by norm_num)).comp h1)

/-- **C97**, axis: under the centre of the load, the stresses and the deflection are those of point loads spread over the
circle. -/
theorem C97_axis (z a v E : ℝ) (hz : 0 < z) (ha : 0 < a) (hE : 0 < E) :
    vse z 0 a (hypot 0 z) (hypot z a) = ∫ ρ in (0 : ℝ)..a, 2 * ρ / a ^ 2 * vse z ρ a (hypot ρ z) 0 ∧
    (rse z 0 a v (hypot 0 z) (hypot z a) + tse z 0 a v (hypot 0 z)) / 2 =
      ∫ ρ in (0 : ℝ)..a, 2 * ρ / a ^ 2 * ((rse z ρ a v (hypot ρ z) 0 + tse z ρ a v (hypot ρ z)) / 2) ∧
    vdp z 0 a v E (hypot 0 z) (hypot z a) = ∫ ρ in (0 : ℝ)..a, 2 * ρ / a ^ 2 * vdp z ρ a v E (hypot ρ z) 0 := by
  have key : ∀ f F f' : ℝ → ℝ, (∀ x, 0 < x → f x = f' x) → f 0 = f' 0 → (∀ x, HasDerivAt F (f' x) x) → Continuous f' →
      ∫ x in (0 : ℝ)..a, f x = F a - F 0 := by
    intro f F f' h1 h0 h2 h3
    rw [intervalIntegral.integral_congr (g := f'), intervalIntegral.integral_eq_sub_of_hasDerivAt (fun x _ => h2 x) (h3.intervalIntegrable _ _)]
    intro x hx
    rw [uIcc_of_le ha.le] at hx
    rcases eq_or_lt_of_le hx.1 with h | h
    · rw [← h]; exact h0
    · exact h1 x h
  have hA := hypot_pos' z ha
  have hAq := hypot_sq z a
  have ha0 := ha.ne'
  have hz0 := hz.ne'
  have hE0 := hE.ne'
  have hA0 := hA.ne'
  have hRz : ∀ x, hypot x z + z ≠ 0 := fun x => by have := hypot_pos' x hz; positivity
  have hc := hypot_cont z
  have hn : ∀ x, hypot x z ≠ 0 := fun x => (hypot_pos' x hz).ne'
  refine ⟨?_, ?_, ?_⟩
  · rw [key _ (fun x => z ^ 3 / hypot x z ^ 3) (fun x => -3 * z ^ 3 * x / hypot x z ^ 5) ?_ (by simp) ?_ ?_]
    · rw [vse, if_neg (lt_irrefl _), hypot_zero hz.le, hypot_comm a z]
      field_simp
    · intro x hx
      rw [vse, if_pos hx]
      have := hn x
      field_simp
    · intro x
      refine ((hasDerivAt_const x (z ^ 3)).fun_div ((hypot_left x hz).fun_pow 3) (pow_ne_zero _ (hn x))).congr_deriv ?_
      have := hn x
      field_simp
      ring
    · exact (continuous_const.mul continuous_id).div (hc.pow 5) fun x => pow_ne_zero _ (hn x)
  · rw [key _ (fun x => (3 * z / hypot x z - z ^ 3 / hypot x z ^ 3 - (1 - 2 * v) * z / hypot x z) / 2)
      (fun x => x * (-3 * z * x ^ 2 / hypot x z ^ 5 + (1 - 2 * v) * z / hypot x z ^ 3) / 2) ?_ (by simp) ?_ ?_]
    · rw [rse, tse, if_neg (lt_irrefl _), if_neg (lt_irrefl _), hypot_zero hz.le, hypot_comm a z]
      field_simp
      ring
    · intro x hx
      rw [rse, tse, if_pos hx, if_pos hx]
      have := hn x
      have := hRz x
      field_simp
      ring
    · intro x
      have h1 := hn x
      have hq := hypot_sq x z
      refine ((((hasDerivAt_const x (3 * z)).fun_div (hypot_left x hz) h1).fun_sub ((hasDerivAt_const x (z ^ 3)).fun_div
        ((hypot_left x hz).fun_pow 3) (pow_ne_zero _ h1))).fun_sub ((hasDerivAt_const x ((1 - 2 * v) * z)).fun_div (hypot_left x hz) h1)
        |>.div_const 2).congr_deriv ?_
      generalize hypot x z = R at *
      field_simp
      grind
    · refine Continuous.div_const (continuous_id.mul (((continuous_const.mul (continuous_id.pow 2)).div (hc.pow 5) fun x => pow_ne_zero _ (hn x)).add
        (continuous_const.div (hc.pow 3) fun x => pow_ne_zero _ (hn x)))) 2
  · rw [key _ (fun x => (1 + v) / E * (2 * (1 - v) * hypot x z - z ^ 2 / hypot x z))
      (fun x => (1 + v) / E * x * (2 * (1 - v) / hypot x z + z ^ 2 / hypot x z ^ 3)) ?_ (by simp) ?_ ?_]
    · rw [vdp, if_neg (lt_irrefl _), hypot_zero hz.le, hypot_comm a z]
      generalize hypot z a = A at *
      field_simp
      grind
    · intro x hx
      rw [vdp, if_pos hx]
      have := hn x
      field_simp
    · intro x
      have h1 := hn x
      have hq := hypot_sq x z
      refine ((((hypot_left x hz).const_mul (2 * (1 - v))).fun_sub ((hasDerivAt_const x (z ^ 2)).fun_div (hypot_left x hz) h1)).const_mul
        ((1 + v) / E)).congr_deriv ?_
      generalize hypot x z = R at *
      field_simp
      ring
    · exact (continuous_const.mul continuous_id).mul ((continuous_const.div hc hn).add
        (continuous_const.div (hc.pow 3) fun x => pow_ne_zero _ (hn x)))

/-- **C97** fails near the axis: the load is taken as a point everywhere but on its axis.  The deflection of the surface
calculated inside the loaded circle exceeds any bound, while the one calculated at the centre is the right one of a circular
load. -/
theorem C97_jump (a v E : ℝ) (ha : 0 < a) (hv : v ^ 2 < 1) (hE : 0 < E) :
    vdp 0 0 a v E (hypot 0 0) (hypot 0 a) = 2 * (1 - v ^ 2) * a / E ∧
    ∀ M, ∃ r, 0 < r ∧ r < a ∧ M < vdp 0 r a v E (hypot r 0) 0 := by
  constructor
  · rw [vdp, if_neg (lt_irrefl _), hypot_zero ha.le]
    field_simp
    ring
  · intro M
    have hv' : 0 < 1 - v ^ 2 := by linarith
    have h1 : 0 < |M| + 1 := by positivity
    refine ⟨min (a / 2) (a ^ 2 * (1 - v ^ 2) / (E * (|M| + 1))), by positivity, (min_le_left _ _).trans_lt (by linarith), ?_⟩
    set r := min (a / 2) (a ^ 2 * (1 - v ^ 2) / (E * (|M| + 1))) with hr
    have hr0 : 0 < r := by positivity
    have hle : r ≤ a ^ 2 * (1 - v ^ 2) / (E * (|M| + 1)) := min_le_right _ _
    have e : vdp 0 r a v E (hypot r 0) 0 = a ^ 2 * (1 - v ^ 2) / (E * r) := by
      rw [vdp, if_pos hr0, hypot_zero_right hr0.le]
      field_simp
      ring
    rw [e, lt_div_iff₀ (by positivity)]
    rw [le_div_iff₀ (by positivity)] at hle
    have : M < |M| + 1 := by linarith [le_abs_self M]
    nlinarith [mul_pos hE hr0]

/-- The hypotheses are those of a point under a load on a pavement: at a depth of one half and a distance of two from the centre
of a load of radius one, on a layer with modulus three and Poisson's ratio 0.35. -/
example : (0 : ℝ) < 2 ∧ (0 : ℝ) < 1 / 2 ∧ (0 : ℝ) < 1 ∧ (0 : ℝ) < 3 ∧ (0.35 : ℝ) ^ 2 < 1 := by norm_num

end OP.Pave.Bouss
