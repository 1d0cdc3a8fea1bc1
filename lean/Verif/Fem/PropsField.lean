import Verif.Fem.Field
import Verif.Lin.PropsChol
import Mathlib.Probability.Distributions.Gaussian.Real
import Mathlib.Probability.Independence.Integration
import Mathlib.Probability.Independence.InfinitePi
import Mathlib.MeasureTheory.Function.L2Space
/-!
# C112: random fields over the surface

The normal numbers are random variables on some probability space with mean zero and unit variance that are not
correlated (`White`); independent standard normal numbers are such (`white_normal`).  The theorems say that the fields
calculated from them have the correlations asked for.
-/
namespace OP.Fem.Field

open OP.Lin Real MeasureTheory ProbabilityTheory

/-! ## Correlations -/

theorem loop_succ {S : Type} {f : Nat → S → S} {lo hi : Nat} (h : lo ≤ hi) (s : S) :
    loop lo (hi + 1) f s = f hi (loop lo hi f s) := by
  unfold loop
  rw [show hi + 1 - lo = (hi - lo) + 1 by omega]
  have : ∀ m i (s : S), loopFrom f (m + 1) i s = f (i + m) (loopFrom f m i s) := by
    intro m
    induction m with
    | zero => intro i s; rfl
    | succ m ih =>
      intro i s
      rw [loopFrom, ih (i + 1) (f i s), show i + 1 + m = i + (m + 1) by omega]
      rfl
  rw [this, show lo + (hi - lo) = hi by omega]

/-- **C112** The functions of higher order are those of the recurrence: whatever family has the values of the code for
orders zero and one and obeys the recurrence of the modified Bessel functions is what is calculated, for either sign of
the order. -/
theorem C112_bessel {b0 b1 : ℝ → ℝ} {x : ℝ} {K : Nat → ℝ} (h0 : K 0 = b0 x) (h1 : K 1 = b1 x)
    (hr : ∀ k, 1 ≤ k → K (k + 1) = K (k - 1) + 2 * k / x * K k) (k : Int) : bessk b0 b1 k x = K k.natAbs := by
  have key : ∀ k, 1 ≤ k → besskLoop x k (b0 x, b1 x) = (K (k - 1), K k) := by
    intro k hk
    induction k, hk using Nat.le_induction with
    | base =>
      unfold besskLoop
      rw [loop_nil (by omega), h1]
      simp only [Nat.sub_self, h0]
    | succ k hk ih =>
      unfold besskLoop at ih ⊢
      rw [loop_succ hk, ih]
      simp only [Nat.add_sub_cancel, hr k hk]
      congr 1
      ring
  unfold bessk
  simp only
  by_cases e0 : k.natAbs = 0
  · rw [if_pos e0, e0, h0]
  · rw [if_neg e0]
    by_cases e1 : k.natAbs = 1
    · rw [if_pos e1, e1, h1]
    · rw [if_neg e1, key k.natAbs (by omega)]

/-- **C112** `gamma(n)` is the factorial of `n - 1`. -/
theorem C112_gamma (n : Nat) : gamma n = ((n - 1).factorial : ℝ) := by
  unfold gamma
  rcases Nat.eq_zero_or_pos n with rfl | h
  · rw [loop_nil (by omega)]
    simp
  · induction n, h using Nat.le_induction with
    | base => rw [loop_nil (by omega)]; simp
    | succ n hn ih =>
      rw [loop_succ hn, ih]
      obtain ⟨m, rfl⟩ : ∃ m, n = m + 1 := ⟨n - 1, by omega⟩
      simp only [Nat.add_sub_cancel, Nat.factorial_succ, Nat.cast_mul]
      ring

/-- **C112** The Whittle correlation is the Matérn correlation of order one. -/
theorem C112_whittle (b0 b1 : ℝ → ℝ) (h r : ℝ) : whittle b1 h r = matern b0 b1 1 h r := by
  unfold whittle matern
  simp only [C112_gamma]
  by_cases h0 : h = 0
  · rw [if_pos h0, if_pos h0]
  · rw [if_neg h0, if_neg h0]
    by_cases h1 : h > 600 * r
    · rw [if_pos h1, if_pos h1]
    · rw [if_neg h1, if_neg h1]
      simp [bessk]

/-- **C112** The range that depends on the direction: distances divided by it are distances in the plane scaled by `b`
along `x` and by `a` along `y`. -/
theorem C112_ellipse {a b : ℝ} (ha : 0 < a) (hb : 0 < b) {x y : ℝ} (h : x ≠ 0 ∨ y ≠ 0) :
    dist x y / ellipse (angle x y) a b = √((x / b) ^ 2 + (y / a) ^ 2) := by
  have hp : 0 < x ^ 2 + y ^ 2 := by
    rcases h with h | h
    · have := sq_pos_of_ne_zero h; positivity
    · have := sq_pos_of_ne_zero h; positivity
  set R := √(x ^ 2 + y ^ 2) with hR
  have hR0 : 0 < R := sqrt_pos.mpr hp
  have hR2 : R ^ 2 = x ^ 2 + y ^ 2 := sq_sqrt hp.le
  have hn : ‖(⟨x, y⟩ : ℂ)‖ = R := by
    rw [Complex.norm_def, Complex.normSq_mk, hR]
    congr 1
    ring
  have hz : (⟨x, y⟩ : ℂ) ≠ 0 := by
    intro e
    rw [e, norm_zero] at hn
    exact hR0.ne hn
  have hc : cos (angle x y) = x / R := by rw [angle, Complex.cos_arg hz, hn]
  have hs : sin (angle x y) = y / R := by rw [angle, Complex.sin_arg, hn]
  unfold ellipse dist
  rw [← hR, abs_of_pos hR0, hc, hs]
  have e1 : (a * (x / R)) ^ 2 + (b * (y / R)) ^ 2 = (a * b / R) ^ 2 * ((x / b) ^ 2 + (y / a) ^ 2) := by
    field_simp
  have hq : 0 < (x / b) ^ 2 + (y / a) ^ 2 := by
    rcases h with h | h
    · have : 0 < (x / b) ^ 2 := sq_pos_of_ne_zero (div_ne_zero h hb.ne')
      positivity
    · have : 0 < (y / a) ^ 2 := sq_pos_of_ne_zero (div_ne_zero h ha.ne')
      positivity
  rw [e1, sqrt_mul (sq_nonneg _), sqrt_sq (by positivity)]
  have : 0 < √((x / b) ^ 2 + (y / a) ^ 2) := sqrt_pos.mpr hq
  field_simp

theorem dist_neg (x y : ℝ) : dist (-x) (-y) = dist x y := by simp [dist]

theorem ellipse_neg {a b : ℝ} (ha : 0 < a) (hb : 0 < b) (x y : ℝ) :
    dist x y = 0 ∨ ellipse (angle (-x) (-y)) a b = ellipse (angle x y) a b := by
  by_cases h : x ≠ 0 ∨ y ≠ 0
  · right
    have h' : -x ≠ 0 ∨ -y ≠ 0 := h.imp neg_ne_zero.mpr neg_ne_zero.mpr
    have e1 := C112_ellipse ha hb h
    have e2 := C112_ellipse ha hb h'
    rw [dist_neg] at e2
    have e3 : √((-x / b) ^ 2 + (-y / a) ^ 2) = √((x / b) ^ 2 + (y / a) ^ 2) := by
      congr 1
      ring
    rw [e3, ← e1] at e2
    have hd : dist x y ≠ 0 := by
      unfold dist
      rw [abs_ne_zero]
      refine (sqrt_pos.mpr ?_).ne'
      rcases h with h | h
      · have := sq_pos_of_ne_zero h; positivity
      · have := sq_pos_of_ne_zero h; positivity
    rw [div_eq_mul_inv, div_eq_mul_inv] at e2
    exact inv_injective (mul_left_cancel₀ hd e2)
  · left
    push Not at h
    simp [dist, h.1, h.2]

/-- **C112** All three correlations are one at no distance, and the same from either node. -/
theorem C112_correlation (b0 b1 : ℝ → ℝ) {s1 s2 a b : ℝ} (hs : 0 < s1 ^ 2 + s2 ^ 2) (ha : 0 < a) (hb : 0 < b) (x y : ℝ) :
    (rho0 s1 s2 a b 0 0 = 1 ∧ rho1 b0 b1 a b 0 0 = 1 ∧ rho2 b1 a b 0 0 = 1) ∧
    rho0 s1 s2 a b (-x) (-y) = rho0 s1 s2 a b x y ∧ rho1 b0 b1 a b (-x) (-y) = rho1 b0 b1 a b x y ∧
    rho2 b1 a b (-x) (-y) = rho2 b1 a b x y := by
  have d0 : dist 0 0 = 0 := by simp [dist]
  refine ⟨⟨?_, ?_, ?_⟩, ?_, ?_, ?_⟩
  · simp [rho0, d0, hs.ne']
  · simp [rho1, d0, matern]
  · simp [rho2, d0, whittle]
  · simp only [rho0, dist_neg]
  · rcases ellipse_neg ha hb x y with h | h
    · simp [rho1, dist_neg, h, matern]
    · rw [rho1, rho1, dist_neg, h]
  · rcases ellipse_neg ha hb x y with h | h
    · simp [rho2, dist_neg, h, whittle]
    · rw [rho2, rho2, dist_neg, h]

/-! ## The matrix -/

/-- The correlation asked for between two nodes. -/
noncomputable def asked (rho : Nat → Nat → ℝ) (i k : Nat) : ℝ := if i = k then rho i i else rho i k * 0.999

theorem fill_eq (rho : Nat → Nat → ℝ) (n : Nat) (g : Nat → ℝ) {i j : Nat} (hij : i ≤ j) (hj : j < n) :
    fill rho n g (tIdx i j) = asked rho i j := by
  have inj := (C39_triangular n).2.1
  have h := loop_rule (lo := 0) (hi := n) (s := g) (f := fun i C => loop i n (fun j C =>
    let C := set C (tIdx i j) (rho i j)
    if i ≠ j then set C (tIdx i j) (C (tIdx i j) * 0.999) else C) C)
    (fun m C => ∀ i j, i < m → i ≤ j → j < n → C (tIdx i j) = asked rho i j) (Nat.zero_le n)
    (by intro i j h; omega) (by
      intro m C _ hm hC
      have h2 := loop_rule (lo := m) (hi := n) (s := C) (f := fun j C =>
        let C := set C (tIdx m j) (rho m j)
        if m ≠ j then set C (tIdx m j) (C (tIdx m j) * 0.999) else C)
        (fun q C => (∀ i j, i < m → i ≤ j → j < n → C (tIdx i j) = asked rho i j) ∧
          ∀ j, m ≤ j → j < q → C (tIdx m j) = asked rho m j) (by omega)
        ⟨hC, by intro j h1 h2; omega⟩ (by
          intro q C h1 h2 ⟨k1, k2⟩
          have hne : ∀ i j, i ≤ j → (i ≠ m ∨ j ≠ q) → tIdx i j ≠ tIdx m q := by
            intro i j hij h e
            have := inj i j m q hij h1 e
            omega
          have hv : ∀ p, (let C' := set C (tIdx m q) (rho m q)
              if m ≠ q then set C' (tIdx m q) (C' (tIdx m q) * 0.999) else C') p
              = if p = tIdx m q then asked rho m q else C p := by
            intro p
            by_cases e : m = q
            · subst e
              simp only [ne_eq, not_true_eq_false, if_false, Lin.set, asked, if_true]
            · simp only [ne_eq, e, not_false_eq_true, if_true, Lin.set, asked, if_false]
              by_cases hp : p = tIdx m q <;> simp [hp]
          refine ⟨fun i j hi hij hj => ?_, fun j hj1 hj2 => ?_⟩
          · rw [hv, if_neg (hne i j hij (Or.inl (by omega)))]
            exact k1 i j hi hij hj
          · rw [hv]
            by_cases e : j = q
            · rw [if_pos (by rw [e]), e]
            · rw [if_neg (hne m j hj1 (Or.inr e))]
              exact k2 j hj1 (by omega))
      intro i j h1 hij hj
      by_cases e : i = m
      · subst e
        exact h2.2 j hij hj
      · exact h2.1 i j (by omega) hij hj)
  exact h i j (by omega) hij hj

theorem fill_sym {rho : Nat → Nat → ℝ} (hs : ∀ i j, rho i j = rho j i) (n : Nat) (g : Nat → ℝ) (i k : Fin n) :
    triSym n (fill rho n g) i k = asked rho i k := by
  have := i.2
  have := k.2
  rcases Nat.le_total (i : Nat) k with h | h
  · rw [triSym, Nat.min_eq_left h, Nat.max_eq_right h, fill_eq rho n g h k.2]
  · rw [triSym, Nat.min_eq_right h, Nat.max_eq_left h, fill_eq rho n g h i.2]
    unfold asked
    by_cases e : (k : Nat) = i
    · rw [if_pos e, if_pos e.symm, e]
    · rw [if_neg e, if_neg (Ne.symm e), hs]

/-! ## Expectations -/

variable {Ω : Type} [MeasurableSpace Ω] {P : Measure Ω} [IsProbabilityMeasure P]

/-- Numbers with mean zero and unit variance that are not correlated. -/
structure White {ι : Type} [DecidableEq ι] (P : Measure Ω) (A : ι → Ω → ℝ) : Prop where
  sq : ∀ i, MemLp (A i) 2 P
  mean : ∀ i, ∫ w, A i w ∂P = 0
  prod : ∀ i j, ∫ w, A i w * A j w ∂P = if i = j then 1 else 0

theorem fieldAt_sum (C A : Nat → ℝ) (i : Nat) : fieldAt C A i = ∑ j ∈ Finset.range (i + 1), C (tIdx j i) * A j := by
  unfold fieldAt
  have := loop_rule (lo := 0) (hi := i) (s := C (tIdx i i) * A i) (f := fun j s => s + C (tIdx j i) * A j)
    (fun m s => s = C (tIdx i i) * A i + ∑ j ∈ Finset.range m, C (tIdx j i) * A j) (Nat.zero_le i) (by simp)
    (by intro k s _ _ h; rw [Finset.sum_range_succ, h]; ring)
  rw [this, Finset.sum_range_succ]
  ring

/-- The weights of the numbers in a field. -/
noncomputable def weight (C : Nat → ℝ) (i j : Nat) : ℝ := if j ≤ i then C (tIdx j i) else 0

theorem fieldAt_weight (C A : Nat → ℝ) {i n : Nat} (h : i < n) :
    fieldAt C A i = ∑ j ∈ Finset.range n, weight C i j * A j := by
  rw [fieldAt_sum, ← Finset.sum_range_add_sum_Ico _ (show i + 1 ≤ n by omega)]
  rw [Finset.sum_eq_zero (s := Finset.Ico (i + 1) n) (fun j hj => by
    rw [weight, if_neg (by have := Finset.mem_Ico.mp hj; omega), zero_mul]), add_zero]
  refine Finset.sum_congr rfl fun j hj => ?_
  rw [weight, if_pos (by have := Finset.mem_range.mp hj; omega)]

theorem weight_product {n : Nat} {U : Nat → ℝ} {M : Matrix (Fin n) (Fin n) ℝ}
    (h : (triU n U).transpose * triU n U = M) (i k : Fin n) :
    ∑ j ∈ Finset.range n, weight U i j * weight U k j = M i k := by
  rw [← h, Matrix.mul_apply, ← Fin.sum_univ_eq_sum_range (fun j => weight U i j * weight U k j) n]
  rfl

theorem int_sum {ι : Type} [DecidableEq ι] {A : ι → Ω → ℝ} (hA : White P A) (s t : Finset ι) (u v : ι → ℝ) :
    ∫ w, (∑ j ∈ s, u j * A j w) * (∑ j ∈ t, v j * A j w) ∂P = ∑ j ∈ s ∩ t, u j * v j := by
  have hi : ∀ i j, Integrable (fun w => A i w * A j w) P := fun i j => (hA.sq i).integrable_mul (hA.sq j)
  have e : ∀ w, (∑ j ∈ s, u j * A j w) * (∑ j ∈ t, v j * A j w)
      = ∑ i ∈ s, ∑ j ∈ t, (u i * v j) * (A i w * A j w) := by
    intro w
    rw [Finset.sum_mul_sum]
    refine Finset.sum_congr rfl fun i _ => Finset.sum_congr rfl fun j _ => by ring
  simp only [e]
  rw [integral_finset_sum _ fun i _ => integrable_finset_sum _ fun j _ => (hi i j).const_mul _]
  simp only [integral_finset_sum _ fun j (_ : j ∈ t) => (hi _ j).const_mul _, integral_const_mul, hA.prod,
    mul_ite, mul_one, mul_zero, Finset.sum_ite_eq]
  rw [← Finset.sum_filter, Finset.filter_mem_eq_inter]

/-- **C112** A field has the correlations asked for: if the decomposition of the matrix succeeds, the values made from
it have mean zero, and the expectation of the product of two of them is the entry of the matrix, one on the diagonal
and the correlation times 0.999 off it. -/
theorem C112_field {rt : ℝ → ℝ} (hrt : IsRoot rt) {rho : Nat → Nat → ℝ} (hs : ∀ i j, rho i j = rho j i) {n : Nat}
    {g U : Nat → ℝ} (hU : decmpCholTri rt n (fill rho n g) = .ok U) {A : Nat → Ω → ℝ} (hA : White P A) {i k : Nat}
    (hi : i < n) (hk : k < n) :
    ∫ w, fieldAt U (fun j => A j w) i ∂P = 0 ∧
    ∫ w, fieldAt U (fun j => A j w) i * fieldAt U (fun j => A j w) k ∂P = if i = k then rho i i else rho i k * 0.999 := by
  constructor
  · simp only [fieldAt_weight U _ hi]
    rw [integral_finset_sum]
    · simp [integral_const_mul, hA.mean]
    · intro j _
      exact ((hA.sq j).integrable (by norm_num)).const_mul _
  · simp only [fieldAt_weight U _ hi, fieldAt_weight U _ hk]
    rw [int_sum hA, Finset.inter_self]
    have := weight_product ((C42_decmp_chol_tri hrt n _).2.2 U hU).1 ⟨i, hi⟩ ⟨k, hk⟩
    rw [fill_sym hs] at this
    exact this

theorem layerAt_sum (C A : Nat → Nat → ℝ) (s : Nat → ℝ) {n i : Nat} (h : i < n) (l : Nat) :
    layerAt C A s l i = ∑ p ∈ Finset.range (l + 1) ×ˢ Finset.range n, s p.1 * weight (C p.1) i p.2 * A p.1 p.2 := by
  rw [Finset.sum_product]
  induction l with
  | zero =>
    rw [layerAt, fieldAt_weight _ _ h, Finset.sum_range_one, Finset.sum_mul]
    refine Finset.sum_congr rfl fun j _ => by ring
  | succ l ih =>
    rw [layerAt, ih, Finset.sum_range_succ _ (l + 1), fieldAt_weight _ _ h, Finset.mul_sum]
    congr 1
    refine Finset.sum_congr rfl fun j _ => by ring

/-- **C112** The fields of the layers: with numbers that are not correlated, within a layer or between layers, the
covariance of a value of layer `l` and one of layer `m` is the sum of the variances times the correlations of the layers
down to the upper of the two. -/
theorem C112_layers {rt : ℝ → ℝ} (hrt : IsRoot rt) {rho : Nat → Nat → Nat → ℝ} (hs : ∀ l i j, rho l i j = rho l j i)
    {n : Nat} {g U : Nat → Nat → ℝ} (hU : ∀ l, decmpCholTri rt n (fill (rho l) n (g l)) = .ok (U l)) (s : Nat → ℝ)
    {A : Nat × Nat → Ω → ℝ} (hA : White P A) (l m : Nat) {i k : Nat} (hi : i < n) (hk : k < n) :
    ∫ w, layerAt U (fun a j => A (a, j) w) s l i ∂P = 0 ∧
    ∫ w, layerAt U (fun a j => A (a, j) w) s l i * layerAt U (fun a j => A (a, j) w) s m k ∂P
      = ∑ a ∈ Finset.range (min l m + 1), s a ^ 2 * if i = k then rho a i i else rho a i k * 0.999 := by
  constructor
  · simp only [layerAt_sum U _ s hi]
    rw [integral_finset_sum]
    · simp [integral_const_mul, hA.mean]
    · intro j _
      exact ((hA.sq _).integrable (by norm_num)).const_mul _
  · simp only [layerAt_sum U _ s hi, layerAt_sum U _ s hk]
    rw [int_sum hA _ _ (fun p => s p.1 * weight (U p.1) i p.2) (fun p => s p.1 * weight (U p.1) k p.2)]
    have hset : (Finset.range (l + 1) ×ˢ Finset.range n) ∩ (Finset.range (m + 1) ×ˢ Finset.range n)
        = Finset.range (min l m + 1) ×ˢ Finset.range n := by
      ext ⟨a, b⟩
      simp only [Finset.mem_inter, Finset.mem_product, Finset.mem_range]
      omega
    rw [hset, Finset.sum_product]
    refine Finset.sum_congr rfl fun a _ => ?_
    have := weight_product ((C42_decmp_chol_tri hrt n _).2.2 (U a) (hU a)).1 ⟨i, hi⟩ ⟨k, hk⟩
    rw [fill_sym (hs a)] at this
    simp only [asked] at this
    rw [← this, Finset.mul_sum]
    refine Finset.sum_congr rfl fun j _ => by ring

/-- Independent standard normal numbers are as the theorems ask. -/
theorem white_normal {ι : Type} [DecidableEq ι] {A : ι → Ω → ℝ} (hm : ∀ i, Measurable (A i)) (hi : iIndepFun A P)
    (hl : ∀ i, P.map (A i) = gaussianReal 0 1) : White P A := by
  have hmp : ∀ i, MeasurePreserving (A i) P (gaussianReal 0 1) := fun i => ⟨hm i, hl i⟩
  have hmean : ∀ i, ∫ w, A i w ∂P = 0 := by
    intro i
    have : ∫ w, A i w ∂P = ∫ z, z ∂(gaussianReal 0 1) := by
      rw [← hl i, integral_map (hm i).aemeasurable (by fun_prop)]
    rw [this, integral_id_gaussianReal]
  have hsq : ∀ i, ∫ w, A i w * A i w ∂P = 1 := by
    intro i
    have h1 : ∫ w, A i w * A i w ∂P = ∫ z, z * z ∂(gaussianReal 0 1) := by
      rw [← hl i, integral_map (hm i).aemeasurable (by fun_prop)]
    have h2 := variance_fun_id_gaussianReal (μ := 0) (v := 1)
    rw [variance_of_integral_eq_zero aemeasurable_id' (by simp)] at h2
    rw [h1, ← NNReal.coe_one, ← h2]
    refine integral_congr_ae (Filter.Eventually.of_forall fun z => ?_)
    simp only
    ring
  refine ⟨fun i => ?_, hmean, fun i j => ?_⟩
  · exact (memLp_id_gaussianReal (μ := 0) (v := 1) 2).comp_measurePreserving (hmp i)
  · by_cases e : i = j
    · subst e
      rw [if_pos rfl, hsq]
    · rw [if_neg e, (hi.indepFun e).integral_fun_mul_eq_mul_integral (hm i).aestronglyMeasurable
        (hm j).aestronglyMeasurable, hmean, zero_mul]

/-- There are such numbers. -/
example (ι : Type) [DecidableEq ι] :
    White (Measure.infinitePi fun _ : ι => gaussianReal 0 1) (fun i (w : ι → ℝ) => w i) :=
  white_normal (fun i => by fun_prop) (iIndepFun_infinitePi (P := fun _ : ι => gaussianReal 0 1)
    (X := fun _ z => z) (fun _ => measurable_id)) (fun i => (measurePreserving_eval_infinitePi _ i).map_eq)

/-- A matrix as the theorems ask: nodes far from each other. -/
example (n : Nat) (g : Nat → ℝ) : ∃ U, decmpCholTri Real.sqrt n (fill (fun i j => if i = j then 1 else 0) n g) = .ok U := by
  have hrt : IsRoot Real.sqrt := fun x hx => ⟨sqrt_pos.mpr hx, mul_self_sqrt hx.le⟩
  refine (C42_decmp_chol_tri hrt n _).1.mpr ?_
  have e : triSym n (fill (fun i j => if i = j then (1 : ℝ) else 0) n g) = 1 := by
    ext i k
    rw [fill_sym (by intro i j; simp only [eq_comm])]
    simp only [asked, if_true, Matrix.one_apply, Fin.ext_iff]
    by_cases h : (i : Nat) = k <;> simp [h]
  rw [e]
  intro x hx
  rw [Matrix.one_mulVec]
  obtain ⟨i, hi⟩ := Function.ne_iff.mp hx
  exact Finset.sum_pos' (fun j _ => mul_self_nonneg (x j)) ⟨i, Finset.mem_univ i, mul_self_pos.mpr hi⟩

end OP.Fem.Field
