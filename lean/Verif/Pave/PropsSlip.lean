import Verif.Pave.AbcdSol
import Mathlib.Topology.Order.IntermediateValue
import Mathlib.Analysis.Complex.ExponentialBounds
/-!
# C68: partially bonded layers
-/
namespace OP.Pave

/-- One step between two layers of the same material changes nothing. -/
theorem up_same (l : Lim) (m z v E : ℝ) (c : V4) (hl : 2 * (m * z) < l.maxExp) (hv : 1 + v ≠ 0) (hv' : v - 1 ≠ 0)
    (hE : E ≠ 0) : up l m z v v E E 1 c = c := by
  rw [up_bonded l m z v v E E c hl]
  have h4 : 4 * v - 4 ≠ 0 := fun h => hv' (by linarith)
  have he : Real.exp (m * z) ≠ 0 := (Real.exp_pos _).ne'
  generalize Real.exp (m * z) = e at *
  have hK : (1 + v) * E / ((1 + v) * E) = 1 := div_self (mul_ne_zero hv hE)
  rw [hK]
  have h5 : (4 * v - 4) * (1 / (4 * v - 4)) = 1 := by field_simp
  generalize hq : 1 / (4 * v - 4) = q at *
  funext i
  fin_cases i <;> simp [Xm]
  · linear_combination c 0 * h5
  · linear_combination c 1 * h5
  · linear_combination c 2 * h5
  · linear_combination c 3 * h5

/-- Two layers of one material with a partly bonded interface at depth `h`. -/
noncomputable def split (h v E f : ℝ) : Pav :=
  ⟨2, fun i => if i = 0 then h else 0, fun _ => v, fun _ => E, fun i => if i = 0 then f else 1⟩

/-- The determinant of such a system. -/
theorem det_split (l : Lim) (h v E f m : ℝ) (hl : 2 * (m * h) < l.maxExp) (hl1 : m * h < l.maxExp) (hm : m ≠ 0)
    (hv : 1 + v ≠ 0) (hv' : v - 1 ≠ 0) (hE : E ≠ 0) (hf : f ≠ 1) (hf0 : f ≠ 0) :
    det0 l (split h v E f) m = m * (E * (1 - f) / (4 * (1 - v) * (1 + v) * f) *
      (1 - Real.exp (-(2 * (m * h))) * (2 * (m * h) ^ 2 - 2 * (m * h) + 1)) - 1) := by
  have he : Real.exp (m * h) ≠ 0 := (Real.exp_pos _).ne'
  have h1 : Real.exp (-(2 * (m * h))) = 1 / (Real.exp (m * h) * Real.exp (m * h)) := by
    rw [Real.exp_neg, two_mul, Real.exp_add, one_div]
  have hk : E * (1 - f) / (4 * (1 - v) * (1 + v) * f) = -(1 / (4 * v - 4) / f * (E * (1 - f) / (1 + v))) := by
    have h4 : 4 * v - 4 ≠ 0 := fun h => hv' (by linarith)
    have h5 : 1 - v ≠ 0 := fun h => hv' (by linarith)
    field_simp
    ring
  simp only [det0, split, cols, last, gt_iff_lt, if_true, Nat.add_sub_cancel, Nat.sub_zero, one_ne_zero, if_false,
    lt_irrefl, Nat.sub_self, up_split l m h v v E E f _ hf hf0, up_same l m h v E _ hl hv hv' hE,
    slipPart_eq l m h v E f _ hl hm hl1, show (2 : Nat) - 1 = 1 from rfl]
  simp only [ksse, buildT_eq l m h hl1, h1, hk]
  generalize 1 / (4 * v - 4) / f * (E * (1 - f) / (1 + v)) = g
  generalize Real.exp (m * h) = e at *
  simp [Fin.sum_univ_four, B1]
  field_simp
  ring

/-- **C68**, what holds: at every interface that is bonded in part, of a pavement with any number of layers, the vertical
and the shear stress and the vertical displacement are continuous, and the horizontal slip follows the shear stress of
the lower layer *computed with the Poisson's ratio of the upper one*.  With equal Poisson's ratios that is the shear
stress at the interface.  Missing for the full property: different Poisson's ratios, see `C68_law_fails`. -/
theorem C68_conditions_partial (l : Lim) (p : Pav) (m : ℝ) (hp : Valid p) (hr : InRange l p m) (i : Nat)
    (hi : i + 1 < p.nl) (hf0 : p.f i ≠ 0) (hf1 : p.f i ≠ 1) :
    let c := abcd l p m
    kvse l m (p.v i) (p.h i) (c i) = kvse l m (p.v (i + 1)) (p.h i) (c (i + 1)) ∧
    ksse l m (p.v i) (p.h i) (c i) = ksse l m (p.v (i + 1)) (p.h i) (c (i + 1)) ∧
    kvdp l m (p.v i) (p.E i) (p.h i) (c i) = kvdp l m (p.v (i + 1)) (p.E (i + 1)) (p.h i) (c (i + 1)) ∧
    p.f i * (krdp l m (p.v i) (p.E i) (p.h i) (c i) - krdp l m (p.v (i + 1)) (p.E (i + 1)) (p.h i) (c (i + 1))) =
      (1 - p.f i) * ksse l m (p.v i) (p.h i) (c (i + 1)) ∧
    (p.v i = p.v (i + 1) →
      p.f i * (krdp l m (p.v i) (p.E i) (p.h i) (c i) - krdp l m (p.v (i + 1)) (p.E (i + 1)) (p.h i) (c (i + 1))) =
        (1 - p.f i) * ksse l m (p.v i) (p.h i) (c i)) := by
  intro c
  have hc : ∀ i, c i = fun j => (cols l p m (p.nl - 1 - i)).1 j * (CD l p m).1 +
      (cols l p m (p.nl - 1 - i)).2 j * (CD l p m).2 := by
    intro i
    funext j
    simp only [c, abcd, if_neg (not_le.2 hr.pos)]
  have hstep : c i = up l m (p.h i) (p.v i) (p.v (i + 1)) (p.E i) (p.E (i + 1)) (p.f i) (c (i + 1)) := by
    rw [hc i, hc (i + 1), up_lin]
    obtain ⟨k, hk⟩ : ∃ k, p.nl - 1 - i = k + 1 := ⟨p.nl - 1 - (i + 1), by omega⟩
    have hk' : p.nl - 1 - (i + 1) = k := by omega
    have hil : p.nl - 1 - k = i + 1 := by omega
    rw [hk, hk']
    simp only [cols, hil, Nat.add_sub_cancel]
  have h0 : 0 ≤ p.h i := (hp.top_nonneg i (by omega)).trans (hp.h i hi).le
  have hv1 := hp.v i (by omega)
  have hv2 := hp.v (i + 1) hi
  have key := up_slip_law l m (p.h i) (p.v i) (p.v (i + 1)) (p.E i) (p.E (i + 1)) (p.f i) (c (i + 1)) hf1 hf0 hr.pos.ne'
    (hr.lt (by omega) h0) (hr.e i (by omega)) (by linarith) (by linarith) (by linarith) (hp.E i (by omega)).ne'
    (hp.E (i + 1) hi).ne'
  rw [← hstep] at key
  refine ⟨key.1, key.2.1, key.2.2.1, key.2.2.2, fun he => ?_⟩
  rw [key.2.2.2, key.2.1, ← he]

/-- **C68** fails (slip law): between layers of different Poisson's ratio the slip is not proportional to the shear stress
at the interface, except where the two dilatation terms of the lower layer cancel. -/
theorem C68_law_fails (l : Lim) (p : Pav) (m : ℝ) (hp : Valid p) (hr : InRange l p m) (i : Nat)
    (hi : i + 1 < p.nl) (hf0 : p.f i ≠ 0) (hf1 : p.f i ≠ 1) (hv : p.v i ≠ p.v (i + 1)) :
    let c := abcd l p m
    p.f i * (krdp l m (p.v i) (p.E i) (p.h i) (c i) - krdp l m (p.v (i + 1)) (p.E (i + 1)) (p.h i) (c (i + 1))) =
      (1 - p.f i) * ksse l m (p.v i) (p.h i) (c i) ↔
    buildT l m (p.h i) (c (i + 1)) 3 = buildT l m (p.h i) (c (i + 1)) 1 := by
  intro c
  obtain ⟨-, h2, -, h4, -⟩ := C68_conditions_partial l p m hp hr i hi hf0 hf1
  rw [h4, h2]
  simp only [ksse]
  have h1 : 1 - p.f i ≠ 0 := fun h => hf1 (by linarith)
  constructor
  · intro h
    have := mul_left_cancel₀ h1 h
    have h3 : (p.v i - p.v (i + 1)) * (buildT l m (p.h i) (c (i + 1)) 3 - buildT l m (p.h i) (c (i + 1)) 1) = 0 := by
      linarith
    have := (mul_eq_zero.1 h3).resolve_left (sub_ne_zero.2 hv)
    linarith
  · intro h
    change _ * (2 * p.v i * (buildT l m (p.h i) (c (i + 1)) 3 - buildT l m (p.h i) (c (i + 1)) 1) + _) = 
      _ * (2 * p.v (i + 1) * (buildT l m (p.h i) (c (i + 1)) 3 - buildT l m (p.h i) (c (i + 1)) 1) + _)
    rw [h]
    ring

/-- A layer on a half space of another Poisson's ratio, half bonded. -/
noncomputable def mixed : Pav :=
  ⟨2, fun i => if i = 0 then 1 else 0, fun i => if i = 0 then 1 / 4 else 1 / 2, fun i => if i = 0 then 5 else 6,
    fun i => if i = 0 then 1 / 2 else 1⟩

/-- The hypotheses of the two theorems above hold for it, and at wave number one the slip law fails. -/
theorem C68_law_fails_case (l : Lim) (hl : 2 < l.maxExp) : Valid mixed ∧ InRange l mixed 1 ∧ det0 l mixed 1 ≠ 0 ∧
    let c := abcd l mixed 1
    mixed.f 0 * (krdp l 1 (mixed.v 0) (mixed.E 0) (mixed.h 0) (c 0) -
      krdp l 1 (mixed.v 1) (mixed.E 1) (mixed.h 0) (c 1)) ≠ (1 - mixed.f 0) * ksse l 1 (mixed.v 0) (mixed.h 0) (c 0) := by
  have hval : Valid mixed := by
    refine ⟨by decide, ?_, ?_, ?_, ?_⟩
    · intro i _; simp only [mixed]; split_ifs <;> norm_num
    · intro i _; simp only [mixed]; split_ifs <;> norm_num
    · intro i hi
      have : i = 0 := by simp only [mixed] at hi; omega
      subst this
      simp [top, mixed]
    · left; simp [mixed]
  have hr : InRange l mixed 1 := by
    refine ⟨one_pos, fun i _ => ?_⟩
    simp only [mixed]
    split_ifs
    · linarith
    · simp; linarith
  have hx : Real.exp (-(2 : ℝ)) > 0 := Real.exp_pos _
  have hcol : cols l mixed 1 1 =
      (q![-2 / 3 * Real.exp (-(2 : ℝ)), 4 / 3 * Real.exp (-(2 : ℝ)), -1, 4 / 3],
       q![-1 / 2 * Real.exp (-(2 : ℝ)), 2 / 3 * Real.exp (-(2 : ℝ)), -7 / 6, 4 / 3]) := by
    simp only [cols, mixed, last]
    norm_num
    constructor
    · funext i
      simp only [up]
      norm_num [Fin.sum_univ_four]
      fin_cases i <;> simp [Dm, Xm, Fm] <;> ring
    · funext i
      simp only [up]
      norm_num [Fin.sum_univ_four]
      fin_cases i <;> simp [Dm, Xm, Fm] <;> ring
  have hdet : det0 l mixed 1 = 4 / 9 * (-1 / 2 * Real.exp (-(2 : ℝ)) ^ 2 - 9 / 4 * Real.exp (-(2 : ℝ)) - 1 / 2) := by
    have h1 : mixed.nl - 1 = 1 := rfl
    have h2 : mixed.v 0 = 1 / 4 := by simp [mixed]
    simp only [det0, h1, hcol, h2, B1]
    simp [Fin.sum_univ_four]
    ring
  have hne : det0 l mixed 1 ≠ 0 := by
    rw [hdet]
    have := sq_nonneg (Real.exp (-(2 : ℝ)))
    exact ne_of_lt (by linarith)
  refine ⟨hval, hr, hne, ?_⟩
  have hnl : 0 + 1 < mixed.nl := by decide
  have h := C68_law_fails l mixed 1 hval hr 0 hnl (by norm_num [mixed]) (by norm_num [mixed]) (by norm_num [mixed])
  intro c hcon
  have hT := h.1 hcon
  have hD : (CD l mixed 1).2 ≠ 0 := by
    have h1 : mixed.nl - 1 = 1 := rfl
    have h2 : mixed.v 0 = 1 / 4 := by simp [mixed]
    have h3 : (CD l mixed 1).2 = (-5 / 3) / det0 l mixed 1 := by
      simp only [CD, h1, hcol, h2, B1]
      generalize det0 l mixed 1 = q
      simp [Fin.sum_univ_four]
      congr 1
      ring
    rw [h3]
    exact div_ne_zero (by norm_num) hne
  have hc1 : abcd l mixed 1 1 = q![0, 0, (CD l mixed 1).1, (CD l mixed 1).2] := by
    funext j
    have h1 : mixed.nl - 1 - 1 = 0 := rfl
    have h2 : mixed.h (mixed.nl - 1) = 0 := by simp [mixed]
    simp only [abcd, h1, cols, h2, last]
    fin_cases j <;> simp
  rw [show (0 : Nat) + 1 = 1 from rfl, hc1] at hT
  generalize (CD l mixed 1).2 = d at *
  simp [buildT] at hT
  exact hD hT

/-- **C68** fails (singular system): whenever the interface of two layers of one material has
`E (1 - f) ≥ 8 (1 - v²) f`, which covers every common modulus unless the bond is nearly perfect, there is a wave number for
which the determinant is zero, so that the coefficients are not defined. -/
theorem C68_singular (l : Lim) (hl : 2 < l.maxExp) (h v E f : ℝ) (hh : 0 < h) (hv : 0 < v ∧ v ≤ 1 / 2) (hE : 0 < E)
    (hf : 0 < f ∧ f < 1) (hbig : 8 * (1 - v ^ 2) * f ≤ E * (1 - f)) :
    ∃ m, 0 < m ∧ InRange l (split h v E f) m ∧ det0 l (split h v E f) m = 0 := by
  set G := E * (1 - f) / (4 * (1 - v) * (1 + v) * f) with hG
  have hpos : 0 < 4 * (1 - v) * (1 + v) * f := by
    have : 0 < 1 - v := by linarith
    have : 0 < 1 + v := by linarith
    have := hf.1
    positivity
  have hG2 : 2 ≤ G := by
    rw [hG, le_div_iff₀ hpos]
    nlinarith
  let φ : ℝ → ℝ := fun t => G * (1 - Real.exp (-(2 * t)) * (2 * t ^ 2 - 2 * t + 1)) - 1
  have hcont : Continuous φ := by fun_prop
  have h0 : φ 0 < 0 := by simp [φ]
  have h1 : 0 < φ 1 := by
    have he : Real.exp (-(2 * 1)) < 1 / 2 := by
      have h2 : (2 : ℝ) < Real.exp (2 * 1) := by
        have := Real.add_one_lt_exp (x := 2 * 1) (by norm_num)
        linarith
      rw [Real.exp_neg, inv_eq_one_div]
      exact one_div_lt_one_div_of_lt (by norm_num) h2
    have : φ 1 = G * (1 - Real.exp (-(2 * 1))) - 1 := by simp only [φ]; ring
    rw [this]
    generalize Real.exp (-(2 * 1)) = x at *
    have h3 := mul_le_mul_of_nonneg_right hG2 (show 0 ≤ 1 - x by linarith)
    linarith
  obtain ⟨t, ⟨ht0, ht1⟩, ht⟩ := intermediate_value_Ioo (zero_le_one) hcont.continuousOn ⟨h0, h1⟩
  have hm : 0 < t / h := div_pos ht0 hh
  have hth : t / h * h = t := div_mul_cancel₀ _ hh.ne'
  refine ⟨t / h, hm, ⟨hm, ?_⟩, ?_⟩
  · intro i _
    simp only [split]
    split_ifs
    · rw [hth]; linarith
    · simp; linarith
  · rw [det_split l h v E f (t / h) (by rw [hth]; linarith) (by rw [hth]; linarith) hm.ne' (by linarith) (by linarith)
      hE.ne' hf.2.ne hf.1.ne', hth]
    simp only [φ] at ht
    rw [ht, mul_zero]

/-- Non-vacuity of `C68_singular`: a modulus of 1000 MPa, 99 % bonded. -/
example : 8 * (1 - (1 / 3 : ℝ) ^ 2) * (99 / 100) ≤ 1000 * (1 - 99 / 100) := by norm_num

/-- **C68** fails (no bond): for every accepted pavement with a frictionless interface (`f = 0`) the code divides by zero,
whatever the wave number. -/
theorem C68_no_bond (l : Lim) (p : Pav) (m : ℝ) (i : Nat) (hi : i + 1 < p.nl) (hf : p.f i = 0) : 0 ∈ divisors l p m := by
  simp only [divisors, List.mem_append, List.mem_flatMap, List.mem_range]
  refine Or.inl (Or.inr ⟨i, by omega, Or.inr ?_⟩)
  rw [if_neg (by rw [hf]; exact zero_ne_one), hf]
  simp

/-- **C68** fails (base): for every pavement whose finite last layer is bonded to its base in part there is a positive wave
number for which the code divides by zero. -/
theorem C68_base (l : Lim) (p : Pav) (hp : Valid p) (hh : 0 < p.h (p.nl - 1))
    (hf : 0 < p.f (p.nl - 1) ∧ p.f (p.nl - 1) < 1) : ∃ m, 0 < m ∧ 0 ∈ divisors l p m := by
  have hn : p.nl - 1 < p.nl := by have := hp.pos; omega
  have hv := hp.v _ hn
  have hE := hp.E _ hn
  set v := p.v (p.nl - 1)
  set E := p.E (p.nl - 1)
  set s := p.f (p.nl - 1)
  have h1 : 0 < 1 - v := by linarith
  have h2 : 0 < v + 1 := by linarith
  have h3 : 0 < 3 - 4 * v := by linarith
  have h4 : 0 < 1 - s := by linarith
  have h5 := hf.1
  refine ⟨s * (3 - 4 * v) * (v + 1) / (2 * E * (1 - s) * (1 - v)), by positivity, ?_⟩
  simp only [divisors, List.mem_append]
  refine Or.inl (Or.inl (Or.inr ?_))
  rw [if_pos hh]
  simp only [List.mem_cons, List.not_mem_nil, or_false]
  right
  change 0 = 2 * (s * (3 - 4 * v) * (v + 1) / (2 * E * (1 - s) * (1 - v))) * E * (1 - s) * (v - 1) / (v + 1) + s * (3 - 4 * v)
  field_simp
  ring

end OP.Pave
