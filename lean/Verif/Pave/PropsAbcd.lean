import Verif.Pave.AbcdSol
import Mathlib.Analysis.SpecialFunctions.Exp
/-!
# C48: the layer coefficients solve the boundary value problem
-/
namespace OP.Pave
open Filter Topology

/-- **C48**, no division by zero: for every valid bonded pavement, of any number of layers, and every wave number in range
everything `buildabcd` divides by is different from zero.  Missing for the full property: wave numbers for which the
exponential is cut off at an interface. -/
theorem C48_defined_partial (l : Lim) (p : Pav) (m : ℝ) (hp : Valid p) (hb : Bonded p) (hr : InRange l p m) :
    ∀ d ∈ divisors l p m, d ≠ 0 := by
  have hn : p.nl - 1 < p.nl := by have := hp.pos; omega
  intro d hd
  simp only [divisors, List.mem_append, List.mem_flatMap, List.mem_range] at hd
  rcases hd with ((hd | hd) | ⟨i, hi, hd⟩) | hd
  · rw [List.mem_singleton.1 hd]; exact hr.pos.ne'
  · split_ifs at hd with h
    · have hv := hp.v _ hn
      simp only [List.mem_cons, List.not_mem_nil, or_false] at hd
      rcases hd with rfl | rfl
      · linarith
      · exact base_div m _ _ _ hr.pos (hp.E _ hn) hv (hb.base.resolve_left h.ne')
    · exact absurd hd List.not_mem_nil
  · have hv := hp.v i (by omega)
    rw [if_pos (hb.f i (by omega))] at hd
    simp only [List.mem_cons, List.not_mem_nil, or_false] at hd
    rcases hd with rfl | rfl
    · exact mul_ne_zero (by linarith) (hp.E (i + 1) (by omega)).ne'
    · linarith
  · simp only [List.mem_cons, List.not_mem_nil, or_false] at hd
    rcases hd with rfl | rfl
    · exact mul_ne_zero hr.pos.ne' hr.pos.ne'
    · exact det_ne l p m hp hb hr

/-- **C48**, solution: the coefficients give no shear and the unit pressure (in Hankel space `1/m²`) at the surface,
continuous stresses and displacements at every interface, and the condition at the base.  Missing as in
`C48_defined_partial`. -/
theorem C48_solution_partial (l : Lim) (p : Pav) (m : ℝ) (hp : Valid p) (hb : Bonded p) (hr : InRange l p m) :
    Solves l p m (1 / (m * m)) (abcd l p m) := by
  have hm := hr.pos
  have hd := det_ne l p m hp hb hr
  have hc : ∀ i, abcd l p m i = fun j => (cols l p m (p.nl - 1 - i)).1 j * (CD l p m).1 +
      (cols l p m (p.nl - 1 - i)).2 j * (CD l p m).2 := by
    intro i
    funext j
    simp only [abcd, if_neg (not_le.2 hm)]
  obtain ⟨hi, hba⟩ := cols_conditions l p m _ _ hp hb hr _ hc
  obtain ⟨s1, s2⟩ := B1_surface l m (p.v 0) (hr.max_pos hp) (abcd l p m 0)
  have hsum : ∀ k, ∑ i, B1 m (p.v 0) k i * abcd l p m 0 i =
      (∑ i, B1 m (p.v 0) k i * (cols l p m (p.nl - 1)).1 i) * (CD l p m).1 +
      (∑ i, B1 m (p.v 0) k i * (cols l p m (p.nl - 1)).2 i) * (CD l p m).2 := by
    intro k
    rw [hc 0]
    simp only [Nat.sub_zero, Fin.sum_univ_four]
    ring
  refine ⟨?_, ?_, hi, hba⟩
  · rw [← s1, hsum]
    simp only [CD]
    ring
  · have h : -kvse l m (p.v 0) 0 (abcd l p m 0) = 1 / (m * m) := by
      rw [← s2, hsum]
      simp only [CD]
      have hd' := hd
      simp only [det0] at hd' ⊢
      generalize (∑ i, B1 m (p.v 0) 0 i * (cols l p m (p.nl - 1)).1 i) = a at *
      generalize (∑ i, B1 m (p.v 0) 0 i * (cols l p m (p.nl - 1)).2 i) = b at *
      generalize (∑ i, B1 m (p.v 0) 1 i * (cols l p m (p.nl - 1)).1 i) = cc at *
      generalize (∑ i, B1 m (p.v 0) 1 i * (cols l p m (p.nl - 1)).2 i) = d at *
      have e : ∀ q, cc * (-(b / (m * m)) / q) + d * ((a / (m * m)) / q) = ((a * d - b * cc) / q) / (m * m) := by
        intro q
        ring
      rw [e, div_self hd']
    linarith

/-- **C48**, uniqueness: no other coefficients satisfy these conditions. -/
theorem C48_unique_partial (l : Lim) (p : Pav) (m : ℝ) (hp : Valid p) (hb : Bonded p) (hr : InRange l p m)
    (c : Nat → V4) (hc : Solves l p m (1 / (m * m)) c) : ∀ i, i < p.nl → c i = abcd l p m i := by
  have ha := C48_solution_partial l p m hp hb hr
  let g : Nat → V4 := fun i j => c i j * 1 + abcd l p m i j * (-1)
  have hk : ∀ i z, kvse l m (p.v i) z (g i) = kvse l m (p.v i) z (c i) * 1 + kvse l m (p.v i) z (abcd l p m i) * (-1) :=
    fun i z => (kernels_lin l m (p.v i) (p.E i) z 1 (-1) (c i) (abcd l p m i)).1
  have hk2 : ∀ i z, ksse l m (p.v i) z (g i) = ksse l m (p.v i) z (c i) * 1 + ksse l m (p.v i) z (abcd l p m i) * (-1) :=
    fun i z => (kernels_lin l m (p.v i) (p.E i) z 1 (-1) (c i) (abcd l p m i)).2.1
  have hk3 : ∀ i z, kvdp l m (p.v i) (p.E i) z (g i) = kvdp l m (p.v i) (p.E i) z (c i) * 1 +
      kvdp l m (p.v i) (p.E i) z (abcd l p m i) * (-1) :=
    fun i z => (kernels_lin l m (p.v i) (p.E i) z 1 (-1) (c i) (abcd l p m i)).2.2.1
  have hk4 : ∀ i z, krdp l m (p.v i) (p.E i) z (g i) = krdp l m (p.v i) (p.E i) z (c i) * 1 +
      krdp l m (p.v i) (p.E i) z (abcd l p m i) * (-1) :=
    fun i z => (kernels_lin l m (p.v i) (p.E i) z 1 (-1) (c i) (abcd l p m i)).2.2.2
  have hg : Solves l p m 0 g := by
    refine ⟨?_, ?_, fun i hi => ?_, ?_⟩
    · rw [hk2, hc.shear, ha.shear]; ring
    · rw [hk, hc.press, ha.press]; ring
    · obtain ⟨c1, c2, c3, c4⟩ := hc.inter i hi
      obtain ⟨a1, a2, a3, a4⟩ := ha.inter i hi
      refine ⟨?_, ?_, ?_, ?_⟩
      · rw [hk, hk, c1, a1]
      · rw [hk2, hk2, c2, a2]
      · rw [hk3, hk3, c3, a3]
      · rw [hk4, hk4, c4, a4]
    · intro n
      have hcb := hc.base
      have hab := ha.base
      simp only at hcb hab
      split_ifs at hcb hab with h
      · rw [if_pos h, hk2, hk3, hk4]
        refine ⟨by rw [hcb.1, hab.1]; ring, by linear_combination hcb.2 - hab.2⟩
      · rw [if_neg h]
        simp only [g, n, hcb.1, hcb.2, hab.1, hab.2]
        norm_num
  intro i hi
  have h0 := solves_zero l p m hp hb hr g hg i hi
  funext j
  have := congrFun h0 j
  simp only [g, Pi.zero_apply] at this
  linarith

/-- **C48**, decay: in an infinite last layer the stresses and displacements vanish with depth, for every positive wave
number. -/
theorem C48_decay (l : Lim) (p : Pav) (m : ℝ) (hm : 0 < m) (hh : p.h (p.nl - 1) = 0) (v E : ℝ) :
    let c := abcd l p m (p.nl - 1)
    Tendsto (fun z => kvse l m v z c) atTop (𝓝 0) ∧ Tendsto (fun z => ksse l m v z c) atTop (𝓝 0) ∧
    Tendsto (fun z => kvdp l m v E z c) atTop (𝓝 0) ∧ Tendsto (fun z => krdp l m v E z c) atTop (𝓝 0) := by
  intro c
  have hc : c 0 = 0 ∧ c 1 = 0 := by
    simp only [c, abcd, Nat.sub_self, cols, hh, last, gt_iff_lt, lt_irrefl, if_false]
    simp
  have h1 : Tendsto (fun z : ℝ => Real.exp (-(m * z))) atTop (𝓝 0) :=
    Real.tendsto_exp_neg_atTop_nhds_zero.comp (tendsto_id.const_mul_atTop hm)
  have h2 : Tendsto (fun z : ℝ => m * z * Real.exp (-(m * z))) atTop (𝓝 0) := by
    have h := (Real.tendsto_pow_mul_exp_neg_atTop_nhds_zero 1).comp (tendsto_id.const_mul_atTop hm)
    simpa [Function.comp_def] using h
  have key : ∀ a b : ℝ, Tendsto (fun z : ℝ => a * Real.exp (-(m * z)) + b * (m * z * Real.exp (-(m * z)))) atTop (𝓝 0) := by
    intro a b
    have := (h1.const_mul a).add (h2.const_mul b)
    simpa using this
  refine ⟨?_, ?_, ?_, ?_⟩
  · refine (key ((1 - 2 * v) * c 3 + m * c 2) (c 3)).congr fun z => ?_
    simp [kvse, buildT, hc.1, hc.2]; ring
  · refine (key (-(2 * v) * c 3 + m * c 2) (c 3)).congr fun z => ?_
    simp [ksse, buildT, hc.1, hc.2]; ring
  · refine (key ((-(2 - 4 * v) * c 3 - m * c 2) * ((v + 1) / E)) (-c 3 * ((v + 1) / E))).congr fun z => ?_
    simp [kvdp, buildT, hc.1, hc.2]; ring
  · refine (key ((c 3 - m * c 2) * ((v + 1) / E)) (-c 3 * ((v + 1) / E))).congr fun z => ?_
    simp [krdp, buildT, hc.1, hc.2]; ring

/-- **C48**: a wave number that is not positive gives no response. -/
theorem C48_nonpositive (l : Lim) (p : Pav) (m : ℝ) (hm : m ≤ 0) (i : Nat) : abcd l p m i = 0 := by
  funext j
  simp [abcd, hm]

/-- A stiff layer of thickness 1 on a half space. -/
noncomputable def demoPav : Pav :=
  ⟨2, fun i => if i = 0 then 1 else 0, fun _ => 1 / 3, fun i => if i = 0 then 1000 else 100, fun _ => 1⟩

/-- Non-vacuity: the hypotheses hold for two bonded layers and the exponential limit of doubles. -/
example : Valid demoPav ∧ Bonded demoPav ∧ InRange ⟨709, 10 ^ 308⟩ demoPav 3 := by
  refine ⟨⟨by decide, ?_, ?_, ?_, ?_⟩, ⟨fun _ _ => rfl, Or.inr (Or.inl rfl)⟩, ⟨by norm_num, ?_⟩⟩
  · intro i _; simp only [demoPav]; split_ifs <;> norm_num
  · intro i _; simp only [demoPav]; norm_num
  · intro i hi
    have : i = 0 := by simp only [demoPav] at hi; omega
    subst this
    simp [top, demoPav]
  · left; simp [demoPav]
  · intro i _; simp only [demoPav]; split_ifs <;> norm_num

/-- Non-vacuity: two finite layers on a rigid base. -/
example : Valid ⟨2, fun i => (i : ℝ) + 1, fun _ => 1 / 2, fun _ => 5, fun _ => 1⟩ ∧
    Bonded ⟨2, fun i => (i : ℝ) + 1, fun _ => 1 / 2, fun _ => 5, fun _ => 1⟩ ∧
    InRange ⟨709, 10 ^ 308⟩ ⟨2, fun i => (i : ℝ) + 1, fun _ => 1 / 2, fun _ => 5, fun _ => 1⟩ 3 := by
  refine ⟨⟨by norm_num, ?_, ?_, ?_, ?_⟩, ⟨fun _ _ => rfl, Or.inr (Or.inl rfl)⟩, ⟨by norm_num, ?_⟩⟩
  · intro i _; norm_num
  · intro i _; norm_num
  · intro i hi
    have : i = 0 := by simp only at hi; omega
    subst this
    simp [top]
  · right; simp [top]
  · intro i hi
    have : i = 0 ∨ i = 1 := by simp only at hi; omega
    rcases this with rfl | rfl <;> norm_num

end OP.Pave
