import Verif.Pave.AbcdLemmas
import Mathlib.Analysis.SpecialFunctions.ExpDeriv
import Mathlib.Analysis.Calculus.Deriv.MeanValue
import Mathlib.Tactic.Positivity
/-!
# The energy argument

The work done by the tractions on the displacements grows with depth inside a layer, is continuous across a bonded
interface, and is negative at the top of a half space; hence no layered system has a non-zero solution without surface
tractions, and the determinant `buildabcd` divides by is not zero.
-/
namespace OP.Pave

/-- Work of the tractions on the displacements at depth `z`. -/
noncomputable def work (l : Lim) (m v E z : ℝ) (c : V4) : ℝ :=
  kvse l m v z c * kvdp l m v E z c + ksse l m v z c * krdp l m v E z c

section layer
variable (m v : ℝ) (c : V4)

noncomputable def fP (z : ℝ) : ℝ := c 3 * Real.exp (-(m * z)) + c 1 * Real.exp (m * z)
noncomputable def fN (z : ℝ) : ℝ := c 1 * Real.exp (m * z) - c 3 * Real.exp (-(m * z))
noncomputable def fS (z : ℝ) : ℝ :=
  m * (c 2 + c 3 * z) * Real.exp (-(m * z)) + m * (c 0 + c 1 * z) * Real.exp (m * z)
noncomputable def fM (z : ℝ) : ℝ :=
  m * (c 2 + c 3 * z) * Real.exp (-(m * z)) - m * (c 0 + c 1 * z) * Real.exp (m * z)

noncomputable def fW (z : ℝ) : ℝ :=
  ((1 - 2 * v) * fP m c z + fM m c z) * ((2 - 4 * v) * fN m c z - fS m c z) +
    (2 * v * fN m c z + fS m c z) * (fP m c z - fM m c z)

theorem work_eq (l : Lim) (E z : ℝ) (hz : m * z < l.maxExp) :
    work l m v E z c = fW m v c z * ((v + 1) / E) := by
  simp only [work, kvse, ksse, kvdp, krdp, buildT, gexp, if_pos hz, fW, fP, fN, fS, fM]
  simp
  ring

theorem exp_up (z : ℝ) : HasDerivAt (fun z => Real.exp (m * z)) (m * Real.exp (m * z)) z := by
  have h := ((hasDerivAt_id z).const_mul m).exp
  simpa [mul_comm] using h

theorem exp_dn (z : ℝ) : HasDerivAt (fun z => Real.exp (-(m * z))) (-m * Real.exp (-(m * z))) z := by
  have h := (((hasDerivAt_id z).const_mul m).neg).exp
  simpa [mul_comm] using h

theorem lin_d (a b z : ℝ) : HasDerivAt (fun z => m * (a + b * z)) (m * b) z := by
  have h := (((hasDerivAt_id z).const_mul b).const_add a).const_mul m
  simpa using h

theorem dP (z : ℝ) : HasDerivAt (fP m c) (m * fN m c z) z := by
  have h := ((exp_dn m z).const_mul (c 3)).add ((exp_up m z).const_mul (c 1))
  refine h.congr_deriv ?_
  simp only [fN]; ring

theorem dN (z : ℝ) : HasDerivAt (fN m c) (m * fP m c z) z := by
  have h := ((exp_up m z).const_mul (c 1)).sub ((exp_dn m z).const_mul (c 3))
  refine h.congr_deriv ?_
  simp only [fP]; ring

theorem dS (z : ℝ) : HasDerivAt (fS m c) (m * (fP m c z - fM m c z)) z := by
  have h := ((lin_d m (c 2) (c 3) z).mul (exp_dn m z)).add ((lin_d m (c 0) (c 1) z).mul (exp_up m z))
  refine h.congr_deriv ?_
  simp only [fP, fM]; ring

theorem dM (z : ℝ) : HasDerivAt (fM m c) (-m * (fS m c z + fN m c z)) z := by
  have h := ((lin_d m (c 2) (c 3) z).mul (exp_dn m z)).sub ((lin_d m (c 0) (c 1) z).mul (exp_up m z))
  refine h.congr_deriv ?_
  simp only [fS, fN]; ring

theorem dW (z : ℝ) : HasDerivAt (fW m v c)
    (2 * m * ((2 * v * fN m c z + fS m c z) ^ 2 + (fM m c z - 2 * v * fP m c z) ^ 2 + (1 - 2 * v) * fP m c z ^ 2)) z := by
  have h := ((((dP m c z).const_mul (1 - 2 * v)).add (dM m c z)).mul
      (((dN m c z).const_mul (2 - 4 * v)).sub (dS m c z))).add
    ((((dN m c z).const_mul (2 * v)).add (dS m c z)).mul ((dP m c z).sub (dM m c z)))
  refine h.congr_deriv ?_
  simp only [Pi.add_apply, Pi.sub_apply]
  ring

theorem fW_mono (hm : 0 < m) (hv : v ≤ 1 / 2) : Monotone (fW m v c) := by
  refine monotone_of_deriv_nonneg (fun z => (dW m v c z).differentiableAt) fun z => ?_
  rw [(dW m v c z).deriv]
  have : 0 ≤ (1 - 2 * v) * fP m c z ^ 2 := mul_nonneg (by linarith) (sq_nonneg _)
  positivity

/-- Where the work is stationary at two depths all coefficients vanish. -/
theorem zero_of_stationary (hm : 0 < m) (hv : v ≤ 1 / 2) (x y : ℝ) (hxy : x < y)
    (hs : ∀ z, z = x ∨ z = y → (2 * v * fN m c z + fS m c z) ^ 2 + (fM m c z - 2 * v * fP m c z) ^ 2 +
      (1 - 2 * v) * fP m c z ^ 2 = 0) : c = 0 := by
  have key : ∀ z, z = x ∨ z = y → (2 * v * fN m c z + fS m c z = 0 ∧ fM m c z - 2 * v * fP m c z = 0 ∧
      (1 - 2 * v) * fP m c z ^ 2 = 0) := by
    intro z hz
    have h := hs z hz
    have h1 := sq_nonneg (2 * v * fN m c z + fS m c z)
    have h2 := sq_nonneg (fM m c z - 2 * v * fP m c z)
    have h3 : 0 ≤ (1 - 2 * v) * fP m c z ^ 2 := mul_nonneg (by linarith) (sq_nonneg _)
    refine ⟨pow_eq_zero_iff two_ne_zero |>.1 (by linarith), pow_eq_zero_iff two_ne_zero |>.1 (by linarith), by linarith⟩
  have hpos : ∀ z, 0 < Real.exp (m * z) := fun z => Real.exp_pos _
  have hinv : ∀ z, Real.exp (m * z) * Real.exp (-(m * z)) = 1 := fun z => by
    rw [← Real.exp_add, add_neg_cancel, Real.exp_zero]
  -- In each case the coefficient of every exponential vanishes.
  have hfin : (∀ z, z = x ∨ z = y → m * (c 2 + c 3 * z) = (2 * v) * c 3 ∧ m * (c 0 + c 1 * z) = - (2 * v) * c 1) → c = 0 := by
    intro h
    obtain ⟨hx1, hx2⟩ := h x (Or.inl rfl)
    obtain ⟨hy1, hy2⟩ := h y (Or.inr rfl)
    have hd : m * (y - x) ≠ 0 := mul_ne_zero hm.ne' (by linarith)
    have c3 : c 3 = 0 := by
      have : m * (y - x) * c 3 = 0 := by linarith
      exact (mul_eq_zero.1 this).resolve_left hd
    have c1 : c 1 = 0 := by
      have : m * (y - x) * c 1 = 0 := by linarith
      exact (mul_eq_zero.1 this).resolve_left hd
    have c2 : c 2 = 0 := by
      have : m * c 2 = 0 := by rw [c3] at hx1; linarith
      exact (mul_eq_zero.1 this).resolve_left hm.ne'
    have c0 : c 0 = 0 := by
      have : m * c 0 = 0 := by rw [c1] at hx2; linarith
      exact (mul_eq_zero.1 this).resolve_left hm.ne'
    funext i
    fin_cases i <;> assumption
  apply hfin
  intro z hz
  obtain ⟨h1, h2, -⟩ := key z hz
  have e1 := hinv z
  have hp := hpos z
  have hn : 0 < Real.exp (-(m * z)) := Real.exp_pos _
  simp only [fN, fS, fM, fP] at h1 h2
  generalize Real.exp (m * z) = a at *
  generalize Real.exp (-(m * z)) = b at *
  constructor
  · have : (m * (c 2 + c 3 * z) - 2 * v * c 3) * b = 0 := by linarith
    have := (mul_eq_zero.1 this).resolve_right hn.ne'
    linarith
  · have : (m * (c 0 + c 1 * z) + 2 * v * c 1) * a = 0 := by linarith
    have := (mul_eq_zero.1 this).resolve_right hp.ne'
    linarith

theorem fW_strict (hm : 0 < m) (hv : v ≤ 1 / 2) (hc : c ≠ 0) {a b : ℝ} (hab : a < b) : fW m v c a < fW m v c b := by
  have hmono := fW_mono m v c hm hv
  refine lt_of_le_of_ne (hmono hab.le) fun heq => hc ?_
  have hconst : ∀ z, a < z → z < b → deriv (fW m v c) z = 0 := by
    intro z h1 h2
    have : fW m v c =ᶠ[nhds z] fun _ => fW m v c a := by
      filter_upwards [Ioo_mem_nhds h1 h2] with y hy
      exact le_antisymm ((hmono hy.2.le).trans heq.ge) (hmono hy.1.le)
    rw [this.deriv_eq, deriv_const]
  have hst : ∀ z, a < z → z < b → (2 * v * fN m c z + fS m c z) ^ 2 + (fM m c z - 2 * v * fP m c z) ^ 2 +
      (1 - 2 * v) * fP m c z ^ 2 = 0 := by
    intro z h1 h2
    have h := hconst z h1 h2
    rw [(dW m v c z).deriv] at h
    exact (mul_eq_zero.1 h).resolve_left (by positivity)
  refine zero_of_stationary m v c hm hv (a + (b - a) / 3) (a + 2 * (b - a) / 3) (by linarith) ?_
  rintro z (rfl | rfl)
  · exact hst _ (by linarith) (by linarith)
  · exact hst _ (by linarith) (by linarith)

theorem fW_half (h0 : c 0 = 0) (h1 : c 1 = 0) (hm : 0 < m) (hc : c ≠ 0) (hv : v ≤ 1 / 2) (z : ℝ) : fW m v c z < 0 := by
  have hn : 0 < Real.exp (-(m * z)) := Real.exp_pos _
  simp only [fW, fP, fN, fS, fM, h0, h1]
  generalize Real.exp (-(m * z)) = b at *
  have hxy : c 3 ≠ 0 ∨ c 2 + c 3 * z ≠ 0 := by
    by_contra h
    rw [not_or, not_not, not_not] at h
    refine hc ?_
    have h2 : c 2 = 0 := by have := h.2; rw [h.1] at this; linarith
    funext i
    fin_cases i
    exacts [h0, h1, h2, h.1]
  generalize hx : m * (c 2 + c 3 * z) = x
  have hxy' : c 3 ≠ 0 ∨ x ≠ 0 := hxy.imp id fun h => by rw [← hx]; exact mul_ne_zero hm.ne' h
  generalize c 3 = y at *
  have hq : 0 < 2 * x ^ 2 + (2 - 8 * v) * x * y + (2 * (1 - 2 * v) ^ 2 + 2 * v) * y ^ 2 := by
    have e : 2 * x ^ 2 + (2 - 8 * v) * x * y + (2 * (1 - 2 * v) ^ 2 + 2 * v) * y ^ 2 =
      2 * (x + (1 - 4 * v) / 2 * y) ^ 2 + (3 / 2 - 2 * v) * y ^ 2 := by ring
    rw [e]
    rcases eq_or_ne y 0 with hy | hy
    · have hx := hxy'.resolve_left (fun h => h hy)
      rw [hy]
      have : 0 < x ^ 2 := by positivity
      nlinarith
    · have h1 : 0 < y ^ 2 := by positivity
      have h2 := sq_nonneg (x + (1 - 4 * v) / 2 * y)
      nlinarith
  have hb : 0 < b ^ 2 := by positivity
  have := mul_pos hq hb
  nlinarith [this]

end layer

end OP.Pave
