import Verif.Pave.Abcd
import Mathlib.Tactic.FieldSimp
import Mathlib.Tactic.LinearCombination
import Mathlib.Tactic.Linarith
import Mathlib.Tactic.FinCases
/-!
# Algebra of the layer coefficients
-/
namespace OP.Pave

/-- The coefficients as combinations: everything is linear. -/
theorem up_lin (l : Lim) (m z v1 v2 E1 E2 f x y : ℝ) (a b : V4) :
    up l m z v1 v2 E1 E2 f (fun i => a i * x + b i * y) =
      fun i => up l m z v1 v2 E1 E2 f a i * x + up l m z v1 v2 E1 E2 f b i * y := by
  funext i
  simp only [up]
  split_ifs <;> simp only [Fin.sum_univ_four] <;> ring

section interface
variable (l : Lim) (m z v1 v2 E1 E2 f : ℝ) (c : V4)

/-- The four components of a bonded step, with the exponentials cleared. -/
theorem up_bonded (hl : 2 * (m * z) < l.maxExp) :
    let e := Real.exp (m * z)
    let K := ((1 + v2) * E1) / ((1 + v1) * E2)
    let X := Xm m z v1 v2 K
    let t3 := 1 / (4 * v1 - 4)
    up l m z v1 v2 E1 E2 1 c =
      q![(X 0 0 * c 0 + X 0 1 * c 1 + (X 0 2 * c 2 + X 0 3 * c 3) / (e * e)) * t3,
        (X 1 0 * c 0 + X 1 1 * c 1 + (X 1 2 * c 2 + X 1 3 * c 3) / (e * e)) * t3,
        ((X 2 0 * c 0 + X 2 1 * c 1) * (e * e) + (X 2 2 * c 2 + X 2 3 * c 3)) * t3,
        ((X 3 0 * c 0 + X 3 1 * c 1) * (e * e) + (X 3 2 * c 2 + X 3 3 * c 3)) * t3] := by
  intro e K X t3
  have he : e ≠ 0 := (Real.exp_pos _).ne'
  have h1 : Real.exp (-(2 * (m * z))) = 1 / (e * e) := by
    rw [Real.exp_neg, two_mul, Real.exp_add, one_div]
  have h2 : gexp l (2 * (m * z)) = e * e := by
    rw [gexp, if_pos hl, two_mul, Real.exp_add]
  funext i
  simp only [up, if_true, Fin.sum_univ_four]
  fin_cases i <;> simp [Dm, h1, h2, X, K, t3] <;> ring

/-- `buildT` without the guard. -/
theorem buildT_eq (hz : m * z < l.maxExp) (c : V4) :
    buildT l m z c = q![m * (c 2 + c 3 * z) / Real.exp (m * z), c 3 / Real.exp (m * z),
      m * (c 0 + c 1 * z) * Real.exp (m * z), Real.exp (m * z) * c 1] := by
  simp only [buildT, gexp, if_pos hz, Real.exp_neg]
  funext i
  fin_cases i <;> simp <;> ring

theorem up_continuous (hm : m ≠ 0) (hz : m * z < l.maxExp) (hz2 : 2 * (m * z) < l.maxExp) (h1 : 1 + v1 ≠ 0)
    (h1' : v1 - 1 ≠ 0) (h2 : 1 + v2 ≠ 0) (hE1 : E1 ≠ 0) (hE2 : E2 ≠ 0) :
    kvse l m v1 z (up l m z v1 v2 E1 E2 1 c) = kvse l m v2 z c ∧
    ksse l m v1 z (up l m z v1 v2 E1 E2 1 c) = ksse l m v2 z c ∧
    kvdp l m v1 E1 z (up l m z v1 v2 E1 E2 1 c) = kvdp l m v2 E2 z c ∧
    krdp l m v1 E1 z (up l m z v1 v2 E1 E2 1 c) = krdp l m v2 E2 z c := by
  have h4 : 4 * v1 - 4 ≠ 0 := fun h => h1' (by linarith)
  have he : Real.exp (m * z) ≠ 0 := (Real.exp_pos _).ne'
  rw [up_bonded l m z v1 v2 E1 E2 c hz2]
  simp only [kvse, ksse, kvdp, krdp, buildT_eq l m z hz, Xm]
  generalize Real.exp (m * z) = e at *
  generalize hc0 : c 0 = a
  generalize hc1 : c 1 = b
  generalize hc2 : c 2 = cc
  generalize hc3 : c 3 = d
  simp
  refine ⟨?_, ?_, ?_, ?_⟩
  all_goals field_simp
  all_goals ring

/-- What a partially bonded step adds to a bonded one. -/
noncomputable def slipPart (l : Lim) (m z v1 E1 f : ℝ) (c : V4) : V4 := fun i =>
  ∑ j, Dm l m z i j * (Fm m z v1 E1 f i j * c j) * (1 / (4 * v1 - 4) / f)

theorem up_split (hf : f ≠ 1) (hf0 : f ≠ 0) :
    up l m z v1 v2 E1 E2 f c = fun i => up l m z v1 v2 E1 E2 1 c i + slipPart l m z v1 E1 f c i := by
  funext i
  simp only [up, if_neg hf, if_true, slipPart, Fin.sum_univ_four]
  generalize 4 * v1 - 4 = q
  have hq : ∀ d x y w : ℝ, d * (f * x * w + y * w) * (1 / q / f) = d * (x * w) * (1 / q) + d * (y * w) * (1 / q / f) := by
    intro d x y w
    have : f * (1 / q / f) = 1 / q := by rw [mul_comm, div_mul_cancel₀ _ hf0]
    linear_combination d * x * w * this
  simp only [hq]
  ring

theorem buildT_add (a b : V4) : buildT l m z (fun i => a i + b i) = fun i => buildT l m z a i + buildT l m z b i := by
  funext i
  fin_cases i <;> simp [buildT] <;> ring

theorem slipPart_eq (hl : 2 * (m * z) < l.maxExp) (hm : m ≠ 0) (hz : m * z < l.maxExp) :
    let e := Real.exp (m * z)
    let s := E1 * (1 - f) / (1 + v1)
    let q := (1 / (4 * v1 - 4) / f) * s * ksse l m v1 z c
    slipPart l m z v1 E1 f c = q![(m * z + 2 * v1 - 1) / m / e * q, - q / e, (m * z - 2 * v1 + 1) / m * e * q, - e * q] := by
  intro e s q
  have he : e ≠ 0 := (Real.exp_pos _).ne'
  have h1 : Real.exp (-(2 * (m * z))) = 1 / (e * e) := by
    rw [Real.exp_neg, two_mul, Real.exp_add, one_div]
  have h2 : gexp l (2 * (m * z)) = e * e := by
    rw [gexp, if_pos hl, two_mul, Real.exp_add]
  simp only [q, ksse, buildT_eq l m z hz]
  change _ = q![(m * z + 2 * v1 - 1) / m / e * ((1 / (4 * v1 - 4) / f) * s * _), - ((1 / (4 * v1 - 4) / f) * s * _) / e,
    (m * z - 2 * v1 + 1) / m * e * ((1 / (4 * v1 - 4) / f) * s * _), - e * ((1 / (4 * v1 - 4) / f) * s * _)]
  funext i
  simp only [slipPart, Fin.sum_univ_four]
  generalize (1 / (4 * v1 - 4) / f) = t3
  fin_cases i <;> simp [Dm, Fm, h1, h2] <;>
    (simp only [show E1 * (1 - f) / (1 + v1) = s from rfl]
     rw [show Real.exp (m * z) = e from rfl]; generalize s = s' at *; generalize e = e' at *; field_simp; ring)

theorem slipPart_kernels (hf : f ≠ 1) (hf0 : f ≠ 0) (hm : m ≠ 0) (hz : m * z < l.maxExp) (hz2 : 2 * (m * z) < l.maxExp)
    (h1 : 1 + v1 ≠ 0) (h1' : v1 - 1 ≠ 0) (hE1 : E1 ≠ 0) :
    kvse l m v1 z (slipPart l m z v1 E1 f c) = 0 ∧ ksse l m v1 z (slipPart l m z v1 E1 f c) = 0 ∧
    kvdp l m v1 E1 z (slipPart l m z v1 E1 f c) = 0 ∧
    f * krdp l m v1 E1 z (slipPart l m z v1 E1 f c) = (1 - f) * ksse l m v1 z c := by
  have h4 : 4 * v1 - 4 ≠ 0 := fun h => h1' (by linarith)
  have he : Real.exp (m * z) ≠ 0 := (Real.exp_pos _).ne'
  rw [slipPart_eq l m z v1 E1 f c hz2 hm hz]
  generalize ksse l m v1 z c = k
  have hq : (1 / (4 * v1 - 4) / f) * (E1 * (1 - f) / (1 + v1)) * k * (4 * v1 - 4) * f * (1 + v1) = E1 * (1 - f) * k := by
    field_simp
  simp only [kvse, ksse, kvdp, krdp, buildT_eq l m z hz]
  generalize (1 / (4 * v1 - 4) / f) * (E1 * (1 - f) / (1 + v1)) * k = q at *
  generalize Real.exp (m * z) = e at *
  simp
  refine ⟨?_, ?_, ?_, ?_⟩
  · field_simp; ring
  · field_simp; ring
  · left; field_simp; ring
  · have h1c : v1 + 1 ≠ 0 := by rwa [add_comm]
    field_simp
    linear_combination hq

theorem up_slip_law (hf : f ≠ 1) (hf0 : f ≠ 0) (hm : m ≠ 0) (hz : m * z < l.maxExp) (hz2 : 2 * (m * z) < l.maxExp)
    (h1 : 1 + v1 ≠ 0) (h1' : v1 - 1 ≠ 0) (h2 : 1 + v2 ≠ 0) (hE1 : E1 ≠ 0) (hE2 : E2 ≠ 0) :
    kvse l m v1 z (up l m z v1 v2 E1 E2 f c) = kvse l m v2 z c ∧
    ksse l m v1 z (up l m z v1 v2 E1 E2 f c) = ksse l m v2 z c ∧
    kvdp l m v1 E1 z (up l m z v1 v2 E1 E2 f c) = kvdp l m v2 E2 z c ∧
    f * (krdp l m v1 E1 z (up l m z v1 v2 E1 E2 f c) - krdp l m v2 E2 z c) = (1 - f) * ksse l m v1 z c := by
  obtain ⟨a1, a2, a3, a4⟩ := up_continuous l m z v1 v2 E1 E2 c hm hz hz2 h1 h1' h2 hE1 hE2
  obtain ⟨b1, b2, b3, b4⟩ := slipPart_kernels l m z v1 E1 f c hf hf0 hm hz hz2 h1 h1' hE1
  rw [up_split l m z v1 v2 E1 E2 f c hf hf0]
  have k1 : ∀ a b : V4, kvse l m v1 z (fun i => a i + b i) = kvse l m v1 z a + kvse l m v1 z b := by
    intro a b; simp only [kvse, buildT_add]; ring
  have k2 : ∀ a b : V4, ksse l m v1 z (fun i => a i + b i) = ksse l m v1 z a + ksse l m v1 z b := by
    intro a b; simp only [ksse, buildT_add]; ring
  have k3 : ∀ a b : V4, kvdp l m v1 E1 z (fun i => a i + b i) = kvdp l m v1 E1 z a + kvdp l m v1 E1 z b := by
    intro a b; simp only [kvdp, buildT_add]; ring
  have k4 : ∀ a b : V4, krdp l m v1 E1 z (fun i => a i + b i) = krdp l m v1 E1 z a + krdp l m v1 E1 z b := by
    intro a b; simp only [krdp, buildT_add]; ring
  refine ⟨by rw [k1, b1, a1, add_zero], by rw [k2, b2, a2, add_zero], by rw [k3, b3, a3, add_zero], ?_⟩
  rw [k4, a4, ← b4]
  ring

end interface

end OP.Pave
