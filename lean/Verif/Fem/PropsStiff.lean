import Verif.Fem.Stiff
import Verif.Fem.PropsElem
import Mathlib.Tactic.FinCases
import Mathlib.Tactic.FieldSimp
import Mathlib.Tactic.LinearCombination
import Mathlib.Tactic.Positivity
import Mathlib.LinearAlgebra.Matrix.Determinant.Basic
import Mathlib.LinearAlgebra.Matrix.NonsingularInverse
import Mathlib.LinearAlgebra.Matrix.ToLinearEquiv
import Mathlib.Algebra.BigOperators.Intervals
import Mathlib.Data.Rat.Cast.Order
/-!
# C86: stiffness of an element
-/
namespace OP.Fem
variable {K : Type} [Field K] [LinearOrder K] [IsStrictOrderedRing K]

/-! ## Specification -/

/-- Hooke's law of an isotropic material, with Lamé's constants. -/
def Hooke (la mu : K) (e : Blk K) : Blk K := fun i j =>
  la * (e 0 0 + e 1 1 + e 2 2) * (if i = j then 1 else 0) + mu * (e i j + e j i)

/-- The gradient of the displacements `u` of the nodes, with the derivatives `D` of the shape functions. -/
def grad (nnd : Nat) (D u : Nat → Fin 3 → K) : Blk K := fun a b => ∑ k ∈ Finset.range nnd, D k a * u k b

/-- The strain. -/
def sym (G : Blk K) : Blk K := fun a b => (G a b + G b a) / 2

/-- The whole of a matrix of which one half is stored. -/
def whole (A : Nat → Nat → Blk K) (i j : Nat) : Blk K := fun a b => if i ≤ j then A i j a b else A j i b a

/-- The force on node `i` in direction `a` for the displacements `u`. -/
def force (nnd : Nat) (A : Nat → Nat → Blk K) (u : Nat → Fin 3 → K) (i : Nat) (a : Fin 3) : K :=
  ∑ j ∈ Finset.range nnd, ∑ b, whole A i j a b * u j b

/-- Twice the energy. -/
def energy (nnd : Nat) (A : Nat → Nat → Blk K) (u : Nat → Fin 3 → K) : K :=
  ∑ i ∈ Finset.range nnd, ∑ a, u i a * force nnd A u i a

/-- Displacements that vary linearly with the position. -/
def uniform (xe : Nat → Fin 3 → K) (t : Fin 3 → K) (G : Blk K) : Nat → Fin 3 → K :=
  fun k b => t b + ∑ a, xe k a * G a b

/-! ## Material -/

/-- C86: the stress is that of Hooke's law, and is what the stiffness tensor gives. -/
theorem C86_stress (emod v : K) (e : Blk K) :
    pointstress emod v e = Hooke (lame emod v) (shear emod v) e ∧
    ∀ i j, pointstress emod v e i j = ∑ k, ∑ l, pointstiffness emod v i k j l * e k l := by
  have h : ∀ i j, pointstress emod v e i j = ∑ k, ∑ l, pointstiffness emod v i k j l * e k l := by
    intro i j
    simp only [pointstress, pointstiffness, List.finRange_succ, List.finRange_zero, List.map_nil, List.map_cons,
      List.foldl_cons, List.foldl_nil, Fin.sum_univ_three]
    simp
    ring
  refine ⟨?_, h⟩
  funext i j
  rw [h]
  fin_cases i <;> fin_cases j <;>
    simp [Fin.sum_univ_three, pointstiffness, tens, delta, Hooke] <;> ring

/-- C86: with Young's modulus and Poisson's ratio the usual relation of strain to stress holds. -/
theorem C86_law {emod v : K} (hE : emod ≠ 0) (h1 : 1 + v ≠ 0) (h2 : 1 - 2 * v ≠ 0) {e : Blk K} (hs : ∀ i j, e i j = e j i) :
    let s := pointstress emod v e
    ∀ i j, e i j = ((1 + v) * s i j - v * (s 0 0 + s 1 1 + s 2 2) * (if i = j then 1 else 0)) / emod := by
  intro s i j
  have hsd : s = Hooke (lame emod v) (shear emod v) e := (C86_stress emod v e).1
  rw [hsd]
  have hm : shear emod v * 2 * (1 + v) = emod := by unfold shear; field_simp
  have hl : lame emod v * (1 - 2 * v) = 2 * v * shear emod v := by
    unfold lame shear
    rw [div_mul_cancel₀ _ h2]; field_simp
  simp only [Hooke, if_true]
  rw [hs j i, eq_div_iff hE]
  split_ifs with hij
  · linear_combination (-e i j) * hm - (e 0 0 + e 1 1 + e 2 2) * hl
  · linear_combination (-e i j) * hm

/-! ## Elimination -/

theorem filter_0 : (List.finRange 3).filter (fun k => (0 : Fin 3) < k) = [1, 2] := by decide
theorem filter_1 : (List.finRange 3).filter (fun k => (1 : Fin 3) < k) = [2] := by decide
theorem filter_2 : (List.finRange 3).filter (fun k => (2 : Fin 3) < k) = [] := by decide

/-- The elimination written out. -/
theorem gauss_form (eps : K) (J : Blk K) (B : Nat → Fin 3 → K) :
    invMulGauss eps J B =
      let t1 := J 1 0 / J 0 0
      let t2 := J 2 0 / J 0 0
      let q11 := J 1 1 - t1 * J 0 1
      let q12 := J 1 2 - t1 * J 0 2
      let t3 := (J 2 1 - t2 * J 0 1) / q11
      let r := J 2 2 - t2 * J 0 2 - t3 * q12
      let z2 := fun n => (B n 2 - t2 * B n 0 - t3 * (B n 1 - t1 * B n 0)) / r
      let z1 := fun n => (B n 1 - t1 * B n 0 - q12 * z2 n) / q11
      if |J 0 0| < eps then .throw else if |q11| < eps then .throw else if |r| < eps then .throw
      else .ok (1 * J 0 0 * q11 * r, fun n => ![(B n 0 - J 0 1 * z1 n - J 0 2 * z2 n) / J 0 0, z1 n, z2 n]) := by
  simp only [invMulGauss, elimStep, filter_0, filter_1, filter_2, List.foldl_cons, List.foldl_nil]
  by_cases c0 : |J 0 0| < eps
  · simp only [c0, if_true]; rfl
  · simp only [c0, if_false, Res.ok_bind]
    by_cases c1 : |J 1 1 - J 1 0 / J 0 0 * J 0 1| < eps
    · simp [c1, elimRow]
    · simp [c1, elimRow]
      by_cases c2 : |J 2 2 - J 2 0 / J 0 0 * J 0 2 - (J 2 1 - J 2 0 / J 0 0 * J 0 1) / (J 1 1 - J 1 0 / J 0 0 * J 0 1) *
        (J 1 2 - J 1 0 / J 0 0 * J 0 2)| < eps
      · simp [c2]
      · simp [c2]
        funext n a
        fin_cases a <;> simp [backRow, filter_0, filter_1, filter_2]

/-- One right hand side. -/
theorem gauss_scalar {a00 a01 a02 a10 a11 a12 a20 a21 a22 : K} (n0 : a00 ≠ 0) (b0 b1 b2 : K)
    (n1 : a11 - a10 / a00 * a01 ≠ 0)
    (n2 : a22 - a20 / a00 * a02 - (a21 - a20 / a00 * a01) / (a11 - a10 / a00 * a01) * (a12 - a10 / a00 * a02) ≠ 0) :
    let t1 := a10 / a00
    let t2 := a20 / a00
    let q11 := a11 - t1 * a01
    let q12 := a12 - t1 * a02
    let t3 := (a21 - t2 * a01) / q11
    let r := a22 - t2 * a02 - t3 * q12
    let z2 := (b2 - t2 * b0 - t3 * (b1 - t1 * b0)) / r
    let z1 := (b1 - t1 * b0 - q12 * z2) / q11
    let z0 := (b0 - a01 * z1 - a02 * z2) / a00
    a00 * z0 + a01 * z1 + a02 * z2 = b0 ∧ a10 * z0 + a11 * z1 + a12 * z2 = b1 ∧ a20 * z0 + a21 * z1 + a22 * z2 = b2 := by
  intro t1 t2 q11 q12 t3 r z2 z1 z0
  have f1 : t1 * a00 = a10 := div_mul_cancel₀ _ n0
  have f2 : t2 * a00 = a20 := div_mul_cancel₀ _ n0
  have e1 : t3 * q11 = a21 - t2 * a01 := div_mul_cancel₀ _ n1
  have g2 : z2 * r = b2 - t2 * b0 - t3 * (b1 - t1 * b0) := div_mul_cancel₀ _ n2
  have g1 : z1 * q11 = b1 - t1 * b0 - q12 * z2 := div_mul_cancel₀ _ n1
  have g0 : z0 * a00 = b0 - a01 * z1 - a02 * z2 := div_mul_cancel₀ _ n0
  have hr : r = a22 - t2 * a02 - t3 * q12 := rfl
  have hq : q11 = a11 - t1 * a01 := rfl
  have hq' : q12 = a12 - t1 * a02 := rfl
  clear_value z0 z1 z2 r t3 q11 q12 t1 t2
  refine ⟨by linear_combination g0, ?_, ?_⟩
  · rw [← f1]; rw [hq, hq'] at g1; linear_combination t1 * g0 + g1
  · rw [← f2]; rw [hr, hq'] at g2; rw [hq] at e1; rw [hq, hq'] at g1
    linear_combination t2 * g0 + t3 * g1 + g2 - z1 * e1

/-- C86: if the elimination returns, it returns the determinant and the solutions of the systems. -/
theorem C86_solve {eps : K} (he : 0 < eps) {J : Blk K} {B : Nat → Fin 3 → K} {d : K} {D : Nat → Fin 3 → K}
    (h : invMulGauss eps J B = .ok (d, D)) :
    d = Matrix.det (Matrix.of J) ∧ d ≠ 0 ∧ ∀ n a, ∑ b, J a b * D n b = B n a := by
  rw [gauss_form] at h
  dsimp only at h
  split_ifs at h with c0 c1 c2
  have np : ∀ x : K, ¬ |x| < eps → x ≠ 0 := by rintro x hx rfl; rw [abs_zero] at hx; exact hx he
  have n0 := np _ c0; have n1 := np _ c1; have n2 := np _ c2
  obtain ⟨rfl, rfl⟩ := Prod.mk.inj (Res.ok.inj h)
  clear h c0 c1 c2
  refine ⟨?_, ?_, ?_⟩
  · have e1 : (J 2 1 - J 2 0 / J 0 0 * J 0 1) / (J 1 1 - J 1 0 / J 0 0 * J 0 1) * (J 1 1 - J 1 0 / J 0 0 * J 0 1) =
      J 2 1 - J 2 0 / J 0 0 * J 0 1 := div_mul_cancel₀ _ n1
    generalize (J 2 1 - J 2 0 / J 0 0 * J 0 1) / (J 1 1 - J 1 0 / J 0 0 * J 0 1) = t3 at *
    have f1 : J 1 0 / J 0 0 * J 0 0 = J 1 0 := div_mul_cancel₀ _ n0
    have f2 : J 2 0 / J 0 0 * J 0 0 = J 2 0 := div_mul_cancel₀ _ n0
    generalize J 1 0 / J 0 0 = t1 at *
    generalize J 2 0 / J 0 0 = t2 at *
    rw [Matrix.det_fin_three]
    simp only [Matrix.of_apply]
    rw [← f1, ← f2]
    linear_combination (-(J 0 0) * (J 1 2 - t1 * J 0 2)) * e1
  · rw [one_mul]; exact mul_ne_zero (mul_ne_zero n0 n1) n2
  · intro n a
    obtain ⟨g0, g1, g2⟩ := gauss_scalar n0 (B n 0) (B n 1) (B n 2) n1 n2
    rw [Fin.sum_univ_three]
    fin_cases a
    · exact g0
    · exact g1
    · exact g2

/-- C86, the code: a first pivot of zero is taken for a singular matrix, whatever the determinant. -/
theorem C86_pivot_wrong {eps : K} (he : 0 < eps) {J : Blk K} (h : J 0 0 = 0) (B : Nat → Fin 3 → K) :
    invMulGauss eps J B = .throw := by
  rw [gauss_form]
  dsimp only
  rw [if_pos (by rw [h, abs_zero]; exact he)]

/-- C86: the matrices of boxes with sides along the axes are not rejected, unless a side is very short. -/
theorem C86_box {eps : K} {J : Blk K} (hd : ∀ i j, i ≠ j → J i j = 0) (h : ∀ i, eps ≤ |J i i|) (B : Nat → Fin 3 → K) :
    invMulGauss eps J B = .ok (J 0 0 * J 1 1 * J 2 2, fun n => ![B n 0 / J 0 0, B n 1 / J 1 1, B n 2 / J 2 2]) := by
  rw [gauss_form]
  dsimp only
  rw [hd 1 0 (by decide), hd 2 0 (by decide), hd 2 1 (by decide), hd 0 1 (by decide), hd 0 2 (by decide), hd 1 2 (by decide)]
  simp only [zero_div, zero_mul, mul_zero, sub_zero]
  rw [if_neg (not_lt.2 (h 0)), if_neg (not_lt.2 (h 1)), if_neg (not_lt.2 (h 2)), one_mul]

/-! ## Points -/

theorem foldl_add (n : Nat) (f : Nat → K) (z : K) : (List.range n).foldl (fun s k => s + f k) z = z + ∑ k ∈ Finset.range n, f k := by
  induction n with
  | zero => simp
  | succ n ih => rw [List.range_succ, List.foldl_append, ih, Finset.sum_range_succ]; simp [add_assoc]

theorem jacobian_eq (nnd : Nat) (dM xe : Nat → Fin 3 → K) (i j : Fin 3) : jacobian nnd dM xe i j = grad nnd dM xe i j := by
  simp only [jacobian, grad, foldl_add, zero_add]

/-- A Gauss point with the weight and the derivatives used there. -/
def PtOf (nnd : Nat) (xe : Nat → Fin 3 → K) (g : Gp K) (p : K × (Nat → Fin 3 → K)) : Prop :=
  0 < p.1 ∧ (∃ d, p.1 = g.w * (d * g.fac) ∧ d = Matrix.det (Matrix.of (grad nnd g.dM xe)) ∧ d ≠ 0) ∧
    ∀ n a, ∑ b, grad nnd g.dM xe a b * p.2 n b = g.dN n a

/-- The stiffness that a point adds. -/
def ptK (emod v : K) (p : K × (Nat → Fin 3 → K)) (i j : Nat) : Blk K := fun a b =>
  ∑ k, ∑ l, tens (lame emod v) (shear emod v) k a l b * (p.2 i k * p.2 j l * p.1)

theorem addGp_ok {eps : K} (he : 0 < eps) {nnd : Nat} {emod v : K} {xe : Nat → Fin 3 → K} {A A' : Nat → Nat → Blk K} {g : Gp K}
    (h : addGp eps nnd emod v xe A g = .ok A') :
    ∃ p, PtOf nnd xe g p ∧ invMulGauss eps (jacobian nnd g.dM xe) g.dN = .ok (Matrix.det (Matrix.of (grad nnd g.dM xe)), p.2) ∧
      ∀ i j, i ≤ j → j < nnd → ∀ a b, A' i j a b = A i j a b + ptK emod v p i j a b := by
  unfold addGp at h
  rw [Res.bind_eq_ok] at h
  obtain ⟨⟨d, D⟩, h1, h2⟩ := h
  dsimp only at h2
  obtain ⟨e1, e2, e3⟩ := C86_solve he h1
  have ej : jacobian nnd g.dM xe = grad nnd g.dM xe := by funext i j; exact jacobian_eq _ _ _ _ _
  split_ifs at h2 with hw
  obtain rfl := Res.ok.inj h2
  refine ⟨(g.w * (d * g.fac), D), ⟨not_le.1 hw, ⟨d, rfl, by rw [e1, ej], e2⟩, fun n a => ?_⟩, ?_, ?_⟩
  · rw [← e3 n a, ej]
  · rw [h1, e1, ej]
  · intro i j hij hj a b
    dsimp only
    rw [if_pos ⟨hij, hj⟩]
    simp only [List.finRange_succ, List.finRange_zero, List.map_nil, List.map_cons, List.foldl_cons, List.foldl_nil, ptK,
      Fin.sum_univ_three, pointstiffness]
    simp
    ring

theorem buildKe_ok {eps : K} (he : 0 < eps) {nnd : Nat} {emod v : K} {xe : Nat → Fin 3 → K} {gps : List (Gp K)}
    {A : Nat → Nat → Blk K} (h : buildKe eps nnd emod v xe gps = .ok A) :
    ∃ pts, List.Forall₂ (fun g p => PtOf nnd xe g p ∧
        invMulGauss eps (jacobian nnd g.dM xe) g.dN = .ok (Matrix.det (Matrix.of (grad nnd g.dM xe)), p.2)) gps pts ∧
      ∀ i j, i ≤ j → j < nnd → ∀ a b, A i j a b = (pts.map fun p => ptK emod v p i j a b).sum := by
  unfold buildKe at h
  have key : ∀ (gps : List (Gp K)) (R : Res (Nat → Nat → Blk K)) (A : Nat → Nat → Blk K),
      gps.foldl (fun A g => A >>= fun A => addGp eps nnd emod v xe A g) R = .ok A →
      ∃ A0, R = .ok A0 ∧ ∃ pts, List.Forall₂ (fun g p => PtOf nnd xe g p ∧
        invMulGauss eps (jacobian nnd g.dM xe) g.dN = .ok (Matrix.det (Matrix.of (grad nnd g.dM xe)), p.2)) gps pts ∧
      ∀ i j, i ≤ j → j < nnd → ∀ a b, A i j a b = A0 i j a b + (pts.map fun p => ptK emod v p i j a b).sum := by
    intro gps
    induction gps with
    | nil =>
      intro R A h
      exact ⟨A, h, [], .nil, fun i j _ _ a b => by simp⟩
    | cons g gps ih =>
      intro R A h
      obtain ⟨A1, h1, pts, hp, hA⟩ := ih _ _ h
      rw [Res.bind_eq_ok] at h1
      obtain ⟨A0, h0, h1⟩ := h1
      obtain ⟨p, hp1, hp2, hp3⟩ := addGp_ok he h1
      refine ⟨A0, h0, p :: pts, .cons ⟨hp1, hp2⟩ hp, fun i j hij hj a b => ?_⟩
      rw [hA i j hij hj, hp3 i j hij hj, List.map_cons, List.sum_cons, add_assoc]
  obtain ⟨A0, h0, pts, hp, hA⟩ := key _ _ _ h
  obtain rfl := Res.ok.inj h0
  exact ⟨pts, hp, fun i j hij hj a b => by rw [hA i j hij hj, zero_add]⟩

theorem tens_symm (la mu : K) (k a l b : Fin 3) : tens la mu k a l b = tens la mu l b k a := by
  unfold tens delta
  simp only [eq_comm (a := l) (b := k), eq_comm (a := b) (b := a), eq_comm (a := l) (b := a), eq_comm (a := b) (b := k)]
  ring

theorem ptK_symm (emod v : K) (p : K × (Nat → Fin 3 → K)) (i j : Nat) (a b : Fin 3) :
    ptK emod v p i j a b = ptK emod v p j i b a := by
  unfold ptK
  rw [Finset.sum_comm]
  refine Finset.sum_congr rfl fun k _ => Finset.sum_congr rfl fun l _ => ?_
  rw [tens_symm, mul_comm (p.2 i l)]

theorem whole_ok {nnd : Nat} {emod v : K} {A : Nat → Nat → Blk K} {pts : List (K × (Nat → Fin 3 → K))}
    (hA : ∀ i j, i ≤ j → j < nnd → ∀ a b, A i j a b = (pts.map fun p => ptK emod v p i j a b).sum) {i j : Nat}
    (hi : i < nnd) (hj : j < nnd) (a b : Fin 3) : whole A i j a b = (pts.map fun p => ptK emod v p i j a b).sum := by
  unfold whole
  split_ifs with h
  · exact hA i j h hj a b
  · rw [hA j i (by omega) hi b a]
    congr 1
    exact List.map_congr_left fun p _ => ptK_symm _ _ _ _ _ _ _

theorem list_sum_mul {α : Type} (l : List α) (f : α → K) (c : K) : (l.map f).sum * c = (l.map fun x => f x * c).sum := by
  induction l with
  | nil => simp
  | cons x l ih => simp [add_mul, ih]

theorem list_sum_swap {α ι : Type} (l : List α) (s : Finset ι) (f : ι → α → K) :
    ∑ i ∈ s, (l.map (f i)).sum = (l.map fun x => ∑ i ∈ s, f i x).sum := by
  induction l with
  | nil => simp
  | cons x l ih => simp [Finset.sum_add_distrib, ih]

/-- What a point adds to the force. -/
theorem pt_force (emod v : K) (p : K × (Nat → Fin 3 → K)) (nnd : Nat) (u : Nat → Fin 3 → K) (i : Nat) (a : Fin 3) :
    ∑ j ∈ Finset.range nnd, ∑ b, ptK emod v p i j a b * u j b =
      p.1 * ∑ k, p.2 i k * Hooke (lame emod v) (shear emod v) (grad nnd p.2 u) k a := by
  induction nnd with
  | zero => simp [Hooke, grad]
  | succ n ih =>
    rw [Finset.sum_range_succ, ih]
    have e : ∀ k l, grad (n + 1) p.2 u k l = grad n p.2 u k l + p.2 n k * u n l := fun k l => by
      unfold grad; rw [Finset.sum_range_succ]
    simp only [Hooke, e, ptK, Fin.sum_univ_three]
    generalize grad n p.2 u = G
    fin_cases a <;> simp [tens, delta] <;> ring

theorem force_eq {nnd : Nat} {emod v : K} {A : Nat → Nat → Blk K} {pts : List (K × (Nat → Fin 3 → K))}
    (hA : ∀ i j, i ≤ j → j < nnd → ∀ a b, A i j a b = (pts.map fun p => ptK emod v p i j a b).sum) (u : Nat → Fin 3 → K)
    {i : Nat} (hi : i < nnd) (a : Fin 3) : force nnd A u i a =
      (pts.map fun p => p.1 * ∑ k, p.2 i k * Hooke (lame emod v) (shear emod v) (grad nnd p.2 u) k a).sum := by
  unfold force
  have : ∀ j ∈ Finset.range nnd, ∑ b, whole A i j a b * u j b = (pts.map fun p => ∑ b, ptK emod v p i j a b * u j b).sum := by
    intro j hj
    rw [← list_sum_swap]
    refine Finset.sum_congr rfl fun b _ => ?_
    rw [whole_ok hA hi (Finset.mem_range.1 hj), list_sum_mul]
  rw [Finset.sum_congr rfl this, list_sum_swap]
  congr 1
  exact List.map_congr_left fun p _ => pt_force emod v p nnd u i a

/-- The density of the energy. -/
def density (la mu : K) (e : Blk K) : K := la * (e 0 0 + e 1 1 + e 2 2) ^ 2 + 2 * mu * ∑ a, ∑ b, e a b ^ 2

theorem pt_energy (la mu : K) (D u : Nat → Fin 3 → K) (H : Blk K) (n : Nat) :
    ∑ i ∈ Finset.range n, ∑ a, u i a * ∑ k, D i k * H k a = ∑ k, ∑ a, grad n D u k a * H k a := by
  induction n with
  | zero => simp [grad]
  | succ n ih =>
    have e : ∀ k l, grad (n + 1) D u k l = grad n D u k l + D n k * u n l := fun k l => by
      unfold grad; rw [Finset.sum_range_succ]
    rw [Finset.sum_range_succ, ih]
    simp only [e, Fin.sum_univ_three]
    ring

theorem hooke_energy (la mu : K) (G : Blk K) : ∑ k, ∑ a, G k a * Hooke la mu G k a = density la mu (sym G) := by
  simp [Hooke, density, sym, Fin.sum_univ_three]
  ring

theorem energy_eq {nnd : Nat} {emod v : K} {A : Nat → Nat → Blk K} {pts : List (K × (Nat → Fin 3 → K))}
    (hA : ∀ i j, i ≤ j → j < nnd → ∀ a b, A i j a b = (pts.map fun p => ptK emod v p i j a b).sum) (u : Nat → Fin 3 → K) :
    energy nnd A u = (pts.map fun p => p.1 * density (lame emod v) (shear emod v) (sym (grad nnd p.2 u))).sum := by
  unfold energy
  have : ∀ i ∈ Finset.range nnd, ∑ a, u i a * force nnd A u i a =
      (pts.map fun p => p.1 * ∑ a, u i a * ∑ k, p.2 i k * Hooke (lame emod v) (shear emod v) (grad nnd p.2 u) k a).sum := by
    intro i hi
    simp only [Finset.mul_sum]
    rw [← list_sum_swap]
    refine Finset.sum_congr rfl fun a _ => ?_
    rw [force_eq hA u (Finset.mem_range.1 hi), mul_comm, list_sum_mul]
    congr 1
    refine List.map_congr_left fun p _ => ?_
    rw [mul_assoc, mul_comm _ (u i a), Finset.mul_sum, Finset.mul_sum]
  rw [Finset.sum_congr rfl this, list_sum_swap]
  congr 1
  refine List.map_congr_left fun p _ => ?_
  rw [← Finset.mul_sum, pt_energy (lame emod v) (shear emod v), hooke_energy]

theorem density_pos {emod v : K} (hE : 0 < emod) (h1 : -1 < v) (h2 : v < 1 / 2) (e : Blk K) :
    0 ≤ density (lame emod v) (shear emod v) e ∧ (density (lame emod v) (shear emod v) e = 0 → e = 0) := by
  have p1 : 0 < 1 + v := by linarith
  have p2 : 0 < 1 - 2 * v := by linarith
  have hm : 0 < shear emod v := by unfold shear; positivity
  have hb : 0 < 3 * lame emod v + 2 * shear emod v := by
    have : 3 * lame emod v + 2 * shear emod v = emod / (1 - 2 * v) := by
      have a1 := p1.ne'; have a2 := p2.ne'
      unfold lame shear
      rw [eq_div_iff a2, add_mul, mul_assoc, div_mul_cancel₀ _ a2]
      field_simp
      ring
    rw [this]; exact div_pos hE p2
  generalize lame emod v = la at *
  generalize shear emod v = mu at *
  have key : 3 * density la mu e = (3 * la + 2 * mu) * (e 0 0 + e 1 1 + e 2 2) ^ 2
      + 2 * mu * ((e 0 0 - e 1 1) ^ 2 + (e 1 1 - e 2 2) ^ 2 + (e 2 2 - e 0 0) ^ 2)
      + 6 * mu * (e 0 1 ^ 2 + e 0 2 ^ 2 + e 1 0 ^ 2 + e 1 2 ^ 2 + e 2 0 ^ 2 + e 2 1 ^ 2) := by
    simp [density, Fin.sum_univ_three]; ring
  have t1 : 0 ≤ (3 * la + 2 * mu) * (e 0 0 + e 1 1 + e 2 2) ^ 2 := by positivity
  have t2 : 0 ≤ 2 * mu * ((e 0 0 - e 1 1) ^ 2 + (e 1 1 - e 2 2) ^ 2 + (e 2 2 - e 0 0) ^ 2) := by positivity
  have t3 : 0 ≤ 6 * mu * (e 0 1 ^ 2 + e 0 2 ^ 2 + e 1 0 ^ 2 + e 1 2 ^ 2 + e 2 0 ^ 2 + e 2 1 ^ 2) := by positivity
  refine ⟨by linarith, fun h0 => ?_⟩
  rw [h0, mul_zero] at key
  have z1 : (3 * la + 2 * mu) * (e 0 0 + e 1 1 + e 2 2) ^ 2 = 0 := by linarith
  have z2 : 2 * mu * ((e 0 0 - e 1 1) ^ 2 + (e 1 1 - e 2 2) ^ 2 + (e 2 2 - e 0 0) ^ 2) = 0 := by linarith
  have z3 : 6 * mu * (e 0 1 ^ 2 + e 0 2 ^ 2 + e 1 0 ^ 2 + e 1 2 ^ 2 + e 2 0 ^ 2 + e 2 1 ^ 2) = 0 := by linarith
  have y1 : e 0 0 + e 1 1 + e 2 2 = 0 := by
    rcases mul_eq_zero.1 z1 with h | h
    · linarith
    · exact pow_eq_zero_iff (two_ne_zero) |>.1 h
  have y2 := (mul_eq_zero.1 z2).resolve_left (by positivity)
  have y3 := (mul_eq_zero.1 z3).resolve_left (by positivity)
  have sq : ∀ x : K, x ^ 2 ≤ 0 → x = 0 := fun x hx => pow_eq_zero_iff (two_ne_zero) |>.1 (le_antisymm hx (sq_nonneg x))
  have d01 : e 0 0 - e 1 1 = 0 := sq _ (by nlinarith [sq_nonneg (e 1 1 - e 2 2), sq_nonneg (e 2 2 - e 0 0)])
  have d12 : e 1 1 - e 2 2 = 0 := sq _ (by nlinarith [sq_nonneg (e 0 0 - e 1 1), sq_nonneg (e 2 2 - e 0 0)])
  have n := fun a b => sq_nonneg (e a b)
  have o01 : e 0 1 = 0 := sq _ (by linarith [n 0 1, n 0 2, n 1 0, n 1 2, n 2 0, n 2 1])
  have o02 : e 0 2 = 0 := sq _ (by linarith [n 0 1, n 0 2, n 1 0, n 1 2, n 2 0, n 2 1])
  have o10 : e 1 0 = 0 := sq _ (by linarith [n 0 1, n 0 2, n 1 0, n 1 2, n 2 0, n 2 1])
  have o12 : e 1 2 = 0 := sq _ (by linarith [n 0 1, n 0 2, n 1 0, n 1 2, n 2 0, n 2 1])
  have o20 : e 2 0 = 0 := sq _ (by linarith [n 0 1, n 0 2, n 1 0, n 1 2, n 2 0, n 2 1])
  have o21 : e 2 1 = 0 := sq _ (by linarith [n 0 1, n 0 2, n 1 0, n 1 2, n 2 0, n 2 1])
  have o00 : e 0 0 = 0 := by linarith
  have o11 : e 1 1 = 0 := by linarith
  have o22 : e 2 2 = 0 := by linarith
  funext a b
  fin_cases a <;> fin_cases b <;> assumption

theorem pointData_ok {eps : K} (he : 0 < eps) {nnd : Nat} {emod v : K} {xe ue : Nat → Fin 3 → K} {g : Gp K} {e s : Blk K} :
    pointData eps nnd emod v xe ue g = .ok (e, s) ↔
      ∃ d D, invMulGauss eps (jacobian nnd g.dM xe) g.dN = .ok (d, D) ∧ e = sym (grad nnd D ue) ∧
        s = fun i j => Hooke (lame emod v) (shear emod v) e i j * g.fac := by
  unfold pointData
  rw [Res.bind_eq_ok]
  have key : ∀ D : Nat → Fin 3 → K, (fun i j => ((List.range nnd).foldl (fun s k => s + D k i * ue k j) 0 +
      (List.range nnd).foldl (fun s k => s + D k j * ue k i) 0) * (1 / 2)) = sym (grad nnd D ue) := by
    intro D; funext i j; simp only [foldl_add, zero_add, sym, grad]; ring
  constructor
  · rintro ⟨⟨d, D⟩, h1, h2⟩
    obtain ⟨rfl, rfl⟩ := Prod.mk.inj (Res.ok.inj h2)
    refine ⟨d, D, h1, key D, ?_⟩
    funext i j
    rw [(C86_stress _ _ _).1]
  · rintro ⟨d, D, h1, rfl, rfl⟩
    refine ⟨(d, D), h1, ?_⟩
    dsimp only
    rw [key D]
    congr 2
    funext i j
    rw [(C86_stress _ _ _).1]

/-! ## Results -/

/-- C86: the stored blocks on the diagonal are symmetric, so the whole matrix is. -/
theorem C86_symmetric {eps : K} (he : 0 < eps) {nnd : Nat} {emod v : K} {xe : Nat → Fin 3 → K} {gps : List (Gp K)}
    {A : Nat → Nat → Blk K} (h : buildKe eps nnd emod v xe gps = .ok A) {i j : Nat} (hi : i < nnd) (hj : j < nnd) (a b : Fin 3) :
    whole A i j a b = whole A j i b a := by
  obtain ⟨pts, _, hA⟩ := buildKe_ok he h
  rw [whole_ok hA hi hj, whole_ok hA hj hi]
  congr 1
  exact List.map_congr_left fun p _ => ptK_symm _ _ _ _ _ _ _

theorem list_sum_nonneg {α : Type} {l : List α} {f : α → K} (h : ∀ x ∈ l, 0 ≤ f x) :
    0 ≤ (l.map f).sum ∧ ((l.map f).sum = 0 ↔ ∀ x ∈ l, f x = 0) := by
  induction l with
  | nil => simp
  | cons x l ih =>
    obtain ⟨h1, h2⟩ := ih fun y hy => h y (List.mem_cons_of_mem _ hy)
    have hx := h x List.mem_cons_self
    rw [List.map_cons, List.sum_cons]
    refine ⟨by linarith, ?_⟩
    rw [List.forall_mem_cons, ← h2]
    constructor
    · intro e; constructor <;> linarith
    · rintro ⟨e1, e2⟩; linarith

theorem forall₂_mem {α β : Type} {R : α → β → Prop} {l : List α} {m : List β} (h : List.Forall₂ R l m) :
    (∀ x ∈ l, ∃ y ∈ m, R x y) ∧ ∀ y ∈ m, ∃ x ∈ l, R x y := by
  induction h with
  | nil => simp
  | cons h _ ih =>
    obtain ⟨i1, i2⟩ := ih
    constructor
    · intro x hx
      rcases List.mem_cons.1 hx with rfl | hx
      · exact ⟨_, List.mem_cons_self, h⟩
      · obtain ⟨y, hy, r⟩ := i1 x hx; exact ⟨y, List.mem_cons_of_mem _ hy, r⟩
    · intro y hy
      rcases List.mem_cons.1 hy with rfl | hy
      · exact ⟨_, List.mem_cons_self, h⟩
      · obtain ⟨x, hx, r⟩ := i2 y hy; exact ⟨x, List.mem_cons_of_mem _ hx, r⟩

/-- C86: the energy of an element is never negative, and it is zero exactly if the strain is zero at each Gauss point. -/
theorem C86_energy {eps : K} (he : 0 < eps) {nnd : Nat} {emod v : K} (hE : 0 < emod) (h1 : -1 < v) (h2 : v < 1 / 2)
    {xe : Nat → Fin 3 → K} {gps : List (Gp K)} {A : Nat → Nat → Blk K} (h : buildKe eps nnd emod v xe gps = .ok A)
    (u : Nat → Fin 3 → K) :
    0 ≤ energy nnd A u ∧
    (energy nnd A u = 0 ↔ ∀ g ∈ gps, ∃ s, pointData eps nnd emod v xe u g = .ok (0, s)) := by
  obtain ⟨pts, hp, hA⟩ := buildKe_ok he h
  rw [energy_eq hA]
  obtain ⟨m1, m2⟩ := forall₂_mem hp
  have hpos : ∀ p ∈ pts, 0 ≤ p.1 * density (lame emod v) (shear emod v) (sym (grad nnd p.2 u)) := by
    intro p hp'
    obtain ⟨g, _, hg, _⟩ := m2 p hp'
    exact mul_nonneg hg.1.le (density_pos hE h1 h2 _).1
  obtain ⟨l1, l2⟩ := list_sum_nonneg hpos
  refine ⟨l1, l2.trans ⟨fun hz g hg => ?_, fun hz p hp' => ?_⟩⟩
  · obtain ⟨p, hp', hpt, hi⟩ := m1 g hg
    have h0 := (density_pos hE h1 h2 _).2 ((mul_eq_zero.1 (hz p hp')).resolve_left hpt.1.ne')
    exact ⟨_, (pointData_ok he).2 ⟨_, _, hi, h0.symm, rfl⟩⟩
  · obtain ⟨g, hg, hpt, hi⟩ := m2 p hp'
    obtain ⟨s, hs⟩ := hz g hg
    obtain ⟨d, D, e1, e2, _⟩ := (pointData_ok he).1 hs
    rw [hi] at e1
    obtain ⟨_, e3⟩ := Prod.mk.inj (Res.ok.inj e1)
    rw [e3, ← e2]
    simp [density]

/-- The derivatives in space of the coordinates themselves. -/
theorem grad_coord {nnd : Nat} {xe : Nat → Fin 3 → K} {dM D : Nat → Fin 3 → K}
    (hd : Matrix.det (Matrix.of (grad nnd dM xe)) ≠ 0) (h : ∀ n a, ∑ b, grad nnd dM xe a b * D n b = dM n a) (a b : Fin 3) :
    grad nnd D xe a b = if a = b then 1 else 0 := by
  have hm : Matrix.of (grad nnd dM xe) * Matrix.of (grad nnd D xe) = Matrix.of (grad nnd dM xe) := by
    ext a c
    rw [Matrix.mul_apply]
    simp only [Matrix.of_apply]
    have e : ∀ b, grad nnd dM xe a b * grad nnd D xe b c = ∑ k ∈ Finset.range nnd, grad nnd dM xe a b * D k b * xe k c := by
      intro b
      rw [show grad nnd D xe b c = ∑ k ∈ Finset.range nnd, D k b * xe k c from rfl, Finset.mul_sum]
      exact Finset.sum_congr rfl fun k _ => by ring
    rw [Finset.sum_congr rfl fun b _ => e b, Finset.sum_comm]
    rw [show grad nnd dM xe a c = ∑ k ∈ Finset.range nnd, dM k a * xe k c from rfl]
    refine Finset.sum_congr rfl fun k _ => ?_
    rw [← h k a, Finset.sum_mul]
  have hu : IsUnit (Matrix.of (grad nnd dM xe)) := (Matrix.isUnit_iff_isUnit_det _).2 (isUnit_iff_ne_zero.2 hd)
  have h1 : Matrix.of (grad nnd D xe) = 1 := hu.mul_left_cancel (by rw [hm, mul_one])
  have := congrFun (congrFun h1 a) b
  rw [Matrix.of_apply] at this
  rw [this, Matrix.one_apply]

/-- Sums of derivatives that vanish still do after the elimination. -/
theorem sum_zero {nnd : Nat} {xe : Nat → Fin 3 → K} {dM dN D : Nat → Fin 3 → K}
    (hd : Matrix.det (Matrix.of (grad nnd dM xe)) ≠ 0) (h : ∀ n a, ∑ b, grad nnd dM xe a b * D n b = dN n a) :
    (∀ a, ∑ k ∈ Finset.range nnd, D k a = 0) ↔ ∀ a, ∑ k ∈ Finset.range nnd, dN k a = 0 := by
  have e : ∀ a, ∑ k ∈ Finset.range nnd, dN k a = ∑ b, grad nnd dM xe a b * ∑ k ∈ Finset.range nnd, D k b := by
    intro a
    simp only [← h, Finset.mul_sum]
    rw [Finset.sum_comm]
  constructor
  · intro h0 a
    rw [e]; simp [h0]
  · intro h0
    have hv : Matrix.mulVec (Matrix.of (grad nnd dM xe)) (fun b => ∑ k ∈ Finset.range nnd, D k b) = 0 := by
      funext a
      have := h0 a
      rw [e] at this
      exact this
    have := Matrix.eq_zero_of_mulVec_eq_zero hd hv
    exact fun a => congrFun this a

theorem grad_uniform {nnd : Nat} {xe D : Nat → Fin 3 → K} (h0 : ∀ a, ∑ k ∈ Finset.range nnd, D k a = 0)
    (hc : ∀ a b, grad nnd D xe a b = if a = b then 1 else 0) (t : Fin 3 → K) (G : Blk K) :
    grad nnd D (uniform xe t G) = G := by
  funext a b
  have e : grad nnd D (uniform xe t G) a b = (∑ k ∈ Finset.range nnd, D k a) * t b + ∑ c, grad nnd D xe a c * G c b := by
    simp only [grad, uniform, Fin.sum_univ_three, Finset.sum_mul, mul_add, Finset.sum_add_distrib]
    congr 1
    congr 1
    · congr 1 <;> exact Finset.sum_congr rfl fun k _ => by ring
    · exact Finset.sum_congr rfl fun k _ => by ring
  rw [e, h0, zero_mul, zero_add]
  simp [hc]

/-- C86: if the displacements vary linearly, the strain at each point is the strain of that displacement, and the stress follows
from the law. -/
theorem C86_uniform {eps : K} (he : 0 < eps) {nnd : Nat} {emod v : K} {xe : Nat → Fin 3 → K} {g : Gp K} (hg : g.dN = g.dM)
    (h0 : ∀ a, ∑ k ∈ Finset.range nnd, g.dM k a = 0) (t : Fin 3 → K) (G : Blk K) {e s : Blk K}
    (h : pointData eps nnd emod v xe (uniform xe t G) g = .ok (e, s)) :
    e = sym G ∧ s = fun i j => Hooke (lame emod v) (shear emod v) (sym G) i j * g.fac := by
  obtain ⟨d, D, h1, rfl, rfl⟩ := (pointData_ok he).1 h
  have ej : jacobian nnd g.dM xe = grad nnd g.dM xe := by funext i j; exact jacobian_eq _ _ _ _ _
  rw [ej, hg] at h1
  obtain ⟨e1, e2, e3⟩ := C86_solve he h1
  rw [e1] at e2
  rw [grad_uniform ((sum_zero e2 e3).2 h0) (grad_coord e2 e3)]
  exact ⟨rfl, rfl⟩

/-- C86: rigid motions, that is translations and infinitesimal rotations, cause no forces. -/
theorem C86_rigid {eps : K} (he : 0 < eps) {nnd : Nat} {emod v : K} {xe : Nat → Fin 3 → K} {gps : List (Gp K)}
    {A : Nat → Nat → Blk K} (h : buildKe eps nnd emod v xe gps = .ok A)
    (hg : ∀ g ∈ gps, g.dN = g.dM ∧ ∀ a, ∑ k ∈ Finset.range nnd, g.dM k a = 0) (t : Fin 3 → K) {W : Blk K}
    (hW : ∀ a b, W a b = -W b a) {i : Nat} (hi : i < nnd) (a : Fin 3) : force nnd A (uniform xe t W) i a = 0 := by
  obtain ⟨pts, hp, hA⟩ := buildKe_ok he h
  rw [force_eq hA _ hi]
  apply List.sum_eq_zero
  intro x hx
  obtain ⟨p, hp', rfl⟩ := List.mem_map.1 hx
  obtain ⟨g, hg', ⟨_, ⟨d, _, e1, e2⟩, e3⟩, _⟩ := (forall₂_mem hp).2 p hp'
  obtain ⟨g1, g2⟩ := hg g hg'
  rw [g1] at e3
  rw [e1] at e2
  rw [grad_uniform ((sum_zero e2 e3).2 g2) (grad_coord e2 e3)]
  have hz : Hooke (lame emod v) (shear emod v) W = 0 := by
    have d0 : ∀ a, W a a = 0 := fun a => by have := hW a a; linarith
    funext i j
    simp only [Hooke, d0, hW i j]
    simp
  simp [hz]

/-- C86: translations cost no energy exactly if the derivatives of the shape functions add up to nothing at each Gauss point
(compare C85 for which elements they do). -/
theorem C86_translation {eps : K} (he : 0 < eps) {nnd : Nat} {emod v : K} (hE : 0 < emod) (h1 : -1 < v) (h2 : v < 1 / 2)
    {xe : Nat → Fin 3 → K} {gps : List (Gp K)} {A : Nat → Nat → Blk K} (h : buildKe eps nnd emod v xe gps = .ok A) :
    (∀ t : Fin 3 → K, energy nnd A (fun _ => t) = 0) ↔ ∀ g ∈ gps, ∀ a, ∑ k ∈ Finset.range nnd, g.dN k a = 0 := by
  obtain ⟨pts, hp, hA⟩ := buildKe_ok he h
  obtain ⟨m1, m2⟩ := forall₂_mem hp
  have hgr : ∀ (D : Nat → Fin 3 → K) (t : Fin 3 → K) a b, grad nnd D (fun _ => t) a b = (∑ k ∈ Finset.range nnd, D k a) * t b := by
    intro D t a b; simp only [grad, Finset.sum_mul]
  constructor
  · intro ht g hg
    obtain ⟨p, hp', ⟨_, ⟨d, _, e1, e2⟩, e3⟩, hi⟩ := m1 g hg
    rw [e1] at e2
    refine (sum_zero e2 e3).1 fun a => ?_
    obtain ⟨s, hs⟩ := ((C86_energy he hE h1 h2 h (fun _ b => if b = a then 1 else 0)).2.1 (ht _)) g hg
    obtain ⟨d', D', f1, f2, _⟩ := (pointData_ok he).1 hs
    rw [hi] at f1
    obtain ⟨_, rfl⟩ := Prod.mk.inj (Res.ok.inj f1)
    have := congrFun (congrFun f2 a) a
    simp only [sym, hgr] at this
    simpa using this.symm
  · intro hz t
    refine (C86_energy he hE h1 h2 h _).2.2 fun g hg => ?_
    obtain ⟨p, hp', ⟨_, ⟨d, _, e1, e2⟩, e3⟩, hi⟩ := m1 g hg
    rw [e1] at e2
    refine ⟨_, (pointData_ok he).2 ⟨_, _, hi, ?_, rfl⟩⟩
    funext a b
    simp [sym, hgr, (sum_zero e2 e3).2 (hz g hg)]

/-- C86: each stored block has its own place in the array. -/
theorem C86_storage {nnd i j : Nat} (hij : i ≤ j) (hj : j < nnd) : elemIndex i j < elemSize nnd ∧
    ∀ i' j', i' ≤ j' → elemIndex i' j' = elemIndex i j → i' = i ∧ j' = j := by
  have tri : ∀ a b : Nat, a < b → a * (a + 1) / 2 + a < b * (b + 1) / 2 := by
    intro a b hab
    have e1 : 2 ∣ a * (a + 1) := (Nat.even_mul_succ_self a).two_dvd
    have e2 : 2 ∣ b * (b + 1) := (Nat.even_mul_succ_self b).two_dvd
    have : (a + 1) * (a + 2) ≤ b * (b + 1) := Nat.mul_le_mul hab (by omega)
    have e3 : (a + 1) * (a + 2) = a * (a + 1) + 2 * (a + 1) := by ring
    omega
  refine ⟨?_, fun i' j' h' e => ?_⟩
  · have := tri j nnd hj
    unfold elemIndex elemSize; omega
  · unfold elemIndex at e
    rcases Nat.lt_trichotomy j' j with h | rfl | h
    · have := tri _ _ h; omega
    · omega
    · have := tri _ _ h; omega

/-! ## The elements of the code -/

/-- A Gauss point of an element with the shape functions `f` (C85), which is not infinite. -/
def gpOf (w fac : K) (f : Nat → SF K) : Gp K := ⟨w, fun k a => f k a.succ, fun k a => f k a.succ, fac⟩

theorem gpOf_sum {w fac : K} {f : Nat → SF K} {nnd : Nat} (h : ∑ k ∈ Finset.range nnd, f k = unity) :
    (gpOf w fac f).dN = (gpOf w fac f).dM ∧ ∀ a, ∑ k ∈ Finset.range nnd, (gpOf w fac f).dM k a = 0 := by
  refine ⟨rfl, fun a => ?_⟩
  have := congrFun h a.succ
  rw [Finset.sum_apply] at this
  rw [show (∑ k ∈ Finset.range nnd, (gpOf w fac f).dM k a) = ∑ k ∈ Finset.range nnd, f k a.succ from rfl, this]
  fin_cases a <;> rfl

/-- C86: rigid motions cause no forces in a variable element, wherever its corners and extra nodes are and whichever Gauss points
are used, if a level with a node in its centre has one on each side. -/
theorem C86_variable {eps : K} (he : 0 < eps) {emod v : K} {sz : Shape} (hb : sz.bounded) {p : Nat → Bool}
    (hs : Sided (getn sz) p) {xe : Nat → Fin 3 → K} {qs : List (K × K × K × K × K)} {A : Nat → Nat → Blk K}
    (h : buildKe eps (nnd (getn sz) p) emod v xe
      (qs.map fun q => gpOf q.1 q.2.1 (variableSF sz (number (getn sz) p) q.2.2.1 q.2.2.2.1 q.2.2.2.2 fun _ => 0)) = .ok A)
    (t : Fin 3 → K) {W : Blk K} (hW : ∀ a b, W a b = -W b a) {i : Nat} (hi : i < nnd (getn sz) p) (a : Fin 3) :
    force (nnd (getn sz) p) A (uniform xe t W) i a = 0 := by
  refine C86_rigid he h (fun g hg => ?_) t hW hi a
  obtain ⟨q, _, rfl⟩ := List.mem_map.1 hg
  exact gpOf_sum (C85_variable_sum hb hs _ _ _ _)

theorem list_sum_range {α : Type} [AddCommMonoid α] (l : List α) : l.sum = ∑ k ∈ Finset.range l.length, l.getD k 0 := by
  induction l with
  | nil => rfl
  | cons x l ih => rw [List.sum_cons, ih, List.length_cons, Finset.sum_range_succ']; simp [add_comm]

/-- C86: the same in a block. -/
theorem C86_block {eps : K} (he : 0 < eps) {emod v : K} {sx sy sz : Shape} (hb : sx.bounded ∧ sy.bounded ∧ sz.bounded)
    {xe : Nat → Fin 3 → K} {qs : List (K × K × K × K × K)} {A : Nat → Nat → Blk K}
    (h : buildKe eps (getn sz * (getn sx * getn sy)) emod v xe
      (qs.map fun q => gpOf q.1 q.2.1 fun k => (blockSF sx sy sz true q.2.2.1 q.2.2.2.1 q.2.2.2.2).getD k 0) = .ok A)
    (t : Fin 3 → K) {W : Blk K} (hW : ∀ a b, W a b = -W b a) {i : Nat} (hi : i < getn sz * (getn sx * getn sy)) (a : Fin 3) :
    force (getn sz * (getn sx * getn sy)) A (uniform xe t W) i a = 0 := by
  refine C86_rigid he h (fun g hg => ?_) t hW hi a
  obtain ⟨q, _, rfl⟩ := List.mem_map.1 hg
  apply gpOf_sum
  have hl : (blockSF sx sy sz true q.2.2.1 q.2.2.2.1 q.2.2.2.2).length = getn sz * (getn sx * getn sy) := by
    unfold blockSF
    simp [List.length_flatMap]
  rw [← hl, ← list_sum_range]
  exact C85_block_sum (.inl hb) (finite_of_bounded hb.1 _) (finite_of_bounded hb.2.1 _) (finite_of_bounded hb.2.2 _)

/-! ## Cases -/

/-- The corners of a box of 2 by 4 by 6. -/
def boxXe (k : Nat) : Fin 3 → ℚ := ![if k % 4 < 2 then 0 else 2, if k % 2 < 1 then 0 else 4, if k < 4 then 0 else 6]

/-- A point of a block in this box, with weight 1. -/
def boxGp (x y z : ℚ) : Gp ℚ := gpOf 1 1 fun k => (blockSF .linear .linear .linear true x y z).getD k 0

/-- The elimination and the assembly return for it; the block of the first node. -/
example : (match buildKe (1 / 1000) 8 10 (1 / 4) boxXe [boxGp (1 / 2) 0 0, boxGp (-1 / 2) (1 / 3) 0] with
    | .ok A => decide (A 0 0 0 0 = 367 / 192 ∧ A 0 0 0 1 = A 0 0 1 0 ∧ A 0 7 0 0 < 0)
    | _ => false) = true := by
  decide +kernel

/-- A matrix with determinant 1 that is rejected. -/
example : Matrix.det (Matrix.of (![![0, 1, 0], ![0, 0, 1], ![1, 0, 0]] : Blk ℚ)) = 1 ∧
    invMulGauss (1 / 1000) (![![0, 1, 0], ![0, 0, 1], ![1, 0, 0]] : Blk ℚ) (fun _ _ => 0) = .throw := by
  refine ⟨?_, C86_pivot_wrong (by norm_num) rfl _⟩
  rw [Matrix.det_fin_three]
  simp

/-- A rotation about the vertical. -/
example : ∀ a b, (![![0, 1, 0], ![-1, 0, 0], ![0, 0, 0]] : Blk ℚ) a b = -(![![0, 1, 0], ![-1, 0, 0], ![0, 0, 0]] : Blk ℚ) b a := by
  decide +kernel

end OP.Fem
