import Verif.Lin.SvdWide
/-!
# C94: the singular values of matrices with fewer rows than columns
-/
namespace OP.Lin
open Finset Matrix
variable {K : Type} [Field K] [LinearOrder K] [IsStrictOrderedRing K]

omit [LinearOrder K] [IsStrictOrderedRing K] in
/-- A square array with orthonormal columns has orthonormal rows. -/
theorem rows_of_cols {n : Nat} {U : Nat → K} (h : ∀ a < n, ∀ k < n, ∑ r ∈ range n, U (r * n + a) * U (r * n + k) = if a = k then 1 else 0) :
    ∀ a < n, ∀ b < n, ∑ k ∈ range n, U (a * n + k) * U (b * n + k) = if a = b then 1 else 0 := by
  have h1 : (rowMajor n n U)ᵀ * rowMajor n n U = 1 := by
    ext a k
    rw [mul_apply, one_apply]
    simp only [transpose_apply, rowMajor, of_apply, Fin.ext_iff]
    rw [Fin.sum_univ_eq_sum_range (fun r => U (r * n + a.1) * U (r * n + k.1)) n]
    exact h a a.2 k k.2
  have h2 := mul_eq_one_comm.1 h1
  intro a ha b hb
  have h3 := congrFun (congrFun h2 ⟨a, ha⟩) ⟨b, hb⟩
  rw [mul_apply, one_apply] at h3
  simp only [transpose_apply, rowMajor, of_apply, Fin.ext_iff] at h3
  rw [Fin.sum_univ_eq_sum_range (fun k => U (a * n + k) * U (b * n + k)) n] at h3
  exact h3

/-- **C94** (matrices with fewer rows than columns).  If every value converges in its 30 passes and no cancellation goes on beyond one number: `U` has orthonormal rows and `V` orthonormal columns,
the singular values are not negative, the matrix is `U W Vᵀ` but for the numbers tested to be small, and so are the columns of `U W` orthogonal, with the singular values as their lengths. -/
theorem C94_wide {rt : K → K} (hrt : IsRoot0 rt) {neg : K → K → Bool} {τ : K} (hneg : NegOk neg τ) (hτ : 0 ≤ τ) {m n : Nat} (hn : 0 < n) (hmn : m ≤ n) (A W V g : Nat → K) (out : K)
    (hW : ∀ c < n, W c = 0) :
    ∃ t anorm, svdWhole rt neg m n A W V g out = .ok t ∧ 0 ≤ anorm ∧ anorm * anorm ≤ 2 * ∑ r ∈ range m, ∑ c ∈ range n, A (r * n + c) * A (r * n + c) ∧ (t.good = true →
      (∀ a < m, ∀ b < m, ∑ k ∈ range n, t.A (a * n + k) * t.A (b * n + k) = if a = b then 1 else 0) ∧
      (∀ a < n, ∀ k < n, ∑ r ∈ range n, t.V (r * n + a) * t.V (r * n + k) = if a = k then 1 else 0) ∧ (∀ k < n, 0 ≤ t.W k) ∧
      (∀ r < m, ∀ c < n, |A (r * n + c) - ∑ k ∈ range n, t.A (r * n + k) * t.W k * t.V (c * n + k)| ≤ n * (60 * (τ * anorm))) ∧
      ∀ a < n, ∀ k < n, |∑ r ∈ range m, t.A (r * n + a) * t.W a * (t.A (r * n + k) * t.W k) - if a = k then t.W a * t.W a else 0| ≤ (n - m : Nat) * (n * (n * (60 * (τ * anorm)))) ^ 2) := by
  obtain ⟨s, anorm, e, h1, h2, h3⟩ := C94_decomposition hrt hneg hτ hn le_rfl (below m n A) W V g out hW
  obtain ⟨t, e1, eV, eW, eg, eA⟩ := svdWhole_wide rt neg hmn A W V g out hW s e
  have top : ∀ r < m, ∀ c < n, below m n A (r * n + c) = A (r * n + c) := fun r hr c hc => if_pos (addr_lt hr hc)
  have low : ∀ r, m ≤ r → ∀ c, below m n A (r * n + c) = 0 := fun r hr c => if_neg (by have := Nat.mul_le_mul_right n hr; omega)
  refine ⟨t, anorm, e1, h1, h2.trans_eq ?_, fun hg => ?_⟩
  · congr 1
    rw [← sum_range_add_sum_Ico _ hmn, sum_congr rfl fun r hr => sum_congr rfl fun c hc => by rw [top r (mem_range.1 hr) c (mem_range.1 hc)],
      sum_eq_zero (s := Ico m n) fun r hr => sum_eq_zero fun c _ => by rw [low r (mem_Ico.1 hr).1, zero_mul], add_zero]
  obtain ⟨o1, o2, o3, o4⟩ := h3 (by rw [← eg]; exact hg)
  rw [eV, eW]
  refine ⟨fun a ha b hb => ?_, o2, o3, fun r hr c hc => ?_, fun a ha k hk => ?_⟩
  · rw [← rows_of_cols o1 a (by omega) b (by omega)]
    exact sum_congr rfl fun k hk => by rw [eA a ha k (mem_range.1 hk), eA b hb k (mem_range.1 hk)]
  · rw [← top r hr c hc, sum_congr rfl fun k hk => by rw [eA r hr k (mem_range.1 hk)]]
    exact o4 r (by omega) c hc
  obtain ⟨ε, hε⟩ : ∃ ε, ε = (n : K) * (60 * (τ * anorm)) := ⟨_, rfl⟩
  rw [← hε] at o4 ⊢
  have hε0 : 0 ≤ ε := by rw [hε]; positivity
  -- the numbers of `U W` below the matrix are small
  have small : ∀ r, m ≤ r → r < n → ∀ k < n, |s.A (r * n + k) * s.W k| ≤ n * ε := by
    intro r hr hrn k hk
    have e2 : ∑ c ∈ range n, (∑ l ∈ range n, s.A (r * n + l) * s.W l * s.V (c * n + l)) * s.V (c * n + k) = s.A (r * n + k) * s.W k := by
      simp only [sum_mul]
      rw [sum_comm]
      rw [sum_congr rfl fun l hl => (by
        rw [sum_congr rfl fun c _ => mul_assoc _ _ _, ← mul_sum, o2 l (mem_range.1 hl) k hk] :
        ∑ c ∈ range n, s.A (r * n + l) * s.W l * s.V (c * n + l) * s.V (c * n + k) = s.A (r * n + l) * s.W l * if l = k then 1 else 0)]
      simp only [mul_ite, mul_one, mul_zero]
      rw [sum_ite_eq' (range n) k, if_pos (mem_range.2 hk)]
    rw [← e2]
    refine (abs_sum_le_sum_abs _ _).trans ((sum_le_card_nsmul _ _ ε fun c hc => ?_).trans_eq (by rw [card_range, nsmul_eq_mul]))
    have e3 := o4 r hrn c (mem_range.1 hc)
    rw [low r hr, zero_sub, abs_neg] at e3
    have e4 : |s.V (c * n + k)| ≤ 1 := by
      have := o2 k hk k hk
      rw [if_pos rfl] at this
      have h5 : s.V (c * n + k) * s.V (c * n + k) ≤ 1 := (single_le_sum (f := fun r => s.V (r * n + k) * s.V (r * n + k)) (fun r _ => mul_self_nonneg _) hc).trans this.le
      exact abs_le_one_iff_mul_self_le_one.2 h5
    rw [abs_mul]
    exact (mul_le_mul e3 e4 (abs_nonneg _) hε0).trans_eq (mul_one _)
  have e5 : ∑ r ∈ range n, s.A (r * n + a) * s.W a * (s.A (r * n + k) * s.W k) = if a = k then s.W a * s.W a else 0 := by
    rw [sum_congr rfl fun r _ => (by ring : s.A (r * n + a) * s.W a * (s.A (r * n + k) * s.W k) = s.W a * s.W k * (s.A (r * n + a) * s.A (r * n + k))), ← mul_sum, o1 a ha k hk]
    split
    · next h => rw [h, mul_one]
    · rw [mul_zero]
  rw [← e5, sum_congr rfl fun r hr => by rw [eA r (mem_range.1 hr) a ha, eA r (mem_range.1 hr) k hk], ← sum_range_add_sum_Ico _ hmn, sub_add_cancel_left, abs_neg]
  refine (abs_sum_le_sum_abs _ _).trans ((sum_le_card_nsmul _ _ _ fun r hr => ?_).trans_eq (by rw [Nat.card_Ico, nsmul_eq_mul]))
  have hr := mem_Ico.1 hr
  rw [abs_mul, pow_two]
  exact mul_le_mul (small r hr.1 hr.2 a ha) (small r hr.1 hr.2 k hk) (abs_nonneg _) (by positivity)

/-- The row `x 0` meets the conditions, with nothing neglected: so it is `U W Vᵀ`, with factors as they should be. -/
example (x : ℝ) (hx : x ≠ 0) (V g : Nat → ℝ) (out : ℝ) : ∃ t, svdWhole Real.sqrt negExact 1 2 (fun p => if p = 0 then x else 0) (fun _ => 0) V g out = .ok t ∧ t.good = true ∧
    t.A 0 * t.A 0 + t.A 1 * t.A 1 = 1 ∧ x = t.A 0 * t.W 0 * t.V 0 + t.A 1 * t.W 1 * t.V 1 ∧ 0 = t.A 0 * t.W 0 * t.V 2 + t.A 1 * t.W 1 * t.V 3 := by
  have hrt : IsRoot0 Real.sqrt := fun x hx => ⟨Real.sqrt_nonneg x, Real.mul_self_sqrt hx⟩
  obtain ⟨t, anorm, e, -, -, h⟩ := C94_wide (m := 1) (n := 2) hrt negExact_ok le_rfl Nat.two_pos (by omega) (fun p => if p = 0 then x else 0) (fun _ => 0) V g out (fun _ _ => rfl)
  have hg : t.good = true := by
    obtain ⟨t0, ht⟩ : ∃ t, t = loop 0 2 (fun i t => svdReduce Real.sqrt 1 2 i t) ⟨fun p => if p = 0 then x else 0, fun _ => 0, g, 0, 0, 0⟩ := ⟨_, rfl⟩
    have hr : t0.rv1 0 = 0 ∧ t0.rv1 1 = 0 := by
      rw [ht]
      simp [svdReduce, svdCol, svdRow, loop, loopFrom, set, hx]
    unfold svdWhole at e
    dsimp only at e
    rw [← ht] at e
    have one : ∀ (i : Nat) (t : Dg ℝ), t.rv i = 0 → svdOne Real.sqrt negExact t0.anorm 1 2 i 30 t = .ok (svdSign 2 i t) := by
      intro i t hi
      rw [show (30 : Nat) = 29 + 1 from rfl, svdOne]
      have s1 : svdSplit negExact t0.anorm t.W t.rv (i + 1) = .ok (i, false) := by
        rw [svdSplit, hi, if_pos (by simp [negExact])]
      rw [s1, Res.ok_bind]
      dsimp only
      rw [if_neg Bool.false_ne_true, if_pos rfl]
    rw [svdDiag, one 1 _ hr.2, Res.ok_bind, svdDiag, one 0 _ (by rw [(svdSign_frame _ _ _).1]; exact hr.1), Res.ok_bind, svdDiag] at e
    cases e
    rw [(svdSign_frame _ _ _).2, (svdSign_frame _ _ _).2]
  obtain ⟨h1, -, -, h4, -⟩ := h hg
  refine ⟨t, e, hg, by simpa [sum_range_succ] using h1 0 Nat.one_pos 0 Nat.one_pos, ?_, ?_⟩
  · have := h4 0 Nat.one_pos 0 Nat.two_pos
    simp only [sum_range_succ, sum_range_zero, zero_mul, mul_zero, zero_add, if_true] at this
    exact sub_eq_zero.1 (abs_eq_zero.1 (le_antisymm this (abs_nonneg _)))
  · have := h4 0 Nat.one_pos 1 Nat.one_lt_two
    simp only [sum_range_succ, sum_range_zero, zero_mul, mul_zero, zero_add, Nat.one_mul, one_ne_zero, if_false] at this
    exact sub_eq_zero.1 (abs_eq_zero.1 (le_antisymm this (abs_nonneg _)))

end OP.Lin
