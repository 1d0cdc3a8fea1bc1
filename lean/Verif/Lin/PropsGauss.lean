import Verif.Lin.GaussLemmas
import Mathlib.LinearAlgebra.Matrix.ToLinearEquiv
/-!
# C40: Gaussian elimination
-/
namespace OP.Lin
open Finset
variable {K : Type} [Field K] [LinearOrder K] [IsStrictOrderedRing K]

/-- The `n` by `m` matrix stored row by row in an array. -/
def rect (n m : Nat) (B : Nat → K) : Matrix (Fin n) (Fin m) K := fun i j => B (i * m + j)

/-- The vector stored in the first `n` places of an array. -/
def vect (n : Nat) (b : Nat → K) : Fin n → K := fun i => b i

omit [LinearOrder K] [IsStrictOrderedRing K] in
theorem mat_eff_zero (n : Nat) (A : Nat → K) : mat n (eff n 0 A) = rect n n A := by
  funext r c; simp [mat, eff, rect]

theorem eff_det {n : Nat} (A : Nat → K) : (mat n (eff n n A)).det = ∏ c ∈ range n, A (c * n + c) := by
  rw [Matrix.det_of_isUpperTriangular]
  · rw [← Fin.prod_univ_eq_prod_range (fun c => A (c * n + c)) n]
    exact prod_congr rfl (fun c _ => by simp [mat, eff])
  · intro r c h
    simp only [mat, eff]
    rw [if_pos ⟨c.2, h⟩]

theorem gauss_loop {eps : K} (he : 0 < eps) {n m : Nat} {A B : Nat → K} {s : (Nat → K) × (Nat → K) × K}
    (h : loopM 0 n (gaussStep eps n m) (A, B, 1) = .ok s) : GInv n m A B n s :=
  loopM_rule (GInv n m A B) (Nat.zero_le n)
    ⟨fun _ _ => rfl, fun _ _ _ => rfl, fun c hc => by omega, fun c _ y => Iff.rfl, by simp, ⟨1, .inl rfl, by rw [one_mul]⟩⟩
    (fun k s s' _ hk hi e => gaussStep_inv he hk hi e) h

/-- **C40**, inv_mul_gauss, true part.  When it returns, the matrix is nonsingular, the right-hand sides are replaced by X with A X = B, and the
value returned is the determinant up to its sign; nothing outside the two arrays is touched.  The full property asks for the determinant
itself, which `C40_determinant_sign_wrong` refutes. -/
theorem C40_inv_mul_gauss_partial {eps : K} (he : 0 < eps) {n m : Nat} {A B A' X : Nat → K} {d : K}
    (h : invMulGauss eps n m A B = .ok (A', X, d)) :
    (rect n n A).det ≠ 0 ∧ rect n n A * rect n m X = rect n m B ∧ (d = (rect n n A).det ∨ d = -(rect n n A).det) ∧
      (0 < m → ∀ p, n * m ≤ p → X p = B p) ∧ ∀ p, n * n ≤ p → A' p = A p := by
  unfold invMulGauss at h
  rw [Res.bind_eq_ok] at h
  obtain ⟨s, h1, h2⟩ := h
  have hi := gauss_loop he h1
  cases h2
  obtain ⟨g, hg, hd⟩ := hi.det
  rw [mat_eff_zero, eff_det] at hd
  have hdet : (rect n n A).det = g * s.2.2 := by rw [hd, hi.prod]
  have hne : s.2.2 ≠ 0 := by
    rw [hi.prod]
    exact prod_ne_zero_iff.mpr (fun c hc => hi.piv c (mem_range.mp hc))
  have hg0 : g ≠ 0 := by rcases hg with rfl | rfl <;> simp
  refine ⟨by rw [hdet]; exact mul_ne_zero hg0 hne, ?_, ?_, ?_, hi.frameA⟩
  · ext r c
    have hs : Solves n (eff n n s.1) (fun r => s.2.1 (r * m + c)) (fun k => gaussBack n m s.1 s.2.1 (k * m + c)) := by
      intro r hr
      have := gaussBack_at (m := m) (B := s.2.1) hi.piv r c c.2
      rw [if_pos hr] at this
      beta_reduce
      rw [← this, ← sum_range_add_sum_Ico _ (Nat.le_of_lt hr)]
      rw [sum_eq_zero (fun k hk => ?_), zero_add]
      · refine sum_congr rfl (fun k hk => ?_)
        have := mem_Ico.mp hk
        unfold eff
        rw [if_neg (by omega)]
      · have := mem_range.mp hk
        unfold eff
        rw [if_pos (by omega), zero_mul]
    have h0 := (hi.sol c c.2 _).mp hs r r.2
    rw [Matrix.mul_apply]
    rw [← Fin.sum_univ_eq_sum_range (fun k => eff n 0 A r k * gaussBack n m s.1 s.2.1 (k * m + c)) n] at h0
    rw [show rect n m B r c = B (r * m + c) from rfl]
    refine Eq.trans ?_ h0
    refine sum_congr rfl (fun k _ => ?_)
    simp [rect, eff]
  · rw [hdet]
    rcases hg with rfl | rfl
    · left; ring
    · right; ring
  · intro hm p hp
    rw [← hi.frameB hm p hp]
    refine frame_of_rows (n := n) (m := m) (fun r c hc hr => ?_) hp hm
    have := gaussBack_at (m := m) (B := s.2.1) hi.piv r c hc
    rw [if_neg (by omega)] at this
    exact this

theorem loop_one {S : Type} (f : Nat → S → S) (s : S) : loop 0 1 f s = f 0 s := rfl

theorem swapRows_one (i j : Nat) (x : Nat → K) : swapRows 1 i j x = swp x j i := by
  unfold swapRows; rw [loop_one]; simp

theorem equGauss_eq (eps : K) (n : Nat) (A b : Nat → K) :
    equGauss eps n A b = invMulGauss eps n 1 A b >>= fun s => .ok s.2.1 := by
  have step : ∀ m i (s : (Nat → K) × (Nat → K)) d, (∃ s' , loopFromM (gaussStep eps n 1) m i (s.1, s.2, d) = .ok s' ∧ loopFromM (equStep eps n) m i s = .ok (s'.1, s'.2.1)) ∨
      (loopFromM (gaussStep eps n 1) m i (s.1, s.2, d) = .throw ∧ loopFromM (equStep eps n) m i s = .throw) := by
    intro m
    induction m with
    | zero => intro i s d; exact .inl ⟨_, rfl, rfl⟩
    | succ m ih =>
      intro i s d
      unfold loopFromM
      unfold gaussStep equStep
      simp only
      cases hf : findPivot eps n s.1 i (n - i) i with
      | none => exact .inr ⟨rfl, rfl⟩
      | some j =>
        simp only [Res.ok_bind]
        have := ih (i + 1) (elim n 1 i (s.1 (j * n + i)) (if j ≠ i then (swapRows n i j s.1, swapRows 1 i j s.2) else (s.1, s.2))) (d * s.1 (j * n + i))
        have e : (elim n 1 i (s.1 (j * n + i)) (if j ≠ i then (swapRows n i j s.1, swapRows 1 i j s.2) else (s.1, s.2))) =
          loop (i + 1) n (fun k s' =>
            (loop (i + 1) n (fun l A => set A (k * n + l) (A (k * n + l) - s'.1 (k * n + i) / s.1 (j * n + i) * A (i * n + l))) s'.1,
              set s'.2 k (s'.2 k - s'.1 (k * n + i) / s.1 (j * n + i) * s'.2 i))) (if j ≠ i then (swapRows n i j s.1, swp s.2 j i) else s) := by
          unfold elim
          simp only [loop_one, swapRows_one, Nat.mul_one, Nat.add_zero]
        rw [← e]
        exact this
  unfold equGauss invMulGauss loopM
  rcases step (n - 0) 0 (A, b) 1 with ⟨s', e1, e2⟩ | ⟨e1, e2⟩
  · simp only at e1
    rw [e1, e2]
    simp only [Res.ok_bind]
    unfold gaussBack
    simp only [loop_one, Nat.mul_one, Nat.add_zero]
  · simp only at e1
    rw [e1, e2]; rfl

/-- **C40**, equ_gauss.  When it returns, the matrix is nonsingular and x solves A x = b; only the first n entries of x are written. -/
theorem C40_equ_gauss {eps : K} (he : 0 < eps) {n : Nat} {A b x : Nat → K} (h : equGauss eps n A b = .ok x) :
    (rect n n A).det ≠ 0 ∧ (rect n n A).mulVec (vect n x) = vect n b ∧ ∀ p, n ≤ p → x p = b p := by
  rw [equGauss_eq, Res.bind_eq_ok] at h
  obtain ⟨⟨A', X, d⟩, h1, h2⟩ := h
  cases h2
  obtain ⟨g1, g2, -, g4, -⟩ := C40_inv_mul_gauss_partial he h1
  refine ⟨g1, ?_, fun p hp => g4 (by norm_num) p (by omega)⟩
  funext r
  have := congrFun (congrFun g2 r) 0
  rw [Matrix.mul_apply] at this
  simp only [rect, Fin.val_zero, Nat.mul_one, Nat.add_zero] at this
  rw [← show _ = vect n b r from this]
  simp [Matrix.mulVec, dotProduct, rect, vect]

theorem gaussStep_no_ub (eps : K) (n m i : Nat) (s : (Nat → K) × (Nat → K) × K) : gaussStep eps n m i s ≠ .ub := by
  unfold gaussStep; split <;> simp

/-- **C40**, singular matrices are signalled: both functions throw, whatever the right-hand side. -/
theorem C40_singular_signalled {eps : K} (he : 0 < eps) {n m : Nat} {A B b : Nat → K} (h : (rect n n A).det = 0) :
    invMulGauss eps n m A B = .throw ∧ equGauss eps n A b = .throw := by
  have nub : ∀ m B, invMulGauss eps n m A B = .throw := by
    intro m B
    cases e : invMulGauss eps n m A B with
    | ok s => obtain ⟨A', X, d⟩ := s; exact absurd h (C40_inv_mul_gauss_partial he e).1
    | throw => rfl
    | ub =>
      unfold invMulGauss at e
      cases e2 : loopM 0 n (gaussStep eps n m) (A, B, 1) with
      | ok s => rw [e2] at e; simp at e
      | throw => rw [e2] at e; simp at e
      | ub => exact (loopFromM_no_ub (fun _ _ => True) _ _ _ trivial (fun k s _ _ _ => ⟨gaussStep_no_ub _ _ _ _ _, fun _ _ => trivial⟩) e2).elim
  refine ⟨nub m B, ?_⟩
  rw [equGauss_eq, nub 1 b]; rfl

theorem findPivot_none {eps : K} {n : Nat} {A : Nat → K} {i : Nat} : ∀ {f j : Nat}, (∀ r, j ≤ r → r < j + f → |A (r * n + i)| < eps) →
    findPivot eps n A i f j = none
  | 0, _, _ => rfl
  | f + 1, j, h => by
    unfold findPivot
    rw [if_neg (not_le.mpr (h j (Nat.le_refl _) (by omega)))]
    exact findPivot_none (fun r h1 h2 => h r (by omega) (by omega))

/-- **C40**, what fails: a matrix whose first column is small is reported as singular whatever its determinant is. -/
theorem C40_small_column_rejected (eps : K) {n : Nat} (hn : 0 < n) {A b : Nat → K} (h : ∀ r, r < n → |A (r * n)| < eps) :
    equGauss eps n A b = .throw := by
  obtain ⟨m, rfl⟩ : ∃ m, n = m + 1 := ⟨n - 1, by omega⟩
  unfold equGauss loopM
  simp only [Nat.sub_zero, loopFromM]
  unfold equStep
  simp only
  rw [findPivot_none (fun r _ hr => by simpa using h r (by omega))]
  rfl

/-- A nonsingular matrix for which that happens. -/
example : (rect 1 1 (fun _ => (1 / 4 : ℚ))).det ≠ 0 ∧ equGauss (1 / 2 : ℚ) 1 (fun _ => 1 / 4) (fun _ => 1) = .throw :=
  ⟨by simp [rect], C40_small_column_rejected _ (by norm_num) (fun _ _ => by norm_num [abs_of_pos])⟩

/-- **C40**, what fails: for two by two matrices with a zero in the first place the value returned is minus the determinant. -/
theorem C40_determinant_sign_wrong {eps : K} (he : 0 < eps) {m : Nat} {A B : Nat → K} (h0 : A 0 = 0) (h1 : eps ≤ |A 1|) (h2 : eps ≤ |A 2|) :
    ∃ A' X, invMulGauss eps 2 m A B = .ok (A', X, -(rect 2 2 A).det) ∧ (rect 2 2 A).det ≠ 0 := by
  have hn1 : A 1 ≠ 0 := by intro h; rw [h, abs_zero] at h1; exact absurd h1 (not_le.mpr he)
  have hn2 : A 2 ≠ 0 := by intro h; rw [h, abs_zero] at h2; exact absurd h2 (not_le.mpr he)
  have hd : (rect 2 2 A).det = - (A 2 * A 1) := by
    rw [Matrix.det_fin_two]; simp [rect, h0]; ring
  have f0 : findPivot eps 2 A 0 2 0 = some 1 := by
    unfold findPivot; rw [if_neg (by simp [h0, he])]
    unfold findPivot; rw [if_pos (by simpa using h2)]
  obtain ⟨s, hs⟩ : ∃ s, s = elim 2 m 0 (A 2) (swapRows 2 0 1 A, swapRows m 0 1 B) := ⟨_, rfl⟩
  have s3 : s.1 3 = A 1 := by
    have := (elim_at (n := 2) (m := m) (i := 0) (A 2) (swapRows 2 0 1 A) (swapRows m 0 1 B) (by norm_num)).1 1 1 (by norm_num)
    rw [← hs] at this
    have a0 := swapRows_at (m := 2) (i := 0) (j := 1) A (by norm_num) 1 0 (by norm_num)
    have a1 := swapRows_at (m := 2) (i := 0) (j := 1) A (by norm_num) 1 1 (by norm_num)
    simp at this a0 a1
    rw [this, a0, a1, h0]; simp
  have f1 : findPivot eps 2 s.1 1 1 1 = some 1 := by
    unfold findPivot; rw [if_pos (by simpa [s3] using h1)]
  have hne : (rect 2 2 A).det ≠ 0 := by rw [hd]; exact neg_ne_zero.mpr (mul_ne_zero hn2 hn1)
  refine exists_imp.mpr (fun A' h => exists_imp.mpr (fun X h => ⟨A', X, h, hne⟩) h) ?_
  unfold invMulGauss loopM
  simp only [Nat.sub_zero, loopFromM]
  unfold gaussStep
  simp only [Nat.sub_zero, f0, Res.ok_bind, Nat.zero_add]
  rw [if_pos (by norm_num)]
  simp only [show 1 * 2 + 0 = 2 by norm_num, ← hs, show 2 - 1 = 1 by norm_num, f1, Res.ok_bind]
  rw [hd, show 1 * 2 + 1 = 3 by norm_num, s3]
  simp only [neg_neg, one_mul]
  exact ⟨_, _, rfl⟩

/-- Both kinds of result occur: a system that is solved, with its exchange of rows. -/
example : (equGauss (1 / 1000 : ℚ) 2 (fun p => if p = 0 then 0 else p) (fun p => p + 1)).bind (fun x => .ok (x 0, x 1)) = .ok (-1 / 2, 1) := by
  decide +kernel

end OP.Lin
