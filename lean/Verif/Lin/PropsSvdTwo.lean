import Verif.Lin.PropsSvdWide
import Verif.Lin.PropsSvdUse
/-!
# C94: the iteration converges for matrices with two columns
-/
namespace OP.Lin
open Finset
variable {K : Type} [Field K] [LinearOrder K] [IsStrictOrderedRing K]

omit [IsStrictOrderedRing K] in
theorem root_zero {rt : K → K} (hrt : IsRoot0 rt) {x : K} (hx : 0 ≤ x) : rt x = 0 ↔ x = 0 :=
  ⟨fun h => by have := (hrt x hx).2; rw [h, mul_zero] at this; exact this.symm, fun h => by have := (hrt x hx).2; rw [h] at this ⊢; exact mul_self_eq_zero.1 this⟩

/-- A value whose number beside the diagonal is zero is finished. -/
theorem svdOne_zero (rt : K → K) (anorm : K) (m n i k : Nat) (t : Dg K) (h : t.rv i = 0) : svdOne rt negExact anorm m n i (k + 1) t = .ok (svdSign n i t) := by
  rw [svdOne]
  have s1 : svdSplit negExact anorm t.W t.rv (i + 1) = .ok (i, false) := by
    rw [svdSplit, h, if_pos (by simp [negExact])]
  rw [s1, Res.ok_bind]
  dsimp only
  rw [if_neg Bool.false_ne_true, if_pos rfl]

/-- The second of two values is finished if the first is zero. -/
theorem svdOne_cancel (rt : K → K) (anorm : K) (m n k : Nat) (t : Dg K) (h : t.rv 1 ≠ 0) (h0 : t.W 0 = 0) :
    ∃ s, svdOne rt negExact anorm m n 1 (k + 1) t = .ok s ∧ s.good = t.good ∧ s.rv = t.rv := by
  rw [svdOne]
  have s1 : svdSplit negExact anorm t.W t.rv (1 + 1) = .ok (1, true) := by
    rw [svdSplit, if_neg (by simp [negExact, h]), if_neg one_ne_zero, h0, if_pos (by simp [negExact])]
  rw [s1, Res.ok_bind]
  dsimp only
  rw [if_pos rfl, if_pos rfl]
  refine ⟨_, rfl, ?_, ?_⟩
  · rw [(svdSign_frame _ _ _).2]
    simp [svdCancel, loop, loopFrom, negExact, h]
  · rw [(svdSign_frame _ _ _).1]
    simp [svdCancel, loop, loopFrom, negExact, h]

/-- What a pass leaves of two values: the number beside the diagonal is zero, or the first value is. -/
theorem svdPass_two {rt : K → K} (hrt : IsRoot0 rt) (m : Nat) (t : Dg K) (hr : t.rv 0 = 0) (h : t.rv 1 ≠ 0) (hx : t.W 0 ≠ 0) :
    (svdPass rt m 2 1 0 t).good = t.good ∧ (svdPass rt m 2 1 0 t).rv 0 = 0 ∧ ((svdPass rt m 2 1 0 t).rv 1 = 0 ∨ (svdPass rt m 2 1 0 t).W 0 = 0) := by
  obtain ⟨x, ex⟩ : ∃ x, x = t.W 0 := ⟨_, rfl⟩
  obtain ⟨y, ey⟩ : ∃ y, y = t.W 1 := ⟨_, rfl⟩
  obtain ⟨b, eb⟩ : ∃ b, b = t.rv 1 := ⟨_, rfl⟩
  unfold svdPass
  simp only [Nat.sub_self, hr, ← ex, ← ey, ← eb, loop, loopFrom]
  rw [← ex] at hx
  rw [← eb] at h
  obtain ⟨f, ef⟩ : ∃ f, f = ((x - y) * (x + y) + (0 - b) * (0 + b)) / (2 * b * x) := ⟨_, rfl⟩
  rw [← ef]
  obtain ⟨g, eg⟩ : ∃ g, g = (if f < 0 then (-1 : K) else 1) * rt (f * f + 1 * 1) := ⟨_, rfl⟩
  rw [← eg]
  have hg : g * g = f * f + 1 := by
    have h1 := (hrt (f * f + 1 * 1) (by have := mul_self_nonneg f; linarith)).2
    rw [eg]
    split <;> linarith
  have hfg : (g + f) * (g - f) = 1 := by linear_combination hg
  have hfg0 : f + g ≠ 0 := by
    intro h0
    rw [add_comm, h0, zero_mul] at hfg
    exact zero_ne_one hfg
  obtain ⟨F, eF⟩ : ∃ F, F = ((x - y) * (x + y) + b * (x / (f + g) - b)) / x := ⟨_, rfl⟩
  rw [← eF]
  -- the shift is a root
  have hF : x * (F * F - b * b) = F * (x * x - y * y - b * b) := by
    have e1 : x / (f + g) = x * (g - f) := by
      rw [div_eq_iff hfg0]
      linear_combination -x * hfg
    have e2 : f * (2 * b * x) = x * x - y * y - b * b := by
      rw [ef, div_mul_cancel₀ _ (by positivity)]
      ring
    have e3 : F * x = x * x - y * y - b * b + b * (x * (g - f)) := by
      rw [eF, div_mul_cancel₀ _ hx, e1]
      ring
    have e4 : x * (x * (F * F - b * b)) = x * (F * (x * x - y * y - b * b)) := by
      have e5 : F * x = f * (b * x) + b * x * g := by rw [e3, ← e2]; ring
      calc x * (x * (F * F - b * b)) = (F * x) * (F * x) - x * x * (b * b) := by ring
        _ = (F * x) * (f * (2 * b * x)) := by
          rw [e5]
          linear_combination (b * x * (b * x)) * hg
        _ = _ := by rw [e2]; ring
    exact mul_left_cancel₀ hx e4
  simp only [svdStep, ← ey, ← eb, one_mul, Nat.zero_add]
  obtain ⟨z, ez⟩ : ∃ z, z = rt (F * F + b * b) := ⟨_, rfl⟩
  have hz : z ≠ 0 := by
    have h1 := mul_self_nonneg F
    have h2 := mul_self_pos.2 h
    rw [ez, Ne, root_zero hrt (by linarith)]
    exact (by linarith : 0 < F * F + b * b).ne'
  rw [← ez]
  obtain ⟨w, ew⟩ : ∃ w, w = rt ((b * (b / z) + x * (F / z)) * (b * (b / z) + x * (F / z)) + y * (b / z) * (y * (b / z))) := ⟨_, rfl⟩
  rw [← ew]
  refine ⟨trivial, by simp [set], ?_⟩
  by_cases hw : w = 0
  · right
    simp [set, hw]
  · left
    rw [set_same, if_pos hw, if_pos hw]
    field_simp
    linear_combination b * hF

/-- The iteration for two values ends, with nothing neglected. -/
theorem svdDiag_two {rt : K → K} (hrt : IsRoot0 rt) (anorm : K) (m : Nat) (t : Dg K) (hr : t.rv 0 = 0) : ∃ s, svdDiag rt negExact anorm m 2 2 t = .ok s ∧ s.good = t.good := by
  have h1 : ∃ s, svdOne rt negExact anorm m 2 1 30 t = .ok s ∧ s.good = t.good ∧ s.rv 0 = 0 := by
    rw [show (30 : Nat) = 28 + 1 + 1 from rfl]
    by_cases h : t.rv 1 = 0
    · rw [svdOne_zero rt anorm m 2 1 _ t h]
      exact ⟨_, rfl, (svdSign_frame _ _ _).2, by rw [(svdSign_frame _ _ _).1]; exact hr⟩
    by_cases h0 : t.W 0 = 0
    · obtain ⟨s, e, a, b⟩ := svdOne_cancel rt anorm m 2 (28 + 1) t h h0
      exact ⟨s, e, a, by rw [b]; exact hr⟩
    obtain ⟨a, b, c⟩ := svdPass_two hrt m t hr h h0
    have s1 : svdSplit negExact anorm t.W t.rv (1 + 1) = .ok (0, false) := by
      rw [svdSplit, if_neg (by simp [negExact, h]), if_neg one_ne_zero, if_neg (by simp [negExact, h0]), svdSplit, hr, if_pos (by simp [negExact])]
    rw [svdOne, s1, Res.ok_bind]
    dsimp only
    rw [if_neg Bool.false_ne_true, if_neg zero_ne_one]
    by_cases h2 : (svdPass rt m 2 1 0 t).rv 1 = 0
    · rw [svdOne_zero rt anorm m 2 1 _ _ h2]
      exact ⟨_, rfl, (svdSign_frame _ _ _).2.trans a, by rw [(svdSign_frame _ _ _).1]; exact b⟩
    · obtain ⟨s, e, a', b'⟩ := svdOne_cancel rt anorm m 2 28 _ h2 (c.resolve_left h2)
      exact ⟨s, e, a'.trans a, by rw [b']; exact b⟩
  obtain ⟨s, e, a, b⟩ := h1
  rw [svdDiag, e, Res.ok_bind, svdDiag, show (30 : Nat) = 29 + 1 from rfl, svdOne_zero rt anorm m 2 0 _ _ b, Res.ok_bind, svdDiag]
  exact ⟨_, rfl, (svdSign_frame _ _ _).2.trans a⟩

theorem two_good {rt : K → K} (hrt : IsRoot0 rt) {m : Nat} (hm : 2 ≤ m) (A W V g : Nat → K) (out : K) (hW : ∀ c < 2, W c = 0) {t : Dg K} (e : svdWhole rt negExact m 2 A W V g out = .ok t) : t.good = true := by
  obtain ⟨t0, ht⟩ : ∃ t, t = loop 0 2 (fun i t => svdReduce rt m 2 i t) ⟨A, W, g, 0, 0, 0⟩ := ⟨_, rfl⟩
  obtain ⟨hr0, -⟩ := reduced hrt hm A W g hW t0 ht
  unfold svdWhole at e
  dsimp only at e
  rw [← ht] at e
  obtain ⟨s, e1, e2⟩ := svdDiag_two hrt t0.anorm m ⟨svdLefts m 2 t0.W (min m 2) t0.A, svdRightsAt 2 t0.A (fun i => if i < 2 then t0.rv1 i else out) 2 V, t0.W, t0.rv1, true⟩ (hr0 Nat.two_pos)
  rw [e1] at e
  cases e
  exact e2

/-- **C94** (two columns): with nothing neglected the routine gives the singular value decomposition of every matrix with two columns and at least two rows, whatever is found after the end of the work array. -/
theorem C94_two {rt : K → K} (hrt : IsRoot0 rt) {m : Nat} (hm : 2 ≤ m) (A W V g : Nat → K) (out : K) (hW : ∀ c < 2, W c = 0) :
    ∃ t, svdWhole rt negExact m 2 A W V g out = .ok t ∧
      (∀ a < 2, ∀ k < 2, ∑ r ∈ range m, t.A (r * 2 + a) * t.A (r * 2 + k) = if a = k then 1 else 0) ∧
      (∀ a < 2, ∀ k < 2, ∑ r ∈ range 2, t.V (r * 2 + a) * t.V (r * 2 + k) = if a = k then 1 else 0) ∧ (∀ k < 2, 0 ≤ t.W k) ∧
      ∀ r < m, ∀ c < 2, A (r * 2 + c) = ∑ k ∈ range 2, t.A (r * 2 + k) * t.W k * t.V (c * 2 + k) := by
  obtain ⟨t, anorm, e, -, -, h⟩ := C94_decomposition (m := m) (n := 2) hrt negExact_ok le_rfl Nat.two_pos hm A W V g out hW
  have hg : t.good = true := two_good hrt hm A W V g out hW e
  obtain ⟨h1, h2, h3, h4⟩ := h hg
  refine ⟨t, e, h1, h2, h3, fun r hr c hc => ?_⟩
  have := h4 r hr c hc
  rw [zero_mul, mul_zero, mul_zero] at this
  exact sub_eq_zero.1 (abs_eq_zero.1 (le_antisymm this (abs_nonneg _)))

/-- **C94** (two equations): with nothing neglected and no tolerance, every two equations with a solution for every right-hand side are solved, and the matrix is inverted, whatever is found after the end of the
work array. -/
theorem C94_two_equ {rt : K → K} (hrt : IsRoot0 rt) (A b x g1 g2 g3 g4 g5 r : Nat → K) (out : K) (hA : A 0 * A 3 ≠ A 1 * A 2) :
    ∃ y X, equSvdAt rt negExact 0 2 A b x g1 g2 g3 g4 g5 r out = .ok (y, true) ∧ invSvdAt rt negExact 0 2 A g3 g4 g5 out = .ok (X, true) ∧
      A 0 * y 0 + A 1 * y 1 = b 0 ∧ A 2 * y 0 + A 3 * y 1 = b 1 ∧ A 0 * X 0 + A 1 * X 2 = 1 ∧ A 0 * X 1 + A 1 * X 3 = 0 ∧ A 2 * X 0 + A 3 * X 2 = 0 ∧ A 2 * X 1 + A 3 * X 3 = 1 := by
  obtain ⟨U, W, V, y, X, good, e1, e2, h, -⟩ := C94_routines hrt (negExact_ok (K := K)) 0 Nat.two_pos A b x g1 g2 g3 g4 g5 r out
  have hg : good = true := by
    unfold invSvdAt at e2
    rw [if_neg (by omega)] at e2
    cases e : svdWhole rt negExact 2 2 (fun p => if p < 2 * 2 then A p else g3 p) (fun _ => 0) g4 g5 out with
    | ok t =>
      rw [e] at e2
      have e3 : (Res.ok (invRest 0 2 A t.A t.W t.V, t.good) : Res _) = .ok (X, good) := e2
      cases e3
      exact two_good hrt le_rfl _ _ g4 g5 out (fun _ _ => rfl) e
    | throw => rw [e] at e2; cases e2
    | ub => rw [e] at e2; cases e2
  rw [hg] at e1 e2
  obtain ⟨-, -, h3, h4, -, -, h5⟩ := h hg
  have a0 := h4 0 (by omega) 0 (by omega)
  have a1 := h4 0 (by omega) 1 (by omega)
  have a2 := h4 1 (by omega) 0 (by omega)
  have a3 := h4 1 (by omega) 1 (by omega)
  simp only [sum_range_succ, sum_range_zero, zero_add, zero_mul, one_mul, add_zero] at a0 a1 a2 a3
  norm_num at a0 a1 a2 a3
  have hw : W 0 * W 1 ≠ 0 := by
    intro h0
    apply hA
    rw [a0, a1, a2, a3]
    linear_combination ((U 0 * U 3 - U 1 * U 2) * (V 0 * V 3 - V 1 * V 2)) * h0
  obtain ⟨w0, w1⟩ := mul_ne_zero_iff.1 hw
  have p0 := lt_of_le_of_ne (h3 0 (by omega)) w0.symm
  have p1 := lt_of_le_of_ne (h3 1 (by omega)) w1.symm
  obtain ⟨s1, s2⟩ := h5 (fun k hk => by
    have : 0 < W k := by interval_cases k <;> assumption
    exact ⟨this, fun l _ => by rw [mul_zero]; exact this.le⟩) le_rfl
  refine ⟨y, X, e1, e2, ?_, ?_, ?_, ?_, ?_, ?_⟩
  · simpa [sum_range_succ] using s1 0 (by omega)
  · simpa [sum_range_succ] using s1 1 (by omega)
  · simpa [sum_range_succ] using s2 0 (by omega) 0 (by omega)
  · simpa [sum_range_succ] using s2 0 (by omega) 1 (by omega)
  · simpa [sum_range_succ] using s2 1 (by omega) 0 (by omega)
  · simpa [sum_range_succ] using s2 1 (by omega) 1 (by omega)

/-- The equations with the matrix `1 2`, `3 4`. -/
example (g : Nat → ℝ) (out : ℝ) : ∃ y, equSvdAt Real.sqrt negExact 0 2 (fun p => (p : ℝ) + 1) (fun _ => 1) g g g g g g g out = .ok (y, true) ∧ y 0 + 2 * y 1 = 1 := by
  obtain ⟨y, X, e, -, h, -⟩ := C94_two_equ (rt := Real.sqrt) (fun x hx => ⟨Real.sqrt_nonneg x, Real.mul_self_sqrt hx⟩) (fun p => (p : ℝ) + 1) (fun _ => 1) g g g g g g g out (by norm_num)
  norm_num at h
  exact ⟨y, e, h⟩

/-- The matrix with the rows `1 2`, `3 4` and `5 6`. -/
example (V g : Nat → ℝ) (out : ℝ) : ∃ t, svdWhole Real.sqrt negExact 3 2 (fun p => (p : ℝ) + 1) (fun _ => 0) V g out = .ok t ∧ 0 ≤ t.W 0 ∧ 0 ≤ t.W 1 ∧
    (6 : ℝ) = t.A 4 * t.W 0 * t.V 2 + t.A 5 * t.W 1 * t.V 3 := by
  obtain ⟨t, e, -, -, h3, h4⟩ := C94_two (rt := Real.sqrt) (fun x hx => ⟨Real.sqrt_nonneg x, Real.mul_self_sqrt hx⟩) (m := 3) (by omega) (fun p => (p : ℝ) + 1) (fun _ => 0) V g out (fun _ _ => rfl)
  refine ⟨t, e, h3 0 (by omega), h3 1 (by omega), ?_⟩
  have := h4 2 (by omega) 1 (by omega)
  rw [sum_range_succ, sum_range_one] at this
  norm_num at this
  exact this

end OP.Lin
