import Verif.Lin.Svd
import Verif.Lin.PropsEig
/-!
# C94: singular values
-/
namespace OP.Lin
open Finset
variable {K : Type} [Field K] [LinearOrder K]

/-! ## The decomposition reads outside its array -/

/-- C94, negation: for every matrix with a row and a column `decmp_svd` reads `rv1[n]`, one after the end, and so do the routines that call it. -/
theorem C94_reads_outside (rt : K → K) {m n : Nat} (hm : 0 < m) (hn : 0 < n) (A W V g : Nat → K) :
    decmpSvd rt m n A W V g = .ub ∧
    (∀ x g1 g2 g3 g4 rest, equSvd rt n A x g1 g2 g3 g4 rest = .ub) ∧ (∀ g1 g2 g3 g4 rest, invSvd rt n A g1 g2 g3 g4 rest = .ub) ∧
    ∀ g2 g3 g4 rest, orthSvd rt n A g2 g3 g4 rest = .ub := by
  have key : ∀ (m : Nat), 0 < m → ∀ A W V g : Nat → K, decmpSvd rt m n A W V g = .ub := by
    intro m hm A W V g
    obtain ⟨k, rfl⟩ : ∃ k, n = k + 1 := ⟨n - 1, by omega⟩
    unfold decmpSvd
    rw [if_neg (by omega)]
    dsimp only
    unfold svdRights svdRight readIn
    rw [if_neg (by omega)]
    rfl
  refine ⟨key m hm A W V g, ?_, ?_, ?_⟩
  · intro x g1 g2 g3 g4 rest
    unfold equSvd
    rw [if_neg (by omega), key n hn]
    rfl
  · intro g1 g2 g3 g4 rest
    unfold invSvd
    rw [if_neg (by omega), key n hn]
    rfl
  · intro g2 g3 g4 rest
    unfold orthSvd
    rw [if_neg (by omega), key n hn]
    rfl

/-- C94, negation: for a matrix of zeros the reduction leaves `W` as the caller gave it, although it is the result of the routine and is read afterwards. -/
theorem C94_unset [IsStrictOrderedRing K] (rt : K → K) (m n : Nat) (A W g : Nat → K) (hA : ∀ r < m, ∀ c < n, A (r * n + c) = 0) :
    (loop 0 n (fun i t => svdReduce rt m n i t) ⟨A, W, g, 0, 0, 0⟩).W = W := by
  have := loop_rule (f := fun i t => svdReduce rt m n i t) (fun _ t => t.W = W ∧ t.A = A) (Nat.zero_le n) (s := ⟨A, W, g, 0, 0, 0⟩) ⟨rfl, rfl⟩ (by
    rintro i t - hi ⟨h1, h2⟩
    unfold svdReduce
    dsimp only
    have z1 : ∀ t : Svd K, t.A = A → loop i m (fun k v => v + |t.A (k * n + i)|) 0 = 0 := by
      intro t h
      by_cases him : i ≤ m
      · refine loop_rule (fun _ v => v = 0) him rfl ?_
        intro k v _ hk hv
        rw [hv, h, hA k hk i hi, abs_zero, add_zero]
      · rw [loop_nil (by omega)]
    have z2 : ∀ t : Svd K, t.A = A → (if i < m then loop (i + 1) n (fun k v => v + |t.A (i * n + k)|) 0 else 0) = 0 := by
      intro t h
      by_cases him : i < m
      · rw [if_pos him]
        refine loop_rule (fun _ v => v = 0) (by omega) rfl ?_
        intro k v _ hk hv
        rw [hv, h, hA i him k hk, abs_zero, add_zero]
      · rw [if_neg him]
    have e1 : ∀ t : Svd K, t.A = A → (svdCol rt m n i t).W = t.W ∧ (svdCol rt m n i t).A = t.A := by
      intro t h
      unfold svdCol
      dsimp only
      rw [if_pos (z1 t h)]
      exact ⟨rfl, rfl⟩
    have e2 : ∀ t : Svd K, t.A = A → (svdRow rt m n i t).W = t.W ∧ (svdRow rt m n i t).A = t.A := by
      intro t h
      unfold svdRow
      dsimp only
      rw [if_pos (z2 t h)]
      exact ⟨rfl, rfl⟩
    obtain ⟨t', ht'⟩ : ∃ t' : Svd K, t' = { t with rv1 := set t.rv1 i (t.scale * t.G) } := ⟨_, rfl⟩
    have a1 : t'.A = A := by rw [ht']; exact h2
    have a2 : t'.W = W := by rw [ht']; exact h1
    rw [← ht']
    obtain ⟨b1, b2⟩ := e1 t' a1
    obtain ⟨c1, c2⟩ := e2 (svdCol rt m n i t') (b2.trans a1)
    exact ⟨c1.trans (b1.trans a2), c2.trans (b2.trans a1)⟩)
  exact this.1

/-! ## The substitution -/

/-- The part of `b` along the columns of `U` over the numbers that are not zero. -/
def svdCoef (m n : Nat) (U W b : Nat → K) (p c k : Nat) : K := if W k ≠ 0 then (∑ s ∈ range m, U (s * n + k) * b (s * p + c)) / W k else 0

theorem bksubSvd_spec {m n p c : Nat} (hm : 0 < m) (hc : c < p) (U W V b g : Nat → K) : ∀ r, ∀ q < p,
    bksubSvd m n U W V b p c g (r * p + q) = if q = c ∧ r < n then app n V (svdCoef m n U W b p c) r else b (r * p + q) := by
  rcases Nat.eq_zero_or_pos n with rfl | hn
  · intro r q _
    unfold bksubSvd
    rw [if_pos (Or.inr rfl), if_neg (by omega)]
  have h1 := loop_rule (f := fun j tmp =>
      let tmp := set tmp j 0
      if W j ≠ 0 then
        let tmp := loop 0 m (fun i tmp => set tmp j (tmp j + U (i * n + j) * b (i * p + c))) tmp
        set tmp j (tmp j / W j)
      else tmp) (fun l tmp => ∀ k < l, tmp k = svdCoef m n U W b p c k) (Nat.zero_le n) (s := g) (fun k hk => by omega) (by
    rintro l tmp - hl h k hk
    dsimp only
    by_cases h0 : W l ≠ 0
    · rw [if_pos h0, loop_acc_add (t := fun i _ => U (i * n + l) * b (i * p + c)) (Nat.zero_le m) fun _ _ _ _ => rfl, set_same, set_same, set_set, set_set, zero_add]
      by_cases h2 : k = l
      · rw [h2, set_same]
        unfold svdCoef
        rw [if_pos h0, range_eq_Ico]
      · rw [set_ne _ _ h2]; exact h k (by omega)
    · rw [if_neg h0]
      by_cases h2 : k = l
      · rw [h2, set_same]
        unfold svdCoef
        rw [if_neg h0]
      · rw [set_ne _ _ h2]; exact h k (by omega))
  unfold bksubSvd
  rw [if_neg (by omega)]
  dsimp only at h1 ⊢
  obtain ⟨tmp, htmp⟩ : ∃ tmp, tmp = loop 0 n (fun j tmp =>
      if W j ≠ 0 then set (loop 0 m (fun i tmp => set tmp j (tmp j + U (i * n + j) * b (i * p + c))) (set tmp j 0)) j
        ((loop 0 m (fun i tmp => set tmp j (tmp j + U (i * n + j) * b (i * p + c))) (set tmp j 0)) j / W j)
      else set tmp j 0) g := ⟨_, rfl⟩
  rw [← htmp] at h1 ⊢
  have h2 := loop_rule (f := fun j b => loop 0 n (fun i b => set b (j * p + c) (b (j * p + c) + V (j * n + i) * tmp i)) (set b (j * p + c) 0))
    (fun l B => ∀ r, ∀ q < p, B (r * p + q) = if q = c ∧ r < l then app n V (svdCoef m n U W b p c) r else b (r * p + q)) (Nat.zero_le n) (s := b)
    (fun r q _ => by rw [if_neg (by omega)]) (by
      rintro l B - hl h r q hq
      rw [loop_acc_add (t := fun i _ => V (l * n + i) * tmp i) (Nat.zero_le n) fun _ _ _ _ => rfl, set_same, set_set, zero_add, set_addr _ _ hc hq, h r q hq]
      by_cases h3 : r = l ∧ q = c
      · rw [if_pos h3, if_pos ⟨h3.2, by omega⟩, h3.1, ← range_eq_Ico]
        exact sum_congr rfl fun i hi => by rw [h1 i (mem_range.1 hi)]
      · rw [if_neg h3]
        by_cases h4 : q = c ∧ r < l
        · rw [if_pos h4, if_pos ⟨h4.1, by omega⟩]
        · rw [if_neg h4, if_neg (by omega)])
  exact h2

/-- The sum of the squares of what is left of the equations `A y = b`. -/
def resid (m n : Nat) (A : Nat → Nat → K) (b y : Nat → K) : K := ∑ r ∈ range m, ((∑ k ∈ range n, A r k * y k) - b r) ^ 2

variable [IsStrictOrderedRing K]

/-- C94: for the factors of a matrix, `m` by `n`, `bksub_svd` gives the least squares solution of least length, in the column asked for, and nothing else changes. -/
theorem C94_bksub {m n p c : Nat} (hm : 0 < m) (hc : c < p) (A : Nat → Nat → K) (U W V b g : Nat → K)
    (hU : ∀ a < n, ∀ k < n, W a ≠ 0 → W k ≠ 0 → ∑ r ∈ range m, U (r * n + a) * U (r * n + k) = if a = k then 1 else 0) (hV : ∀ a < n, ∀ k < n, colDot n V a k = if a = k then 1 else 0)
    (hA : ∀ r < m, ∀ s < n, A r s = ∑ k ∈ range n, U (r * n + k) * W k * V (s * n + k)) :
    (∀ y : Nat → K, resid m n A (fun i => b (i * p + c)) (fun j => bksubSvd m n U W V b p c g (j * p + c)) ≤ resid m n A (fun i => b (i * p + c)) y) ∧
    (∀ y : Nat → K, resid m n A (fun i => b (i * p + c)) y = resid m n A (fun i => b (i * p + c)) (fun j => bksubSvd m n U W V b p c g (j * p + c)) →
      ∑ j ∈ range n, bksubSvd m n U W V b p c g (j * p + c) ^ 2 ≤ ∑ j ∈ range n, y j ^ 2) ∧
    ∀ r, ∀ q < p, (q ≠ c ∨ n ≤ r) → bksubSvd m n U W V b p c g (r * p + q) = b (r * p + q) := by
  have hs := bksubSvd_spec (n := n) hm hc U W V b g
  refine (and_assoc.1 ⟨?_, fun r q hq h => by rw [hs r q hq, if_neg (by omega)]⟩)
  obtain ⟨u, hu⟩ : ∃ u, u = svdCoef m n U W b p c := ⟨_, rfl⟩
  obtain ⟨x, hx⟩ : ∃ x : Nat → K, x = fun j => bksubSvd m n U W V b p c g (j * p + c) := ⟨_, rfl⟩
  have hxv : ∀ j < n, x j = app n V u j := fun j hj => by rw [hx]; dsimp only; rw [hs j c hc, if_pos ⟨rfl, hj⟩, hu]
  obtain ⟨bb, hbb⟩ : ∃ bb : Nat → K, bb = fun i => b (i * p + c) := ⟨_, rfl⟩
  have hxs : ∑ j ∈ range n, bksubSvd m n U W V b p c g (j * p + c) ^ 2 = ∑ j ∈ range n, x j ^ 2 := by rw [hx]
  rw [hxs, ← hx, ← hbb]
  -- what the matrix does
  obtain ⟨vt, hvt⟩ : ∃ vt : (Nat → K) → Nat → K, vt = fun y k => ∑ s ∈ range n, V (s * n + k) * y s := ⟨_, rfl⟩
  have hmul : ∀ y : Nat → K, ∀ r < m, ∑ s ∈ range n, A r s * y s = ∑ k ∈ range n, U (r * n + k) * (W k * vt y k) := by
    intro y r hr
    rw [sum_congr rfl fun s hs => by rw [hA r hr s (mem_range.1 hs)], hvt]
    simp only [sum_mul, mul_sum]
    rw [sum_comm]
    exact sum_congr rfl fun k _ => sum_congr rfl fun s _ => by ring
  have hvx : ∀ k < n, vt x k = u k := by
    intro k hk
    rw [hvt]
    dsimp only
    rw [sum_congr rfl fun s hs => by rw [hxv s (mem_range.1 hs)]]
    exact orth_coord hV u k hk
  -- what is left is orthogonal to the columns that count
  have hort : ∀ k < n, W k ≠ 0 → ∑ r ∈ range m, U (r * n + k) * ((∑ s ∈ range n, A r s * x s) - bb r) = 0 := by
    intro k hk hW
    simp only [mul_sub, sum_sub_distrib]
    rw [sub_eq_zero, sum_congr rfl fun r hr => by rw [hmul x r (mem_range.1 hr), mul_sum], sum_comm, sum_eq_single k]
    · rw [hvx k hk, hu]
      unfold svdCoef
      rw [if_pos hW, show ∀ z : K, (∑ i ∈ range m, U (i * n + k) * (U (i * n + k) * (W k * (z / W k)))) = (∑ i ∈ range m, U (i * n + k) * U (i * n + k)) * z from fun z => by
        rw [sum_mul]; exact sum_congr rfl fun i _ => by field_simp, hU k hk k hk hW hW, if_pos rfl, one_mul, hbb]
    · intro a ha hak
      by_cases hWa : W a = 0
      · exact sum_eq_zero fun i _ => by rw [hWa]; ring
      · rw [show (∑ i ∈ range m, U (i * n + k) * (U (i * n + a) * (W a * vt x a))) = (∑ i ∈ range m, U (i * n + k) * U (i * n + a)) * (W a * vt x a) by
          rw [sum_mul]; exact sum_congr rfl fun i _ => by ring, hU k hk a (mem_range.1 ha) hW hWa, if_neg (Ne.symm hak), zero_mul]
    · intro h; exact absurd (mem_range.2 hk) h
  -- Pythagoras
  have hpyth : ∀ y : Nat → K, resid m n A bb y = resid m n A bb x + ∑ r ∈ range m, (∑ s ∈ range n, A r s * (y s - x s)) ^ 2 := by
    intro y
    have hcross : ∑ r ∈ range m, ((∑ s ∈ range n, A r s * x s) - bb r) * (∑ s ∈ range n, A r s * (y s - x s)) = 0 := by
      rw [sum_congr rfl fun r hr => by rw [hmul (fun s => y s - x s) r (mem_range.1 hr), mul_sum], sum_comm]
      refine sum_eq_zero fun k hk => ?_
      by_cases hW : W k = 0
      · exact sum_eq_zero fun i _ => by rw [hW]; ring
      · rw [show ∀ z : K, (∑ i ∈ range m, ((∑ s ∈ range n, A i s * x s) - bb i) * (U (i * n + k) * (W k * z))) =
          (∑ i ∈ range m, U (i * n + k) * ((∑ s ∈ range n, A i s * x s) - bb i)) * (W k * z) from fun z => by
            rw [sum_mul]; exact sum_congr rfl fun i _ => by ring, hort k (mem_range.1 hk) hW, zero_mul]
    unfold resid
    have key : ∀ r ∈ range m, ((∑ s ∈ range n, A r s * y s) - bb r) ^ 2 = ((∑ s ∈ range n, A r s * x s) - bb r) ^ 2 +
        2 * (((∑ s ∈ range n, A r s * x s) - bb r) * (∑ s ∈ range n, A r s * (y s - x s))) + (∑ s ∈ range n, A r s * (y s - x s)) ^ 2 := by
      intro r _
      rw [show ∑ s ∈ range n, A r s * (y s - x s) = (∑ s ∈ range n, A r s * y s) - ∑ s ∈ range n, A r s * x s by
        rw [← sum_sub_distrib]; exact sum_congr rfl fun s _ => by ring]
      ring
    rw [sum_congr rfl key, sum_add_distrib, sum_add_distrib, ← mul_sum, hcross, mul_zero, add_zero]
  refine ⟨fun y => ?_, fun y hy => ?_⟩
  · rw [hpyth y]
    have := sum_nonneg fun r (_ : r ∈ range m) => sq_nonneg (∑ s ∈ range n, A r s * (y s - x s))
    linarith
  · rw [hpyth y] at hy
    have h0 : ∀ r < m, ∑ s ∈ range n, A r s * (y s - x s) = 0 := by
      have : ∑ r ∈ range m, (∑ s ∈ range n, A r s * (y s - x s)) ^ 2 = 0 := by linarith
      intro r hr
      exact pow_eq_zero_iff (by omega) |>.1 ((sum_eq_zero_iff_of_nonneg fun _ _ => sq_nonneg _).1 this r (mem_range.2 hr))
    -- the difference has no part along the columns that count
    have hk0 : ∀ k < n, W k ≠ 0 → vt (fun s => y s - x s) k = 0 := by
      intro k hk hW
      have e : ∑ r ∈ range m, U (r * n + k) * ∑ s ∈ range n, A r s * (y s - x s) = 0 := sum_eq_zero fun r hr => by rw [h0 r (mem_range.1 hr), mul_zero]
      rw [sum_congr rfl fun r hr => by rw [hmul (fun s => y s - x s) r (mem_range.1 hr), mul_sum], sum_comm, sum_eq_single k] at e
      · rw [show ∀ z : K, (∑ i ∈ range m, U (i * n + k) * (U (i * n + k) * (W k * z))) = (∑ i ∈ range m, U (i * n + k) * U (i * n + k)) * (W k * z) from fun z => by
          rw [sum_mul]; exact sum_congr rfl fun i _ => by ring, hU k hk k hk hW hW, if_pos rfl, one_mul] at e
        exact (mul_eq_zero.1 e).resolve_left hW
      · intro a ha hak
        by_cases hWa : W a = 0
        · exact sum_eq_zero fun i _ => by rw [hWa]; ring
        · rw [show ∀ z : K, (∑ i ∈ range m, U (i * n + k) * (U (i * n + a) * (W a * z))) = (∑ i ∈ range m, U (i * n + k) * U (i * n + a)) * (W a * z) from fun z => by
            rw [sum_mul]; exact sum_congr rfl fun i _ => by ring, hU k hk a (mem_range.1 ha) hW hWa, if_neg (Ne.symm hak), zero_mul]
      · intro h; exact absurd (mem_range.2 hk) h
    have hxd : ∑ s ∈ range n, x s * (y s - x s) = 0 := by
      rw [sum_congr rfl fun s hs => by rw [show x s * (y s - x s) = app n V u s * (y s - x s) by rw [hxv s (mem_range.1 hs)]]]
      unfold app
      simp only [sum_mul]
      rw [sum_comm]
      refine sum_eq_zero fun k hk => ?_
      by_cases hW : W k = 0
      · refine sum_eq_zero fun s _ => ?_
        rw [hu]
        unfold svdCoef
        rw [if_neg (by simp [hW]), mul_zero, zero_mul]
      · have := hk0 k (mem_range.1 hk) hW
        rw [hvt] at this
        dsimp only at this
        rw [show (∑ i ∈ range n, V (i * n + k) * u k * (y i - x i)) = u k * ∑ i ∈ range n, V (i * n + k) * (y i - x i) by
          rw [mul_sum]; exact sum_congr rfl fun i _ => by ring, this, mul_zero]
    have : ∑ j ∈ range n, y j ^ 2 = ∑ j ∈ range n, x j ^ 2 + ∑ j ∈ range n, (y j - x j) ^ 2 := by
      rw [sum_congr rfl fun j _ => show y j ^ 2 = x j ^ 2 + 2 * (x j * (y j - x j)) + (y j - x j) ^ 2 by ring, sum_add_distrib, sum_add_distrib, ← mul_sum, hxd, mul_zero, add_zero]
    rw [this]
    have := sum_nonneg fun j (_ : j ∈ range n) => sq_nonneg (y j - x j)
    linarith

/-- The hypotheses can be met: a singular matrix of two rows with unit factors, and its second right-hand side. -/
example : (fun p => bksubSvd 2 2 (fun p => if p = 0 ∨ p = 3 then (1 : ℚ) else 0) (fun k => if k = 0 then 2 else 0) (fun p => if p = 0 ∨ p = 3 then 1 else 0)
    (fun p => if p = 1 then 6 else 5) 2 1 (fun _ => 7) p) 1 = 3 ∧
    (∀ a < 2, ∀ k < 2, ∑ r ∈ range 2, (fun p => if p = 0 ∨ p = 3 then (1 : ℚ) else 0) (r * 2 + a) * (fun p => if p = 0 ∨ p = 3 then (1 : ℚ) else 0) (r * 2 + k) = if a = k then 1 else 0) := by
  decide +kernel

end OP.Lin
