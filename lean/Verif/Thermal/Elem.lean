import Verif.Thermal.Asm
import Mathlib.Tactic.IntervalCases
import Mathlib.Tactic.FieldSimp
import Mathlib.Tactic.Positivity
import Mathlib.Tactic.NormNum
/-!
# The element matrices: lemmas
-/
namespace OP.Thermal

open Lin Finset

variable {K : Type} [Field K] [LinearOrder K] [IsStrictOrderedRing K]

def Order (w : Nat) : Prop := w = 1 ∨ w = 2 ∨ w = 4

omit [LinearOrder K] [IsStrictOrderedRing K] in
theorem ke_symm {w : Nat} (hw : Order w) {i k : Nat} (hi : i ≤ w) (hk : k ≤ w) : ke (K := K) w i k = ke w k i := by
  rcases hw with rfl | rfl | rfl <;> interval_cases i <;> interval_cases k <;> rfl

omit [LinearOrder K] [IsStrictOrderedRing K] in
theorem fe_symm {w : Nat} (hw : Order w) {i k : Nat} (hi : i ≤ w) (hk : k ≤ w) : fe (K := K) w i k = fe w k i := by
  rcases hw with rfl | rfl | rfl <;> interval_cases i <;> interval_cases k <;> rfl

/-- The quadratic form of an element. -/
def quad (w : Nat) (M : Nat → Nat → K) (x : Nat → K) : K := ∑ i ∈ range (w + 1), x i * ∑ k ∈ range (w + 1), M i k * x k

theorem ke_nonneg {w : Nat} (hw : Order w) (x : Nat → K) : 0 ≤ quad w (ke w) x := by
  rcases hw with rfl | rfl | rfl
  · have : quad 1 (ke 1) x = (x 0 - x 1) ^ 2 / 2 := by
      simp only [quad, sum_range_succ, sum_range_zero, ke, List.getD_cons_zero, List.getD_cons_succ]; ring
    rw [this]; positivity
  · have : quad 2 (ke 2) x = 7/6 * (x 0 - 8/7 * x 1 + 1/7 * x 2) ^ 2 + 8/7 * (x 1 - x 2) ^ 2 := by
      simp only [quad, sum_range_succ, sum_range_zero, ke, List.getD_cons_zero, List.getD_cons_succ]; ring
    rw [this]; positivity
  · have : quad 4 (ke 4) x = 985/378 * (x 0 - 6848/4925 * x 1 + 3048/4925 * x 2 - 1472/4925 * x 3 + 347/4925 * x 4) ^ 2 +
        834688/221625 * (x 1 - 18267/13042 * x 2 + 3519/6521 * x 3 - 1813/13042 * x 4) ^ 2 +
        111608/32605 * (x 2 - 17072/13951 * x 3 + 3121/13951 * x 4) ^ 2 + 32768/13951 * (x 3 - x 4) ^ 2 := by
      simp only [quad, sum_range_succ, sum_range_zero, ke, List.getD_cons_zero, List.getD_cons_succ]; ring
    rw [this]; positivity

theorem fe_nonneg_pos {w : Nat} (hw : Order w) (x : Nat → K) : 0 ≤ quad w (fe w) x ∧ (quad w (fe w) x = 0 → ∀ i, i ≤ w → x i = 0) := by
  have sq : ∀ {c y : K}, 0 < c → c * y ^ 2 = 0 → y = 0 := fun hc h => by
    rcases mul_eq_zero.1 h with h | h
    · exact absurd h hc.ne'
    · exact pow_eq_zero_iff (two_ne_zero) |>.1 h
  rcases hw with rfl | rfl | rfl
  · have : quad 1 (fe 1) x = 2/3 * (x 0 + 1/2 * x 1) ^ 2 + 1/2 * x 1 ^ 2 := by
      simp only [quad, sum_range_succ, sum_range_zero, fe, List.getD_cons_zero, List.getD_cons_succ]; ring
    rw [this]
    refine ⟨by positivity, fun h i hi => ?_⟩
    have p0 : 0 ≤ 2/3 * (x 0 + 1/2 * x 1) ^ 2 := by positivity
    have p1 : 0 ≤ 1/2 * x 1 ^ 2 := by positivity
    have e1 := sq (by norm_num) (le_antisymm (by linarith) p1)
    have e0 := sq (by norm_num) (le_antisymm (by linarith) p0)
    interval_cases i <;> linarith
  · have : quad 2 (fe 2) x = 4/15 * (x 0 + 1/2 * x 1 - 1/4 * x 2) ^ 2 + 1 * (x 1 + 1/6 * x 2) ^ 2 + 2/9 * x 2 ^ 2 := by
      simp only [quad, sum_range_succ, sum_range_zero, fe, List.getD_cons_zero, List.getD_cons_succ]; ring
    rw [this]
    refine ⟨by positivity, fun h i hi => ?_⟩
    have p0 : 0 ≤ 4/15 * (x 0 + 1/2 * x 1 - 1/4 * x 2) ^ 2 := by positivity
    have p1 : 0 ≤ 1 * (x 1 + 1/6 * x 2) ^ 2 := by positivity
    have p2 : 0 ≤ 2/9 * x 2 ^ 2 := by positivity
    have e2 := sq (by norm_num) (le_antisymm (by linarith) p2)
    have e1 := sq (by norm_num) (le_antisymm (by linarith) p1)
    have e0 := sq (by norm_num) (le_antisymm (by linarith) p0)
    interval_cases i <;> linarith
  · have : quad 4 (fe 4) x = 292/2835 * (x 0 + 74/73 * x 1 - 87/146 * x 2 + 14/73 * x 3 - 29/292 * x 4) ^ 2 +
        36304/68985 * (x 1 - 1263/9076 * x 2 + 303/2269 * x 3 + 1039/18152 * x 4) ^ 2 +
        146176/238245 * (x 2 - 106/571 * x 3 - 3769/36544 * x 4) ^ 2 + 1024/1713 * (x 3 + 97/640 * x 4) ^ 2 + 2/25 * x 4 ^ 2 := by
      simp only [quad, sum_range_succ, sum_range_zero, fe, List.getD_cons_zero, List.getD_cons_succ]; ring
    rw [this]
    refine ⟨by positivity, fun h i hi => ?_⟩
    have p0 : 0 ≤ 292/2835 * (x 0 + 74/73 * x 1 - 87/146 * x 2 + 14/73 * x 3 - 29/292 * x 4) ^ 2 := by positivity
    have p1 : 0 ≤ 36304/68985 * (x 1 - 1263/9076 * x 2 + 303/2269 * x 3 + 1039/18152 * x 4) ^ 2 := by positivity
    have p2 : 0 ≤ 146176/238245 * (x 2 - 106/571 * x 3 - 3769/36544 * x 4) ^ 2 := by positivity
    have p3 : 0 ≤ 1024/1713 * (x 3 + 97/640 * x 4) ^ 2 := by positivity
    have p4 : 0 ≤ 2/25 * x 4 ^ 2 := by positivity
    have e4 := sq (by norm_num) (le_antisymm (by linarith) p4)
    have e3 := sq (by norm_num) (le_antisymm (by linarith) p3)
    have e2 := sq (by norm_num) (le_antisymm (by linarith) p2)
    have e1 := sq (by norm_num) (le_antisymm (by linarith) p1)
    have e0 := sq (by norm_num) (le_antisymm (by linarith) p0)
    clear p0 p1 p2 p3 p4 h this
    have f3 : x 3 = 0 := by simpa [e4] using e3
    have f2 : x 2 = 0 := by simpa [e4, f3] using e2
    have f1 : x 1 = 0 := by simpa [e4, f3, f2] using e1
    have f0 : x 0 = 0 := by simpa [e4, f3, f2, f1] using e0
    interval_cases i <;> assumption

/-- A linear profile: flux at the ends only. -/
theorem ke_lin {w : Nat} (hw : Order w) {i : Nat} (hi : i ≤ w) (x g : K) :
    ∑ k ∈ range (w + 1), ke w i k * (x + g * ((k : K) / w)) = if i = w then g / 2 else if i = 0 then -(g / 2) else 0 := by
  rcases hw with rfl | rfl | rfl <;> interval_cases i <;>
    simp only [sum_range_succ, sum_range_zero, ke, List.getD_cons_zero, List.getD_cons_succ] <;> norm_num <;> ring

/-! ## Sums over elements -/

omit [LinearOrder K] [IsStrictOrderedRing K] in
theorem blk_row {w j n : Nat} (hj : j + w < n) (M : Nat → Nat → K) (x : Nat → K) (i : Nat) :
    row n (blk w j M) x i = if j ≤ i ∧ i ≤ j + w then ∑ k ∈ range (w + 1), M (i - j) k * x (j + k) else 0 := by
  unfold row
  by_cases hi : j ≤ i ∧ i ≤ j + w
  · rw [if_pos hi]
    have e : ∀ q ∈ range n, blk w j M i q * x q = if j ≤ q ∧ q ≤ j + w then M (i - j) (q - j) * x q else 0 := fun q _ => by
      unfold blk
      by_cases hq : j ≤ q ∧ q ≤ j + w
      · rw [if_pos ⟨hi.1, hi.2, hq⟩, if_pos hq]
      · rw [if_neg (by omega), if_neg hq, zero_mul]
    rw [sum_congr rfl e, ← sum_filter]
    have : (range n).filter (fun q => j ≤ q ∧ q ≤ j + w) = Ico j (j + w + 1) := by
      ext q; simp only [mem_filter, mem_range, mem_Ico]; omega
    rw [this, sum_Ico_eq_sum_range]
    rw [show j + w + 1 - j = w + 1 by omega]
    exact sum_congr rfl fun k _ => by rw [Nat.add_sub_cancel_left]
  · rw [if_neg hi]
    exact sum_eq_zero fun q _ => by unfold blk; rw [if_neg (by omega), zero_mul]

omit [LinearOrder K] [IsStrictOrderedRing K] in
theorem asm_row {w m n : Nat} (hm : m * w < n) (c : Nat → K) (M : Nat → Nat → K) (x : Nat → K) (i : Nat) :
    row n (asm w m c M) x i = ∑ e ∈ range m, c e * (if e * w ≤ i ∧ i ≤ e * w + w then ∑ k ∈ range (w + 1), M (i - e * w) k * x (e * w + k) else 0) := by
  have : row n (asm w m c M) x i = ∑ e ∈ range m, c e * row n (blk w (e * w) M) x i := by
    unfold row asm
    simp only [sum_mul, mul_sum]
    rw [sum_comm]
    exact sum_congr rfl fun e _ => sum_congr rfl fun q _ => by ring
  rw [this]
  refine sum_congr rfl fun e he => ?_
  rw [blk_row]
  have := mem_range.1 he
  exact lt_of_le_of_lt (by rw [← Nat.succ_mul]; exact Nat.mul_le_mul_right _ this) hm

omit [LinearOrder K] [IsStrictOrderedRing K] in
/-- `yᵀ A x` of the sum is the sum over the elements. -/
theorem asm_quad {w m n : Nat} (hm : m * w < n) (c : Nat → K) (M : Nat → Nat → K) (x : Nat → K) :
    ∑ i ∈ range n, x i * row n (asm w m c M) x i = ∑ e ∈ range m, c e * quad w M (fun k => x (e * w + k)) := by
  simp only [asm_row hm, mul_sum]
  rw [sum_comm]
  refine sum_congr rfl fun e he => ?_
  have hlt : e * w + w < n := lt_of_le_of_lt (by rw [← Nat.succ_mul]; exact Nat.mul_le_mul_right _ (mem_range.1 he)) hm
  unfold quad
  have e1 : ∀ i ∈ range n, x i * (c e * if e * w ≤ i ∧ i ≤ e * w + w then ∑ k ∈ range (w + 1), M (i - e * w) k * x (e * w + k) else 0) =
      if e * w ≤ i ∧ i ≤ e * w + w then c e * (x i * ∑ k ∈ range (w + 1), M (i - e * w) k * x (e * w + k)) else 0 := fun i _ => by
    split_ifs
    · ring
    · simp
  rw [sum_congr rfl e1, ← sum_filter]
  have : (range n).filter (fun q => e * w ≤ q ∧ q ≤ e * w + w) = Ico (e * w) (e * w + w + 1) := by
    ext q; simp only [mem_filter, mem_range, mem_Ico]; omega
  rw [this, sum_Ico_eq_sum_range, show e * w + w + 1 - e * w = w + 1 by omega, ← mul_sum]
  congr 1
  refine sum_congr rfl fun k _ => ?_
  simp only [Nat.add_sub_cancel_left]

omit [LinearOrder K] [IsStrictOrderedRing K] in
theorem asm_symm {w m : Nat} {c : Nat → K} {M : Nat → Nat → K} (hM : ∀ i k, i ≤ w → k ≤ w → M i k = M k i) (p q : Nat) :
    asm w m c M p q = asm w m c M q p := by
  unfold asm blk
  refine sum_congr rfl fun e _ => ?_
  by_cases h : e * w ≤ p ∧ p ≤ e * w + w ∧ e * w ≤ q ∧ q ≤ e * w + w
  · rw [if_pos h, if_pos ⟨h.2.2.1, h.2.2.2, h.1, h.2.1⟩, hM _ _ (by omega) (by omega)]
  · rw [if_neg h, if_neg (by tauto)]

omit [LinearOrder K] [IsStrictOrderedRing K] in
theorem asm_off {w m : Nat} (c : Nat → K) (M : Nat → Nat → K) {p q : Nat} (h : p + w < q ∨ q + w < p) : asm w m c M p q = 0 :=
  sum_eq_zero fun e _ => by unfold blk; rw [if_neg (by omega), mul_zero]

theorem Order.pos {w : Nat} (h : Order w) : 0 < w := by unfold Order at h; omega

theorem cover {w m i : Nat} (hw : 0 < w) (hm : 0 < m) (h : i ≤ m * w) : ∃ e, e < m ∧ e * w ≤ i ∧ i ≤ e * w + w := by
  by_cases hi : i = m * w
  · refine ⟨m - 1, by omega, ?_, ?_⟩
    · rw [hi]; exact Nat.mul_le_mul_right _ (by omega)
    · rw [hi, ← Nat.succ_mul]; exact Nat.mul_le_mul_right _ (by omega)
  · have hlt : i < m * w := by omega
    refine ⟨i / w, (Nat.div_lt_iff_lt_mul hw).2 hlt, Nat.div_mul_le_self i w, ?_⟩
    have := Nat.div_add_mod i w
    have := Nat.mod_lt i hw
    rw [Nat.mul_comm (i / w)]; omega

/-- Conduction never has negative energy. -/
theorem K_nonneg {w m n : Nat} (hw : Order w) (hm : m * w < n) {c : Nat → K} (hc : ∀ e, e < m → 0 ≤ c e) (x : Nat → K) :
    0 ≤ ∑ i ∈ range n, x i * row n (asm w m c (ke w)) x i := by
  rw [asm_quad hm]
  exact sum_nonneg fun e he => mul_nonneg (hc e (mem_range.1 he)) (ke_nonneg hw _)

theorem F_nonneg {w m n : Nat} (hw : Order w) (hm : m * w < n) {c : Nat → K} (hc : ∀ e, e < m → 0 ≤ c e) (x : Nat → K) :
    0 ≤ ∑ i ∈ range n, x i * row n (asm w m c (fe w)) x i := by
  rw [asm_quad hm]
  exact sum_nonneg fun e he => mul_nonneg (hc e (mem_range.1 he)) (fe_nonneg_pos hw _).1

/-- The heat stored is positive definite. -/
theorem F_pos {w m n : Nat} (hw : Order w) (hm0 : 0 < m) (hm : n = m * w + 1) {c : Nat → K} (hc : ∀ e, e < m → 0 < c e) (x : Nat → K)
    (h0 : ∑ i ∈ range n, x i * row n (asm w m c (fe w)) x i = 0) (i : Nat) (hi : i < n) : x i = 0 := by
  rw [asm_quad (by omega)] at h0
  have hz := (sum_eq_zero_iff_of_nonneg fun e he => mul_nonneg (hc e (mem_range.1 he)).le (fe_nonneg_pos hw fun k => x (e * w + k)).1).1 h0
  obtain ⟨e, he, h1, h2⟩ := cover hw.pos hm0 (i := i) (m := m) (by omega)
  have := hz e (mem_range.2 he)
  rcases mul_eq_zero.1 this with h | h
  · exact absurd h (hc e he).ne'
  · have := (fe_nonneg_pos hw _).2 h (i - e * w) (by omega)
    rwa [show e * w + (i - e * w) = i by omega] at this

end OP.Thermal
