import Verif.Pave.Princ
import Mathlib.Tactic.FieldSimp
import Mathlib.Tactic.LinearCombination
import Mathlib.Tactic.Linarith
import Mathlib.Algebra.BigOperators.Fin
/-!
# The rotations
-/
namespace OP.Pave

theorem hyp2_one_pos (t : ℝ) : 0 < hyp2 t 1 := Real.sqrt_pos.2 (by positivity)

theorem hyp2_sq (a b : ℝ) : hyp2 a b ^ 2 = a ^ 2 + b ^ 2 := Real.sq_sqrt (by positivity)

/-- The tangent solves the quadratic equation of the rotation and is at most one. -/
theorem tanOf_spec (d p : ℝ) (hp : p ≠ 0) :
    p * tanOf d p ^ 2 + d * tanOf d p - p = 0 ∧ |tanOf d p| ≤ 1 := by
  have key : ∀ σ : ℝ, σ ^ 2 = 1 → σ * d = |d| →
      let t := σ * 2 * p / (|d| + hyp2 d (σ * 2 * p))
      p * t ^ 2 + d * t - p = 0 ∧ |t| ≤ 1 := by
    intro σ h1 h2 t
    set r := hyp2 d (σ * 2 * p) with hr
    have hrs : r ^ 2 = d ^ 2 + 4 * p ^ 2 := by
      rw [hr, hyp2_sq]
      linear_combination 4 * p ^ 2 * h1
    have hr0 : 0 ≤ r := Real.sqrt_nonneg _
    have hpp : 0 < p ^ 2 := by positivity
    have hrp : 0 < r := by
      rcases hr0.lt_or_eq with h | h
      · exact h
      · rw [← h] at hrs; nlinarith [sq_nonneg d]
    have hD : 0 < |d| + r := by have := abs_nonneg d; linarith
    have hda : |d| ^ 2 = d ^ 2 := sq_abs d
    constructor
    · have ht : t * (|d| + r) = σ * 2 * p := div_mul_cancel₀ _ hD.ne'
      have : (p * t ^ 2 + d * t - p) * (|d| + r) ^ 2 = 0 := by
        have e1 : t ^ 2 * (|d| + r) ^ 2 = 4 * p ^ 2 := by
          rw [← mul_pow, ht]; linear_combination 4 * p ^ 2 * h1
        have e2 : t * (|d| + r) ^ 2 = σ * 2 * p * (|d| + r) := by rw [← ht]; ring
        calc (p * t ^ 2 + d * t - p) * (|d| + r) ^ 2
            = p * (t ^ 2 * (|d| + r) ^ 2) + d * (t * (|d| + r) ^ 2) - p * (|d| + r) ^ 2 := by ring
          _ = p * (4 * p ^ 2) + 2 * p * (σ * d) * (|d| + r) - p * (|d| + r) ^ 2 := by rw [e1, e2]; ring
          _ = 0 := by rw [h2]; linear_combination p * hda - p * hrs
      exact (mul_eq_zero.1 this).resolve_right (by positivity)
    · have hs : |σ| = 1 := by
        have : |σ| ^ 2 = 1 := by rw [sq_abs, h1]
        nlinarith [abs_nonneg σ]
      have : |t| = 2 * |p| / (|d| + r) := by
        simp only [t]
        rw [abs_div, abs_of_pos hD, abs_mul, abs_mul, hs]
        norm_num
      rw [this, div_le_one hD]
      have h3 : (2 * |p|) ^ 2 ≤ r ^ 2 := by
        rw [mul_pow, sq_abs, hrs]
        nlinarith [sq_nonneg d]
      have := abs_le_of_sq_le_sq h3 hr0
      have h4 := abs_nonneg d
      linarith [le_abs_self (2 * |p|)]
  unfold tanOf
  split_ifs with h
  · have := key (-1) (by norm_num) (by rw [abs_of_neg h]; ring)
    simpa using this
  · have := key 1 (by norm_num) (by rw [abs_of_nonneg (not_lt.1 h)]; ring)
    simpa using this

theorem all3 {P : Fin 3 → Prop} (h0 : P 0) (h1 : P 1) (h2 : P 2) : ∀ k, P k
  | 0 => h0
  | 1 => h1
  | 2 => h2

/-- The symmetric matrix. -/
def T6.mat (s : T6) : Fin 3 → Fin 3 → ℝ := t![t![s.xx, s.xy, s.xz], t![s.xy, s.yy, s.yz], t![s.xz, s.yz, s.zz]]

section
variable (s : T6)
theorem T6.m00 : s.mat 0 0 = s.xx := rfl
theorem T6.m01 : s.mat 0 1 = s.xy := rfl
theorem T6.m02 : s.mat 0 2 = s.xz := rfl
theorem T6.m10 : s.mat 1 0 = s.xy := rfl
theorem T6.m11 : s.mat 1 1 = s.yy := rfl
theorem T6.m12 : s.mat 1 2 = s.yz := rfl
theorem T6.m20 : s.mat 2 0 = s.xz := rfl
theorem T6.m21 : s.mat 2 1 = s.yz := rfl
theorem T6.m22 : s.mat 2 2 = s.zz := rfl
end

/-- `r` is `s` in another orthonormal basis, whose vectors are the rows of `q`. -/
def Similar (s r : T6) : Prop := ∃ q : Fin 3 → Fin 3 → ℝ,
  (∀ k l, ∑ i, q k i * q l i = if k = l then 1 else 0) ∧ ∀ k i, ∑ j, s.mat i j * q k j = ∑ l, r.mat k l * q l i

theorem Similar.refl (s : T6) : Similar s s := by
  refine ⟨fun k l => if k = l then 1 else 0, ?_, ?_⟩
  · refine all3 (all3 ?_ ?_ ?_) (all3 ?_ ?_ ?_) (all3 ?_ ?_ ?_) <;> simp [Fin.sum_univ_three]
  · refine all3 (all3 ?_ ?_ ?_) (all3 ?_ ?_ ?_) (all3 ?_ ?_ ?_) <;> simp [Fin.sum_univ_three, T6.m00, T6.m01, T6.m02, T6.m10, T6.m11, T6.m12, T6.m20, T6.m21, T6.m22]

theorem Similar.trans {a b c : T6} (h1 : Similar a b) (h2 : Similar b c) : Similar a c := by
  obtain ⟨p, hp, hp'⟩ := h1
  obtain ⟨q, hq, hq'⟩ := h2
  refine ⟨fun k i => ∑ j, q k j * p j i, ?_, ?_⟩
  · intro k l
    have h00 := hp 0 0
    have h01 := hp 0 1
    have h02 := hp 0 2
    have h11 := hp 1 1
    have h12 := hp 1 2
    have h22 := hp 2 2
    rw [← hq k l]
    simp [Fin.sum_univ_three] at *
    linear_combination (q k 0 * q l 0) * h00 + (q k 1 * q l 1) * h11 + (q k 2 * q l 2) * h22 +
      (q k 0 * q l 1 + q k 1 * q l 0) * h01 + (q k 0 * q l 2 + q k 2 * q l 0) * h02 + (q k 1 * q l 2 + q k 2 * q l 1) * h12
  · intro k i
    have e0 := hp' 0 i
    have e1 := hp' 1 i
    have e2 := hp' 2 i
    have f0 := hq' k 0
    have f1 := hq' k 1
    have f2 := hq' k 2
    have s1 : b.mat 1 0 = b.mat 0 1 := rfl
    have s2 : b.mat 2 0 = b.mat 0 2 := rfl
    have s3 : b.mat 2 1 = b.mat 1 2 := rfl
    simp only [Fin.sum_univ_three] at *
    rw [s1] at e1 f1
    rw [s2, s3] at e2 f2
    linear_combination q k 0 * e0 + q k 1 * e1 + q k 2 * e2 + p 0 i * f0 + p 1 i * f1 + p 2 i * f2

section rot
variable (s : T6)

theorem csq (t : ℝ) : (1 / hyp2 t 1) ^ 2 * (1 + t ^ 2) = 1 := by
  have h := hyp2_sq t 1
  have hp := hyp2_one_pos t
  rw [one_div, inv_pow, h]
  have : t ^ 2 + 1 ^ 2 ≠ 0 := by positivity
  field_simp
  ring

theorem rotXZ_similar : Similar s (rotXZ s) := by
  unfold rotXZ
  split_ifs with h
  · have ht := (tanOf_spec (s.zz - s.xx) s.xz h).1
    generalize tanOf (s.zz - s.xx) s.xz = t at *
    have hc := csq t
    simp only
    generalize 1 / hyp2 t 1 = c at *
    refine ⟨t![t![c, 0, -(t * c)], t![0, 1, 0], t![t * c, 0, c]], ?_, ?_⟩
    · refine all3 (all3 ?_ ?_ ?_) (all3 ?_ ?_ ?_) (all3 ?_ ?_ ?_) <;> simp [Fin.sum_univ_three] <;>
        first | ring1 | linear_combination hc
    · refine all3 (all3 ?_ ?_ ?_) (all3 ?_ ?_ ?_) (all3 ?_ ?_ ?_) <;> simp [Fin.sum_univ_three, T6.m00, T6.m01, T6.m02, T6.m10, T6.m11, T6.m12, T6.m20, T6.m21, T6.m22] <;>
        first
          | ring1
          | linear_combination c * ht
          | linear_combination (-c) * ht
          | linear_combination (-s.xy) * hc
          | linear_combination (-s.xz) * hc
          | linear_combination (-s.yz) * hc
  · exact Similar.refl s

theorem rotXY_similar (hz : s.xz = 0) : Similar s (rotXY s) := by
  unfold rotXY
  split_ifs with h
  · have ht := (tanOf_spec (s.yy - s.xx) s.xy h).1
    generalize tanOf (s.yy - s.xx) s.xy = t at *
    have hc := csq t
    simp only [div_eq_mul_one_div s.yz]
    generalize 1 / hyp2 t 1 = c at *
    refine ⟨t![t![c, -(t * c), 0], t![t * c, c, 0], t![0, 0, 1]], ?_, ?_⟩
    · refine all3 (all3 ?_ ?_ ?_) (all3 ?_ ?_ ?_) (all3 ?_ ?_ ?_) <;> simp [Fin.sum_univ_three] <;>
        first | ring1 | linear_combination hc
    · refine all3 (all3 ?_ ?_ ?_) (all3 ?_ ?_ ?_) (all3 ?_ ?_ ?_) <;> simp [Fin.sum_univ_three, T6.m00, T6.m01, T6.m02, T6.m10, T6.m11, T6.m12, T6.m20, T6.m21, T6.m22, hz] <;>
        first
          | ring1
          | linear_combination c * ht
          | linear_combination (-c) * ht
          | linear_combination (-s.xy) * hc
          | linear_combination (-s.xz) * hc
          | linear_combination (-s.yz) * hc
  · exact Similar.refl s

theorem rotYZ_similar (hz : s.xy = 0) : Similar s (rotYZ s) := by
  unfold rotYZ
  split_ifs with h
  · have ht := (tanOf_spec (s.zz - s.yy) s.yz h).1
    generalize tanOf (s.zz - s.yy) s.yz = t at *
    have hc := csq t
    simp only [div_eq_mul_one_div s.xz]
    generalize 1 / hyp2 t 1 = c at *
    refine ⟨t![t![1, 0, 0], t![0, c, -(t * c)], t![0, t * c, c]], ?_, ?_⟩
    · refine all3 (all3 ?_ ?_ ?_) (all3 ?_ ?_ ?_) (all3 ?_ ?_ ?_) <;> simp [Fin.sum_univ_three] <;>
        first | ring1 | linear_combination hc
    · refine all3 (all3 ?_ ?_ ?_) (all3 ?_ ?_ ?_) (all3 ?_ ?_ ?_) <;> simp [Fin.sum_univ_three, T6.m00, T6.m01, T6.m02, T6.m10, T6.m11, T6.m12, T6.m20, T6.m21, T6.m22, hz] <;>
        first
          | ring1
          | linear_combination c * ht
          | linear_combination (-c) * ht
          | linear_combination (-s.xy) * hc
          | linear_combination (-s.xz) * hc
          | linear_combination (-s.yz) * hc
  · exact Similar.refl s

end rot

end OP.Pave
