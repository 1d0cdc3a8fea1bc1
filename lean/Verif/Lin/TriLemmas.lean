import Verif.Lin.Eig
import Verif.Lin.PropsOrth
import Mathlib.Algebra.BigOperators.Field
/-!
# Householder reduction: lemmas
-/
namespace OP.Lin
open Finset

section Forms
variable {K : Type} [Field K]

/-- The scalar product of two vectors. -/
def vdot (n : Nat) (x y : Nat → K) : K := ∑ r ∈ range n, x r * y r

/-- The bilinear form of a matrix. -/
def vbil (n : Nat) (B : Nat → Nat → K) (x y : Nat → K) : K := ∑ r ∈ range n, ∑ s ∈ range n, B r s * x r * y s

theorem vdot_comm (n : Nat) (x y : Nat → K) : vdot n x y = vdot n y x := sum_congr rfl fun _ _ => mul_comm _ _

theorem vdot_sub_smul (n : Nat) (x u y : Nat → K) (a : K) : vdot n (fun r => x r - u r * a) y = vdot n x y - a * vdot n u y := by
  unfold vdot; rw [mul_sum, ← sum_sub_distrib]; exact sum_congr rfl fun _ _ => by ring

theorem vbil_congr {n : Nat} {B B' : Nat → Nat → K} (h : ∀ r < n, ∀ s < n, B r s = B' r s) (x y : Nat → K) : vbil n B x y = vbil n B' x y :=
  sum_congr rfl fun r hr => sum_congr rfl fun s hs => by rw [h r (mem_range.1 hr) s (mem_range.1 hs)]

theorem vbil_sub_left (n : Nat) (B : Nat → Nat → K) (x u y : Nat → K) (a : K) :
    vbil n B (fun r => x r - u r * a) y = vbil n B x y - a * vbil n B u y := by
  unfold vbil; rw [mul_sum, ← sum_sub_distrib]
  refine sum_congr rfl fun _ _ => ?_
  rw [mul_sum, ← sum_sub_distrib]; exact sum_congr rfl fun _ _ => by ring

theorem vbil_sub_right (n : Nat) (B : Nat → Nat → K) (x y u : Nat → K) (a : K) :
    vbil n B x (fun r => y r - u r * a) = vbil n B x y - a * vbil n B x u := by
  unfold vbil; rw [mul_sum, ← sum_sub_distrib]
  refine sum_congr rfl fun _ _ => ?_
  rw [mul_sum, ← sum_sub_distrib]; exact sum_congr rfl fun _ _ => by ring

theorem vbil_mul (n : Nat) (B : Nat → Nat → K) (x u w : Nat → K) (hw : ∀ r < n, w r = ∑ s ∈ range n, B r s * u s) :
    vbil n B x u = vdot n x w := by
  unfold vbil vdot
  refine sum_congr rfl fun r hr => ?_
  rw [hw r (mem_range.1 hr), mul_sum]; exact sum_congr rfl fun _ _ => by ring

theorem vbil_symm (n : Nat) (B : Nat → Nat → K) (hB : ∀ r s, B r s = B s r) (x y : Nat → K) : vbil n B x y = vbil n B y x := by
  unfold vbil
  rw [sum_comm]
  exact sum_congr rfl fun s _ => sum_congr rfl fun r _ => by rw [hB]; ring

theorem vbil_two (n : Nat) (B : Nat → Nat → K) (u q x y : Nat → K) :
    vbil n (fun r s => B r s - (u r * q s + q r * u s)) x y = vbil n B x y - (vdot n u x * vdot n q y + vdot n q x * vdot n u y) := by
  unfold vbil vdot
  rw [sum_mul_sum, sum_mul_sum, ← sum_add_distrib, ← sum_sub_distrib]
  refine sum_congr rfl fun r _ => ?_
  rw [← sum_add_distrib, ← sum_sub_distrib]; exact sum_congr rfl fun _ _ => by ring

/-- The Householder reflection. -/
def refl (n : Nat) (u : Nat → K) (H : K) (x : Nat → K) : Nat → K := fun r => x r - u r * (vdot n u x / H)

theorem refl_dot {n : Nat} {u : Nat → K} {H : K} (hH : H ≠ 0) (hu : vdot n u u = 2 * H) (x y : Nat → K) :
    vdot n (refl n u H x) (refl n u H y) = vdot n x y := by
  unfold refl
  rw [vdot_sub_smul, vdot_comm n x, vdot_sub_smul, vdot_comm n u (fun r => y r - _), vdot_sub_smul, hu, vdot_comm n y x, vdot_comm n y u]
  field_simp
  ring

/-- The reflected form. -/
theorem refl_bil {n : Nat} [NeZero (2 : K)] {B B' : Nat → Nat → K} {u w q : Nat → K} {H : K} (hH : H ≠ 0) (hB : ∀ r s, B r s = B s r)
    (hw : ∀ r < n, w r = ∑ s ∈ range n, B r s * u s) (hq : ∀ r < n, q r = w r / H - vdot n u w / (2 * (H * H)) * u r)
    (hB' : ∀ r < n, ∀ s < n, B' r s = B r s - (u r * q s + q r * u s)) (x y : Nat → K) :
    vbil n B' x y = vbil n B (refl n u H x) (refl n u H y) := by
  have hq' : ∀ z : Nat → K, vdot n q z = vdot n w z / H - vdot n u w / (2 * (H * H)) * vdot n u z := by
    intro z
    unfold vdot
    rw [mul_sum, sum_div, ← sum_sub_distrib]
    exact sum_congr rfl fun r hr => by rw [hq r (mem_range.1 hr)]; unfold vdot; ring
  rw [vbil_congr hB' x y, vbil_two, hq', hq']
  unfold refl
  rw [vbil_sub_left, vbil_sub_right, vbil_sub_right, vbil_mul n B x u w hw, vbil_symm n B hB u y, vbil_mul n B y u w hw, vbil_mul n B u u w hw,
    vdot_comm n w x, vdot_comm n w y]
  have h2 : (2 : K) ≠ 0 := NeZero.ne 2
  field_simp
  ring

end Forms

variable {K : Type} [Field K] [LinearOrder K]

/-! ## The loops -/

theorem hhDiv_spec {n i : Nat} (hi : i < n) (scale : K) (A d : Nat → K) :
    (∀ r, ∀ c < n, (hhDiv n i scale A d).1 (r * n + c) = if r = i ∧ c < i then A (r * n + c) / scale else A (r * n + c)) ∧
    (hhDiv n i scale A d).2 = set d i (d i + ∑ j ∈ range i, A (i * n + j) / scale * (A (i * n + j) / scale)) := by
  have := loop_rule (f := fun j (s : (Nat → K) × (Nat → K)) =>
      let A := set s.1 (i * n + j) (s.1 (i * n + j) / scale)
      (A, set s.2 i (s.2 i + A (i * n + j) * A (i * n + j))))
    (fun m s => (∀ r, ∀ c < n, s.1 (r * n + c) = if r = i ∧ c < m then A (r * n + c) / scale else A (r * n + c)) ∧
      s.2 = set d i (d i + ∑ j ∈ range m, A (i * n + j) / scale * (A (i * n + j) / scale))) (Nat.zero_le i) (s := (A, d))
    ⟨fun r c _ => by rw [if_neg (by omega)], by simp [set_self]⟩ (by
      rintro m ⟨A1, d1⟩ - hm ⟨h1, h2⟩
      dsimp only at h1 h2 ⊢
      have hc : A1 (i * n + m) = A (i * n + m) := by rw [h1 i m (by omega), if_neg (by omega)]
      refine ⟨fun r c hcn => ?_, ?_⟩
      · rw [set_addr _ _ (by omega) hcn]
        by_cases h : r = i ∧ c = m
        · obtain ⟨rfl, rfl⟩ := h
          rw [if_pos ⟨rfl, rfl⟩, if_pos ⟨rfl, by omega⟩, hc]
        · rw [if_neg h, h1 r c hcn]
          by_cases h3 : r = i ∧ c < m
          · rw [if_pos h3, if_pos ⟨h3.1, by omega⟩]
          · rw [if_neg h3, if_neg (by omega)]
      · rw [h2, set_same, hc, set_same, set_set, sum_range_succ, add_assoc])
  exact this

theorem hhMul_spec {n i j : Nat} (hj : j < i) (A e : Nat → K) :
    hhMul n i j A e = set e j (∑ k ∈ range i, (if k ≤ j then A (j * n + k) else A (k * n + j)) * A (i * n + k)) := by
  unfold hhMul
  dsimp only
  rw [loop_acc_add (t := fun k _ => A (j * n + k) * A (i * n + k)) (by omega) fun _ _ _ _ => rfl,
    loop_acc_add (t := fun k _ => A (k * n + j) * A (i * n + k)) (by omega) fun _ _ _ _ => rfl]
  rw [set_same, set_same, set_set, set_set, zero_add]
  congr 1
  rw [range_eq_Ico, ← sum_Ico_consecutive _ (Nat.zero_le (j + 1)) (by omega : j + 1 ≤ i)]
  congr 1
  · exact sum_congr rfl fun k hk => by rw [if_pos (by have := (mem_Ico.1 hk).2; omega)]
  · exact sum_congr rfl fun k hk => by rw [if_neg (by have := (mem_Ico.1 hk).1; omega)]

/-- The symmetric matrix of a lower triangle. -/
def low (n : Nat) (A : Nat → K) (r s : Nat) : K := if s ≤ r then A (r * n + s) else A (s * n + r)

theorem low_symm (n : Nat) (A : Nat → K) (r s : Nat) : low n A r s = low n A s r := by
  unfold low
  rcases Nat.lt_trichotomy r s with h | rfl | h
  · rw [if_neg (by omega), if_pos (by omega)]
  · rfl
  · rw [if_pos (by omega), if_neg (by omega)]

theorem hhP_spec {n i : Nat} (hi : i < n) (H : K) (A e : Nat → K) :
    (∀ r, ∀ c < n, (hhP n i H A e).1 (r * n + c) = if c = i ∧ r < i then A (i * n + r) / H else A (r * n + c)) ∧
    (∀ k, (hhP n i H A e).2.1 k = if k < i then (∑ c ∈ range i, low n A k c * A (i * n + c)) / H else e k) ∧
    (hhP n i H A e).2.2 = ∑ j ∈ range i, (∑ c ∈ range i, low n A j c * A (i * n + c)) / H * A (i * n + j) := by
  have := loop_rule (f := fun j (s : (Nat → K) × (Nat → K) × K) =>
      let A := set s.1 (j * n + i) (s.1 (i * n + j) / H)
      let e := hhMul n i j A s.2.1
      let e := set e j (e j / H)
      (A, e, s.2.2 + e j * A (i * n + j)))
    (fun m s => (∀ r, ∀ c < n, s.1 (r * n + c) = if c = i ∧ r < m then A (i * n + r) / H else A (r * n + c)) ∧
      (∀ k, s.2.1 k = if k < m then (∑ c ∈ range i, low n A k c * A (i * n + c)) / H else e k) ∧
      s.2.2 = ∑ j ∈ range m, (∑ c ∈ range i, low n A j c * A (i * n + c)) / H * A (i * n + j)) (Nat.zero_le i) (s := (A, e, 0))
    ⟨fun r c _ => by rw [if_neg (by omega)], fun k => by rw [if_neg (by omega)], rfl⟩ (by
      rintro m ⟨A1, e1, f1⟩ - hm ⟨h1, h2, h3⟩
      dsimp only at h1 h2 h3 ⊢
      obtain ⟨A2, hA2⟩ : ∃ A2, A2 = set A1 (m * n + i) (A1 (i * n + m) / H) := ⟨_, rfl⟩
      rw [← hA2]
      have a1 : ∀ r, ∀ c < n, A2 (r * n + c) = if c = i ∧ r < m + 1 then A (i * n + r) / H else A (r * n + c) := by
        intro r c hcn
        have h0 : A1 (i * n + m) = A (i * n + m) := by rw [h1 i m (by omega), if_neg (by omega)]
        rw [hA2, set_addr _ _ hi hcn, h0]
        by_cases h : r = m ∧ c = i
        · obtain ⟨rfl, rfl⟩ := h
          rw [if_pos ⟨rfl, rfl⟩, if_pos ⟨rfl, by omega⟩]
        · rw [if_neg h, h1 r c hcn]
          by_cases h3 : c = i ∧ r < m
          · rw [if_pos h3, if_pos ⟨h3.1, by omega⟩]
          · rw [if_neg h3, if_neg (by omega)]
      have a2 : ∀ r, ∀ c < i, A2 (r * n + c) = A (r * n + c) := fun r c hc => by rw [a1 r c (by omega), if_neg (by omega)]
      rw [hhMul_spec hm]
      have hs : (∑ k ∈ range i, (if k ≤ m then A2 (m * n + k) else A2 (k * n + m)) * A2 (i * n + k)) = ∑ c ∈ range i, low n A m c * A (i * n + c) := by
        refine sum_congr rfl fun k hk => ?_
        have hk := mem_range.1 hk
        unfold low
        rw [a2 m k hk, a2 k m hm, a2 i k hk]
      rw [set_same, set_set, set_same, hs]
      refine ⟨a1, fun k => ?_, ?_⟩
      · by_cases h : k = m
        · subst h
          rw [set_same, if_pos (by omega)]
        · rw [set_ne _ _ h, h2 k]
          by_cases h4 : k < m
          · rw [if_pos h4, if_pos (by omega)]
          · rw [if_neg h4, if_neg (by omega)]
      · rw [h3, sum_range_succ, a2 i m hm])
  exact this

/-- A change of the row `j` up to the diagonal. -/
theorem hhRank_spec {n i j : Nat} (hi : i < n) (hj : j < i) (A e : Nat → K) : ∀ r, ∀ c < n,
    loop 0 (j + 1) (fun k A => set A (j * n + k) (A (j * n + k) - (A (i * n + j) * e k + e j * A (i * n + k)))) A (r * n + c) =
      if r = j ∧ c ≤ j then A (r * n + c) - (A (i * n + j) * e c + e j * A (i * n + c)) else A (r * n + c) := by
  have := loop_rule (f := fun k A => set A (j * n + k) (A (j * n + k) - (A (i * n + j) * e k + e j * A (i * n + k))))
    (fun m A' => ∀ r, ∀ c < n, A' (r * n + c) = if r = j ∧ c < m then A (r * n + c) - (A (i * n + j) * e c + e j * A (i * n + c)) else A (r * n + c))
    (Nat.zero_le (j + 1)) (s := A) (fun r c _ => by rw [if_neg (by omega)]) (by
      rintro m A1 - hm h1 r c hc
      rw [set_addr _ _ (by omega) hc]
      by_cases h : r = j ∧ c = m
      · obtain ⟨rfl, rfl⟩ := h
        rw [if_pos ⟨rfl, rfl⟩, if_pos ⟨rfl, by omega⟩, h1 r c hc, h1 i r (by omega), h1 i c hc, if_neg (by omega), if_neg (by omega), if_neg (by omega)]
      · rw [if_neg h, h1 r c hc]
        by_cases h3 : r = j ∧ c < m
        · rw [if_pos h3, if_pos ⟨h3.1, by omega⟩]
        · rw [if_neg h3, if_neg (by omega)])
  intro r c hc
  rw [this r c hc]
  by_cases h : r = j ∧ c ≤ j
  · rw [if_pos h, if_pos ⟨h.1, by omega⟩]
  · rw [if_neg h, if_neg (by omega)]

theorem hhQ_spec {n i : Nat} (hi : i < n) (H f : K) (A e : Nat → K) :
    (∀ r, ∀ c < n, (hhQ n i H f A e).1 (r * n + c) = if r < i ∧ c ≤ r then
      A (r * n + c) - (A (i * n + r) * (e c - f / (2 * H) * A (i * n + c)) + (e r - f / (2 * H) * A (i * n + r)) * A (i * n + c)) else A (r * n + c)) ∧
    ∀ k, (hhQ n i H f A e).2 k = if k < i then e k - f / (2 * H) * A (i * n + k) else e k := by
  have := loop_rule (f := fun j (s : (Nat → K) × (Nat → K)) =>
      let e := set s.2 j (s.2 j - f / (2 * H) * s.1 (i * n + j))
      (loop 0 (j + 1) (fun k A => set A (j * n + k) (A (j * n + k) - (A (i * n + j) * e k + e j * A (i * n + k)))) s.1, e))
    (fun m s => (∀ r, ∀ c < n, s.1 (r * n + c) = if r < m ∧ c ≤ r then
      A (r * n + c) - (A (i * n + r) * (e c - f / (2 * H) * A (i * n + c)) + (e r - f / (2 * H) * A (i * n + r)) * A (i * n + c)) else A (r * n + c)) ∧
      ∀ k, s.2 k = if k < m then e k - f / (2 * H) * A (i * n + k) else e k) (Nat.zero_le i) (s := (A, e))
    ⟨fun r c _ => by rw [if_neg (by omega)], fun k => by rw [if_neg (by omega)]⟩ (by
      rintro m ⟨A1, e1⟩ - hm ⟨h1, h2⟩
      dsimp only at h1 h2 ⊢
      have hrow : ∀ c < n, A1 (i * n + c) = A (i * n + c) := fun c hc => by rw [h1 i c hc, if_neg (by omega)]
      obtain ⟨e2, he2⟩ : ∃ e2, e2 = set e1 m (e1 m - f / (2 * H) * A1 (i * n + m)) := ⟨_, rfl⟩
      rw [← he2]
      have b1 : ∀ k, e2 k = if k < m + 1 then e k - f / (2 * H) * A (i * n + k) else e k := by
        intro k
        rw [he2]
        by_cases h : k = m
        · subst h
          rw [set_same, if_pos (by omega), h2, if_neg (by omega), hrow k (by omega)]
        · rw [set_ne _ _ h, h2]
          by_cases h3 : k < m
          · rw [if_pos h3, if_pos (by omega)]
          · rw [if_neg h3, if_neg (by omega)]
      refine ⟨fun r c hc => ?_, b1⟩
      rw [hhRank_spec hi hm A1 e2 r c hc]
      by_cases h : r = m ∧ c ≤ m
      · obtain ⟨rfl, h3⟩ := h
        rw [if_pos ⟨rfl, h3⟩, if_pos ⟨by omega, h3⟩, h1 r c hc, if_neg (by omega), hrow r (by omega), hrow c hc, b1, b1, if_pos (by omega), if_pos (by omega)]
      · rw [if_neg h, h1 r c hc]
        by_cases h3 : r < m ∧ c ≤ r
        · rw [if_pos h3, if_pos ⟨by omega, h3.2⟩]
        · rw [if_neg h3, if_neg (by omega)])
  exact this

end OP.Lin
