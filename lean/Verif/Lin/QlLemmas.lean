import Verif.Lin.PropsTri
/-!
# QL iteration: rotations
-/
namespace OP.Lin
open Finset
variable {K : Type} [Field K]

/-- The form of a tridiagonal matrix; `E 0` has no meaning and has to be zero, and so have `D n` and `E n`. -/
def tq (n : Nat) (D E : Nat → K) (x : Nat → K) : K := ∑ k ∈ range (n + 1), (D k * (x k * x k) + 2 * E k * (x (k - 1) * x k))

/-- A rotation of the coordinates `j - 1` and `j`. -/
def rotv (j : Nat) (s c : K) (x : Nat → K) : Nat → K :=
  fun k => if k = j then c * x j - s * x (j - 1) else if k = j - 1 then c * x (j - 1) + s * x j else x k

/-- The product of a matrix in memory with a vector. -/
def app (n : Nat) (A : Nat → K) (x : Nat → K) : Nat → K := fun r => ∑ c ∈ range n, A (r * n + c) * x c

theorem sum_three {n j : Nat} (hj : 1 ≤ j) (hn : j + 1 < n) {f : Nat → K} (h : ∀ k < n, k ≠ j - 1 → k ≠ j → k ≠ j + 1 → f k = 0) :
    ∑ k ∈ range n, f k = f (j - 1) + f j + f (j + 1) := by
  rw [← sum_subset (s₁ := {j - 1, j, j + 1}) (fun k hk => by
    simp only [mem_insert, mem_singleton] at hk; rw [mem_range]; omega) (fun k hk hk' => by
    simp only [mem_insert, mem_singleton, not_or] at hk'
    exact h k (mem_range.1 hk) hk'.1 hk'.2.1 hk'.2.2)]
  rw [sum_insert (by simp only [mem_insert, mem_singleton]; omega), sum_insert (by simp only [mem_singleton]; omega), sum_singleton, add_assoc]

theorem sum_pair_range {n j : Nat} (hj : 1 ≤ j) (hn : j < n) {f : Nat → K} (h : ∀ k < n, k ≠ j - 1 → k ≠ j → f k = 0) :
    ∑ k ∈ range n, f k = f (j - 1) + f j := by
  rw [← sum_subset (s₁ := {j - 1, j}) (fun k hk => by
    simp only [mem_insert, mem_singleton] at hk; rw [mem_range]; omega) (fun k hk hk' => by
    simp only [mem_insert, mem_singleton, not_or] at hk'
    exact h k (mem_range.1 hk) hk'.1 hk'.2)]
  rw [sum_insert (by simp only [mem_singleton]; omega), sum_singleton]

theorem rotv_j {j : Nat} (s c : K) (x : Nat → K) : rotv j s c x j = c * x j - s * x (j - 1) := if_pos rfl

theorem rotv_p {j : Nat} (hj : 1 ≤ j) (s c : K) (x : Nat → K) : rotv j s c x (j - 1) = c * x (j - 1) + s * x j := by
  unfold rotv; rw [if_neg (by omega), if_pos rfl]

theorem rotv_ne {j k : Nat} (h1 : k ≠ j) (h2 : k ≠ j - 1) (s c : K) (x : Nat → K) : rotv j s c x k = x k := by
  unfold rotv; rw [if_neg h1, if_neg h2]

theorem rotv_dot {n j : Nat} (hj : 1 ≤ j) (hn : j < n) {s c : K} (h1 : c * c + s * s = 1) (x y : Nat → K) :
    vdot n (rotv j s c x) (rotv j s c y) = vdot n x y := by
  unfold vdot
  rw [← sub_eq_zero, ← sum_sub_distrib, sum_pair_range hj hn fun k _ h1 h2 => by rw [rotv_ne h2 h1, rotv_ne h2 h1, sub_self]]
  rw [rotv_j, rotv_j, rotv_p hj, rotv_p hj]
  linear_combination (x j * y j + x (j - 1) * y (j - 1)) * h1

/-- The form after a rotation. -/
theorem rotv_tq {n j : Nat} (hj : 1 ≤ j) (hn : j < n) {s c β : K} (h1 : c * c + s * s = 1) {D E D' E' : Nat → K} (hE0 : E 0 = 0) (hE0' : E' 0 = 0)
    (hβ : c * β - s * E (j + 1) = 0) (hD : ∀ k, k ≠ j - 1 → k ≠ j → D' k = D k) (hE : ∀ k, k ≠ j - 1 → k ≠ j → k ≠ j + 1 → E' k = E k)
    (hDp : D' (j - 1) = D (j - 1) - s * ((D (j - 1) - D j) * s + 2 * c * E j)) (hDj : D' j = D j + s * ((D (j - 1) - D j) * s + 2 * c * E j))
    (hEp : E' (j - 1) = c * E (j - 1)) (hEj : E' j = c * ((D (j - 1) - D j) * s + 2 * c * E j) - E j) (hEn : E' (j + 1) = c * E (j + 1) + s * β)
    (x : Nat → K) :
    tq n D E (rotv j s c x) + 2 * β * (rotv j s c x (j - 1) * rotv j s c x (j + 1)) = tq n D' E' x + 2 * (s * E (j - 1)) * (x (j - 1 - 1) * x j) := by
  unfold tq
  rw [← sub_eq_zero, add_sub_add_comm, ← sum_sub_distrib]
  rw [sum_three hj (by omega) fun k _ h1 h2 h3 => by
    rw [rotv_ne h2 h1, rotv_ne (k := k - 1) (by omega) (by omega), hD k h1 h2, hE k h1 h2 h3, sub_self]]
  have e2 : rotv j s c x (j + 1) = x (j + 1) := rotv_ne (by omega) (by omega) ..
  rw [e2, rotv_j, Nat.add_sub_cancel, rotv_j, rotv_p hj, hDp, hDj, hEp, hEj, hEn, hD (j + 1) (by omega) (by omega)]
  rcases Nat.eq_or_lt_of_le hj with rfl | hj2
  · rw [show 1 - 1 = 0 from rfl] at *
    rw [hE0]
    linear_combination (D 0 * x 0 * x 0 + D 1 * x 1 * x 1 - 2 * E 1 * x 0 * x 1) * h1 + 2 * x 0 * x 2 * hβ
  · rw [rotv_ne (k := j - 1 - 1) (by omega) (by omega)]
    linear_combination (D (j - 1) * x (j - 1) * x (j - 1) + D j * x j * x j - 2 * E j * x (j - 1) * x j) * h1 + 2 * x (j - 1) * x (j + 1) * hβ

theorem qlRot_spec {n j : Nat} (hj : 1 ≤ j) (hn : j < n) (s c : K) (A : Nat → K) : ∀ r, ∀ k < n, qlRot n j s c A (r * n + k) =
    if r < n ∧ k = j then s * A (r * n + (j - 1)) + c * A (r * n + j)
    else if r < n ∧ k = j - 1 then c * A (r * n + (j - 1)) - s * A (r * n + j) else A (r * n + k) := by
  refine loop_rule (fun m A' => ∀ r, ∀ k < n, A' (r * n + k) = if r < m ∧ k = j then s * A (r * n + (j - 1)) + c * A (r * n + j)
    else if r < m ∧ k = j - 1 then c * A (r * n + (j - 1)) - s * A (r * n + j) else A (r * n + k)) (Nat.zero_le n) (s := A)
    (fun r k _ => by rw [if_neg (by omega), if_neg (by omega)]) ?_
  rintro m A1 - hm h1 r k hk
  have e1 : A1 (m * n + j) = A (m * n + j) := by rw [h1 m j hn, if_neg (by omega), if_neg (by omega)]
  have e2 : A1 (m * n + (j - 1)) = A (m * n + (j - 1)) := by rw [h1 m (j - 1) (by omega), if_neg (by omega), if_neg (by omega)]
  dsimp only
  rw [set_addr _ _ (by omega) hk, set_addr _ _ hn hk, set_addr _ _ hn (by omega), if_neg (show ¬(m = m ∧ j - 1 = j) by omega), e1, e2]
  by_cases h : r = m ∧ k = j - 1
  · rw [if_pos h, if_neg (by omega), if_pos (by omega), h.1]
  · rw [if_neg h]
    by_cases h2 : r = m ∧ k = j
    · rw [if_pos h2, if_pos (by omega), h2.1]
    · rw [if_neg h2, h1 r k hk]
      by_cases h3 : r < m ∧ k = j
      · rw [if_pos h3, if_pos (by omega)]
      · rw [if_neg h3, if_neg (show ¬(r < m + 1 ∧ k = j) by omega)]
        by_cases h4 : r < m ∧ k = j - 1
        · rw [if_pos h4, if_pos (by omega)]
        · rw [if_neg h4, if_neg (by omega)]

theorem qlRot_app {n j : Nat} (hj : 1 ≤ j) (hn : j < n) (s c : K) (A : Nat → K) (x : Nat → K) : ∀ r < n,
    app n (qlRot n j s c A) x r = app n A (rotv j s c x) r := by
  intro r hr
  unfold app
  rw [← sub_eq_zero, ← sum_sub_distrib, sum_pair_range hj hn fun k hk h1 h2 => by
    rw [rotv_ne h2 h1, qlRot_spec hj hn s c A r k hk, if_neg (fun h => h2 h.2), if_neg (fun h => h1 h.2), sub_self]]
  rw [rotv_j, rotv_p hj, qlRot_spec hj hn s c A r j hn, if_pos ⟨hr, rfl⟩, qlRot_spec hj hn s c A r (j - 1) (by omega), if_neg (by omega),
    if_pos ⟨hr, rfl⟩]
  ring

end OP.Lin
