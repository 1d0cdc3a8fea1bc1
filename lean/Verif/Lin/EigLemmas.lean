import Verif.Lin.PropsQl
import Mathlib.LinearAlgebra.Matrix.NonsingularInverse
/-!
# Eigenvalues: sorting, exact eigenvectors, substitution
-/
namespace OP.Lin
open Finset
variable {K : Type} [Field K]

/-! ## Orthonormal columns -/

/-- Orthonormal columns have orthonormal rows. -/
theorem rows_orth {n : Nat} {Q : Nat → K} (h : ∀ a < n, ∀ b < n, colDot n Q a b = if a = b then 1 else 0) : ∀ r < n, ∀ s < n,
    ∑ c ∈ range n, Q (r * n + c) * Q (s * n + c) = if r = s then 1 else 0 := by
  have h1 : (Matrix.of fun i j : Fin n => Q (i * n + j)).transpose * (Matrix.of fun i j : Fin n => Q (i * n + j)) = 1 := by
    ext a b
    rw [Matrix.mul_apply, Matrix.one_apply]
    have := h a a.2 b b.2
    unfold colDot at this
    rw [← Fin.sum_univ_eq_sum_range (fun i => Q (i * n + a) * Q (i * n + b))] at this
    simp only [Matrix.transpose_apply, Matrix.of_apply]
    rw [this]
    simp only [Fin.ext_iff]
  have h2 := mul_eq_one_comm.1 h1
  intro r hr s hs
  have h3 := congrFun (congrFun h2 ⟨r, hr⟩) ⟨s, hs⟩
  rw [Matrix.mul_apply, Matrix.one_apply] at h3
  simp only [Matrix.transpose_apply, Matrix.of_apply, Fin.ext_iff] at h3
  rw [Fin.sum_univ_eq_sum_range (fun c => Q (r * n + c) * Q (s * n + c))] at h3
  exact h3

theorem app_unit {n k : Nat} (hk : k < n) (Q : Nat → K) (r : Nat) : app n Q (vunit k) r = Q (r * n + k) := by
  unfold app vunit; simp [hk]

theorem vbil_unit_left {n r : Nat} (hr : r < n) (B : Nat → Nat → K) (y : Nat → K) : vbil n B (vunit r) y = ∑ s ∈ range n, B r s * y s := by
  unfold vbil
  rw [sum_eq_single r]
  · unfold vunit; rw [if_pos rfl]; exact sum_congr rfl fun s _ => by ring
  · intro a _ ha
    exact sum_eq_zero fun s _ => by unfold vunit; rw [if_neg ha]; ring
  · intro h; exact absurd (mem_range.2 hr) h

theorem vbil_congr_vec {n : Nat} {B : Nat → Nat → K} {u u' v v' : Nat → K} (h : ∀ r < n, u r = u' r) (h' : ∀ r < n, v r = v' r) :
    vbil n B u v = vbil n B u' v' :=
  sum_congr rfl fun r hr => sum_congr rfl fun s hs => by rw [h r (mem_range.1 hr), h' s (mem_range.1 hs)]

/-- `x` as a combination of orthonormal columns. -/
theorem expand {n : Nat} {Q : Nat → K} (h : ∀ a < n, ∀ b < n, colDot n Q a b = if a = b then 1 else 0) (x : Nat → K) : ∀ r < n,
    ∑ c ∈ range n, Q (r * n + c) * (∑ s ∈ range n, Q (s * n + c) * x s) = x r := by
  intro r hr
  simp only [mul_sum]
  rw [sum_comm]
  rw [show (∑ s ∈ range n, ∑ c ∈ range n, Q (r * n + c) * (Q (s * n + c) * x s)) = ∑ s ∈ range n, (if r = s then 1 else 0) * x s from
    sum_congr rfl fun s hs => by
      rw [← rows_orth h r hr s (mem_range.1 hs), sum_mul]; exact sum_congr rfl fun c _ => by ring]
  simp [hr]

section Exact
variable [LinearOrder K] [IsStrictOrderedRing K]

omit [IsStrictOrderedRing K] in
theorem Diag.orth {n : Nat} {B : Nat → Nat → K} {Q d : Nat → K} {δ : K} (h : Diag n B Q d δ) :
    ∀ a < n, ∀ b < n, colDot n Q a b = if a = b then 1 else 0 := by
  intro a ha b hb
  have := h.dot (vunit a) (vunit b)
  rw [vdot_unit hb, vdot_app_congr (fun r _ => app_unit ha Q r) (fun r _ => app_unit hb Q r)] at this
  rw [show colDot n Q a b = vdot n (fun r => Q (r * n + a)) (fun r => Q (r * n + b)) from rfl, this]
  unfold vunit
  simp only [eq_comm]

/-- Without error the columns are eigenvectors. -/
theorem Diag.eigen {n : Nat} {B : Nat → Nat → K} (hB : ∀ r s, B r s = B s r) {Q d : Nat → K} (h : Diag n B Q d 0) : ∀ k < n, ∀ r < n,
    ∑ s ∈ range n, B r s * Q (s * n + k) = d k * Q (r * n + k) := by
  have hq : ∀ x, vbil n B (app n Q x) (app n Q x) = ∑ k ∈ range n, d k * (x k * x k) := by
    intro x
    have := h.form x
    rw [zero_mul] at this
    exact sub_eq_zero.1 (abs_eq_zero.1 (le_antisymm this (abs_nonneg _)))
  have hp : ∀ x y, vbil n B (app n Q x) (app n Q y) = ∑ k ∈ range n, d k * (x k * y k) := by
    intro x y
    have e1 := hq (fun k => x k - y k * (-1))
    have e2 : app n Q (fun k => x k - y k * (-1)) = fun r => app n Q x r - app n Q y r * (-1) := by
      funext r
      unfold app
      rw [sum_mul, ← sum_sub_distrib]; exact sum_congr rfl fun c _ => by ring
    rw [e2, vbil_sub_left, vbil_sub_right, vbil_sub_right, hq, hq, vbil_symm n B hB (app n Q y) (app n Q x)] at e1
    have e3 : ∑ k ∈ range n, d k * ((x k - y k * (-1)) * (x k - y k * (-1))) = ∑ k ∈ range n, d k * (x k * x k) + ∑ k ∈ range n, d k * (y k * y k) +
        2 * ∑ k ∈ range n, d k * (x k * y k) := by
      rw [mul_sum, ← sum_add_distrib, ← sum_add_distrib]; exact sum_congr rfl fun c _ => by ring
    rw [e3] at e1
    linarith
  intro k hk r hr
  have e1 := hp (fun c => Q (r * n + c)) (vunit k)
  have e2 : ∀ s < n, app n Q (fun c => Q (r * n + c)) s = vunit r s := by
    intro s hs
    unfold app vunit
    rw [rows_orth h.orth s hs r hr]
  rw [vbil_congr_vec e2 (fun s _ => app_unit hk Q s), vbil_unit_left hr] at e1
  rw [e1]
  unfold vunit
  simp [hk]

end Exact

/-! ## Sorting -/

theorem swap_col_lt {n i k : Nat} (hi : i < n) (hk : k < n) {c : Nat} (hc : c < n) : Equiv.swap i k c < n := by
  rw [Equiv.swap_apply_def]; split
  · exact hk
  · split
    · exact hi
    · exact hc

theorem sum_swap {n i k : Nat} (hi : i < n) (hk : k < n) (f : Nat → K) : ∑ c ∈ range n, f (Equiv.swap i k c) = ∑ c ∈ range n, f c := by
  refine sum_bij (fun c _ => Equiv.swap i k c) (fun c hc => mem_range.2 (swap_col_lt hi hk (mem_range.1 hc))) (fun a _ b _ h => (Equiv.swap i k).injective h)
    (fun b hb => ⟨Equiv.swap i k b, mem_range.2 (swap_col_lt hi hk (mem_range.1 hb)), Equiv.swap_apply_self ..⟩) fun _ _ => rfl

theorem colSwap_spec {n i k : Nat} (hi : i < n) (hk : k < n) (A : Nat → K) : ∀ r, ∀ c < n,
    colSwap n i k A (r * n + c) = if r < n then A (r * n + Equiv.swap i k c) else A (r * n + c) := by
  refine loop_rule (fun m A' => ∀ r, ∀ c < n, A' (r * n + c) = if r < m then A (r * n + Equiv.swap i k c) else A (r * n + c)) (Nat.zero_le n) (s := A)
    (fun r c _ => by rw [if_neg (by omega)]) ?_
  rintro m A1 - hm h1 r c hc
  have e1 : ∀ c < n, A1 (m * n + c) = A (m * n + c) := fun c hc => by rw [h1 m c hc, if_neg (by omega)]
  rw [set_addr _ _ hk hc, set_addr _ _ hi hc, e1 i hi, e1 k hk, Equiv.swap_apply_def]
  by_cases h : r = m
  · rw [h, if_pos (show m < m + 1 by omega), e1 c hc]
    by_cases h2 : c = k
    · rw [if_pos ⟨rfl, h2⟩]
      by_cases h3 : c = i
      · rw [if_pos h3, ← h2, h3]
      · rw [if_neg h3, if_pos h2]
    · rw [if_neg (by omega)]
      by_cases h3 : c = i
      · rw [if_pos ⟨rfl, h3⟩, if_pos h3]
      · rw [if_neg (by omega), if_neg h3, if_neg h2]
  · rw [if_neg (by omega), if_neg (by omega), h1 r c hc, Equiv.swap_apply_def]
    by_cases h2 : r < m
    · rw [if_pos h2, if_pos (show r < m + 1 by omega)]
    · rw [if_neg h2, if_neg (show ¬r < m + 1 by omega)]

section Sorting
variable [LinearOrder K]

theorem eigMax_spec {n i : Nat} (hi : i < n) (d : Nat → K) :
    i ≤ (eigMax n i d).2 ∧ (eigMax n i d).2 < n ∧ (eigMax n i d).1 = d (eigMax n i d).2 ∧ ∀ j, i ≤ j → j < n → d j ≤ d (eigMax n i d).2 := by
  have := loop_rule (f := fun j (s : K × Nat) => if s.1 ≤ d j then (d j, j) else s)
    (fun m s => i ≤ s.2 ∧ s.2 < m ∧ s.1 = d s.2 ∧ ∀ j, i ≤ j → j < m → d j ≤ d s.2) (lo := i + 1) (hi := n) (by omega) (s := (d i, i))
    ⟨Nat.le_refl _, by dsimp only; omega, rfl, fun j h1 h2 => by rw [show j = i by omega]⟩ (by
      rintro m ⟨v, k⟩ h0 hm ⟨h1, h2, h3, h4⟩
      dsimp only at h1 h2 h3 h4 ⊢
      by_cases h : v ≤ d m
      · rw [if_pos h]
        refine ⟨by dsimp only; omega, by dsimp only; omega, rfl, fun j h5 h6 => ?_⟩
        dsimp only
        by_cases h7 : j = m
        · rw [h7]
        · exact (h4 j h5 (by omega)).trans (h3 ▸ h)
      · rw [if_neg h]
        refine ⟨h1, by dsimp only; omega, h3, fun j h5 h6 => ?_⟩
        dsimp only
        by_cases h7 : j = m
        · rw [h7, ← h3]; exact (not_le.1 h).le
        · exact h4 j h5 (by omega))
  exact this

/-- One round of the sort exchanges two columns, and the largest of the rest comes first. -/
theorem eigSort1_spec {n i : Nat} (hi : i < n) (s : (Nat → K) × (Nat → K)) : ∃ k, i ≤ k ∧ k < n ∧
    (∀ r, ∀ c < n, (eigSort1 n i s).1 (r * n + c) = if r < n then s.1 (r * n + Equiv.swap i k c) else s.1 (r * n + c)) ∧
    (∀ c, (eigSort1 n i s).2 c = s.2 (Equiv.swap i k c)) ∧ ∀ j, i ≤ j → j < n → s.2 j ≤ s.2 k := by
  obtain ⟨h1, h2, h3, h4⟩ := eigMax_spec hi s.2
  refine ⟨(eigMax n i s.2).2, h1, h2, ?_⟩
  unfold eigSort1
  dsimp only
  obtain ⟨t, ht⟩ : ∃ t, t = eigMax n i s.2 := ⟨_, rfl⟩
  rw [← ht] at h1 h2 h3 h4 ⊢
  by_cases h : t.2 = i
  · rw [if_neg (by simpa using h), h, Equiv.swap_self]
    refine ⟨fun r c _ => by rw [Equiv.refl_apply, ite_self], fun c => rfl, fun j a b => h ▸ h4 j a b⟩
  · rw [if_pos h]
    refine ⟨colSwap_spec hi h2 s.1, fun c => ?_, h4⟩
    dsimp only
    rw [Equiv.swap_apply_def]
    by_cases h5 : c = i
    · rw [if_pos h5, h5, set_same, h3]
    · rw [if_neg h5, set_ne _ _ h5]
      by_cases h6 : c = t.2
      · rw [if_pos h6, h6, set_same]
      · rw [if_neg h6, set_ne _ _ h6]

variable [IsStrictOrderedRing K]

omit [IsStrictOrderedRing K] in
/-- Exchanging two columns with their numbers. -/
theorem Diag.swap {n i k : Nat} (hi : i < n) (hk : k < n) {B : Nat → Nat → K} {Q d Q' d' : Nat → K} {δ : K} (h : Diag n B Q d δ)
    (hQ : ∀ r < n, ∀ c < n, Q' (r * n + c) = Q (r * n + Equiv.swap i k c)) (hd : ∀ c, d' c = d (Equiv.swap i k c)) : Diag n B Q' d' δ := by
  have e1 : ∀ x, ∀ r < n, app n Q' x r = app n Q (fun c => x (Equiv.swap i k c)) r := by
    intro x r hr
    unfold app
    rw [← sum_swap hi hk]
    refine sum_congr rfl fun c hc => ?_
    rw [hQ r hr _ (swap_col_lt hi hk (mem_range.1 hc)), Equiv.swap_apply_self]
  have e2 : ∀ x y : Nat → K, vdot n (fun c => x (Equiv.swap i k c)) (fun c => y (Equiv.swap i k c)) = vdot n x y := fun x y => sum_swap hi hk fun c => x c * y c
  refine ⟨fun x y => ?_, fun x => ?_⟩
  · rw [vdot_app_congr (e1 x) (e1 y), h.dot, e2]
  · have := h.form (fun c => x (Equiv.swap i k c))
    rw [e2] at this
    rw [vbil_app_congr (e1 x), ← sum_swap hi hk]
    simp only [hd, Equiv.swap_apply_self]
    exact this

omit [IsStrictOrderedRing K] in
/-- The sort. -/
theorem eigSort_spec {n : Nat} (hn : 0 < n) {B : Nat → Nat → K} {Q d : Nat → K} {δ : K} (h : Diag n B Q d δ) :
    Diag n B (loop 0 (n - 1) (fun i s => eigSort1 n i s) (Q, d)).1 (loop 0 (n - 1) (fun i s => eigSort1 n i s) (Q, d)).2 δ ∧
    (∀ a b, a < b → b < n → (loop 0 (n - 1) (fun i s => eigSort1 n i s) (Q, d)).2 b ≤ (loop 0 (n - 1) (fun i s => eigSort1 n i s) (Q, d)).2 a) ∧
    (∀ r, ∀ c < n, n ≤ r → (loop 0 (n - 1) (fun i s => eigSort1 n i s) (Q, d)).1 (r * n + c) = Q (r * n + c)) ∧
    ∀ k, n ≤ k → (loop 0 (n - 1) (fun i s => eigSort1 n i s) (Q, d)).2 k = d k := by
  have := loop_rule (f := fun i s => eigSort1 n i s) (fun m (s : (Nat → K) × (Nat → K)) => Diag n B s.1 s.2 δ ∧
      (∀ a < m, ∀ b, a < b → b < n → s.2 b ≤ s.2 a) ∧ (∀ r, ∀ c < n, n ≤ r → s.1 (r * n + c) = Q (r * n + c)) ∧ ∀ k, n ≤ k → s.2 k = d k)
    (Nat.zero_le (n - 1)) (s := (Q, d)) ⟨h, fun a ha => by omega, fun _ _ _ _ => rfl, fun _ _ => rfl⟩ (by
      rintro m s - hm ⟨h1, h2, h3, h4⟩
      obtain ⟨k, k1, k2, k3, k4, k5⟩ := eigSort1_spec (show m < n by omega) s
      refine ⟨h1.swap (show m < n by omega) k2 (fun r hr c hc => by rw [k3 r c hc, if_pos hr]) k4, fun a ha b hab hb => ?_, fun r c hc hr => ?_, fun c hc => ?_⟩
      · rw [k4, k4]
        rcases Nat.lt_or_ge a m with ha' | ha'
        · rw [Equiv.swap_apply_of_ne_of_ne (show a ≠ m by omega) (show a ≠ k by omega)]
          refine h2 a ha' _ ?_ (swap_col_lt (by omega) k2 hb)
          rw [Equiv.swap_apply_def]; split
          · omega
          · split <;> omega
        · rw [show a = m by omega, Equiv.swap_apply_left]
          refine k5 _ ?_ (swap_col_lt (by omega) k2 hb)
          rw [Equiv.swap_apply_def]; split
          · omega
          · split <;> omega
      · rw [k3 r c hc, if_neg (by omega), h3 r c hc hr]
      · rw [k4, Equiv.swap_apply_of_ne_of_ne (by omega) (by omega), h4 c hc])
  obtain ⟨h1, h2, h3, h4⟩ := this
  refine ⟨h1, fun a b hab hb => h2 a (by omega) b hab hb, h3, h4⟩

end Sorting

/-! ## Substitution -/

section Sub
variable [LinearOrder K]

/-- What is stored by `bksub_eig`. -/
theorem bksubEig_eq (n : Nat) (Q d b : Nat → K) (p c : Nat) : ∀ j, bksubEig n Q d b p c j =
    if j < n then ∑ i ∈ range n, Q (j * n + i) * (if d i ≠ 0 then (∑ s ∈ range n, Q (s * n + i) * b (s * p + c)) / d i else 0) else b j := by
  have h1 := loop_rule (f := fun j (tmp : Nat → K) => if d j ≠ 0 then
      let tmp := loop 0 n (fun i tmp => set tmp j (tmp j + Q (i * n + j) * b (i * p + c))) tmp
      set tmp j (tmp j / d j)
    else tmp) (fun m tmp => ∀ i, tmp i = if i < m then (if d i ≠ 0 then (∑ s ∈ range n, Q (s * n + i) * b (s * p + c)) / d i else 0) else 0)
    (Nat.zero_le n) (s := fun _ => 0) (fun i => by rw [if_neg (by omega)]) (by
      rintro m tmp - hm h i
      by_cases h0 : d m ≠ 0
      · rw [if_pos h0]
        rw [loop_acc_add (t := fun i _ => Q (i * n + m) * b (i * p + c)) (Nat.zero_le n) fun _ _ _ _ => rfl, set_same, set_set, h m, if_neg (by omega), zero_add]
        by_cases h1 : i = m
        · rw [h1, set_same, if_pos (by omega), if_pos h0, range_eq_Ico]
        · rw [set_ne _ _ h1, h i]
          by_cases h2 : i < m
          · rw [if_pos h2, if_pos (show i < m + 1 by omega)]
          · rw [if_neg h2, if_neg (show ¬i < m + 1 by omega)]
      · rw [if_neg h0, h i]
        by_cases h1 : i = m
        · rw [h1, if_neg (by omega), if_pos (by omega), if_neg h0]
        · by_cases h2 : i < m
          · rw [if_pos h2, if_pos (show i < m + 1 by omega)]
          · rw [if_neg h2, if_neg (show ¬i < m + 1 by omega)])
  unfold bksubEig
  dsimp only at h1 ⊢
  obtain ⟨tmp, htmp⟩ : ∃ tmp, tmp = loop 0 n (fun j (tmp : Nat → K) => if d j ≠ 0 then
      let tmp := loop 0 n (fun i tmp => set tmp j (tmp j + Q (i * n + j) * b (i * p + c))) tmp
      set tmp j (tmp j / d j)
    else tmp) (fun _ => 0) := ⟨_, rfl⟩
  dsimp only at htmp
  rw [← htmp] at h1 ⊢
  have h2 := loop_rule (f := fun j b => loop 0 n (fun i b => set b j (b j + Q (j * n + i) * tmp i)) (set b j 0))
    (fun m b' => ∀ j, b' j = if j < m then ∑ i ∈ range n, Q (j * n + i) * tmp i else b j) (Nat.zero_le n) (s := b) (fun j => by rw [if_neg (by omega)]) (by
      rintro m b' - hm h j
      rw [loop_acc_add (t := fun i _ => Q (m * n + i) * tmp i) (Nat.zero_le n) fun _ _ _ _ => rfl, set_same, set_set, zero_add]
      by_cases h1 : j = m
      · rw [h1, set_same, if_pos (by omega), range_eq_Ico]
      · rw [set_ne _ _ h1, h j]
        by_cases h2 : j < m
        · rw [if_pos h2, if_pos (by omega)]
        · rw [if_neg h2, if_neg (by omega)])
  intro j
  rw [h2 j]
  by_cases hj : j < n
  · rw [if_pos hj, if_pos hj]
    exact sum_congr rfl fun i hi => by rw [h1 i, if_pos (mem_range.1 hi)]
  · rw [if_neg hj, if_neg hj]

variable [IsStrictOrderedRing K]

/-- What `eigCut` keeps. -/
theorem eigCut_spec (tol : K) (htol : 0 ≤ tol) (n : Nat) (d : Nat → K) : ∃ mx : K, 0 ≤ mx ∧ (∀ k < n, |d k| ≤ mx) ∧ (mx = 0 ∨ ∃ k < n, mx = |d k|) ∧
    ∀ k < n, eigCut tol n d k = if |d k| < mx * tol then 0 else d k := by
  have h1 := loop_rule (f := fun i m => if m < |d i| then |d i| else m) (fun i m => 0 ≤ m ∧ (∀ k < i, |d k| ≤ m) ∧ (m = 0 ∨ ∃ k < i, m = |d k|))
    (Nat.zero_le n) (s := (0 : K)) ⟨le_refl _, fun k hk => by omega, Or.inl rfl⟩ (by
      rintro i m - hi ⟨h1, h2, h3⟩
      by_cases h : m < |d i|
      · rw [if_pos h]
        refine ⟨abs_nonneg _, fun k hk => ?_, Or.inr ⟨i, by omega, rfl⟩⟩
        rcases Nat.lt_or_ge k i with h4 | h4
        · exact (h2 k h4).trans h.le
        · rw [show k = i by omega]
      · rw [if_neg h]
        refine ⟨h1, fun k hk => ?_, h3.imp id fun ⟨k, a, b⟩ => ⟨k, by omega, b⟩⟩
        rcases Nat.lt_or_ge k i with h4 | h4
        · exact h2 k h4
        · rw [show k = i by omega]; exact not_lt.1 h)
  unfold eigCut
  obtain ⟨mx, hmx⟩ : ∃ mx : K, mx = loop 0 n (fun i m => if m < |d i| then |d i| else m) 0 := ⟨_, rfl⟩
  rw [← hmx] at h1 ⊢
  refine ⟨mx, h1.1, h1.2.1, h1.2.2, ?_⟩
  have h2 := loop_rule (f := fun i d => if |d i| < mx * tol then set d i 0 else d) (fun i d' => ∀ k, d' k = if k < i ∧ |d k| < mx * tol then 0 else d k)
    (Nat.zero_le n) (s := d) (fun k => by rw [if_neg (by omega)]) (by
      rintro i d' - hi h k
      have hdi : d' i = d i := by rw [h, if_neg (by omega)]
      rw [hdi]
      by_cases h0 : |d i| < mx * tol
      · rw [if_pos h0]
        by_cases h1 : k = i
        · rw [h1, set_same, if_pos ⟨by omega, h0⟩]
        · rw [set_ne _ _ h1, h k]
          by_cases h2 : k < i ∧ |d k| < mx * tol
          · rw [if_pos h2, if_pos ⟨by omega, h2.2⟩]
          · rw [if_neg h2, if_neg fun h => h2 ⟨by omega, h.2⟩]
      · rw [if_neg h0, h k]
        by_cases h1 : k = i
        · rw [h1, if_neg fun h => h0 h.2, if_neg fun h => h0 h.2]
        · by_cases h2 : k < i ∧ |d k| < mx * tol
          · rw [if_pos h2, if_pos ⟨by omega, h2.2⟩]
          · rw [if_neg h2, if_neg fun h => h2 ⟨by omega, h.2⟩])
  intro k hk
  rw [h2 k]
  by_cases h : |d k| < mx * tol
  · rw [if_pos ⟨hk, h⟩, if_pos h]
  · rw [if_neg fun h' => h h'.2, if_neg h]

end Sub

end OP.Lin
