import Verif.Lin.PropsEig
import Mathlib.Tactic.IntervalCases
/-!
# C92: equations and inverses from eigenvalues
-/
namespace OP.Lin
open Finset
variable {K : Type} [Field K] [LinearOrder K] [IsStrictOrderedRing K]

/-- When no number is small beside the largest none is set to zero. -/
theorem cut_keep {n : Nat} {d : Nat → K} {tol m μ : K} (htol : 0 ≤ tol) (hm0 : 0 ≤ m) (hm : ∀ k < n, |d k| ≤ m) (hμ : ∀ k < n, μ ≤ |d k|) (h : m * tol ≤ μ) :
    ∀ k < n, eigCut tol n d k = d k := by
  obtain ⟨mx, h1, h2, h3, h4⟩ := eigCut_spec tol htol n d
  intro k hk
  rw [h4 k hk, if_neg]
  have h5 : mx ≤ m := by
    rcases h3 with h3 | ⟨j, hj, h3⟩
    · rw [h3]; exact hm0
    · rw [h3]; exact hm j hj
  have := mul_le_mul_of_nonneg_right h5 htol
  have := hμ k hk
  exact not_lt.2 (by linarith)

omit [IsStrictOrderedRing K] in
theorem bksub_all {n : Nat} {Q d d' : Nat → K} (hd : ∀ k < n, d' k = d k) (h0 : ∀ k < n, d k ≠ 0) (b : Nat → K) : ∀ j,
    bksubEig n Q d' b 1 0 j = if j < n then app n Q (coefs n Q d b) j else b j := by
  intro j
  rw [bksubEig_eq]
  by_cases hj : j < n
  · rw [if_pos hj, if_pos hj]
    unfold app coefs
    refine sum_congr rfl fun i hi => ?_
    rw [hd i (mem_range.1 hi), if_pos (h0 i (mem_range.1 hi))]
    simp only [Nat.mul_one, Nat.add_zero]
  · rw [if_neg hj, if_neg hj]

theorem tol_nonneg : (0 : K) ≤ eigTol := by unfold eigTol; positivity

/-- The matrix that `equ_eig` and `inv_eig` work on. -/
def copyOf (n : Nat) (A g : Nat → K) : Nat → K := fun p => if p < n * n then A p else g p

omit [IsStrictOrderedRing K] in
theorem copy_low {n : Nat} {A : Nat → K} (hA : ∀ r < n, ∀ s < n, A (r * n + s) = A (s * n + r)) (g : Nat → K) : ∀ r < n, ∀ s < n,
    low n (copyOf n A g) r s = A (r * n + s) := by
  have h1 : ∀ r < n, ∀ s < n, copyOf n A g (r * n + s) = A (r * n + s) := fun r hr s hs => if_pos (addr_lt hr hs)
  intro r hr s hs
  rw [low_eq (fun r hr s hs => by rw [h1 r hr s hs, h1 s hs r hr, hA r hr s hs]) r hr s hs, h1 r hr s hs]

omit [IsStrictOrderedRing K] in
theorem copy_mv {n : Nat} {A : Nat → K} (hA : ∀ r < n, ∀ s < n, A (r * n + s) = A (s * n + r)) (g y : Nat → K) : ∀ r < n,
    mv n (low n (copyOf n A g)) y r = app n A y r := fun r hr =>
  sum_congr rfl fun s hs => by rw [copy_low hA g r hr s (mem_range.1 hs)]

omit [IsStrictOrderedRing K] in
theorem copy_vbil {n : Nat} {A : Nat → K} (hA : ∀ r < n, ∀ s < n, A (r * n + s) = A (s * n + r)) (g y : Nat → K) :
    vbil n (low n (copyOf n A g)) y y = vdot n y (app n A y) := by
  rw [vbil_mv]
  exact vdot_app_congr (fun _ _ => rfl) (copy_mv hA g y)

omit [IsStrictOrderedRing K] in
theorem equEig_eq {rt : K → K} {neg : K → K → Bool} {fuel n : Nat} {A b x g1 g2 g3 g4 x' : Nat → K} (hn : n ≠ 0) (e : equEig rt neg fuel n A b x g1 g2 g3 g4 = some x') :
    ∃ t, eigTri rt neg n fuel (tridiag rt n ⟨copyOf n A g1, g2, g3⟩) = some t ∧
    ∃ x0 r0 : Nat → K, (x0 = bksubEig n t.A (eigCut eigTol n t.d) (fun p => if p < n then b p else x p) 1 0) ∧
    (∀ i < n, r0 i = app n A x0 i - b i) ∧ ∀ j, x' j = if j < n then x0 j - bksubEig n t.A (eigCut eigTol n t.d) r0 1 0 j else x j := by
  unfold equEig at e
  rw [if_neg hn, Option.map_eq_some_iff] at e
  obtain ⟨t, e1, e2⟩ := e
  refine ⟨t, e1, ?_⟩
  dsimp only at e2
  obtain ⟨x0, hx0⟩ : ∃ x0, x0 = bksubEig n t.A (eigCut eigTol n t.d) (fun p => if p < n then b p else x p) 1 0 := ⟨_, rfl⟩
  rw [← hx0] at e2
  obtain ⟨r0, hr0⟩ : ∃ r0, r0 = loop 0 n (fun i r => loop 0 n (fun j r => set r i (r i + A (i * n + j) * x0 j)) (set r i (-b i))) g4 := ⟨_, rfl⟩
  rw [← hr0] at e2
  refine ⟨x0, r0, hx0, ?_, ?_⟩
  · have := loop_rule (f := fun i r => loop 0 n (fun j r => set r i (r i + A (i * n + j) * x0 j)) (set r i (-b i)))
      (fun m r => ∀ i < m, r i = app n A x0 i - b i) (Nat.zero_le n) (s := g4) (fun i hi => by omega) (by
        rintro m r - hm h i hi
        rw [loop_acc_add (t := fun j _ => A (m * n + j) * x0 j) (Nat.zero_le n) fun _ _ _ _ => rfl, set_same, set_set]
        by_cases h1 : i = m
        · rw [h1, set_same, ← range_eq_Ico]
          show -b m + app n A x0 m = _
          ring
        · rw [set_ne _ _ h1, h i (by omega)])
    rw [← hr0] at this
    exact this
  · obtain ⟨w, hw⟩ : ∃ w, w = bksubEig n t.A (eigCut eigTol n t.d) r0 1 0 := ⟨_, rfl⟩
    rw [← hw] at e2 ⊢
    have := loop_rule (f := fun i x => set x i (x i - w i)) (fun m y => ∀ j, y j = if j < m then x0 j - w j else x0 j) (Nat.zero_le n) (s := x0)
      (fun j => by rw [if_neg (by omega)]) (by
        rintro m y - hm h j
        by_cases h1 : j = m
        · rw [h1, set_same, h m, if_neg (by omega), if_pos (by omega)]
        · rw [set_ne _ _ h1, h j]
          by_cases h2 : j < m
          · rw [if_pos h2, if_pos (show j < m + 1 by omega)]
          · rw [if_neg h2, if_neg (show ¬j < m + 1 by omega)])
    rw [e2] at this
    intro j
    rw [this j]
    by_cases hj : j < n
    · rw [if_pos hj, if_pos hj]
    · rw [if_neg hj, if_neg hj, hx0, bksubEig_eq, if_neg hj, if_neg hj]

/-- C92: whenever `equ_eig` ends, for a symmetric matrix that is far enough from a singular one, what is left of the equations is small: of the order of the
square of the part that was taken for zero. Nothing after the first `n` numbers changes. -/
theorem C92_equ {rt : K → K} (hrt : IsRoot0 rt) {neg : K → K → Bool} {τ : K} (hτ0 : 0 ≤ τ) (hneg : NegOk neg τ) (n fuel : Nat) (A b x g1 g2 g3 g4 : Nat → K)
    (hA : ∀ r < n, ∀ s < n, A (r * n + s) = A (s * n + r)) {ρ μ δ : K} (hρ0 : 0 ≤ ρ) (hρ : ∀ y, |vdot n y (app n A y)| ≤ ρ * vdot n y y)
    (hμ : ∀ y, μ ^ 2 * vdot n y y ≤ vdot n (app n A y) (app n A y)) (hδ : δ = ρ * ((1 + 2 * τ) ^ (n * fuel) - 1)) (hδμ : δ < μ) (hcut : (ρ + δ) * eigTol ≤ μ - δ)
    {x' : Nat → K} (e : equEig rt neg fuel n A b x g1 g2 g3 g4 = some x') :
    (μ - δ) ^ 4 * ∑ r ∈ range n, ((∑ s ∈ range n, A (r * n + s) * x' s) - b r) ^ 2 ≤ δ ^ 4 * ∑ r ∈ range n, b r ^ 2 ∧ ∀ j, n ≤ j → x' j = x j := by
  have hδ0 : 0 ≤ δ := by
    rw [hδ]
    refine mul_nonneg hρ0 (sub_nonneg.2 (one_le_pow₀ (by linarith)))
  rcases Nat.eq_zero_or_pos n with rfl | hn
  · unfold equEig at e
    rw [if_pos rfl] at e
    cases e
    exact ⟨by simp, fun _ _ => rfl⟩
  obtain ⟨t, e1, x0, r0, hx0, hr0, hx'⟩ := equEig_eq (by omega) e
  refine ⟨?_, fun j hj => by rw [hx' j, if_neg (by omega)]⟩
  obtain ⟨h1, -, -⟩ := C92_iteration hrt hτ0 hneg n fuel _ t hρ0 (fun y => by dsimp only; rw [copy_vbil hA]; exact hρ y) e1
  dsimp only at h1
  rw [← hδ] at h1
  have hB := low_symm n (copyOf n A g1)
  have hge := h1.ge (μ := μ) hB hδ0 (by linarith) fun y => by
    rw [vdot_app_congr (copy_mv hA g1 y) (copy_mv hA g1 y)]; exact hμ y
  have hle := h1.le fun y => by rw [copy_vbil hA]; exact hρ y
  have hd0 : ∀ k < n, t.d k ≠ 0 := fun k hk h0 => by have := hge k hk; rw [h0, abs_zero] at this; linarith
  have hcut' := cut_keep (n := n) (d := t.d) tol_nonneg (by linarith) hle hge hcut
  have hx0' : ∀ j < n, x0 j = app n t.A (coefs n t.A t.d b) j := by
    intro j hj
    rw [hx0, bksub_all hcut' hd0, if_pos hj]
    unfold app
    refine sum_congr rfl fun c _ => ?_
    unfold coefs
    rw [sum_congr rfl fun s hs => by rw [show (fun p => if p < n then b p else x p) s = b s from if_pos (mem_range.1 hs)]]
  have app_congr : ∀ {u v : Nat → K}, (∀ j < n, u j = v j) → ∀ r, app n A u r = app n A v r := fun h r =>
    sum_congr rfl fun s hs => by rw [h s (mem_range.1 hs)]
  have off : ∀ (y : Nat → K), ∀ r < n, app n A (app n t.A (coefs n t.A t.d y)) r - y r = offEig n (low n (copyOf n A g1)) t.A t.d (coefs n t.A t.d y) r := by
    intro y r hr
    unfold offEig
    rw [copy_mv hA g1 _ r hr, coefs_back h1.orth hd0 y r hr]
  have hr : ∀ i < n, r0 i = offEig n (low n (copyOf n A g1)) t.A t.d (coefs n t.A t.d b) i := fun i hi => by
    rw [hr0 i hi, app_congr hx0' i, off b i hi]
  have hfin : ∀ r < n, (∑ s ∈ range n, A (r * n + s) * x' s) - b r = -offEig n (low n (copyOf n A g1)) t.A t.d (coefs n t.A t.d r0) r := by
    intro r hrn
    rw [← off r0 r hrn, hr0 r hrn]
    rw [show (∑ s ∈ range n, A (r * n + s) * x' s) = app n A x0 r - app n A (app n t.A (coefs n t.A t.d r0)) r by
      unfold app
      rw [← sum_sub_distrib]
      refine sum_congr rfl fun s hs => ?_
      rw [hx' s, if_pos (mem_range.1 hs), bksub_all hcut' hd0, if_pos (mem_range.1 hs)]
      unfold app
      ring]
    ring
  have hμδ : 0 < μ - δ := by linarith
  have s1 := h1.small hB hδ0 (coefs n t.A t.d b)
  have s2 := h1.small hB hδ0 (coefs n t.A t.d r0)
  have c1 := coefs_small h1 hμδ hge b
  have c2 := coefs_small h1 hμδ hge r0
  rw [← vdot_app_congr hr hr] at s1
  have e3 : ∑ r ∈ range n, ((∑ s ∈ range n, A (r * n + s) * x' s) - b r) ^ 2 =
      vdot n (offEig n (low n (copyOf n A g1)) t.A t.d (coefs n t.A t.d r0)) (offEig n (low n (copyOf n A g1)) t.A t.d (coefs n t.A t.d r0)) :=
    sum_congr rfl fun r hr => by rw [hfin r (mem_range.1 hr)]; ring
  have e4 : ∑ r ∈ range n, b r ^ 2 = vdot n b b := sum_congr rfl fun r _ => by ring
  rw [e3, e4]
  have m2 : (0 : K) ≤ (μ - δ) ^ 2 := sq_nonneg _
  have d2 : (0 : K) ≤ δ ^ 2 := sq_nonneg _
  have k1 := mul_le_mul_of_nonneg_left s2 m2
  have k2 := mul_le_mul_of_nonneg_left c2 d2
  have k3 := mul_le_mul_of_nonneg_left s1 m2
  have k4 := mul_le_mul_of_nonneg_left c1 d2
  have k5 : (μ - δ) ^ 2 * ((μ - δ) ^ 2 * vdot n (offEig n (low n (copyOf n A g1)) t.A t.d (coefs n t.A t.d r0)) (offEig n (low n (copyOf n A g1)) t.A t.d (coefs n t.A t.d r0)))
      ≤ (μ - δ) ^ 2 * (δ ^ 2 * vdot n r0 r0) := mul_le_mul_of_nonneg_left (by linarith) m2
  have k6 : δ ^ 2 * ((μ - δ) ^ 2 * vdot n r0 r0) ≤ δ ^ 2 * (δ ^ 2 * vdot n b b) := mul_le_mul_of_nonneg_left (by linarith) d2
  linarith [k5, k6]

/-- C92: with the exact test, whenever `equ_eig` ends for a symmetric matrix whose numbers are within `EIG_TOL` of each other, the equations hold. -/
theorem C92_equ_exact {rt : K → K} (hrt : IsRoot0 rt) (n fuel : Nat) (A b x g1 g2 g3 g4 : Nat → K) (hA : ∀ r < n, ∀ s < n, A (r * n + s) = A (s * n + r))
    {ρ μ : K} (hρ0 : 0 ≤ ρ) (hρ : ∀ y, |vdot n y (app n A y)| ≤ ρ * vdot n y y) (hμ0 : 0 < μ) (hμ : ∀ y, μ ^ 2 * vdot n y y ≤ vdot n (app n A y) (app n A y))
    (hcut : ρ * eigTol ≤ μ) {x' : Nat → K} (e : equEig rt negExact fuel n A b x g1 g2 g3 g4 = some x') :
    ∀ r < n, ∑ s ∈ range n, A (r * n + s) * x' s = b r := by
  obtain ⟨h, -⟩ := C92_equ (δ := 0) hrt (le_refl 0) negExact_ok n fuel A b x g1 g2 g3 g4 hA hρ0 hρ hμ (by rw [mul_zero, add_zero, one_pow, sub_self, mul_zero]) hμ0
    (by linarith) e
  rw [sub_zero, zero_pow (by omega), zero_mul] at h
  have h1 : ∑ r ∈ range n, ((∑ s ∈ range n, A (r * n + s) * x' s) - b r) ^ 2 ≤ 0 := by
    by_contra h2
    have := mul_pos (pow_pos hμ0 4) (not_le.1 h2)
    linarith
  intro r hr
  have h2 := (sum_eq_zero_iff_of_nonneg fun r _ => sq_nonneg _).1 (le_antisymm h1 (sum_nonneg fun r _ => sq_nonneg _)) r (mem_range.2 hr)
  exact sub_eq_zero.1 (pow_eq_zero_iff (by omega) |>.1 h2)

/-! ## `inv_eig` -/

omit [IsStrictOrderedRing K] in
theorem invEig_eq {rt : K → K} {neg : K → K → Bool} {fuel n : Nat} {A g1 g2 g3 A' : Nat → K} (hn : n ≠ 0) (e : invEig rt neg fuel n A g1 g2 g3 = some A') :
    ∃ t, eigTri rt neg n fuel (tridiag rt n ⟨copyOf n A g1, g2, g3⟩) = some t ∧ ∀ r, ∀ c < n, A' (r * n + c) =
      if r < n then ∑ k ∈ range n, (if eigCut eigTol n t.d k ≠ 0 then t.A (r * n + k) * t.A (c * n + k) / eigCut eigTol n t.d k else 0) else A (r * n + c) := by
  unfold invEig at e
  rw [if_neg hn, Option.map_eq_some_iff] at e
  obtain ⟨t, e1, e2⟩ := e
  refine ⟨t, e1, ?_⟩
  dsimp only at e2
  obtain ⟨d, hd⟩ : ∃ d, d = eigCut eigTol n t.d := ⟨_, rfl⟩
  rw [← hd] at e2 ⊢
  have inner : ∀ (i j : Nat) (A : Nat → K), loop 0 n (fun k A => if d k ≠ 0 then set A (i * n + j) (A (i * n + j) + t.A (i * n + k) * t.A (j * n + k) / d k) else A)
      (set A (i * n + j) 0) = set A (i * n + j) (∑ k ∈ range n, if d k ≠ 0 then t.A (i * n + k) * t.A (j * n + k) / d k else 0) := by
    intro i j A
    refine loop_rule (fun m A' => A' = set A (i * n + j) (∑ k ∈ range m, if d k ≠ 0 then t.A (i * n + k) * t.A (j * n + k) / d k else 0)) (Nat.zero_le n)
      (by rw [sum_range_zero]) ?_
    rintro m A1 - hm h
    rw [h, sum_range_succ]
    by_cases h0 : d m ≠ 0
    · rw [if_pos h0, set_set, set_same, if_pos h0]
    · rw [if_neg h0, if_neg h0, add_zero]
  have row : ∀ (i : Nat) (A : Nat → K), ∀ r, ∀ c < n, loop 0 n (fun j A =>
        loop 0 n (fun k A => if d k ≠ 0 then set A (i * n + j) (A (i * n + j) + t.A (i * n + k) * t.A (j * n + k) / d k) else A) (set A (i * n + j) 0)) A (r * n + c) =
      if r = i then ∑ k ∈ range n, (if d k ≠ 0 then t.A (r * n + k) * t.A (c * n + k) / d k else 0) else A (r * n + c) := by
    intro i A
    have := loop_rule (f := fun j A =>
        loop 0 n (fun k A => if d k ≠ 0 then set A (i * n + j) (A (i * n + j) + t.A (i * n + k) * t.A (j * n + k) / d k) else A) (set A (i * n + j) 0))
      (fun m A' => ∀ r, ∀ c < n, A' (r * n + c) = if r = i ∧ c < m then ∑ k ∈ range n, (if d k ≠ 0 then t.A (r * n + k) * t.A (c * n + k) / d k else 0) else A (r * n + c))
      (Nat.zero_le n) (s := A) (fun r c _ => by rw [if_neg (by omega)]) (by
        rintro m A1 - hm h r c hc
        rw [inner, set_addr _ _ hm hc, h r c hc]
        by_cases h1 : r = i ∧ c = m
        · rw [if_pos h1, if_pos ⟨h1.1, by omega⟩, h1.1, h1.2]
        · rw [if_neg h1]
          by_cases h2 : r = i ∧ c < m
          · rw [if_pos h2, if_pos ⟨h2.1, by omega⟩]
          · rw [if_neg h2, if_neg (by omega)])
    intro r c hc
    rw [this r c hc]
    by_cases h : r = i
    · rw [if_pos ⟨h, hc⟩, if_pos h]
    · rw [if_neg fun h' => h h'.1, if_neg h]
  have := loop_rule (f := fun i A => loop 0 n (fun j A =>
        loop 0 n (fun k A => if d k ≠ 0 then set A (i * n + j) (A (i * n + j) + t.A (i * n + k) * t.A (j * n + k) / d k) else A) (set A (i * n + j) 0)) A)
      (fun m A' => ∀ r, ∀ c < n, A' (r * n + c) = if r < m then ∑ k ∈ range n, (if d k ≠ 0 then t.A (r * n + k) * t.A (c * n + k) / d k else 0) else A (r * n + c))
      (Nat.zero_le n) (s := A) (fun r c _ => by rw [if_neg (by omega)]) (by
        rintro m A1 - hm h r c hc
        rw [row m A1 r c hc, h r c hc]
        by_cases h1 : r = m
        · rw [if_pos h1, if_pos (show r < m + 1 by omega)]
        · rw [if_neg h1]
          by_cases h2 : r < m
          · rw [if_pos h2, if_pos (show r < m + 1 by omega)]
          · rw [if_neg h2, if_neg (show ¬r < m + 1 by omega)])
  rw [e2] at this
  exact this

/-- C92: whenever `inv_eig` ends, for a symmetric matrix far enough from a singular one, the product of the matrix with the result is close to the unit
matrix. Nothing outside the matrix changes. -/
theorem C92_inv {rt : K → K} (hrt : IsRoot0 rt) {neg : K → K → Bool} {τ : K} (hτ0 : 0 ≤ τ) (hneg : NegOk neg τ) (n fuel : Nat) (A g1 g2 g3 : Nat → K)
    (hA : ∀ r < n, ∀ s < n, A (r * n + s) = A (s * n + r)) {ρ μ δ : K} (hρ0 : 0 ≤ ρ) (hρ : ∀ y, |vdot n y (app n A y)| ≤ ρ * vdot n y y)
    (hμ : ∀ y, μ ^ 2 * vdot n y y ≤ vdot n (app n A y) (app n A y)) (hδ : δ = ρ * ((1 + 2 * τ) ^ (n * fuel) - 1)) (hδμ : δ < μ) (hcut : (ρ + δ) * eigTol ≤ μ - δ)
    {A' : Nat → K} (e : invEig rt neg fuel n A g1 g2 g3 = some A') :
    (∀ y : Nat → K, (μ - δ) ^ 2 * ∑ r ∈ range n, (app n A (app n A' y) r - y r) ^ 2 ≤ δ ^ 2 * ∑ r ∈ range n, y r ^ 2) ∧ ∀ p, n * n ≤ p → A' p = A p := by
  have hδ0 : 0 ≤ δ := by
    rw [hδ]
    refine mul_nonneg hρ0 (sub_nonneg.2 (one_le_pow₀ (by linarith)))
  rcases Nat.eq_zero_or_pos n with rfl | hn
  · unfold invEig at e
    rw [if_pos rfl] at e
    cases e
    exact ⟨by simp, fun _ _ => rfl⟩
  obtain ⟨t, e1, hA'⟩ := invEig_eq (by omega) e
  constructor
  swap
  · intro p hp
    have hp' : p = p / n * n + p % n := by rw [Nat.mul_comm]; exact (Nat.div_add_mod p n).symm
    have := hA' (p / n) (p % n) (Nat.mod_lt _ hn)
    rw [if_neg (not_lt.2 ((Nat.le_div_iff_mul_le hn).2 hp)), ← hp'] at this
    exact this
  obtain ⟨h1, -, -⟩ := C92_iteration hrt hτ0 hneg n fuel _ t hρ0 (fun y => by dsimp only; rw [copy_vbil hA]; exact hρ y) e1
  dsimp only at h1
  rw [← hδ] at h1
  have hB := low_symm n (copyOf n A g1)
  have hge := h1.ge (μ := μ) hB hδ0 (by linarith) fun y => by
    rw [vdot_app_congr (copy_mv hA g1 y) (copy_mv hA g1 y)]; exact hμ y
  have hle := h1.le fun y => by rw [copy_vbil hA]; exact hρ y
  have hd0 : ∀ k < n, t.d k ≠ 0 := fun k hk h0 => by have := hge k hk; rw [h0, abs_zero] at this; linarith
  have hcut' := cut_keep (n := n) (d := t.d) tol_nonneg (by linarith) hle hge hcut
  have hμδ : 0 < μ - δ := by linarith
  intro y
  have a1 : ∀ r < n, app n A' y r = app n t.A (coefs n t.A t.d y) r := by
    intro r hr
    unfold app
    rw [sum_congr rfl fun c hc => by rw [hA' r c (mem_range.1 hc), if_pos hr]]
    unfold coefs
    simp only [sum_mul, sum_div, mul_sum]
    rw [sum_comm]
    refine sum_congr rfl fun k hk => sum_congr rfl fun c _ => ?_
    have := hd0 k (mem_range.1 hk)
    rw [hcut' k (mem_range.1 hk), if_pos this]
    field_simp
  have a2 : ∀ r < n, app n A (app n A' y) r - y r = offEig n (low n (copyOf n A g1)) t.A t.d (coefs n t.A t.d y) r := by
    intro r hr
    unfold offEig
    rw [copy_mv hA g1 _ r hr, coefs_back h1.orth hd0 y r hr]
    congr 1
    exact sum_congr rfl fun s hs => by rw [a1 s (mem_range.1 hs)]
  have s1 := h1.small hB hδ0 (coefs n t.A t.d y)
  have c1 := coefs_small h1 hμδ hge y
  rw [← vdot_app_congr a2 a2] at s1
  have e3 : ∑ r ∈ range n, (app n A (app n A' y) r - y r) ^ 2 = vdot n (fun r => app n A (app n A' y) r - y r) (fun r => app n A (app n A' y) r - y r) :=
    sum_congr rfl fun r _ => by ring
  have e4 : ∑ r ∈ range n, y r ^ 2 = vdot n y y := sum_congr rfl fun r _ => by ring
  rw [e3, e4]
  have k1 := mul_le_mul_of_nonneg_left s1 (sq_nonneg (μ - δ))
  have k2 := mul_le_mul_of_nonneg_left c1 (sq_nonneg δ)
  linarith

/-! ## The hypotheses can be met -/

/-- `sqrt` is a root. -/
theorem sqrt_root : IsRoot0 Real.sqrt := fun x hx => ⟨Real.sqrt_nonneg x, Real.mul_self_sqrt hx⟩

/-- The matrix `[[2, 1], [1, 3]]`. -/
def eigEx : Nat → ℝ := fun p => if p = 0 then 2 else if p = 3 then 3 else 1

theorem eigEx_bound (y : Nat → ℝ) : |vdot 2 y (app 2 eigEx y)| ≤ 4 * vdot 2 y y ∧ (1 : ℝ) ^ 2 * vdot 2 y y ≤ vdot 2 (app 2 eigEx y) (app 2 eigEx y) := by
  unfold vdot app eigEx
  simp only [sum_range_succ, sum_range_zero]
  norm_num
  constructor
  · rw [abs_le]
    constructor <;> nlinarith [sq_nonneg (y 0 + y 1), sq_nonneg (y 0 - y 1), sq_nonneg (y 0), sq_nonneg (y 1)]
  · nlinarith [sq_nonneg (y 0 + y 1), sq_nonneg (4 * y 0 + 5 * y 1), sq_nonneg (y 0), sq_nonneg (y 1)]

/-- `equ_eig` ends and solves the equations. -/
example (b x g1 g2 g3 g4 : Nat → ℝ) : ∃ x', equEig Real.sqrt negExact 2 2 eigEx b x g1 g2 g3 g4 = some x' ∧
    2 * x' 0 + x' 1 = b 0 ∧ x' 0 + 3 * x' 1 = b 1 := by
  obtain ⟨t, ht⟩ := C92_two sqrt_root (negExact_ok (K := ℝ)) 0 (tridiag Real.sqrt 2 ⟨copyOf 2 eigEx g1, g2, g3⟩)
  have e : ∃ x', equEig Real.sqrt negExact 2 2 eigEx b x g1 g2 g3 g4 = some x' := by
    unfold equEig
    rw [if_neg (by omega)]
    exact ⟨_, Option.map_eq_some_iff.2 ⟨t, ht, rfl⟩⟩
  obtain ⟨x', hx'⟩ := e
  refine ⟨x', hx', ?_⟩
  have h := C92_equ_exact (ρ := 4) (μ := 1) sqrt_root 2 2 eigEx b x g1 g2 g3 g4 (by
    intro r hr s hs
    unfold eigEx
    interval_cases r <;> interval_cases s <;> norm_num) (by norm_num) (fun y => (eigEx_bound y).1) one_pos (fun y => (eigEx_bound y).2) (by unfold eigTol; norm_num) hx'
  have h0 := h 0 (by omega)
  have h1 := h 1 (by omega)
  unfold eigEx at h0 h1
  simp [sum_range_succ] at h0 h1
  exact ⟨h0, h1⟩

end OP.Lin
