import Verif.Lin.SvdLemmas
import Verif.Lin.EigLemmas
import Mathlib.Data.Matrix.Mul
import Mathlib.Data.Real.Sqrt
/-!
# C94: the reduction to two diagonals
-/
namespace OP.Lin
open Finset Matrix
variable {K : Type} [Field K] [LinearOrder K] [IsStrictOrderedRing K]

/-- The matrix with `W` on the diagonal, `rv` above it (the first number of `rv` is not used) and zeros elsewhere. -/
def twoDiag (m n : Nat) (W rv : Nat → K) : Matrix (Fin m) (Fin n) K :=
  of fun r c => if c.1 = r.1 then W c else if c.1 = r.1 + 1 then rv c else 0

/-- The matrix of the first `m` rows and `n` columns of `F`. -/
def matOf (m n : Nat) (F : Nat → Nat → K) : Matrix (Fin m) (Fin n) K := of fun r c => F r.1 c.1

/-- The matrix of `m` rows and `n` columns stored row by row. -/
def rowMajor (m n : Nat) (A : Nat → K) : Matrix (Fin m) (Fin n) K := of fun r c => A (r * n + c)

omit [LinearOrder K] [IsStrictOrderedRing K] in
theorem refl_matrix {m : Nat} (u : Fin m → K) {H : K} (hH : H ≠ 0) (hu : u ⬝ᵥ u = -2 * H) :
    (1 + H⁻¹ • vecMulVec u u) * (1 + H⁻¹ • vecMulVec u u)ᵀ = 1 := by
  have h1 : (1 + H⁻¹ • vecMulVec u u)ᵀ = 1 + H⁻¹ • vecMulVec u u := by
    rw [transpose_add, transpose_one, transpose_smul, transpose_vecMulVec]
  rw [h1, mul_add, add_mul, add_mul, mul_one, mul_one, one_mul, smul_mul_smul_comm, vecMulVec_mul_vecMulVec, hu]
  ext r c
  simp only [Matrix.add_apply, Matrix.smul_apply, vecMulVec_apply, smul_eq_mul, Pi.smul_apply]
  field_simp
  ring

/-- The matrix of a reflection of the numbers from `lo` on. -/
def hh (m lo : Nat) (u : Nat → K) (H : K) : Matrix (Fin m) (Fin m) K :=
  1 + H⁻¹ • vecMulVec (fun k : Fin m => if lo ≤ k.1 then u k else 0) (fun k : Fin m => if lo ≤ k.1 then u k else 0)

omit [LinearOrder K] [IsStrictOrderedRing K] in
/-- A reflection of the rows from `lo` on. -/
theorem refl_left {m n lo : Nat} (F F' : Nat → Nat → K) (u : Nat → K) {H : K} (hH : H ≠ 0) (hu : ∑ k ∈ Ico lo m, u k * u k = -2 * H)
    (h1 : ∀ r, lo ≤ r → r < m → ∀ c < n, F' r c = F r c + (∑ k ∈ Ico lo m, u k * F k c) * (u r / H)) (h2 : ∀ r < lo, ∀ c < n, F' r c = F r c) :
    ∃ P : Matrix (Fin m) (Fin m) K, (P * Pᵀ = 1 ∧ P = hh m lo u H) ∧ P * matOf m n F = matOf m n F' := by
  have hsum : ∀ g : Nat → K, ∑ k : Fin m, (if lo ≤ k.1 then u k else 0) * g k = ∑ k ∈ Ico lo m, u k * g k := by
    intro g
    rw [Fin.sum_univ_eq_sum_range (fun k => (if lo ≤ k then u k else 0) * g k) m]
    have : Ico lo m ⊆ range m := fun x hx => by rw [mem_Ico] at hx; exact mem_range.2 hx.2
    rw [← sum_subset this]
    · exact sum_congr rfl fun k hk => by rw [mem_Ico] at hk; rw [if_pos hk.1]
    · intro x hx hn
      rw [mem_Ico] at hn
      rw [mem_range] at hx
      rw [if_neg (by omega), zero_mul]
  obtain ⟨w, hw⟩ : ∃ w : Fin m → K, w = fun k : Fin m => if lo ≤ k.1 then u k else 0 := ⟨_, rfl⟩
  have hww : w ⬝ᵥ w = -2 * H := by
    rw [← hu, hw]
    refine (hsum fun k : Nat => if lo ≤ k then u k else 0).trans (sum_congr rfl fun k hk => ?_)
    rw [mem_Ico] at hk
    rw [if_pos hk.1]
  refine ⟨1 + H⁻¹ • vecMulVec w w, ⟨refl_matrix w hH hww, by rw [hw]; rfl⟩, ?_⟩
  rw [Matrix.add_mul, Matrix.one_mul, Matrix.smul_mul, vecMulVec_mul]
  ext r c
  have e : (w ᵥ* matOf m n F) c = ∑ k ∈ Ico lo m, u k * F k c := by
    rw [hw]
    exact hsum fun k => F k c
  simp only [Matrix.add_apply, Matrix.smul_apply, vecMulVec_apply, smul_eq_mul, e]
  simp only [matOf, of_apply]
  rw [hw]
  dsimp only
  by_cases hr : lo ≤ r.1
  · rw [if_pos hr, h1 r hr r.2 c c.2]; ring
  · rw [if_neg hr, h2 r (by omega) c c.2]; ring

omit [LinearOrder K] [IsStrictOrderedRing K] in
/-- A reflection of the columns from `lo` on. -/
theorem refl_right {m n lo : Nat} (F F' : Nat → Nat → K) (u : Nat → K) {H : K} (hH : H ≠ 0) (hu : ∑ k ∈ Ico lo n, u k * u k = -2 * H)
    (h1 : ∀ r < m, ∀ c, lo ≤ c → c < n → F' r c = F r c + (∑ k ∈ Ico lo n, u k * F r k) * (u c / H)) (h2 : ∀ r < m, ∀ c < lo, F' r c = F r c) :
    ∃ Q : Matrix (Fin n) (Fin n) K, (Q * Qᵀ = 1 ∧ Q = hh n lo u H) ∧ matOf m n F * Q = matOf m n F' := by
  obtain ⟨P, ⟨hP, eP⟩, h⟩ := refl_left (m := n) (n := m) (lo := lo) (fun r c => F c r) (fun r c => F' c r) u hH hu (fun r a b c d => h1 c d r a b) (fun r a c b => h2 c b r a)
  refine ⟨Pᵀ, ⟨by rw [transpose_transpose]; exact mul_eq_one_comm.1 hP, ?_⟩, ?_⟩
  · rw [eP, hh, transpose_add, transpose_one, transpose_smul, transpose_vecMulVec]
  have := congrArg transpose h
  rw [transpose_mul] at this
  exact this

/-- The numbers of a reflection: it takes the line that is reduced to its first number. -/
theorem Refl.num {rt : K → K} (hrt : IsRoot0 rt) {α : Nat → Nat → Nat} {lo hi i L : Nat} (hl : lo < hi) {A B : Nat → K} {s G : K} (h : Refl rt α lo hi i L A B s G) (hs : s ≠ 0) :
    ∃ (u : Nat → K) (H : K), (H ≠ 0 ∧ G ≠ 0 ∧ (∀ k, lo ≤ k → k < hi → B (α k i) = s * u k) ∧ s * G * B (α lo i) = s * s * H) ∧ (∑ k ∈ Ico lo hi, u k * u k = -2 * H) ∧
      (∀ k, lo ≤ k → k < hi → A (α k i) + (∑ k ∈ Ico lo hi, u k * A (α k i)) * (u k / H) = if k = lo then s * G else 0) ∧
      ∀ k j, lo ≤ k → k < hi → i < j → j < L → B (α k j) = A (α k j) + (∑ k ∈ Ico lo hi, u k * A (α k j)) * (u k / H) := by
  obtain ⟨x, hx⟩ : ∃ x : Nat → K, x = fun k => A (α k i) / s := ⟨_, rfl⟩
  obtain ⟨S, hS⟩ : ∃ S, S = ∑ k ∈ Ico lo hi, x k * x k := ⟨_, rfl⟩
  have hG := h.root
  have ho := h.other
  have ex : ∀ k, A (α k i) / s = x k := fun k => by rw [hx]
  have eA : ∀ k, A (α k i) = s * x k := fun k => by rw [← ex k, mul_div_cancel₀ _ hs]
  simp only [ex, ← hS] at hG ho
  have hS0 : 0 < S := by
    have h0 : 0 ≤ S := hS ▸ sum_nonneg fun k _ => mul_self_nonneg _
    refine lt_of_le_of_ne h0 fun e => hs ?_
    rw [h.scale]
    refine sum_eq_zero fun k hk => ?_
    have := (sum_eq_zero_iff_of_nonneg (fun k _ => mul_self_nonneg (x k))).1 (hS ▸ e.symm) k hk
    rw [eA k, mul_self_eq_zero.1 this, mul_zero, abs_zero]
  have hr := hrt S hS0.le
  have hGG : G * G = S := by
    rw [hG]; split <;> linarith [hr.2]
  have hlo : x lo * G ≤ 0 := by
    rw [hG]
    by_cases hp : 0 < x lo
    · rw [if_pos hp]; have := mul_nonneg hp.le hr.1; linarith
    · rw [if_neg hp, one_mul]; exact mul_nonpos_of_nonpos_of_nonneg (not_lt.1 hp) hr.1
  have hH : x lo * G - S ≠ 0 := by exact (by linarith : x lo * G - S < 0).ne
  have hd : ∀ y : Nat → K, ∑ k ∈ Ico lo hi, (x k - if k = lo then G else 0) * y k = (∑ k ∈ Ico lo hi, x k * y k) - G * y lo := by
    intro y
    simp only [sub_mul, sum_sub_distrib, ite_mul, zero_mul]
    rw [sum_ite_eq' (Ico lo hi) lo (fun k => G * y k), if_pos (mem_Ico.2 ⟨le_rfl, hl⟩)]
  have hux : ∑ k ∈ Ico lo hi, (x k - if k = lo then G else 0) * x k = -(x lo * G - S) := by rw [hd, ← hS]; ring
  have hown : ∀ k, lo ≤ k → k < hi → B (α k i) = s * (x k - if k = lo then G else 0) := fun k a b => by
    rw [h.own k a b, eA k]
    split <;> ring
  refine ⟨fun k => x k - if k = lo then G else 0, x lo * G - S, ⟨hH, fun e => hS0.ne' (by rw [← hGG, e, zero_mul]), hown, ?_⟩, ?_, ?_, ho⟩
  · rw [hown lo le_rfl hl, if_pos rfl, ← hGG]; ring
  · dsimp only
    rw [hd]
    simp only [mul_sub, sum_sub_distrib, mul_ite, mul_zero]
    rw [sum_ite_eq' (Ico lo hi) lo (fun k => x k * G), if_pos (mem_Ico.2 ⟨le_rfl, hl⟩), if_true, ← hS, hGG]
    ring
  · intro k _ _
    dsimp only
    have e : ∑ k ∈ Ico lo hi, (x k - if k = lo then G else 0) * A (α k i) = s * (-(x lo * G - S)) := by
      rw [← hux, mul_sum]
      exact sum_congr rfl fun k _ => by rw [eA k]; ring
    rw [e, eA k]
    have : s * -(x lo * G - S) * ((x k - if k = lo then G else 0) / (x lo * G - S)) = -(s * (x k - if k = lo then G else 0)) := by
      field_simp
    rw [this]
    by_cases hk : k = lo
    · rw [if_pos hk, if_pos hk]; ring
    · rw [if_neg hk, if_neg hk]; ring

/-- The matrix after `i` rounds. -/
def redAt (n i : Nat) (A W rv : Nat → K) (r c : Nat) : K :=
  if r < i then (if c = r then W c else if c = r + 1 then rv c else 0) else if c < i then 0 else A (r * n + c)

/-- The matrix after the column of round `i`. -/
def midAt (n i : Nat) (A W rv : Nat → K) (r c : Nat) : K :=
  if r < i then (if c = r then W c else if c = r + 1 then rv c else 0) else if c < i then 0 else if c = i then (if r = i then W i else 0) else A (r * n + c)

theorem abs_sum_zero {lo hi : Nat} (g : Nat → K) (h : loop lo hi (fun k v => v + |g k|) 0 = 0) : ∀ k, lo ≤ k → k < hi → g k = 0 := by
  intro k a b
  rw [loop_add _ _ (by omega), zero_add] at h
  exact abs_eq_zero.1 ((sum_eq_zero_iff_of_nonneg fun k _ => abs_nonneg _).1 h k (mem_Ico.2 ⟨a, b⟩))

omit [LinearOrder K] [IsStrictOrderedRing K] in
theorem hh_scale {m lo : Nat} {u u' : Nat → K} {H H' s : K} (hs : s ≠ 0) (hu : ∀ k, lo ≤ k → k < m → u' k = s * u k) (hH : H' = s * s * H) : hh m lo u' H' = hh m lo u H := by
  unfold hh
  congr 1
  ext r c
  simp only [Matrix.smul_apply, vecMulVec_apply, smul_eq_mul]
  by_cases hr : lo ≤ r.1
  · by_cases hc : lo ≤ c.1
    · rw [if_pos hr, if_pos hc, if_pos hr, if_pos hc, hu r hr r.2, hu c hc c.2, hH]
      by_cases h0 : H = 0
      · rw [h0]; simp
      · field_simp
    · rw [if_neg hc, if_neg hc]; ring
  · rw [if_neg hr, if_neg hr]; ring

/-- The reflection of the rows whose vector is left in column `i`. -/
def colQ (m n i : Nat) (A W : Nat → K) : Matrix (Fin m) (Fin m) K := if W i = 0 then 1 else hh m i (fun k => A (k * n + i)) (W i * A (i * n + i))

/-- The reflection of the columns whose vector is left in row `i`; `v` is the number above the diagonal. -/
def rowQ (n i : Nat) (A : Nat → K) (v : K) : Matrix (Fin n) (Fin n) K := if v = 0 then 1 else hh n (i + 1) (fun k => A (i * n + k)) (v * A (i * n + (i + 1)))

theorem col_mid {rt : K → K} (hrt : IsRoot0 rt) {m n i : Nat} (hn : i < n) (t : Svd K) (hW : t.W i = 0) :
    (∃ P : Matrix (Fin m) (Fin m) K, (P * Pᵀ = 1 ∧ P = colQ m n i (svdCol rt m n i t).A (svdCol rt m n i t).W) ∧ ((svdCol rt m n i t).W i ≠ 0 → (svdCol rt m n i t).A (i * n + i) ≠ 0) ∧ P * matOf m n (redAt n i t.A t.W t.rv1) =
      matOf m n (midAt n i (svdCol rt m n i t).A (svdCol rt m n i t).W t.rv1)) ∧
    (svdCol rt m n i t).rv1 = t.rv1 ∧ ∀ c, c ≠ i → (svdCol rt m n i t).W c = t.W c := by
  by_cases h : loop i m (fun k v => v + |t.A (k * n + i)|) 0 = 0
  · rw [svdCol_zero rt t h]
    refine ⟨⟨1, ⟨by simp, by unfold colQ; rw [if_pos hW]⟩, fun h => absurd hW h, ?_⟩, rfl, fun _ _ => rfl⟩
    rw [Matrix.one_mul]
    ext r c
    simp only [matOf, of_apply]
    unfold redAt midAt
    by_cases h1 : r.1 < i
    · rw [if_pos h1, if_pos h1]
    · rw [if_neg h1, if_neg h1]
      by_cases h2 : c.1 < i
      · rw [if_pos h2, if_pos h2]
      · rw [if_neg h2, if_neg h2]
        by_cases h3 : c.1 = i
        · rw [if_pos h3, h3, abs_sum_zero _ h r (by omega) r.2]
          by_cases h4 : r.1 = i
          · rw [if_pos h4, hW]
          · rw [if_neg h4]
        · rw [if_neg h3]
  · have hm : i < m := by
      by_contra hm
      exact h (loop_nil (by omega) _)
    obtain ⟨hR, eW, eV⟩ := svdCol_refl rt hm hn t h
    generalize svdCol rt m n i t = t' at hR eW eV ⊢
    have hs : t'.scale ≠ 0 := by
      rw [hR.scale]
      rw [loop_add _ _ hm.le, zero_add] at h
      exact h
    refine ⟨?_, eV, fun c hc => by rw [eW, set_ne _ _ hc]⟩
    obtain ⟨u, H, ⟨hH, hG, hB, hBH⟩, hu, h1, h2⟩ := hR.num hrt hm hs
    have eP : colQ m n i t'.A t'.W = hh m i u H := by
      unfold colQ
      rw [eW, set_same, if_neg (mul_ne_zero hs hG)]
      exact hh_scale hs hB hBH
    rw [eP]
    suffices h0 : ∃ P : Matrix (Fin m) (Fin m) K, (P * Pᵀ = 1 ∧ P = hh m i u H) ∧ P * matOf m n (redAt n i t.A t.W t.rv1) = matOf m n (midAt n i t'.A t'.W t.rv1) by
      obtain ⟨P, a, b⟩ := h0
      refine ⟨P, a, fun _ h0 => ?_, b⟩
      rw [h0, mul_zero] at hBH
      exact mul_ne_zero (mul_ne_zero hs hs) hH hBH.symm
    refine refl_left (lo := i) (redAt n i t.A t.W t.rv1) _ u hH hu ?_ ?_
    · intro r a b c hc
      unfold redAt midAt
      rw [if_neg (show ¬r < i by omega), if_neg (show ¬r < i by omega)]
      have hk : ∀ k ∈ Ico i m, u k * (if k < i then (if c = k then t.W c else if c = k + 1 then t.rv1 c else 0) else if c < i then 0 else t.A (k * n + c)) =
          if c < i then 0 else u k * t.A (k * n + c) := fun k hk => by
        rw [mem_Ico] at hk
        rw [if_neg (by omega)]
        split
        · rw [mul_zero]
        · rfl
      rw [sum_congr rfl hk]
      by_cases h3 : c < i
      · simp only [if_pos h3, sum_const_zero]; ring
      · simp only [if_neg h3]
        by_cases h4 : c = i
        · rw [if_pos h4, h4, h1 r a b, eW, set_same]
        · rw [if_neg h4, h2 r c a b (by omega) hc]
    · intro r a c hc
      unfold redAt midAt
      rw [if_pos a, if_pos a]
      by_cases h3 : c = r
      · rw [if_pos h3, if_pos h3, eW, set_ne _ _ (by omega)]
      · rw [if_neg h3, if_neg h3]

theorem row_red {rt : K → K} (hrt : IsRoot0 rt) {m n i : Nat} (t : Svd K) :
    (∃ Q : Matrix (Fin n) (Fin n) K, (Q * Qᵀ = 1 ∧ Q = rowQ n i (svdRow rt m n i t).A ((svdRow rt m n i t).scale * (svdRow rt m n i t).G)) ∧ matOf m n (midAt n i t.A t.W t.rv1) * Q =
      matOf m n (redAt n (i + 1) (svdRow rt m n i t).A (svdRow rt m n i t).W (set (svdRow rt m n i t).rv1 (i + 1) ((svdRow rt m n i t).scale * (svdRow rt m n i t).G)))) ∧
    (svdRow rt m n i t).W = t.W ∧ ∀ k ≤ i, (svdRow rt m n i t).rv1 k = t.rv1 k := by
  by_cases h : (if i < m then loop (i + 1) n (fun k v => v + |t.A (i * n + k)|) 0 else 0) = 0
  · rw [svdRow_zero rt t h]
    refine ⟨⟨1, ⟨by simp, by unfold rowQ; rw [if_pos (zero_mul _)]⟩, ?_⟩, rfl, fun _ _ => rfl⟩
    rw [Matrix.mul_one]
    ext r c
    simp only [matOf, of_apply, zero_mul]
    unfold redAt midAt
    by_cases h1 : r.1 < i
    · rw [if_pos h1, if_pos (show r.1 < i + 1 by omega)]
      by_cases h2 : c.1 = r
      · rw [if_pos h2, if_pos h2]
      · rw [if_neg h2, if_neg h2]
        by_cases h3 : c.1 = r + 1
        · rw [if_pos h3, if_pos h3, set_ne _ _ (by omega)]
        · rw [if_neg h3, if_neg h3]
    · rw [if_neg h1]
      by_cases h2 : r.1 = i
      · rw [if_pos (show r.1 < i + 1 by omega)]
        have hm : i < m := h2 ▸ r.2
        rw [if_pos hm] at h
        by_cases h3 : c.1 < i
        · rw [if_pos h3, if_neg (by omega), if_neg (by omega)]
        · rw [if_neg h3]
          by_cases h4 : c.1 = i
          · rw [if_pos h4, if_pos h2, if_pos (by omega), h4]
          · rw [if_neg h4, if_neg (by omega), h2, abs_sum_zero _ h c (by omega) c.2]
            by_cases h5 : c.1 = i + 1
            · rw [if_pos h5, h5, set_same]
            · rw [if_neg h5]
      · rw [if_neg (show ¬r.1 < i + 1 by omega)]
        by_cases h3 : c.1 < i
        · rw [if_pos h3, if_pos (by omega)]
        · rw [if_neg h3]
          by_cases h4 : c.1 = i
          · rw [if_pos h4, if_neg h2, if_pos (by omega)]
          · rw [if_neg h4, if_neg (by omega)]
  · have hm : i < m := by
      by_contra hm
      exact h (if_neg hm)
    rw [if_pos hm] at h
    have hn : i + 1 < n := by
      by_contra hn
      exact h (loop_nil (by omega) _)
    obtain ⟨hR, eW, eV⟩ := svdRow_refl rt hm hn t h
    generalize svdRow rt m n i t = t' at hR eW eV ⊢
    have hs : t'.scale ≠ 0 := by
      rw [hR.scale]
      rw [loop_add _ _ hn.le, zero_add] at h
      exact h
    refine ⟨?_, eW, eV⟩
    obtain ⟨u, H, ⟨hH, hG, hB, hBH⟩, hu, h1, h2⟩ := hR.num hrt hn hs
    have eP : rowQ n i t'.A (t'.scale * t'.G) = hh n (i + 1) u H := by
      unfold rowQ
      rw [if_neg (mul_ne_zero hs hG)]
      exact hh_scale hs hB hBH
    rw [eP]
    refine refl_right (lo := i + 1) (midAt n i t.A t.W t.rv1) _ u hH hu ?_ ?_
    · intro r hr c a b
      unfold redAt midAt
      rcases lt_trichotomy r i with h3 | h3 | h3
      · rw [if_pos h3, if_pos (show r < i + 1 by omega), if_neg (show ¬c = r by omega), if_neg (show ¬c = r by omega), if_neg (show ¬c = r + 1 by omega),
          if_neg (show ¬c = r + 1 by omega)]
        rw [sum_eq_zero, zero_mul, add_zero]
        intro k hk
        rw [mem_Ico] at hk
        rw [if_pos h3, if_neg (by omega), if_neg (by omega), mul_zero]
      · rw [if_pos (show r < i + 1 by omega), if_neg (show ¬c = r by omega), if_neg (show ¬r < i by omega), if_neg (show ¬c < i by omega), if_neg (show ¬c = i by omega)]
        have hk : ∀ k ∈ Ico (i + 1) n, u k * (if r < i then (if k = r then t.W k else if k = r + 1 then t.rv1 k else 0) else if k < i then 0 else if k = i then (if r = i then t.W i else 0) else t.A (r * n + k)) =
            u k * t.A (i * n + k) := fun k hk => by
          rw [mem_Ico] at hk
          rw [if_neg (by omega), if_neg (by omega), if_neg (by omega), h3]
        rw [sum_congr rfl hk, h3, h1 c a b]
        by_cases h5 : c = i + 1
        · rw [if_pos h5, if_pos h5, h5, set_same]
        · rw [if_neg h5, if_neg h5]
      · rw [if_neg (show ¬r < i + 1 by omega), if_neg (show ¬c < i + 1 by omega), if_neg (show ¬r < i by omega), if_neg (show ¬c < i by omega), if_neg (show ¬c = i by omega)]
        have hk : ∀ k ∈ Ico (i + 1) n, u k * (if r < i then (if k = r then t.W k else if k = r + 1 then t.rv1 k else 0) else if k < i then 0 else if k = i then (if r = i then t.W i else 0) else t.A (r * n + k)) =
            u k * t.A (r * n + k) := fun k hk => by
          rw [mem_Ico] at hk
          rw [if_neg (by omega), if_neg (by omega), if_neg (by omega)]
        rw [sum_congr rfl hk, h2 c r a b h3 hr]
    · intro r hr c hc
      unfold redAt midAt
      rw [eW]
      by_cases h3 : r < i
      · rw [if_pos h3, if_pos (show r < i + 1 by omega)]
        by_cases h4 : c = r
        · rw [if_pos h4, if_pos h4]
        · rw [if_neg h4, if_neg h4]
          by_cases h5 : c = r + 1
          · rw [if_pos h5, if_pos h5, set_ne _ _ (by omega), eV c (by omega)]
          · rw [if_neg h5, if_neg h5]
      · rw [if_neg h3]
        by_cases h6 : r = i
        · rw [if_pos (show r < i + 1 by omega)]
          by_cases h4 : c = i
          · rw [if_pos (by omega), if_neg (by omega), if_pos h4, if_pos h6, h4]
          · rw [if_neg (by omega), if_neg (by omega), if_pos (by omega)]
        · rw [if_neg (show ¬r < i + 1 by omega), if_pos hc]
          by_cases h4 : c = i
          · rw [if_neg (by omega), if_pos h4, if_neg h6]
          · rw [if_pos (by omega)]

/-- C94, the reduction: if `W` holds zeros when `decmp_svd` is called, the first part of it (src/linalg.cpp:676-721) turns the matrix, by turns and reflections of its rows and of its
columns, into one with `W` on the diagonal, `rv1` above it and zeros elsewhere; so the singular values of this matrix are those of the argument. -/
theorem C94_reduced {rt : K → K} (hrt : IsRoot0 rt) (m n : Nat) (A W g : Nat → K) (hW : ∀ c < n, W c = 0) :
    ∃ (P : Matrix (Fin m) (Fin m) K) (Q : Matrix (Fin n) (Fin n) K), P * Pᵀ = 1 ∧ Q * Qᵀ = 1 ∧
      P * rowMajor m n A * Q = twoDiag m n (loop 0 n (fun i t => svdReduce rt m n i t) ⟨A, W, g, 0, 0, 0⟩).W
        (loop 0 n (fun i t => svdReduce rt m n i t) ⟨A, W, g, 0, 0, 0⟩).rv1 := by
  have h := loop_rule (f := fun i t => svdReduce rt m n i t) (fun i t => (∀ c, i ≤ c → c < n → t.W c = 0) ∧
    ∃ (P : Matrix (Fin m) (Fin m) K) (Q : Matrix (Fin n) (Fin n) K), P * Pᵀ = 1 ∧ Q * Qᵀ = 1 ∧
      P * rowMajor m n A * Q = matOf m n (redAt n i t.A t.W (set t.rv1 i (t.scale * t.G)))) (Nat.zero_le n) (s := ⟨A, W, g, 0, 0, 0⟩)
    ⟨fun c _ h => hW c h, 1, 1, by simp, by simp, by
      rw [Matrix.one_mul, Matrix.mul_one]
      ext r c
      simp only [rowMajor, matOf, redAt, of_apply, Nat.not_lt_zero, if_false]⟩ (by
      rintro i t - hi ⟨h1, P, Q, hP, hQ, h2⟩
      unfold svdReduce
      dsimp only
      obtain ⟨t0, ht0⟩ : ∃ t0 : Svd K, t0 = { t with rv1 := set t.rv1 i (t.scale * t.G) } := ⟨_, rfl⟩
      rw [← ht0]
      have e1 : t0.A = t.A := by rw [ht0]
      have e2 : t0.W = t.W := by rw [ht0]
      have e3 : t0.rv1 = set t.rv1 i (t.scale * t.G) := by rw [ht0]
      rw [← e1, ← e2, ← e3] at h2
      obtain ⟨⟨P', ⟨hP', -⟩, -, h3⟩, h4, h5⟩ := col_mid hrt (m := m) hi t0 (by rw [e2]; exact h1 i le_rfl hi)
      obtain ⟨⟨Q', ⟨hQ', -⟩, h6⟩, h7, h8⟩ := row_red hrt (m := m) (n := n) (i := i) (svdCol rt m n i t0)
      refine ⟨fun c a b => by rw [h7, h5 c (by omega), e2]; exact h1 c (by omega) b, P' * P, Q * Q', ?_, ?_, ?_⟩
      · rw [transpose_mul, Matrix.mul_assoc, ← Matrix.mul_assoc P, hP, Matrix.one_mul, hP']
      · rw [transpose_mul, Matrix.mul_assoc, ← Matrix.mul_assoc Q', hQ', Matrix.one_mul, hQ]
      · rw [← h6, h4, ← h3, ← h2]
        simp only [Matrix.mul_assoc])
  obtain ⟨-, P, Q, hP, hQ, h2⟩ := h
  refine ⟨P, Q, hP, hQ, h2.trans ?_⟩
  ext r c
  simp only [twoDiag, matOf, redAt, of_apply]
  by_cases h1 : r.1 < n
  · rw [if_pos h1, set_ne _ _ (by have := c.2; omega)]
  · rw [if_neg h1, if_pos c.2, if_neg (by have := c.2; omega), if_neg (by have := c.2; omega)]

/-- C94, what is kept: the vectors of the reflections of a round are left in the column and in the row that it reduces, and what is before them and below the matrix is not touched. -/
theorem C94_stored (rt : K → K) {m n i : Nat} (hm : i < m) (hn : i < n) (t : Svd K) :
    ((∃ k, i ≤ k ∧ k < m ∧ t.A (k * n + i) ≠ 0) →
      (∀ k, i ≤ k → k < m → (svdCol rt m n i t).A (k * n + i) = t.A (k * n + i) - if k = i then (svdCol rt m n i t).W i else 0) ∧
      ∀ r, ∀ c < n, r < i ∨ m ≤ r ∨ c < i → (svdCol rt m n i t).A (r * n + c) = t.A (r * n + c)) ∧
    ((∃ k, i + 1 ≤ k ∧ k < n ∧ t.A (i * n + k) ≠ 0) →
      (∀ k, i + 1 ≤ k → k < n → (svdRow rt m n i t).A (i * n + k) = t.A (i * n + k) - if k = i + 1 then (svdRow rt m n i t).scale * (svdRow rt m n i t).G else 0) ∧
      ∀ r, ∀ c < n, r < i ∨ m ≤ r ∨ c < i + 1 → (svdRow rt m n i t).A (r * n + c) = t.A (r * n + c)) := by
  constructor
  · rintro ⟨k, a, b, h⟩
    obtain ⟨hR, eW, -⟩ := svdCol_refl rt hm hn t fun e => h (abs_sum_zero _ e k a b)
    refine ⟨fun k a b => by rw [eW, set_same]; exact hR.own k a b, fun r c hc h => hR.rest _ fun k j a b c' d e => ?_⟩
    have := (addr_inj hc d).1 e
    omega
  · rintro ⟨k, a, b, h⟩
    obtain ⟨hR, -, -⟩ := svdRow_refl rt hm (by omega) t fun e => h (abs_sum_zero _ e k a b)
    refine ⟨fun k a b => hR.own k a b, fun r c hc h => hR.rest _ fun k j a b c' d e => ?_⟩
    have := (addr_inj hc b).1 e
    omega

/-- There are square roots, and the matrix may be any: here one with three rows and two columns. -/
example : ∃ (P : Matrix (Fin 3) (Fin 3) ℝ) (Q : Matrix (Fin 2) (Fin 2) ℝ), P * Pᵀ = 1 ∧ Q * Qᵀ = 1 ∧
    P * rowMajor 3 2 (fun p => (p : ℝ)) * Q = twoDiag 3 2 (loop 0 2 (fun i t => svdReduce Real.sqrt 3 2 i t) ⟨fun p => (p : ℝ), 0, 0, 0, 0, 0⟩).W
      (loop 0 2 (fun i t => svdReduce Real.sqrt 3 2 i t) ⟨fun p => (p : ℝ), 0, 0, 0, 0, 0⟩).rv1 :=
  C94_reduced (fun x hx => ⟨Real.sqrt_nonneg x, Real.mul_self_sqrt hx⟩) 3 2 _ _ _ fun _ _ => rfl

end OP.Lin
