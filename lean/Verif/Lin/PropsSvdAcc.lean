import Verif.Lin.SvdAccSpec
import Verif.Lin.PropsSvdDiag
/-!
# Singular values: what the whole routine gives (src/linalg.cpp:662-831)
-/
namespace OP.Lin
open Finset Matrix
variable {K : Type} [Field K] [LinearOrder K]

/-- The reflection of one column of numbers; none if `w` is 0. -/
def hv (w : K) (N lo : Nat) (u : Nat → K) (H : K) (x : Nat → K) (r : Nat) : K :=
  if w = 0 then x r else if lo ≤ r then x r + (∑ k ∈ Ico lo N, u k * x k) * (u r / H) else x r

/-- The reflections from `p` on, `q` of them, the last first. -/
def tl (R : Nat → (Nat → K) → Nat → K) : Nat → Nat → (Nat → K) → Nat → K
  | 0, _, x => x
  | q + 1, p, x => R p (tl R q (p + 1) x)

theorem hh_mul {N n lo : Nat} (w : K) (u : Nat → K) (H : K) (F : Nat → Nat → K) :
    (if w = 0 then 1 else hh N lo u H) * matOf N n F = matOf N n (fun r c => hv w N lo u H (fun k => F k c) r) := by
  by_cases h0 : w = 0
  · rw [if_pos h0, Matrix.one_mul]
    ext r c
    simp only [matOf, of_apply, hv, if_pos h0]
  rw [if_neg h0]
  have hsum : ∀ g : Nat → K, ∑ k : Fin N, (if lo ≤ k.1 then u k else 0) * g k = ∑ k ∈ Ico lo N, u k * g k := by
    intro g
    rw [Fin.sum_univ_eq_sum_range (fun k => (if lo ≤ k then u k else 0) * g k) N]
    have : Ico lo N ⊆ range N := fun x hx => by rw [mem_Ico] at hx; exact mem_range.2 hx.2
    rw [← sum_subset this]
    · exact sum_congr rfl fun k hk => by rw [mem_Ico] at hk; rw [if_pos hk.1]
    · intro x hx hn
      rw [mem_Ico] at hn
      rw [mem_range] at hx
      rw [if_neg (by omega), zero_mul]
  unfold hh
  rw [Matrix.add_mul, Matrix.one_mul, Matrix.smul_mul, vecMulVec_mul]
  ext r c
  have e : ((fun k : Fin N => if lo ≤ k.1 then u k else 0) ᵥ* matOf N n F) c = ∑ k ∈ Ico lo N, u k * F k c := hsum fun k => F k c
  simp only [Matrix.add_apply, Matrix.smul_apply, vecMulVec_apply, smul_eq_mul, e]
  simp only [matOf, of_apply, hv, if_neg h0]
  by_cases hr : lo ≤ r.1
  · rw [if_pos hr, if_pos hr]; ring
  · rw [if_neg hr, if_neg hr]; ring

omit [LinearOrder K] in
theorem hh_symm (N lo : Nat) (u : Nat → K) (H : K) : (hh N lo u H)ᵀ = hh N lo u H := by
  unfold hh
  rw [transpose_add, transpose_one, transpose_smul, transpose_vecMulVec]

theorem colQ_symm (m n i : Nat) (A W : Nat → K) : (colQ m n i A W)ᵀ = colQ m n i A W := by
  unfold colQ
  split
  · exact transpose_one
  · exact hh_symm _ _ _ _

/-- The reflections of the rows. -/
def Rl (m n : Nat) (A W : Nat → K) (p : Nat) : (Nat → K) → Nat → K := hv (W p) m p (fun k => A (k * n + p)) (W p * A (p * n + p))

/-- The reflections of the columns. -/
def Rr (n : Nat) (A rv : Nat → K) (p : Nat) : (Nat → K) → Nat → K := hv (rv (p + 1)) n (p + 1) (fun k => A (p * n + k)) (rv (p + 1) * A (p * n + (p + 1)))

theorem tl_left {m n k : Nat} (A W : Nat → K) (F : Nat → Nat → K) : ∀ q p, (leftP m n A W p)ᵀ * matOf m k (fun r c => tl (Rl m n A W) q p (fun k => F k c) r) = (leftP m n A W (p + q))ᵀ * matOf m k F
  | 0, p => rfl
  | q + 1, p => by
    have e : matOf m k (fun r c => tl (Rl m n A W) (q + 1) p (fun k => F k c) r) = colQ m n p A W * matOf m k (fun r c => tl (Rl m n A W) q (p + 1) (fun k => F k c) r) := by
      unfold colQ
      rw [hh_mul]
      rfl
    rw [e, ← Matrix.mul_assoc, show p + (q + 1) = p + 1 + q by omega, ← tl_left A W F q (p + 1)]
    congr 1
    rw [leftP, transpose_mul, colQ_symm]

theorem tl_right {n k : Nat} (A rv : Nat → K) (F : Nat → Nat → K) : ∀ q p, rightQ n A rv p * matOf n k (fun r c => tl (Rr n A rv) q p (fun k => F k c) r) = rightQ n A rv (p + q) * matOf n k F
  | 0, p => rfl
  | q + 1, p => by
    have e : matOf n k (fun r c => tl (Rr n A rv) (q + 1) p (fun k => F k c) r) = rowQ n p A (rv (p + 1)) * matOf n k (fun r c => tl (Rr n A rv) q (p + 1) (fun k => F k c) r) := by
      unfold rowQ
      rw [hh_mul]
      rfl
    rw [e, ← Matrix.mul_assoc, show p + (q + 1) = p + 1 + q by omega, ← tl_right A rv F q (p + 1)]
    rfl

theorem hv_low {w : K} {N lo : Nat} {u : Nat → K} {H : K} {x : Nat → K} {r : Nat} (h : r < lo) : hv w N lo u H x r = x r := by
  unfold hv
  rw [if_neg (show ¬lo ≤ r by omega), ite_self]

theorem hv_zero {w : K} {N lo : Nat} {u : Nat → K} {H : K} {x : Nat → K} (h : ∀ k, lo ≤ k → x k = 0) : hv w N lo u H x = x := by
  funext r
  unfold hv
  rw [sum_eq_zero fun k hk => by rw [mem_Ico] at hk; rw [h k hk.1, mul_zero], zero_mul, add_zero, ite_self, ite_self]

omit [Field K] [LinearOrder K] in
theorem tl_low {R : Nat → (Nat → K) → Nat → K} (hR : ∀ p x, ∀ r < p, R p x r = x r) {x : Nat → K} : ∀ q p, ∀ r < p, tl R q p x r = x r
  | 0, _, _, _ => rfl
  | q + 1, p, r, h => (hR p _ r h).trans (tl_low hR q (p + 1) r (by omega))

omit [LinearOrder K] in
theorem tl_fix {R : Nat → (Nat → K) → Nat → K} (hR : ∀ p x, (∀ k, p ≤ k → x k = 0) → R p x = x) {x : Nat → K} : ∀ q p, (∀ k, p ≤ k → x k = 0) → tl R q p x = x
  | 0, _, _ => rfl
  | q + 1, p, h => by
    rw [tl, tl_fix hR q (p + 1) fun k hk => h k (by omega)]
    exact hR p x h

/-- After the rounds down to `p`. -/
theorem lefts_spec {m n : Nat} (hnm : n ≤ m) (W A0 : Nat → K) (hz : ∀ c < n, W c ≠ 0 → A0 (c * n + c) ≠ 0) : ∀ p ≤ n, ∀ A : Nat → K,
    (∀ r, ∀ c < p, A (r * n + c) = A0 (r * n + c)) → (∀ r, p ≤ r → r < m → ∀ c, p ≤ c → c < n → A (r * n + c) = tl (Rl m n A0 W) (n - p) p (vunit c) r) →
    ∀ r < m, ∀ c < n, svdLefts m n W p A (r * n + c) = tl (Rl m n A0 W) n 0 (vunit c) r
  | 0, _, A, _, h => fun r hr c hc => h r (Nat.zero_le _) hr c (Nat.zero_le _) hc
  | p + 1, hp, A, h1, h2 => by
    obtain ⟨s1, s2, s3⟩ := svdLeft_spec (m := m) (n := n) (p := p) (by omega) (by omega) W A
    have hlow : ∀ p x, ∀ r < p, Rl m n A0 W p x r = x r := fun p x r h => hv_low h
    have hfix : ∀ p x, (∀ k, p ≤ k → x k = 0) → Rl m n A0 W p x = x := fun p x h => hv_zero h
    have hq : n - p = (n - (p + 1)) + 1 := by omega
    have hA : ∀ r, A (r * n + p) = A0 (r * n + p) := fun r => h1 r p (by omega)
    refine lefts_spec hnm W A0 hz p (by omega) _ (fun r c hc => by rw [s1 r c hc, h1 r c (by omega)]) fun r a b c hc hcn => ?_
    rw [hq, tl]
    rcases eq_or_lt_of_le hc with hcp | hcp
    · rw [← hcp, s2 r a b, tl_fix hfix _ _ fun k hk => by unfold vunit; rw [if_neg (by omega)]]
      unfold Rl hv
      by_cases hw : W p = 0
      · rw [if_neg (by simpa using hw), if_pos hw, zero_add]; rfl
      · rw [if_pos hw, if_neg hw, if_pos a]
        have e : ∑ k ∈ Ico p m, A0 (k * n + p) * vunit p k = A0 (p * n + p) := by
          rw [sum_eq_single p]
          · unfold vunit; rw [if_pos rfl, mul_one]
          · intro k _ hk; unfold vunit; rw [if_neg hk, mul_zero]
          · intro h; exact absurd (mem_Ico.2 ⟨le_rfl, by omega⟩) h
        have := hz p (by omega) hw
        rw [e, hA, add_comm, show (A0 (r * n + p)) / W p = A0 (p * n + p) * (A0 (r * n + p) / (W p * A0 (p * n + p))) by field_simp]
        rfl
    · obtain ⟨y, hy⟩ : ∃ y, y = tl (Rl m n A0 W) (n - (p + 1)) (p + 1) (vunit c) := ⟨_, rfl⟩
      have y0 : y p = 0 := by
        rw [hy, tl_low hlow _ _ p (by omega)]; unfold vunit; rw [if_neg (by omega)]
      have y1 : ∀ k, p < k → k < m → A (k * n + c) = y k := fun k hk hkm => by rw [h2 k hk hkm c hcp hcn, hy]
      rw [s3 r a b c hcp hcn, ← hy]
      have e0 : (if r = p then 0 else A (r * n + c)) = y r := by
        by_cases h : r = p
        · rw [if_pos h, h, y0]
        · rw [if_neg h, y1 r (by omega) b]
      rw [e0]
      unfold Rl hv
      by_cases hw : W p = 0
      · rw [if_neg (by simpa using hw), if_pos hw, add_zero]
      · have es : ∑ k ∈ Ico p m, A0 (k * n + p) * y k = ∑ k ∈ Ico (p + 1) m, A (k * n + p) * A (k * n + c) := by
          rw [sum_eq_sum_Ico_succ_bot (by omega), y0, mul_zero, zero_add]
          exact sum_congr rfl fun k hk => by rw [mem_Ico] at hk; rw [hA, y1 k (by omega) (by omega)]
        rw [if_pos hw, if_neg hw, if_pos a]
        dsimp only
        rw [es, hA, hA, div_div, mul_comm (A0 (p * n + p)), div_mul_eq_mul_div, mul_div_assoc]

/-- After the rounds down to `p`. -/
theorem rights_spec {n : Nat} (A rv rv' : Nat → K) (hrv : ∀ i < n, rv' i = rv i) : ∀ p ≤ n, ∀ V : Nat → K,
    (∀ r, p ≤ r → r < n → ∀ c, p ≤ c → c < n → V (r * n + c) = tl (Rr n A rv) (n - p) p (vunit c) r) →
    ∀ r < n, ∀ c < n, svdRightsAt n A rv' p V (r * n + c) = tl (Rr n A rv) n 0 (vunit c) r
  | 0, _, V, h => fun r hr c hc => h r (Nat.zero_le _) hr c (Nat.zero_le _) hc
  | p + 1, hp, V, h => by
    obtain ⟨s1, s2, s3⟩ := svdRight_spec (n := n) (p := p) (by omega) A (rv' (p + 1)) V
    have hlow : ∀ p x, ∀ r < p, Rr n A rv p x r = x r := fun p x r h => hv_low (by omega)
    have hfix : ∀ p x, (∀ k, p ≤ k → x k = 0) → Rr n A rv p x = x := fun p x h => hv_zero fun k hk => h k (by omega)
    have hq : n - p = (n - (p + 1)) + 1 := by omega
    refine rights_spec A rv rv' hrv p (by omega) _ fun r a b c hc hcn => ?_
    rw [hq, tl]
    rcases eq_or_lt_of_le a with hrp | hrp
    · have e : Rr n A rv p (tl (Rr n A rv) (n - (p + 1)) (p + 1) (vunit c)) r = vunit c r := by
        unfold Rr
        rw [hv_low (by omega)]
        exact tl_low hlow _ _ r (by omega)
      rw [e]
      unfold vunit
      rcases eq_or_lt_of_le hc with hcp | hcp
      · rw [← hcp, ← hrp, s1, if_pos rfl]
      · rw [← hrp, (s2 c hcp hcn).1, if_neg (by omega)]
    rcases eq_or_lt_of_le hc with hcp | hcp
    · rw [← hcp, (s2 r hrp b).2, tl_fix hfix _ _ fun k hk => by unfold vunit; rw [if_neg (by omega)]]
      unfold Rr
      rw [hv_zero fun k hk => by unfold vunit; rw [if_neg (by omega)]]
      unfold vunit
      rw [if_neg (by omega)]
    obtain ⟨y, hy⟩ : ∃ y, y = tl (Rr n A rv) (n - (p + 1)) (p + 1) (vunit c) := ⟨_, rfl⟩
    have y1 : ∀ k, p < k → k < n → V (k * n + c) = y k := fun k hk hkm => by rw [h k hk hkm c hcp hcn, hy]
    rw [s3 r hrp b c hcp hcn, ← hy, y1 r hrp b, hrv (p + 1) (by omega)]
    unfold Rr hv
    by_cases hw : rv (p + 1) = 0
    · rw [if_neg (by simpa using hw), if_pos hw, add_zero]
    · have es : ∑ k ∈ Ico (p + 1) n, A (p * n + k) * V (k * n + c) = ∑ k ∈ Ico (p + 1) n, A (p * n + k) * y k :=
        sum_congr rfl fun k hk => by rw [mem_Ico] at hk; rw [y1 k (by omega) (by omega)]
      rw [if_pos hw, if_neg hw, if_pos (by omega), es, div_div, mul_comm (rv (p + 1))]

variable [IsStrictOrderedRing K]

/-- What the reduction and the accumulation give to the iteration. -/
theorem accumulated {rt : K → K} (hrt : IsRoot0 rt) {m n : Nat} (hnm : n ≤ m) (A W V g : Nat → K) (out : K) (hW : ∀ c < n, W c = 0) (t : Svd K)
    (ht : t = loop 0 n (fun i t => svdReduce rt m n i t) ⟨A, W, g, 0, 0, 0⟩) (U V' : Nat → K) (eU : U = svdLefts m n t.W n t.A)
    (eV : V' = svdRightsAt n t.A (fun i => if i < n then t.rv1 i else out) n V) :
    (∀ a < n, ∀ k < n, ∑ r ∈ range m, U (r * n + a) * U (r * n + k) = if a = k then 1 else 0) ∧
    (∀ a < n, ∀ k < n, ∑ r ∈ range n, V' (r * n + a) * V' (r * n + k) = if a = k then 1 else 0) ∧
    (∀ r < m, ∀ c < n, A (r * n + c) = ∑ a ∈ range n, ∑ b ∈ range n, U (r * n + a) * (if b = a then t.W a else if b = a + 1 then t.rv1 b else 0) * V' (c * n + b)) ∧
    t.anorm * t.anorm ≤ 2 * ∑ r ∈ range m, ∑ c ∈ range n, A (r * n + c) * A (r * n + c) := by
  obtain ⟨hr0, ⟨-, ha⟩, hz, hP, hQ, hB⟩ := reduced hrt hnm A W g hW t ht
  obtain ⟨P, eP⟩ : ∃ P, P = leftP m n t.A t.W n := ⟨_, rfl⟩
  obtain ⟨Q, eQ⟩ : ∃ Q, Q = rightQ n t.A (fun i => if i < n then t.rv1 i else 0) n := ⟨_, rfl⟩
  obtain ⟨E, eE⟩ : ∃ E : Matrix (Fin m) (Fin n) K, E = matOf m n (fun r c => vunit c r) := ⟨_, rfl⟩
  obtain ⟨B, eB⟩ : ∃ B : Matrix (Fin n) (Fin n) K, B = of fun (a b : Fin n) => if b.1 = a.1 then t.W a else if b.1 = a.1 + 1 then t.rv1 b else 0 := ⟨_, rfl⟩
  have hU : rowMajor m n U = Pᵀ * E := by
    have h := tl_left (m := m) (n := n) (k := n) t.A t.W (fun r c => vunit c r) n 0
    rw [leftP, transpose_one, Matrix.one_mul, Nat.zero_add, ← eP, ← eE] at h
    rw [← h]
    ext r c
    simp only [rowMajor, matOf, of_apply]
    rw [eU]
    exact lefts_spec hnm t.W t.A hz n le_rfl t.A (fun _ _ _ => rfl) (fun r a b c hc hcn => by omega) r r.2 c c.2
  have hV : rowMajor n n V' = Q := by
    have h := tl_right (n := n) (k := n) t.A (fun i => if i < n then t.rv1 i else 0) (fun r c => vunit c r) n 0
    rw [rightQ, Matrix.one_mul, Nat.zero_add, ← eQ] at h
    have e1 : matOf n n (fun r c => vunit c r) = (1 : Matrix (Fin n) (Fin n) K) := by
      ext r c
      simp only [matOf, of_apply, vunit, Matrix.one_apply, Fin.ext_iff]
    rw [e1, Matrix.mul_one] at h
    rw [← h]
    ext r c
    simp only [rowMajor, matOf, of_apply]
    rw [eV]
    exact rights_spec t.A _ _ (fun i hi => by rw [if_pos hi, if_pos hi]) n le_rfl V (fun r a b c hc hcn => by omega) r r.2 c c.2
  rw [← eP] at hP hB
  rw [← eQ] at hQ hB
  have hEE : Eᵀ * E = 1 := by
    ext a b
    rw [Matrix.mul_apply, eE]
    simp only [transpose_apply, matOf, of_apply, vunit]
    rw [Fin.sum_univ_eq_sum_range (fun k => (if k = a.1 then (1 : K) else 0) * if k = b.1 then 1 else 0) m, sum_eq_single a.1]
    · rw [if_pos rfl, one_mul, Matrix.one_apply]
      simp only [Fin.ext_iff]
    · intro k _ hk; rw [if_neg hk, zero_mul]
    · intro h; exact absurd (mem_range.2 (by have := a.2; omega)) h
  have hEB : twoDiag m n t.W t.rv1 = E * B := by
    ext r c
    rw [Matrix.mul_apply, eE, eB]
    simp only [matOf, of_apply, vunit, twoDiag]
    rw [Fin.sum_univ_eq_sum_range (fun k => (if r.1 = k then (1 : K) else 0) * if c.1 = k then t.W k else if c.1 = k + 1 then t.rv1 c else 0) n]
    by_cases hr : r.1 < n
    · rw [sum_eq_single r.1]
      · rw [if_pos rfl, one_mul]
        by_cases h : c.1 = r.1
        · rw [if_pos h, if_pos h, h]
        · rw [if_neg h, if_neg h]
      · intro k _ hk; rw [if_neg (fun h => hk h.symm), zero_mul]
      · intro h; exact absurd (mem_range.2 hr) h
    · have := c.2
      rw [sum_eq_zero fun k hk => by rw [mem_range] at hk; rw [if_neg (show ¬r.1 = k by omega), zero_mul], if_neg (by omega), if_neg (by omega)]
  have hP' : Pᵀ * P = 1 := mul_eq_one_comm.1 hP
  have hQ' : Qᵀ * Q = 1 := mul_eq_one_comm.1 hQ
  have hA : rowMajor m n A = rowMajor m n U * B * (rowMajor n n V')ᵀ := by
    rw [hU, hV, Matrix.mul_assoc Pᵀ, ← hEB, ← hB, Matrix.mul_assoc P, ← Matrix.mul_assoc Pᵀ, hP', Matrix.one_mul, Matrix.mul_assoc, hQ, Matrix.mul_one]
  have hUU : (rowMajor m n U)ᵀ * rowMajor m n U = 1 := by
    rw [hU, transpose_mul, transpose_transpose, Matrix.mul_assoc, ← Matrix.mul_assoc P, hP, Matrix.one_mul, hEE]
  have hVV : (rowMajor n n V')ᵀ * rowMajor n n V' = 1 := by rw [hV, hQ']
  refine ⟨fun a ha k hk => ?_, fun a ha k hk => ?_, fun r hr c hc => ?_, ?_⟩
  · have h := congrFun (congrFun hUU ⟨a, ha⟩) ⟨k, hk⟩
    rw [Matrix.mul_apply, Matrix.one_apply] at h
    simp only [transpose_apply, rowMajor, of_apply, Fin.mk.injEq] at h
    rw [← h, Fin.sum_univ_eq_sum_range (fun r => U (r * n + a) * U (r * n + k)) m]
  · have h := congrFun (congrFun hVV ⟨a, ha⟩) ⟨k, hk⟩
    rw [Matrix.mul_apply, Matrix.one_apply] at h
    simp only [transpose_apply, rowMajor, of_apply, Fin.mk.injEq] at h
    rw [← h, Fin.sum_univ_eq_sum_range (fun r => V' (r * n + a) * V' (r * n + k)) n]
  · have h := congrFun (congrFun hA ⟨r, hr⟩) ⟨c, hc⟩
    rw [Matrix.mul_apply] at h
    simp only [Matrix.mul_apply, transpose_apply, rowMajor, of_apply, eB] at h
    rw [h, Fin.sum_univ_eq_sum_range (fun b => (∑ a : Fin n, U (r * n + a) * if b = a.1 then t.W a else if b = a.1 + 1 then t.rv1 b else 0) * V' (c * n + b)) n, sum_comm]
    refine sum_congr rfl fun b _ => ?_
    rw [Fin.sum_univ_eq_sum_range (fun a => U (r * n + a) * if b = a then t.W a else if b = a + 1 then t.rv1 b else 0) n, sum_mul]
  · have e1 : trace ((twoDiag m n t.W t.rv1)ᵀ * twoDiag m n t.W t.rv1) = trace ((rowMajor m n A)ᵀ * rowMajor m n A) := by
      rw [← hB, transpose_mul, transpose_mul, Matrix.mul_assoc Qᵀ, trace_mul_comm, Matrix.mul_assoc, Matrix.mul_assoc, Matrix.mul_assoc _ Q, hQ, Matrix.mul_one, ← Matrix.mul_assoc Pᵀ, hP', Matrix.one_mul]
    have e2 : ∀ X : Matrix (Fin m) (Fin n) K, trace (Xᵀ * X) = ∑ c, ∑ r, X r c * X r c := fun X => rfl
    have e3 : trace ((rowMajor m n A)ᵀ * rowMajor m n A) = ∑ r ∈ range m, ∑ c ∈ range n, A (r * n + c) * A (r * n + c) := by
      rw [e2, sum_comm, sum_range]
      exact sum_congr rfl fun r _ => by rw [sum_range]; rfl
    rw [← e3, ← e1, e2]
    have pos : ∀ c : Fin n, 0 ≤ ∑ r, twoDiag m n t.W t.rv1 r c * twoDiag m n t.W t.rv1 r c := fun c => sum_nonneg fun r _ => mul_self_nonneg _
    rcases ha with ha | ⟨c, hc, ha⟩
    · rw [ha, mul_zero]
      exact mul_nonneg (by norm_num) (sum_nonneg fun c _ => pos c)
    have k1 : t.W c * t.W c + t.rv1 c * t.rv1 c ≤ ∑ r, twoDiag m n t.W t.rv1 r ⟨c, hc⟩ * twoDiag m n t.W t.rv1 r ⟨c, hc⟩ := by
      have w1 : twoDiag m n t.W t.rv1 ⟨c, by omega⟩ ⟨c, hc⟩ = t.W c := by
        simp only [twoDiag, of_apply, if_true]
      by_cases h : c = 0
      · have := hr0 (by omega)
        rw [show t.rv1 c = 0 by rw [h]; exact this, mul_zero, add_zero]
        refine le_trans (le_of_eq ?_) (single_le_sum (f := fun r => twoDiag m n t.W t.rv1 r ⟨c, hc⟩ * twoDiag m n t.W t.rv1 r ⟨c, hc⟩) (fun r _ => mul_self_nonneg _) (mem_univ ⟨c, by omega⟩))
        rw [w1]
      · have w2 : twoDiag m n t.W t.rv1 ⟨c - 1, by omega⟩ ⟨c, hc⟩ = t.rv1 c := by
          simp only [twoDiag, of_apply]
          rw [if_neg (by omega), if_pos (by omega)]
        refine le_trans (le_of_eq ?_) (sum_le_sum_of_subset_of_nonneg (subset_univ {⟨c, by omega⟩, ⟨c - 1, by omega⟩}) fun r _ _ => mul_self_nonneg _)
        rw [Finset.sum_pair (by simp only [ne_eq, Fin.mk.injEq]; omega), w1, w2]
    have k2 := single_le_sum (f := fun c => ∑ r, twoDiag m n t.W t.rv1 r c * twoDiag m n t.W t.rv1 r c) (fun c _ => pos c) (mem_univ (⟨c, hc⟩ : Fin n))
    rw [ha]
    nlinarith [sq_nonneg (|t.W c| - |t.rv1 c|), abs_mul_abs_self (t.W c), abs_mul_abs_self (t.rv1 c)]

/-- **C94**, the whole routine for a matrix with at least as many rows as columns: whatever is found at `rv1[n]`, and whatever is in the arrays `V` and `rv1` before, the routine returns, and if
every iteration ended in time, and no cancellation went on to a second number (`C94_cancel_wrong` shows that those are wrong), then `A = U · diag W · Vᵀ` but for what was neglected, the columns of `U` and of `V` are orthonormal and the singular values are not negative. What is neglected is
measured by `anorm`, which is at most `√2` times the Frobenius norm of the matrix. -/
theorem C94_decomposition {rt : K → K} (hrt : IsRoot0 rt) {neg : K → K → Bool} {τ : K} (hneg : NegOk neg τ) (hτ : 0 ≤ τ) {m n : Nat} (hn : 0 < n) (hnm : n ≤ m) (A W V g : Nat → K) (out : K)
    (hW : ∀ c < n, W c = 0) :
    ∃ t anorm, svdWhole rt neg m n A W V g out = .ok t ∧ 0 ≤ anorm ∧ anorm * anorm ≤ 2 * ∑ r ∈ range m, ∑ c ∈ range n, A (r * n + c) * A (r * n + c) ∧ (t.good = true →
      (∀ a < n, ∀ k < n, ∑ r ∈ range m, t.A (r * n + a) * t.A (r * n + k) = if a = k then 1 else 0) ∧
      (∀ a < n, ∀ k < n, ∑ r ∈ range n, t.V (r * n + a) * t.V (r * n + k) = if a = k then 1 else 0) ∧ (∀ k < n, 0 ≤ t.W k) ∧
      ∀ r < m, ∀ c < n, |A (r * n + c) - ∑ k ∈ range n, t.A (r * n + k) * t.W k * t.V (c * n + k)| ≤ n * (60 * (τ * anorm))) := by
  obtain ⟨t, ht⟩ : ∃ t, t = loop 0 n (fun i t => svdReduce rt m n i t) ⟨A, W, g, 0, 0, 0⟩ := ⟨_, rfl⟩
  obtain ⟨h1, h2, h3, h4⟩ := accumulated hrt hnm A W V g out hW t ht _ _ rfl rfl
  obtain ⟨hr0, ⟨ha, -⟩, -⟩ := reduced hrt hnm A W g hW t ht
  obtain ⟨t', e, h⟩ := C94_iteration hrt hneg (mul_nonneg hτ ha) m n (fun r c => A (r * n + c)) _ _ t.W t.rv1 h1 h2 (hr0 hn) h3
  refine ⟨t', t.anorm, ?_, ha, h4, fun hg => ?_⟩
  · unfold svdWhole
    dsimp only
    rw [← ht, Nat.min_eq_right hnm]
    exact e
  · obtain ⟨a, b, c, d, -⟩ := h hg
    exact ⟨a, b, c, d⟩

/-- Every matrix of one column meets the conditions, with nothing neglected: so it is the product of a vector of length 1, a number that is not negative, and 1 or -1. -/
example (m : Nat) (hm : 0 < m) (A V g : Nat → ℝ) (out : ℝ) : ∃ t, svdWhole Real.sqrt negExact m 1 A (fun _ => 0) V g out = .ok t ∧ t.good = true ∧ 0 ≤ t.W 0 ∧ t.V 0 * t.V 0 = 1 ∧
    ∑ r ∈ range m, t.A r * t.A r = 1 ∧ ∀ r < m, A r = t.A r * t.W 0 * t.V 0 := by
  have hrt : IsRoot0 Real.sqrt := fun x hx => ⟨Real.sqrt_nonneg x, Real.mul_self_sqrt hx⟩
  obtain ⟨t, anorm, e, -, -, h⟩ := C94_decomposition (m := m) (n := 1) hrt negExact_ok le_rfl Nat.one_pos hm A (fun _ => 0) V g out (fun _ _ => rfl)
  have hg : t.good = true := by
    obtain ⟨t0, ht⟩ : ∃ t, t = loop 0 1 (fun i t => svdReduce Real.sqrt m 1 i t) ⟨A, fun _ => 0, g, 0, 0, 0⟩ := ⟨_, rfl⟩
    obtain ⟨hr0, -⟩ := reduced hrt hm A _ g (fun _ _ => rfl) t0 ht
    unfold svdWhole at e
    dsimp only at e
    rw [← ht, svdDiag, show (30 : Nat) = 29 + 1 from rfl, svdOne] at e
    have s1 : svdSplit negExact t0.anorm t0.W t0.rv1 (0 + 1) = .ok (0, false) := by
      simp [svdSplit, negExact, hr0 Nat.one_pos]
    dsimp only at e
    rw [s1] at e
    simp only [Res.ok_bind, if_true, svdDiag, Bool.false_eq_true, if_false] at e
    cases e
    rw [(svdSign_frame _ _ _).2]
  obtain ⟨h1, h2, h3, h4⟩ := h hg
  refine ⟨t, e, hg, h3 0 Nat.one_pos, by simpa using h2 0 Nat.one_pos 0 Nat.one_pos, by simpa using h1 0 Nat.one_pos 0 Nat.one_pos, fun r hr => ?_⟩
  have := h4 r hr 0 Nat.one_pos
  simp only [sum_range_one, Nat.mul_one, Nat.add_zero, Nat.zero_mul, Nat.zero_add, zero_mul, mul_zero] at this
  exact sub_eq_zero.1 (abs_eq_zero.1 (le_antisymm this (abs_nonneg _)))

end OP.Lin
