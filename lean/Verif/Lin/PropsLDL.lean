import Verif.Lin.PropsChol
/-!
# C43: the square root free decomposition
-/
namespace OP.Lin
open Finset
variable {K : Type} [Field K] [LinearOrder K] [IsStrictOrderedRing K]

structure LdlInv (eps : K) (n : Nat) (A0 : Nat → K) (i : Nat) (A : Nat → K) : Prop where
  diag : ∀ k, k < n → k < i → ∑ q ∈ range k, A (q * n + q) * (A (k * n + q) * A (k * n + q)) + A (k * n + k) = A0 (k * n + k)
  low : ∀ k j, k < j → j < n → k < i → ∑ q ∈ range k, A (q * n + q) * (A (k * n + q) * A (j * n + q)) + A (k * n + k) * A (j * n + k) = A0 (j * n + k)
  piv : ∀ k, k < n → k < i → eps ≤ |A (k * n + k)|
  rest : ∀ j k, j < n → k < n → (i ≤ k ∨ j < k) → A (j * n + k) = A0 (j * n + k)
  frame : ∀ p, n * n ≤ p → A p = A0 p

/-- One round of `decmp_ldl`. -/
def ldlRound (eps : K) (n i : Nat) (A : Nat → K) : Res (Nat → K) :=
  let sum := loop 0 i (fun k sum => sum + A (k * n + k) * (A (i * n + k) * A (i * n + k))) 0
  let A := set A (i * n + i) (A (i * n + i) - sum)
  if |A (i * n + i)| < eps then .throw
  else .ok (loop (i + 1) n (fun j A =>
    let sum := loop 0 i (fun k sum => sum + A (k * n + k) * (A (i * n + k) * A (j * n + k))) 0
    set A (j * n + i) ((A (j * n + i) - sum) / A (i * n + i))) A)

/-- The pivot of round `i`. -/
def ldlPivot (n : Nat) (A : Nat → K) (i : Nat) : K := A (i * n + i) - ∑ q ∈ range i, A (q * n + q) * (A (i * n + q) * A (i * n + q))

theorem ldl_step {eps : K} (he : 0 < eps) {n i : Nat} (hi : i < n) {A0 A : Nat → K} (h : LdlInv eps n A0 i A) :
    (|ldlPivot n A i| < eps → ldlRound eps n i A = .throw) ∧
    (eps ≤ |ldlPivot n A i| → ∃ A', ldlRound eps n i A = .ok A' ∧ LdlInv eps n A0 (i + 1) A') := by
  have e1 : ∀ B : Nat → K, ∀ j, loop 0 i (fun k sum => sum + B (k * n + k) * (B (i * n + k) * B (j * n + k))) 0 =
      ∑ q ∈ range i, B (q * n + q) * (B (i * n + q) * B (j * n + q)) := fun B j => by
    rw [loop_add (fun k => B (k * n + k) * (B (i * n + k) * B (j * n + k))) _ (Nat.zero_le i), zero_add, Nat.Ico_zero_eq_range]
  unfold ldlRound
  simp only
  rw [e1 A i, set_same, ← ldlPivot]
  refine ⟨fun hp => if_pos hp, fun hp => ⟨_, if_neg (not_lt.mpr hp), ?_⟩⟩
  have hp0 : ldlPivot n A i ≠ 0 := fun h0 => by
    rw [h0, abs_zero] at hp
    exact absurd he (not_lt.mpr hp)
  have key := loop_rule (s := set A (i * n + i) (ldlPivot n A i)) (f := fun j A =>
      let sum := loop 0 i (fun k sum => sum + A (k * n + k) * (A (i * n + k) * A (j * n + k))) 0
      set A (j * n + i) ((A (j * n + i) - sum) / A (i * n + i))) (fun j (B : Nat → K) =>
      (∀ r c, r < n → c < n → B (r * n + c) = if c = i ∧ i < r ∧ r < j then
        (A (r * n + i) - ∑ q ∈ range i, A (q * n + q) * (A (i * n + q) * A (r * n + q))) / ldlPivot n A i
        else if r = i ∧ c = i then ldlPivot n A i else A (r * n + c)) ∧ ∀ p, n * n ≤ p → B p = A p) (show i + 1 ≤ n by omega)
    ⟨fun r c hr hc => by rw [set_addr _ _ hi hc, if_neg (show ¬(c = i ∧ i < r ∧ r < i + 1) by omega)],
      fun p hp => by rw [set_ne _ _ (by have := addr_lt hi hi; omega)]⟩ (by
      rintro j B hj1 hj2 ⟨g1, g2⟩
      simp only
      rw [e1 B j]
      have old : ∀ r q, r < n → q < i → B (r * n + q) = A (r * n + q) := fun r q hr hq => by
        rw [g1 r q hr (by omega), if_neg (by omega), if_neg (by omega)]
      rw [g1 j i hj2 hi, if_neg (by omega), if_neg (by omega), g1 i i hi hi, if_neg (by omega), if_pos ⟨rfl, rfl⟩]
      rw [sum_congr rfl (fun q hq => by
        have := mem_range.mp hq
        rw [old q q (by omega) this, old i q hi this, old j q hj2 this] : ∀ q ∈ range i, _ = A (q * n + q) * (A (i * n + q) * A (j * n + q)))]
      refine ⟨fun r c hr hc => ?_, fun p hp => ?_⟩
      · rw [set_addr _ _ hi hc]
        by_cases e : r = j ∧ c = i
        · rw [if_pos e, if_pos (by omega), e.1]
        · rw [if_neg e, g1 r c hr hc]
          by_cases e2 : c = i ∧ i < r ∧ r < j
          · rw [if_pos e2, if_pos (by omega)]
          · rw [if_neg e2, if_neg (show ¬(c = i ∧ i < r ∧ r < j + 1) by omega)]
      · rw [set_ne _ _ (by have := addr_lt hj2 hi; omega)]; exact g2 p hp)
  simp only at key
  generalize loop (i + 1) n (fun j A =>
    set A (j * n + i) ((A (j * n + i) - loop 0 i (fun k sum => sum + A (k * n + k) * (A (i * n + k) * A (j * n + k))) 0) / A (i * n + i)))
    (set A (i * n + i) (ldlPivot n A i)) = B at key ⊢
  obtain ⟨g1, g2⟩ := key
  have old : ∀ r q, r < n → q < i → B (r * n + q) = A (r * n + q) := fun r q hr hq => by
    rw [g1 r q hr (by omega), if_neg (by omega), if_neg (by omega)]
  have dii := g1 i i hi hi
  rw [if_neg (by omega), if_pos ⟨rfl, rfl⟩] at dii
  have sums : ∀ k j, k ≤ i → j < n → ∑ q ∈ range k, B (q * n + q) * (B (k * n + q) * B (j * n + q)) = ∑ q ∈ range k, A (q * n + q) * (A (k * n + q) * A (j * n + q)) := fun k j hk hj =>
    sum_congr rfl (fun q hq => by
      have := mem_range.mp hq
      rw [old q q (by omega) (by omega), old k q (by omega) (by omega), old j q hj (by omega)])
  refine ⟨fun k hk hlt => ?_, fun k j hkj hj hlt => ?_, fun k hk hlt => ?_, fun j k hj hk hlt => ?_, fun p hp => by rw [g2 p hp, h.frame p hp]⟩
  · rw [sums k k (by omega) hk]
    rcases Nat.lt_or_ge k i with hki | hki
    · rw [old k k hk hki]; exact h.diag k hk hki
    · have : k = i := by omega
      subst this
      rw [dii, ldlPivot, h.rest k k hk hk (.inl (Nat.le_refl _))]
      ring
  · rw [sums k j (by omega) hj]
    rcases Nat.lt_or_ge k i with hki | hki
    · rw [old k k (by omega) hki, old j k hj hki]; exact h.low k j hkj hj hki
    · have : k = i := by omega
      subst this
      rw [dii, g1 j k hj (by omega), if_pos (by omega), h.rest j k hj (by omega) (.inl (Nat.le_refl _))]
      field_simp
      ring
  · rcases Nat.lt_or_ge k i with hki | hki
    · rw [old k k hk hki]; exact h.piv k hk hki
    · have : k = i := by omega
      subst this
      rw [dii]; exact hp
  · rw [g1 j k hj hk, if_neg (by omega), if_neg (by omega)]
    exact h.rest j k hj hk (by omega)

/-! ## Leading minors -/

/-- The leading block of order `N` of the symmetric matrix whose lower triangle is stored. -/
def lead (n : Nat) (A : Nat → K) (N : Nat) : Matrix (Fin N) (Fin N) K := fun i j => A (max (i : Nat) j * n + min (i : Nat) j)

/-- The unit lower factor and the diagonal left in the array. -/
def ldlL (n : Nat) (A : Nat → K) (N : Nat) : Matrix (Fin N) (Fin N) K :=
  fun i j => if (j : Nat) < i then A (i * n + j) else if (j : Nat) = i then 1 else 0

omit [LinearOrder K] [IsStrictOrderedRing K] in
theorem ldl_product {n N : Nat} {A0 A : Nat → K} {d : Nat → K}
    (hd : ∀ k, k < N → ∑ q ∈ range k, d q * (A (k * n + q) * A (k * n + q)) + d k = A0 (k * n + k))
    (hl : ∀ k j, k < j → j < N → ∑ q ∈ range k, d q * (A (k * n + q) * A (j * n + q)) + d k * A (j * n + k) = A0 (j * n + k)) :
    ldlL n A N * Matrix.diagonal (fun k : Fin N => d k) * (ldlL n A N).transpose = lead n A0 N := by
  let l : Nat → Nat → K := fun i j => if j < i then A (i * n + j) else if j = i then 1 else 0
  have key : ∀ k j, k ≤ j → j < N → ∑ q ∈ range N, l k q * d q * l j q = A0 (j * n + k) := by
    intro k j hkj hj
    rw [← sum_range_add_sum_Ico _ (show k + 1 ≤ N by omega), sum_eq_zero (s := Ico (k + 1) N) (fun q hq => by
      have := mem_Ico.mp hq
      simp only [l]; rw [if_neg (by omega), if_neg (by omega), zero_mul, zero_mul]), add_zero, sum_range_succ]
    have lkk : l k k = 1 := by simp [l]
    rw [lkk, one_mul]
    rw [sum_congr rfl (fun q hq => by
      have := mem_range.mp hq
      simp only [l]
      rw [if_pos (by omega), if_pos (by omega)]
      ring : ∀ q ∈ range k, _ = d q * (A (k * n + q) * A (j * n + q)))]
    rcases Nat.lt_or_ge k j with h | h
    · rw [show l j k = A (j * n + k) by simp only [l]; rw [if_pos h]]
      exact hl k j h hj
    · have : k = j := by omega
      subst this
      rw [lkk, mul_one]
      exact hd k hj
  ext r c
  rw [Matrix.mul_apply]
  have e : ∑ q : Fin N, (ldlL n A N * Matrix.diagonal fun k : Fin N => d k) r q * (ldlL n A N).transpose q c = ∑ q ∈ range N, l r q * d q * l c q := by
    rw [← Fin.sum_univ_eq_sum_range (fun q => l r q * d q * l c q) N]
    exact sum_congr rfl (fun q _ => by rw [Matrix.mul_diagonal]; rfl)
  rw [e, lead]
  rcases Nat.le_total (r : Nat) c with h | h
  · rw [Nat.max_eq_right h, Nat.min_eq_left h]; exact key r c h c.2
  · rw [Nat.max_eq_left h, Nat.min_eq_right h, ← key c r h r.2]
    exact sum_congr rfl (fun q _ => by ring)

omit [LinearOrder K] [IsStrictOrderedRing K] in
theorem ldlL_det (n : Nat) (A : Nat → K) (N : Nat) : (ldlL n A N).det = 1 := by
  rw [Matrix.det_of_isLowerTriangular]
  · exact prod_eq_one (fun c _ => by simp [ldlL])
  · intro r c hrc
    have : (r : Nat) < c := hrc
    simp only [ldlL]
    rw [if_neg (by omega), if_neg (by omega)]

omit [LinearOrder K] [IsStrictOrderedRing K] in
theorem ldl_det {n N : Nat} {A0 A : Nat → K} {d : Nat → K}
    (hd : ∀ k, k < N → ∑ q ∈ range k, d q * (A (k * n + q) * A (k * n + q)) + d k = A0 (k * n + k))
    (hl : ∀ k j, k < j → j < N → ∑ q ∈ range k, d q * (A (k * n + q) * A (j * n + q)) + d k * A (j * n + k) = A0 (j * n + k)) :
    (lead n A0 N).det = ∏ k ∈ range N, d k := by
  rw [← ldl_product hd hl, Matrix.det_mul, Matrix.det_mul, Matrix.det_transpose, ldlL_det, Matrix.det_diagonal, one_mul, mul_one,
    Fin.prod_univ_eq_prod_range]

theorem ldl_minor {eps : K} {n i : Nat} (hi : i < n) {A0 A : Nat → K} (h : LdlInv eps n A0 i A) :
    (lead n A0 i).det = ∏ k ∈ range i, A (k * n + k) ∧ (lead n A0 (i + 1)).det = (lead n A0 i).det * ldlPivot n A i := by
  have e : (lead n A0 i).det = ∏ k ∈ range i, A (k * n + k) :=
    ldl_det (A := A) (d := fun k => A (k * n + k)) (fun k hk => h.diag k (by omega) hk) (fun k j hkj hj => h.low k j hkj (by omega) (by omega))
  refine ⟨e, ?_⟩
  have e2 := ldl_det (N := i + 1) (A0 := A0) (A := A) (n := n) (d := fun k => if k < i then A (k * n + k) else ldlPivot n A i)
    (fun k hk => by
      rw [sum_congr rfl (fun q hq => by rw [if_pos (show q < i by have := mem_range.mp hq; omega)] :
        ∀ q ∈ range k, _ = A (q * n + q) * (A (k * n + q) * A (k * n + q)))]
      rcases Nat.lt_or_ge k i with hlt | hge
      · rw [if_pos hlt]; exact h.diag k (by omega) hlt
      · have : k = i := by omega
        subst this
        rw [if_neg (Nat.lt_irrefl _), ldlPivot, h.rest k k hi hi (.inl (Nat.le_refl _))]
        ring)
    (fun k j hkj hj => by
      rw [sum_congr rfl (fun q hq => by rw [if_pos (show q < i by have := mem_range.mp hq; omega)] :
        ∀ q ∈ range k, _ = A (q * n + q) * (A (k * n + q) * A (j * n + q))), if_pos (show k < i by omega)]
      exact h.low k j hkj (by omega) (by omega))
  rw [e2, prod_range_succ, e, if_neg (Nat.lt_irrefl _)]
  congr 1
  exact prod_congr rfl (fun k hk => if_pos (mem_range.mp hk))

theorem decmpLdl_eq (eps : K) (n : Nat) (A : Nat → K) : decmpLdl eps n A = loopM 0 n (ldlRound eps n) A := rfl

theorem ldl_spec {eps : K} (he : 0 < eps) {n : Nat} {A A' : Nat → K} (h : decmpLdl eps n A = .ok A') : LdlInv eps n A n A' := by
  rw [decmpLdl_eq] at h
  refine loopM_rule (LdlInv eps n A) (Nat.zero_le n) ⟨by omega, by omega, by omega, fun _ _ _ _ _ => rfl, fun _ _ => rfl⟩ ?_ h
  intro i B B' _ hi hB e
  rcases lt_or_ge |ldlPivot n B i| eps with hp | hp
  · rw [(ldl_step he hi hB).1 hp] at e; cases e
  · obtain ⟨B2, e2, h2⟩ := (ldl_step he hi hB).2 hp
    rw [e2] at e; cases e; exact h2

/-- **C43**, the decomposition.  `decmp_ldl` returns exactly when no leading minor is smaller than `eps` times the one before, and throws otherwise.
What it returns is a unit lower triangular L and a nonzero diagonal D with L D L' equal to the symmetric matrix whose lower triangle it was
given; the upper triangle and everything outside the array are untouched. -/
theorem C43_decmp_ldl {eps : K} (he : 0 < eps) (n : Nat) (A : Nat → K) :
    ((∃ A', decmpLdl eps n A = .ok A') ↔ ∀ i, i < n → eps * |(lead n A i).det| ≤ |(lead n A (i + 1)).det|) ∧ decmpLdl eps n A ≠ .ub ∧
    ∀ A', decmpLdl eps n A = .ok A' →
      ldlL n A' n * Matrix.diagonal (fun k : Fin n => A' (k * n + k)) * (ldlL n A' n).transpose = lowerSym n A ∧ (∀ i, i < n → A' (i * n + i) ≠ 0) ∧
      (∀ i j, i < j → j < n → A' (i * n + j) = A (i * n + j)) ∧ ∀ p, n * n ≤ p → A' p = A p := by
  have start : LdlInv eps n A 0 A := ⟨by omega, by omega, by omega, fun _ _ _ _ _ => rfl, fun _ _ => rfl⟩
  have nz : ∀ i B, i ≤ n → LdlInv eps n A i B → ∏ k ∈ range i, B (k * n + k) ≠ 0 := fun i B hi hB =>
    prod_ne_zero_iff.mpr (fun k hk h0 => by
      have := hB.piv k (by have := mem_range.mp hk; omega) (mem_range.mp hk)
      rw [h0, abs_zero] at this
      exact absurd he (not_lt.mpr this))
  refine ⟨⟨?_, ?_⟩, ?_, ?_⟩
  · rintro ⟨A', e⟩ i hi
    have hI := ldl_spec he e
    have det : ∀ N, N ≤ n → (lead n A N).det = ∏ k ∈ range N, A' (k * n + k) := fun N hN =>
      ldl_det (A := A') (d := fun k => A' (k * n + k)) (fun k hk => hI.diag k (by omega) (by omega)) (fun k j hkj hj => hI.low k j hkj (by omega) (by omega))
    rw [det i (by omega), det (i + 1) (by omega), prod_range_succ, abs_mul, mul_comm]
    exact mul_le_mul_of_nonneg_left (hI.piv i hi hi) (abs_nonneg _)
  · intro hm
    rw [decmpLdl_eq]
    obtain ⟨A', e, -⟩ := loopM_total (LdlInv eps n A) (f := ldlRound eps n) (Nat.zero_le n) start (fun i B _ hi hB => by
      obtain ⟨m1, m2⟩ := ldl_minor hi hB
      have hpos : 0 < |(lead n A i).det| := abs_pos.mpr (by rw [m1]; exact nz i B (by omega) hB)
      have := hm i hi
      rw [m2, abs_mul, mul_comm] at this
      exact (ldl_step he hi hB).2 (le_of_mul_le_mul_left this hpos))
    exact ⟨A', e⟩
  · rw [decmpLdl_eq]
    refine loopFromM_no_ub (fun _ _ => True) _ _ _ trivial (fun k s _ _ _ => ⟨?_, fun _ _ => trivial⟩)
    unfold ldlRound
    simp only
    split <;> simp
  · intro A' e
    have hI := ldl_spec he e
    refine ⟨?_, fun i hi h0 => ?_, fun i j hij hj => hI.rest i j (by omega) hj (.inr hij), hI.frame⟩
    · exact ldl_product (A := A') (d := fun k => A' (k * n + k)) (fun k hk => hI.diag k hk hk) (fun k j hkj hj => hI.low k j hkj hj (by omega))
    · have := hI.piv i hi hi
      rw [h0, abs_zero] at this
      exact absurd he (not_lt.mpr this)

/-! ## Substitution -/

omit [LinearOrder K] [IsStrictOrderedRing K] in
theorem bksubLdl_at {n m c : Nat} (hc : c < m) {A b : Nat → K} (hp : ∀ k, k < n → A (k * n + k) ≠ 0) :
    ∃ y : Nat → K, (∀ r, r < n → ∑ k ∈ range r, A (r * n + k) * y k + y r = b (r * m + c)) ∧
      (∀ r, r < n → bksubLdl n A b m c (r * m + c) + ∑ k ∈ Ico (r + 1) n, A (k * n + r) * bksubLdl n A b m c (k * m + c) = y r / A (r * n + r)) ∧
      ∀ r c', c' < m → c' ≠ c ∨ n ≤ r → bksubLdl n A b m c (r * m + c') = b (r * m + c') := by
  obtain ⟨f, hf⟩ : ∃ f, f = loop 0 n (fun i b =>
    let sum := loop 0 i (fun k sum => sum + A (i * n + k) * b (k * m + c)) 0
    set b (i * m + c) (b (i * m + c) - sum)) b := ⟨_, rfl⟩
  have fwd := loop_rule (s := b) (f := fun i b =>
    let sum := loop 0 i (fun k sum => sum + A (i * n + k) * b (k * m + c)) 0
    set b (i * m + c) (b (i * m + c) - sum)) (fun i (x : Nat → K) =>
      (∀ r, r < i → ∑ k ∈ range r, A (r * n + k) * x (k * m + c) + x (r * m + c) = b (r * m + c)) ∧
      ∀ r c', c' < m → c' ≠ c ∨ i ≤ r → x (r * m + c') = b (r * m + c')) (Nat.zero_le n) ⟨by omega, fun _ _ _ _ => rfl⟩ (by
    rintro i x _ hi ⟨g1, g2⟩
    simp only
    rw [loop_add (fun k => A (i * n + k) * x (k * m + c)) _ (Nat.zero_le i), zero_add, Nat.Ico_zero_eq_range]
    have keep : ∀ v q, q < i → set x (i * m + c) v (q * m + c) = x (q * m + c) := fun v q hq => by
      rw [set_addr _ _ hc hc, if_neg (by omega)]
    refine ⟨fun r hr => ?_, fun r c' hc' hr => ?_⟩
    · rw [sum_congr rfl (fun q hq => congrArg (A (r * n + q) * ·) (keep _ q (by have := mem_range.mp hq; omega)))]
      rcases Nat.lt_or_ge r i with hlt | hge
      · rw [keep _ r hlt]; exact g1 r hlt
      · have : r = i := by omega
        subst this
        rw [set_same, g2 r c hc (.inr (Nat.le_refl _))]
        ring
    · rw [set_addr _ _ hc hc', if_neg (by omega)]; exact g2 r c' hc' (by omega))
  rw [← hf] at fwd
  have bk := down_rule (n := n) (s := f) (f := fun i b =>
    let b := set b (i * m + c) (b (i * m + c) / A (i * n + i))
    let sum := loop (i + 1) n (fun k sum => sum + A (k * n + i) * b (k * m + c)) 0
    set b (i * m + c) (b (i * m + c) - sum)) (fun i (x : Nat → K) =>
      (∀ r, i ≤ r → r < n → x (r * m + c) + ∑ k ∈ Ico (r + 1) n, A (k * n + r) * x (k * m + c) = f (r * m + c) / A (r * n + r)) ∧
      ∀ r c', c' < m → c' ≠ c ∨ r < i ∨ n ≤ r → x (r * m + c') = f (r * m + c')) ⟨by omega, fun _ _ _ _ => rfl⟩ (by
    rintro i x hi ⟨g1, g2⟩
    simp only
    rw [loop_add (fun k => A (k * n + i) * set x (i * m + c) (x (i * m + c) / A (i * n + i)) (k * m + c)) _ (by omega), zero_add, set_set, set_same]
    have keep : ∀ v q, i < q → set x (i * m + c) v (q * m + c) = x (q * m + c) := fun v q hq => by
      rw [set_addr _ _ hc hc, if_neg (by omega)]
    rw [sum_congr rfl (fun q hq => congrArg (A (q * n + i) * ·) (keep _ q (by have := mem_Ico.mp hq; omega)))]
    refine ⟨fun r hr hrn => ?_, fun r c' hc' hr => ?_⟩
    · rw [sum_congr rfl (fun q hq => congrArg (A (q * n + r) * ·) (keep _ q (by have := mem_Ico.mp hq; omega)))]
      by_cases hri : r = i
      · subst hri
        rw [set_same, g2 r c hc (.inr (.inl (by omega)))]
        ring
      · rw [keep _ r (by omega)]; exact g1 r (by omega) hrn
    · rw [set_addr _ _ hc hc', if_neg (by omega)]; exact g2 r c' hc' (by omega))
  have e : bksubLdl n A b m c = down n (fun i b =>
    let b := set b (i * m + c) (b (i * m + c) / A (i * n + i))
    let sum := loop (i + 1) n (fun k sum => sum + A (k * n + i) * b (k * m + c)) 0
    set b (i * m + c) (b (i * m + c) - sum)) f := by rw [hf]; rfl
  rw [← e] at bk
  refine ⟨fun r => f (r * m + c), fwd.1, fun r hr => bk.1 r (Nat.zero_le _) hr, fun r c' hc' hr => ?_⟩
  rw [bk.2 r c' hc' (by omega), fwd.2 r c' hc' hr]

/-- **C43**, `bksub_ldl`: from a decomposition it replaces column c of b by the solution of A x = b and touches nothing else. -/
theorem C43_bksub_ldl {eps : K} (he : 0 < eps) {n m c : Nat} (hc : c < m) {A A' b : Nat → K} (h : decmpLdl eps n A = .ok A') :
    (lowerSym n A).mulVec (fun k : Fin n => bksubLdl n A' b m c (k * m + c)) = (fun r : Fin n => b (r * m + c)) ∧
    (∀ r, n ≤ r → bksubLdl n A' b m c (r * m + c) = b (r * m + c)) ∧
    ∀ r c', c' < m → c' ≠ c → bksubLdl n A' b m c (r * m + c') = b (r * m + c') := by
  obtain ⟨l1, l2, -⟩ := (C43_decmp_ldl he n A).2.2 A' h
  obtain ⟨y, y1, y2, y3⟩ := bksubLdl_at (b := b) hc l2
  refine ⟨?_, fun r hr => y3 r c hc (.inr hr), fun r c' hc' hne => y3 r c' hc' (.inl hne)⟩
  have s1 : (ldlL n A' n).transpose.mulVec (fun k : Fin n => bksubLdl n A' b m c (k * m + c)) = fun r : Fin n => y r / A' (r * n + r) := by
    funext r
    have hr := r.2
    rw [← y2 r hr]
    simp only [Matrix.mulVec, dotProduct, Matrix.transpose_apply, ldlL]
    rw [Fin.sum_univ_eq_sum_range (fun k => (if (r : Nat) < k then A' (k * n + r) else if (r : Nat) = k then 1 else 0) * bksubLdl n A' b m c (k * m + c)) n]
    rw [← sum_range_add_sum_Ico _ (Nat.le_of_lt hr), sum_eq_sum_Ico_succ_bot hr, sum_eq_zero (s := range (r : Nat)) (fun k hk => by
      have := mem_range.mp hk
      rw [if_neg (by omega), if_neg (by omega), zero_mul]), zero_add, if_neg (Nat.lt_irrefl _), if_pos rfl, one_mul]
    congr 1
    refine sum_congr rfl (fun k hk => ?_)
    have := mem_Ico.mp hk
    rw [if_pos (by omega)]
  have s2 : (ldlL n A' n).mulVec (fun r : Fin n => y r) = fun r : Fin n => b (r * m + c) := by
    funext r
    have hr := r.2
    rw [← y1 r hr]
    simp only [Matrix.mulVec, dotProduct, ldlL]
    rw [Fin.sum_univ_eq_sum_range (fun k => (if k < (r : Nat) then A' (r * n + k) else if k = (r : Nat) then 1 else 0) * y k) n]
    rw [← sum_range_add_sum_Ico _ (Nat.le_of_lt hr), sum_eq_sum_Ico_succ_bot hr, sum_eq_zero (s := Ico ((r : Nat) + 1) n) (fun k hk => by
      have := mem_Ico.mp hk
      rw [if_neg (by omega), if_neg (by omega), zero_mul]), add_zero, if_neg (Nat.lt_irrefl _), if_pos rfl, one_mul]
    congr 1
    refine sum_congr rfl (fun k hk => ?_)
    have := mem_range.mp hk
    rw [if_pos (by omega)]
  rw [← l1, ← Matrix.mulVec_mulVec, ← Matrix.mulVec_mulVec, s1, ← s2]
  congr 1
  funext r
  rw [Matrix.mulVec_diagonal, mul_div_cancel₀ _ (l2 r r.2)]

/-- **C43**, `equ_ldl`: for a symmetric matrix it returns the solution, the refinement step included, whenever the decomposition returns. -/
theorem C43_equ_ldl {eps : K} (he : 0 < eps) {n : Nat} (hn : 0 < n) (A b g : Nat → K) (hs : ∀ i j, i < n → j < n → A (i * n + j) = A (j * n + i)) :
    ((∃ x, equLdl eps n A b g = .ok x) ↔ ∀ i, i < n → eps * |(lead n A i).det| ≤ |(lead n A (i + 1)).det|) ∧ equLdl eps n A b g ≠ .ub ∧
    ∀ x, equLdl eps n A b g = .ok x → (rect n n A).mulVec (vect n x) = vect n b := by
  obtain ⟨h1, h2, h3⟩ := C43_decmp_ldl he n A
  unfold equLdl
  rw [if_neg (by omega), ← h1]
  cases e : decmpLdl eps n A with
  | ub => exact (h2 e).elim
  | throw => simp
  | ok s =>
    refine ⟨by simp, by simp, fun x hx => ?_⟩
    simp only [Res.ok_bind, Res.ok.injEq] at hx
    subst hx
    have sol : ∀ b : Nat → K, (rect n n A).mulVec (vect n (bksubLdl n s b 1 0)) = vect n b := by
      intro b
      have := (C43_bksub_ldl he (b := b) (m := 1) (c := 0) (by omega) e).1
      simp only [Nat.mul_one, Nat.add_zero] at this
      rw [rect_lowerSym hs]
      exact this
    rw [subtract_at, Matrix.mulVec_sub, sol, sol, residual_at, sol, sub_self, sub_zero]

/-- An indefinite matrix which is decomposed and solved, and a nonsingular one which is rejected for its first pivot. -/
example : (equLdl (1 / 1000 : ℚ) 2 (fun p => [1, 2, 2, 1].getD p 0) (fun p => [5, 4].getD p 0) (fun _ => 7)).bind (fun x => .ok (x 0, x 1)) = .ok (1, 2) ∧
    (equLdl (1 / 1000 : ℚ) 2 (fun p => [0, 1, 1, 0].getD p 0) (fun p => [5, 4].getD p 0) (fun _ => 7)).bind (fun x => .ok (x 0, x 1)) = .throw := by decide +kernel

end OP.Lin
