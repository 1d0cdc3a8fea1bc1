import Verif.Lin.Gauss
import Mathlib.LinearAlgebra.Matrix.Block
import Mathlib.LinearAlgebra.Matrix.NonsingularInverse
import Mathlib.Tactic.FieldSimp
/-!
# What the loops of Gaussian elimination do
-/
namespace OP.Lin
open Finset
variable {K : Type} [Field K] [LinearOrder K]

theorem findPivot_some {eps : K} {n : Nat} {A : Nat → K} {i : Nat} : ∀ {f j r : Nat}, findPivot eps n A i f j = some r →
    j ≤ r ∧ r < j + f ∧ eps ≤ |A (r * n + i)|
  | 0, _, _, h => by cases h
  | f + 1, j, r, h => by
    unfold findPivot at h
    split at h
    · cases h; exact ⟨Nat.le_refl _, by omega, by assumption⟩
    · obtain ⟨h1, h2, h3⟩ := findPivot_some h
      exact ⟨by omega, by omega, h3⟩

theorem swapRows_at {m i j : Nat} (B : Nat → K) (hij : i ≠ j) (r c : Nat) (hc : c < m) :
    swapRows m i j B (r * m + c) = if r = i then B (j * m + c) else if r = j then B (i * m + c) else B (r * m + c) := by
  have key : ∀ c, c < m → ∀ r, swapRows m i j B (r * m + c) =
      if c < m ∧ r = i then B (j * m + c) else if c < m ∧ r = j then B (i * m + c) else B (r * m + c) := by
    refine loop_rule (f := fun k B => swp B (j * m + k) (i * m + k)) (fun k B' => ∀ c, c < m → ∀ r, B' (r * m + c) =
      if c < k ∧ r = i then B (j * m + c) else if c < k ∧ r = j then B (i * m + c) else B (r * m + c)) (Nat.zero_le m) ?_ ?_
    · intro c _ r; simp
    · intro k B' _ hk ih c hc r
      unfold swp
      rw [set_addr _ _ hk hc, set_addr _ _ hk hc]
      have ne := hij
      by_cases hck : c = k
      · subst hck
        rw [ih c hc i, ih c hc j, ih c hc r]
        by_cases h1 : r = i
        · subst h1; simp [ne]
        · by_cases h2 : r = j
          · subst h2; simp [Ne.symm ne]
          · simp [h1, h2]
      · have e : (c < k + 1) = (c < k) := by apply propext; omega
        rw [ih c hc r]
        simp only [e]
        simp [hck]
  rw [key c hc r]; simp [hc]

/-- The inner loop of the elimination: row `k` from column `lo` on. -/
theorem elimRow_at {n i k lo : Nat} (tmp : K) (A : Nat → K) (hik : i ≠ k) (hl : lo ≤ n) (r c : Nat) (hc : c < n) :
    loop lo n (fun j A => set A (k * n + j) (A (k * n + j) - tmp * A (i * n + j))) A (r * n + c) =
      if r = k ∧ lo ≤ c then A (r * n + c) - tmp * A (i * n + c) else A (r * n + c) := by
  have key : ∀ c, c < n → ∀ r, loop lo n (fun j A => set A (k * n + j) (A (k * n + j) - tmp * A (i * n + j))) A (r * n + c) =
      if r = k ∧ lo ≤ c ∧ c < n then A (r * n + c) - tmp * A (i * n + c) else A (r * n + c) := by
    refine loop_rule (fun j (A' : Nat → K) => ∀ c, c < n → ∀ r, A' (r * n + c) =
      if r = k ∧ lo ≤ c ∧ c < j then A (r * n + c) - tmp * A (i * n + c) else A (r * n + c)) hl ?_ ?_
    · intro c _ r; rw [if_neg (by omega)]
    · intro j A' h1 h2 ih c hc r
      rw [set_addr _ _ h2 hc]
      by_cases h : r = k ∧ c = j
      · rw [if_pos h, if_pos (by omega), ih j h2 k, ih j h2 i, if_neg (by omega), if_neg (by omega), h.1, h.2]
      · rw [if_neg h, ih c hc r]
        congr 1
        apply propext; omega
  rw [key c hc r]
  congr 1
  apply propext; omega

theorem elim_at {n m i : Nat} (pvt : K) (A B : Nat → K) (hi : i < n) :
    (∀ r c, c < n → (elim n m i pvt (A, B)).1 (r * n + c) =
      if (i < r ∧ r < n) ∧ i < c then A (r * n + c) - A (r * n + i) / pvt * A (i * n + c) else A (r * n + c)) ∧
    (∀ r c, c < m → (elim n m i pvt (A, B)).2 (r * m + c) =
      if i < r ∧ r < n then B (r * m + c) - A (r * n + i) / pvt * B (i * m + c) else B (r * m + c)) := by
  unfold elim
  refine loop_rule (fun k (s : (Nat → K) × (Nat → K)) => (∀ r c, c < n → s.1 (r * n + c) =
      if (i < r ∧ r < k) ∧ i < c then A (r * n + c) - A (r * n + i) / pvt * A (i * n + c) else A (r * n + c)) ∧
    (∀ r c, c < m → s.2 (r * m + c) =
      if i < r ∧ r < k then B (r * m + c) - A (r * n + i) / pvt * B (i * m + c) else B (r * m + c))) (by omega) ?_ ?_
  · refine ⟨fun r c _ => ?_, fun r c _ => ?_⟩ <;> rw [if_neg (by omega)]
  · rintro k ⟨A', B'⟩ h1 h2 ⟨ihA, ihB⟩
    simp only at ihA ihB ⊢
    have e : A' (k * n + i) = A (k * n + i) := by rw [ihA k i hi, if_neg (by omega)]
    refine ⟨fun r c hc => ?_, fun r c hc => ?_⟩
    · rw [elimRow_at _ A' (by omega) (by omega) r c hc, e, ihA r c hc, ihA i c hc]
      by_cases h : r = k ∧ i + 1 ≤ c
      · obtain ⟨rfl, h⟩ := h
        rw [if_pos ⟨rfl, h⟩, if_neg (by omega), if_neg (by omega), if_pos (by omega)]
      · rw [if_neg h]
        congr 1
        apply propext; omega
    · have := elimRow_at (n := m) (A' (k * n + i) / pvt) B' (i := i) (k := k) (lo := 0) (by omega) (Nat.zero_le _) r c hc
      rw [this, e, ihB r c hc, ihB i c hc]
      by_cases h : r = k
      · subst h
        rw [if_pos ⟨rfl, by omega⟩, if_neg (by omega), if_neg (by omega), if_pos (by omega)]
      · rw [if_neg (by omega)]
        congr 1
        apply propext; omega

/-- The matrix as it is meant after `i` rounds: below the diagonal the first `i` columns count as zero. -/
def eff (n i : Nat) (A : Nat → K) (r c : Nat) : K := if c < i ∧ c < r then 0 else A (r * n + c)

/-- `y` solves the system with matrix `E` and right-hand side `b`. -/
def Solves (n : Nat) (E : Nat → Nat → K) (b y : Nat → K) : Prop := ∀ r, r < n → ∑ k ∈ range n, E r k * y k = b r

/-- The leading square as a matrix. -/
def mat (n : Nat) (E : Nat → Nat → K) : Matrix (Fin n) (Fin n) K := fun r c => E r c

/-- One round: rows exchanged, then multiples of row `i` subtracted from the rows below. -/
theorem round_solves {n m i j : Nat} (hi : i < n) (hj : i ≤ j) (hjn : j < n) (A B : Nat → K) (E' : Nat → Nat → K) (B' : Nat → K) (t : Nat → K)
    (hE : ∀ r, r < n → ∀ c, c < n → E' r c = eff n i A (Equiv.swap i j r) c - (if i < r then t r * eff n i A (Equiv.swap i j i) c else 0))
    (c : Nat) (hB : ∀ r, r < n → B' (r * m + c) = B (Equiv.swap i j r * m + c) - (if i < r then t r * B (Equiv.swap i j i * m + c) else 0)) (y : Nat → K) :
    Solves n E' (fun r => B' (r * m + c)) y ↔ Solves n (eff n i A) (fun r => B (r * m + c)) y := by
  have hsw : ∀ r, r < n → Equiv.swap i j r < n := by
    intro r hr
    by_cases h1 : r = i
    · rw [h1, Equiv.swap_apply_left]; exact hjn
    · by_cases h2 : r = j
      · rw [h2, Equiv.swap_apply_right]; exact hi
      · rw [Equiv.swap_apply_of_ne_of_ne h1 h2]; exact hr
  have hsum : ∀ r, r < n → ∑ k ∈ range n, E' r k * y k =
      ∑ k ∈ range n, eff n i A (Equiv.swap i j r) k * y k - (if i < r then t r * ∑ k ∈ range n, eff n i A (Equiv.swap i j i) k * y k else 0) := by
    intro r hr
    rw [sum_congr rfl (fun k hk => by rw [hE r hr k (mem_range.mp hk)])]
    by_cases h : i < r
    · simp only [if_pos h]
      rw [mul_sum, ← sum_sub_distrib]
      exact sum_congr rfl (fun k _ => by ring)
    · simp only [if_neg h, sub_zero]
  constructor
  · intro h r hr
    -- row i of the exchanged system holds
    have hi' := h i hi
    rw [hsum i hi, if_neg (by omega), sub_zero] at hi'
    simp only [hB i hi, if_neg (Nat.lt_irrefl i), sub_zero] at hi'
    have := h (Equiv.swap i j r) (hsw r hr)
    rw [hsum _ (hsw r hr)] at this
    simp only [hB _ (hsw r hr), Equiv.swap_apply_self] at this
    by_cases hc : i < Equiv.swap i j r
    · simp only [if_pos hc, hi'] at this
      exact sub_left_injective this
    · simp only [if_neg hc, sub_zero] at this
      exact this
  · intro h r hr
    rw [hsum r hr, h _ (hsw r hr), h _ (hsw i hi)]
    simp only [hB r hr]

theorem round_det {n i j : Nat} (hi : i < n) (hj : i ≤ j) (hjn : j < n) (A : Nat → K) (E' : Nat → Nat → K) (t : Nat → K)
    (hE : ∀ r, r < n → ∀ c, c < n → E' r c = eff n i A (Equiv.swap i j r) c - (if i < r then t r * eff n i A (Equiv.swap i j i) c else 0)) :
    (mat n E').det = (if j = i then 1 else -1) * (mat n (eff n i A)).det := by
  have hval : ∀ r : Fin n, ((Equiv.swap (⟨i, hi⟩ : Fin n) ⟨j, hjn⟩ r : Fin n) : Nat) = Equiv.swap i j (r : Nat) := by
    intro r
    rw [Equiv.swap_apply_def, Equiv.swap_apply_def]
    simp only [Fin.ext_iff]
    split
    · rfl
    · split <;> rfl
  have e1 : (mat n E').det = ((mat n (eff n i A)).submatrix (Equiv.swap (⟨i, hi⟩ : Fin n) ⟨j, hjn⟩) id).det := by
    refine Matrix.det_eq_of_forall_row_eq_smul_add_const (fun r => if i < (r : Nat) then - t r else 0) ⟨i, hi⟩ (by simp) ?_
    intro r c
    have := hE r r.2 c c.2
    simp only [mat, Matrix.submatrix_apply, id, hval]
    rw [this]
    split <;> ring
  rw [e1, Matrix.det_permute]
  by_cases h : j = i
  · subst h; simp
  · rw [if_neg h, Equiv.Perm.sign_swap (by simp [Fin.ext_iff]; omega)]
    simp

variable [IsStrictOrderedRing K]

/-- What is known after `i` rounds of `inv_mul_gauss` started from `A0`, `B0`. -/
structure GInv (n m : Nat) (A0 B0 : Nat → K) (i : Nat) (s : (Nat → K) × (Nat → K) × K) : Prop where
  frameA : ∀ p, n * n ≤ p → s.1 p = A0 p
  frameB : 0 < m → ∀ p, n * m ≤ p → s.2.1 p = B0 p
  piv : ∀ c, c < i → s.1 (c * n + c) ≠ 0
  sol : ∀ c, c < m → ∀ y, Solves n (eff n i s.1) (fun r => s.2.1 (r * m + c)) y ↔ Solves n (eff n 0 A0) (fun r => B0 (r * m + c)) y
  prod : s.2.2 = ∏ c ∈ range i, s.1 (c * n + c)
  det : ∃ g : K, (g = 1 ∨ g = -1) ∧ (mat n (eff n 0 A0)).det = g * (mat n (eff n i s.1)).det

theorem frame_of_rows {n m : Nat} {A A' : Nat → K} (h : ∀ r c, c < m → n ≤ r → A' (r * m + c) = A (r * m + c)) {p : Nat} (hp : n * m ≤ p) (hm : 0 < m) :
    A' p = A p := by
  have e : p / m * m + p % m = p := by rw [Nat.mul_comm]; exact Nat.div_add_mod p m
  rw [← e]
  exact h _ _ (Nat.mod_lt _ hm) ((Nat.le_div_iff_mul_le hm).mpr hp)

theorem gaussStep_inv {eps : K} (he : 0 < eps) {n m i : Nat} (hi : i < n) {A0 B0 : Nat → K} {s s' : (Nat → K) × (Nat → K) × K}
    (h : GInv n m A0 B0 i s) (e : gaussStep eps n m i s = .ok s') : GInv n m A0 B0 (i + 1) s' := by
  obtain ⟨A, B, d⟩ := s
  unfold gaussStep at e
  cases hf : findPivot eps n A i (n - i) i with
  | none => simp [hf] at e
  | some j =>
    obtain ⟨hj, hjn, hp⟩ := findPivot_some hf
    have hjn : j < n := by omega
    simp only [hf] at e
    -- the arrays after the exchange
    obtain ⟨A1, B1, hA1, hB1, e⟩ : ∃ A1 B1, (∀ r c, c < n → A1 (r * n + c) = A (Equiv.swap i j r * n + c)) ∧
        (∀ r c, c < m → B1 (r * m + c) = B (Equiv.swap i j r * m + c)) ∧
        Res.ok ((elim n m i (A (j * n + i)) (A1, B1)).1, (elim n m i (A (j * n + i)) (A1, B1)).2, d * A (j * n + i)) = Res.ok s' := by
      by_cases h : j = i
      · subst h
        refine ⟨A, B, fun r c _ => by simp, fun r c _ => by simp, ?_⟩
        simpa using e
      · refine ⟨swapRows n i j A, swapRows m i j B, fun r c hc => ?_, fun r c hc => ?_, ?_⟩
        · rw [swapRows_at A (Ne.symm h) r c hc, Equiv.swap_apply_def]
          split
          · rfl
          · split <;> rfl
        · rw [swapRows_at B (Ne.symm h) r c hc, Equiv.swap_apply_def]
          split
          · rfl
          · split <;> rfl
        · rw [if_pos h] at e; exact e
    have e := Res.ok.inj e
    obtain ⟨hA2, hB2⟩ := elim_at (m := m) (A (j * n + i)) A1 B1 hi
    set A2 := (elim n m i (A (j * n + i)) (A1, B1)).1 with hA2d
    set B2 := (elim n m i (A (j * n + i)) (A1, B1)).2 with hB2d
    subst e
    have pv : A (j * n + i) ≠ 0 := by
      intro h0
      rw [h0, abs_zero] at hp
      exact absurd hp (not_le.mpr he)
    have pv1 : A1 (i * n + i) = A (j * n + i) := by rw [hA1 i i hi, Equiv.swap_apply_left]
    have swn : ∀ r, n ≤ r → Equiv.swap i j r = r := fun r hr => Equiv.swap_apply_of_ne_of_ne (by omega) (by omega)
    have swlt : ∀ r, r < i → Equiv.swap i j r = r := fun r hr => Equiv.swap_apply_of_ne_of_ne (by omega) (by omega)
    have swge : ∀ r, i ≤ r → i ≤ Equiv.swap i j r := by
      intro r hr; rw [Equiv.swap_apply_def]; split
      · exact hj
      · split
        · exact Nat.le_refl _
        · exact hr
    -- the round in terms of effective rows
    have hE : ∀ r, r < n → ∀ c, c < n → eff n (i + 1) A2 r c =
        eff n i A (Equiv.swap i j r) c - (if i < r then A1 (r * n + i) / A (j * n + i) * eff n i A (Equiv.swap i j i) c else 0) := by
      intro r hr c hc
      have hsi : Equiv.swap i j i = j := Equiv.swap_apply_left i j
      unfold eff
      rw [hA2 r c hc, hsi]
      by_cases hri : i < r
      · have hg := swge r (by omega)
        rw [if_pos hri]
        by_cases hci : c < i
        · rw [if_pos ⟨by omega, by omega⟩, if_pos ⟨hci, by omega⟩, if_pos ⟨hci, by omega⟩]; ring
        · by_cases hce : c = i
          · subst hce
            rw [if_pos ⟨by omega, by omega⟩, if_neg (by omega), if_neg (by omega), ← hA1 r c hc]
            field_simp
            ring
          · rw [if_neg (by omega), if_pos ⟨⟨hri, hr⟩, by omega⟩, if_neg (by omega), if_neg (by omega), hA1 r c hc, hA1 i c hc, hsi]
      · rw [if_neg hri, sub_zero, if_neg (by omega : ¬ ((i < r ∧ r < n) ∧ i < c)), hA1 r c hc]
        rcases Nat.lt_or_ge r i with hlt | hge
        · rw [swlt r hlt]
          by_cases hcr : c < r
          · rw [if_pos ⟨by omega, hcr⟩, if_pos ⟨by omega, hcr⟩]
          · rw [if_neg (by omega), if_neg (by omega)]
        · have : r = i := by omega
          subst this
          rw [hsi]
          by_cases hcr : c < r
          · rw [if_pos ⟨by omega, hcr⟩, if_pos ⟨by omega, by omega⟩]
          · rw [if_neg (by omega), if_neg (by omega)]
    have hBr : ∀ c, c < m → ∀ r, r < n → B2 (r * m + c) =
        B (Equiv.swap i j r * m + c) - (if i < r then A1 (r * n + i) / A (j * n + i) * B (Equiv.swap i j i * m + c) else 0) := by
      intro c hc r hr
      rw [hB2 r c hc, hB1 r c hc, hB1 i c hc]
      by_cases hri : i < r
      · rw [if_pos ⟨hri, hr⟩, if_pos hri]
      · rw [if_neg (by omega), if_neg hri, sub_zero]
    have diag : ∀ c, c < i → A2 (c * n + c) = A (c * n + c) := by
      intro c hc
      rw [hA2 c c (by omega), if_neg (by omega), hA1 c c (by omega), swlt c hc]
    have diagi : A2 (i * n + i) = A (j * n + i) := by
      rw [hA2 i i hi, if_neg (by omega), pv1]
    refine ⟨?_, ?_, ?_, ?_, ?_, ?_⟩
    · intro p hp
      simp only
      rw [← h.frameA p hp]
      refine frame_of_rows (n := n) (m := n) (fun r c hc hr => ?_) hp (by omega)
      rw [hA2 r c hc, if_neg (by omega), hA1 r c hc, swn r hr]
    · intro hm p hp
      simp only
      rw [← h.frameB hm p hp]
      refine frame_of_rows (n := n) (m := m) (fun r c hc hr => ?_) hp hm
      rw [hB2 r c hc, if_neg (by omega), hB1 r c hc, swn r hr]
    · intro c hc
      simp only
      rcases Nat.lt_or_ge c i with h1 | h1
      · rw [diag c h1]; exact h.piv c h1
      · have : c = i := by omega
        subst this; rw [diagi]; exact pv
    · intro c hc y
      simp only
      rw [round_solves hi hj hjn A B _ B2 _ hE c (hBr c hc) y]
      exact h.sol c hc y
    · simp only
      rw [prod_range_succ, diagi]
      have := h.prod
      simp only at this
      rw [this]
      congr 1
      exact prod_congr rfl (fun c hc => by rw [diag c (mem_range.mp hc)])
    · obtain ⟨g, hg, hd⟩ := h.det
      simp only at hd ⊢
      have := round_det hi hj hjn A _ _ hE
      refine ⟨g * (if j = i then 1 else -1), ?_, ?_⟩
      · rcases hg with rfl | rfl <;> split <;> simp
      · rw [this, hd]
        split
        · ring
        · ring

/-- A loop over the columns of row `i` that changes each entry by itself. -/
theorem rowLoop_at {m i : Nat} (g : (Nat → K) → Nat → K) (B : Nat → K)
    (hg : ∀ B' k, k < m → (∀ r c, c < m → (r ≠ i ∨ k ≤ c) → B' (r * m + c) = B (r * m + c)) → g B' k = g B k) (r c : Nat) (hc : c < m) :
    loop 0 m (fun k B => set B (i * m + k) (g B k)) B (r * m + c) = if r = i then g B c else B (r * m + c) := by
  have key : ∀ r c, c < m → loop 0 m (fun k B => set B (i * m + k) (g B k)) B (r * m + c) =
      if r = i ∧ c < m then g B c else B (r * m + c) := by
    refine loop_rule (fun k (B' : Nat → K) => ∀ r c, c < m → B' (r * m + c) = if r = i ∧ c < k then g B c else B (r * m + c)) (Nat.zero_le m) ?_ ?_
    · intro r c _; rw [if_neg (by omega)]
    · intro k B' _ hk ih r c hc
      rw [set_addr _ _ hk hc]
      by_cases h : r = i ∧ c = k
      · rw [if_pos h, if_pos (by omega), h.2]
        refine hg B' k hk (fun r c hc hrc => ?_)
        rw [ih r c hc, if_neg (by omega)]
      · rw [if_neg h, ih r c hc]
        congr 1
        apply propext; omega
  rw [key r c hc]
  congr 1
  apply propext; omega

theorem gaussBack_at {n m : Nat} {A B : Nat → K} (hp : ∀ c, c < n → A (c * n + c) ≠ 0) (r c : Nat) (hc : c < m) :
    if r < n then ∑ j ∈ Ico r n, A (r * n + j) * gaussBack n m A B (j * m + c) = B (r * m + c)
    else gaussBack n m A B (r * m + c) = B (r * m + c) := by
  have key : ∀ r c, c < m → if 0 ≤ r ∧ r < n then ∑ j ∈ Ico r n, A (r * n + j) * gaussBack n m A B (j * m + c) = B (r * m + c)
      else gaussBack n m A B (r * m + c) = B (r * m + c) := by
    unfold gaussBack
    refine down_rule (n := n) (s := B) (fun i (B' : Nat → K) => ∀ r c, c < m → if i ≤ r ∧ r < n then ∑ j ∈ Ico r n, A (r * n + j) * B' (j * m + c) = B (r * m + c)
      else B' (r * m + c) = B (r * m + c)) ?_ ?_
    · intro r c _; rw [if_neg (by omega)]
    · intro i B' hi ih
      -- the subtractions
      have h1 : ∀ r c, c < m → loop (i + 1) n (fun j B => loop 0 m (fun k B => set B (i * m + k) (B (i * m + k) - A (i * n + j) * B (j * m + k))) B) B' (r * m + c) =
          if r = i then B' (r * m + c) - ∑ j ∈ Ico (i + 1) n, A (i * n + j) * B' (j * m + c) else B' (r * m + c) := by
        refine loop_rule (fun k (B'' : Nat → K) => ∀ r c, c < m → B'' (r * m + c) =
          if r = i then B' (r * m + c) - ∑ j ∈ Ico (i + 1) k, A (i * n + j) * B' (j * m + c) else B' (r * m + c)) (by omega) ?_ ?_
        · intro r c _; simp
        · intro k B'' hk1 hk2 ih2 r c hc
          have := rowLoop_at (m := m) (i := i) (fun B q => B (i * m + q) - A (i * n + k) * B (k * m + q)) B''
            (fun B3 q hq h3 => by rw [h3 i q hq (.inr (Nat.le_refl _)), h3 k q hq (.inl (by omega))]) r c hc
          rw [this]
          by_cases hr : r = i
          · subst hr
            rw [if_pos rfl, if_pos rfl, ih2 r c hc, ih2 k c hc, if_pos rfl, if_neg (by omega), sum_Ico_succ_top hk1]
            ring
          · rw [if_neg hr, if_neg hr, ih2 r c hc, if_neg hr]
      have h2 := fun r c (hc : c < m) => rowLoop_at (m := m) (i := i) (fun B q => B (i * m + q) / A (i * n + i))
        (loop (i + 1) n (fun j B => loop 0 m (fun k B => set B (i * m + k) (B (i * m + k) - A (i * n + j) * B (j * m + k))) B) B')
        (fun B3 q hq h3 => by rw [h3 i q hq (.inr (Nat.le_refl _))]) r c hc
      intro r c hc
      have unch : ∀ r, r ≠ i → loop 0 m (fun k B => set B (i * m + k) (B (i * m + k) / A (i * n + i)))
          (loop (i + 1) n (fun j B => loop 0 m (fun k B => set B (i * m + k) (B (i * m + k) - A (i * n + j) * B (j * m + k))) B) B') (r * m + c) = B' (r * m + c) := by
        intro r hr
        rw [h2 r c hc, if_neg hr, h1 r c hc, if_neg hr]
      by_cases hr : i ≤ r ∧ r < n
      · rw [if_pos hr]
        by_cases hri : r = i
        · subst hri
          have es := sum_congr (g := fun j => A (r * n + j) * B' (j * m + c)) (rfl : Ico (r + 1) n = Ico (r + 1) n)
            (fun j hj => congrArg (A (r * n + j) * ·) (unch j (by have := (mem_Ico.mp hj).1; omega)))
          rw [sum_eq_sum_Ico_succ_bot hr.2, es, h2 r c hc, if_pos rfl, h1 r c hc, if_pos rfl]
          have e0 := ih r c hc
          rw [if_neg (by omega)] at e0
          rw [e0]
          have := hp r hr.2
          field_simp
          ring
        · rw [sum_congr rfl (fun j hj => by rw [unch j (by have := (mem_Ico.mp hj).1; omega)])]
          have e0 := ih r c hc
          rw [if_pos (by omega)] at e0
          exact e0
      · rw [if_neg hr, unch r (by omega)]
        have e0 := ih r c hc
        rw [if_neg (by omega)] at e0
        exact e0
  have := key r c hc
  simpa using this

end OP.Lin
