import Verif.Lin.Pack
import Mathlib.Data.Fintype.Pigeonhole
import Mathlib.Tactic.Ring
import Mathlib.Tactic.Linarith
/-!
# C38, C39: packed storage and in-place transposition
-/
namespace OP.Lin

/-! ## Triangular storage -/

theorem tri_succ (j : Nat) : (j + 1) * (j + 1 + 1) / 2 = j * (j + 1) / 2 + (j + 1) := by
  rw [show (j + 1) * (j + 1 + 1) = j * (j + 1) + (j + 1) * 2 by ring, Nat.add_mul_div_right _ _ (by decide)]

theorem two_tri (j : Nat) : 2 * (j * (j + 1) / 2) = j * (j + 1) := Nat.mul_div_cancel' (Nat.even_mul_succ_self j).two_dvd

/-- Columns laid end to end: column `j` occupies `[start j, start (j+1))`. -/
theorem column_of {start : Nat → Nat} (h0 : start 0 = 0) : ∀ {n p : Nat}, p < start n → ∃ j, j < n ∧ start j ≤ p ∧ p < start (j + 1)
  | 0, p, h => by omega
  | n + 1, p, h => by
    rcases Nat.lt_or_ge p (start n) with h1 | h1
    · obtain ⟨j, hj, e⟩ := column_of h0 h1; exact ⟨j, by omega, e⟩
    · exact ⟨n, by omega, h1, h⟩

theorem start_mono {start : Nat → Nat} (hs : ∀ j, start j ≤ start (j + 1)) {i j : Nat} (h : i ≤ j) : start i ≤ start j := by
  induction h with
  | refl => exact Nat.le_refl _
  | step _ ih => exact Nat.le_trans ih (hs _)

theorem column_unique {start : Nat → Nat} (hs : ∀ j, start j ≤ start (j + 1)) {j j' p : Nat}
    (h : start j ≤ p ∧ p < start (j + 1)) (h' : start j' ≤ p ∧ p < start (j' + 1)) : j = j' := by
  rcases Nat.lt_trichotomy j j' with g | g | g
  · have := start_mono hs (show j + 1 ≤ j' by omega); omega
  · exact g
  · have := start_mono hs (show j' + 1 ≤ j by omega); omega

/-- **C39**, triangular storage: the entries of the upper triangle and the places of the array correspond one to one. -/
theorem C39_triangular (n : Nat) :
    (∀ i j, i ≤ j → j < n → tIdx i j < tSize n) ∧
    (∀ i j i' j', i ≤ j → i' ≤ j' → tIdx i j = tIdx i' j' → i = i' ∧ j = j') ∧
    (∀ p, p < tSize n → ∃ i j, i ≤ j ∧ j < n ∧ tIdx i j = p) := by
  have hs : ∀ j, tSize j ≤ tSize (j + 1) := fun j => by unfold tSize; rw [tri_succ]; omega
  have hin : ∀ i j, i ≤ j → tSize j ≤ tIdx i j ∧ tIdx i j < tSize (j + 1) := fun i j h => by
    unfold tSize tIdx; rw [tri_succ]; omega
  refine ⟨fun i j h hj => Nat.lt_of_lt_of_le (hin i j h).2 (start_mono hs hj), fun i j i' j' h h' e => ?_, fun p hp => ?_⟩
  · have : j = j' := column_unique hs (hin i j h) (by rw [e]; exact hin i' j' h')
    subst this
    unfold tIdx at e
    omega
  · obtain ⟨j, hj, h1, h2⟩ := column_of (start := tSize) rfl hp
    refine ⟨p - tSize j, j, ?_, hj, ?_⟩
    · have : tSize (j + 1) = tSize j + (j + 1) := tri_succ j
      omega
    · unfold tIdx; unfold tSize at *; omega

/-! ## Band storage -/

/-- Where column `j` of a band matrix starts. -/
def bStart (w j : Nat) : Nat := if j ≤ w then j * (j + 1) / 2 else (w + 1) * j - w * (w + 1) / 2

theorem tri_le (w j : Nat) (h : w ≤ j) : w * (w + 1) / 2 ≤ (w + 1) * j := by
  have := two_tri w
  nlinarith

theorem bStart_size {n w : Nat} (h : w ≤ n) : bStart w n = bSize n w := by
  unfold bStart bSize
  split
  · have : n = w := by omega
    subst this
    have := two_tri n
    have : (n + 1) * n = n * (n + 1) := Nat.mul_comm _ _
    omega
  · rfl

theorem bStart_succ (w j : Nat) : bStart w (j + 1) = bStart w j + min j w + 1 := by
  unfold bStart
  by_cases h : j + 1 ≤ w
  · rw [if_pos h, if_pos (by omega), tri_succ]; omega
  · rw [if_neg h]
    by_cases h2 : j ≤ w
    · have e : j = w := by omega
      subst e
      rw [if_pos (Nat.le_refl _)]
      have := two_tri j
      have : (j + 1) * (j + 1) = j * (j + 1) + (j + 1) := by ring
      omega
    · rw [if_neg h2]
      have := tri_le w j (by omega)
      have : (w + 1) * (j + 1) = (w + 1) * j + (w + 1) := by ring
      omega

/-- The stored entries of a symmetric matrix of order `n` and half band width `w`: the upper part of the band. -/
def InBand (n w i j : Nat) : Prop := i ≤ j ∧ j ≤ i + w ∧ j < n

theorem bIdx_at {n w i j : Nat} (h : InBand n w i j) : bIdx n w i j = bStart w j + (i - (j - w)) := by
  obtain ⟨h1, h2, h3⟩ := h
  unfold bIdx bStart
  split
  · rw [show j - w = 0 by omega, Nat.sub_zero]
  · rename_i hj
    have := tri_le w j (by omega)
    obtain ⟨d, rfl⟩ : ∃ d, i = j - w + d := ⟨i - (j - w), by omega⟩
    have e : (j + 1) * w + (j - w + d) = (w + 1) * j + d := by
      obtain ⟨q, rfl⟩ : ∃ q, j = w + q := ⟨j - w, by omega⟩
      rw [Nat.add_sub_cancel_left]; ring
    rw [e]; omega

/-- **C39**, band storage, true part: when the half band width does not exceed the order, the entries of the band and the places of
the array correspond one to one.  The full property asks for this at every width, which `C39_wide_band_overruns` refutes. -/
theorem C39_band_partial {n w : Nat} (hw : w ≤ n) :
    (∀ i j, InBand n w i j → bIdx n w i j < bSize n w) ∧
    (∀ i j i' j', InBand n w i j → InBand n w i' j' → bIdx n w i j = bIdx n w i' j' → i = i' ∧ j = j') ∧
    (∀ p, p < bSize n w → ∃ i j, InBand n w i j ∧ bIdx n w i j = p) := by
  have hs : ∀ j, bStart w j ≤ bStart w (j + 1) := fun j => by rw [bStart_succ]; omega
  have hin : ∀ i j, InBand n w i j → bStart w j ≤ bIdx n w i j ∧ bIdx n w i j < bStart w (j + 1) := fun i j h => by
    rw [bIdx_at h, bStart_succ]
    obtain ⟨h1, h2, h3⟩ := h
    omega
  rw [← bStart_size hw]
  refine ⟨fun i j h => Nat.lt_of_lt_of_le (hin i j h).2 (start_mono hs h.2.2), fun i j i' j' h h' e => ?_, fun p hp => ?_⟩
  · have : j = j' := column_unique hs (hin i j h) (by rw [e]; exact hin i' j' h')
    subst this
    rw [bIdx_at h, bIdx_at h'] at e
    obtain ⟨h1, h2, h3⟩ := h
    obtain ⟨h1', h2', h3'⟩ := h'
    omega
  · obtain ⟨j, hj, h1, h2⟩ := column_of (start := bStart w) (by simp [bStart]) hp
    rw [bStart_succ] at h2
    have hb : InBand n w (p - bStart w j + (j - w)) j := ⟨by omega, by omega, hj⟩
    exact ⟨_, j, hb, by rw [bIdx_at hb]; omega⟩

/-- **C39**, what fails: with a band wider than the order, the last diagonal entry lies outside the storage advertised. -/
theorem C39_wide_band_overruns {n w : Nat} (hn : 0 < n) (hw : n < w) (hw2 : w ≤ 2 * n) :
    InBand n w (n - 1) (n - 1) ∧ bSize n w ≤ bIdx n w (n - 1) (n - 1) := by
  refine ⟨⟨Nat.le_refl _, by omega, by omega⟩, ?_⟩
  unfold bIdx bSize
  rw [if_pos (by omega)]
  obtain ⟨k, rfl⟩ : ∃ k, n = k + 1 := ⟨n - 1, by omega⟩
  rw [Nat.add_sub_cancel]
  obtain ⟨d, rfl⟩ : ∃ d, w = k + 2 + d := ⟨w - (k + 2), by omega⟩
  have e1 := two_tri k
  have e2 := two_tri (k + 2 + d)
  have : 2 * ((k + 2 + d + 1) * (k + 1)) ≤ 2 * (k * (k + 1) / 2 + k) + 2 * ((k + 2 + d) * (k + 2 + d + 1) / 2) := by
    rw [e2, Nat.mul_add 2 (k * (k + 1) / 2), e1]
    nlinarith
  omega

/-- Both cases occur: a band of half width 1 and order 4 takes 7 places; one of half width 4 and order 3 claims 5 and needs 6. -/
example : bSize 4 1 = 7 ∧ bIdx 4 1 3 3 = 6 ∧ bSize 3 4 = 5 ∧ bIdx 3 4 2 2 = 5 := by decide

/-! ## Transposition -/

section Nxt
variable {m n : Nat}

theorem nxt_lt {j : Nat} (h : j < m * n) : nxt m n j < m * n := by
  unfold nxt
  have hm : 0 < m := Nat.pos_of_mul_pos_right (by omega : 0 < m * n)
  exact addr_lt (Nat.mod_lt _ hm) (by rw [Nat.div_lt_iff_lt_mul hm]; rw [Nat.mul_comm n m]; exact h)

theorem nxt_back {j : Nat} (h : j < m * n) : nxt n m (nxt m n j) = j := by
  have hm : 0 < m := Nat.pos_of_mul_pos_right (by omega : 0 < m * n)
  have hd : j / m < n := by rw [Nat.div_lt_iff_lt_mul hm, Nat.mul_comm n m]; exact h
  unfold nxt
  rw [Nat.mul_comm (j % m) n, Nat.mul_add_mod, Nat.mod_eq_of_lt hd, Nat.mul_add_div (Nat.pos_of_ne_zero (fun e => by subst e; exact Nat.not_lt_zero _ hd)), Nat.div_eq_of_lt hd, Nat.add_zero, Nat.mul_comm]
  exact Nat.div_add_mod j m

theorem iter_lt {s : Nat} (h : s < m * n) : ∀ k, (nxt m n)^[k] s < m * n
  | 0 => h
  | k + 1 => by rw [Function.iterate_succ_apply']; exact nxt_lt (iter_lt h k)

theorem iter_inj {s t : Nat} (h : s < m * n) (ht : t < m * n) : ∀ k, (nxt m n)^[k] s = (nxt m n)^[k] t → s = t
  | 0, e => e
  | k + 1, e => by
    rw [Function.iterate_succ_apply', Function.iterate_succ_apply'] at e
    exact iter_inj h ht k (by rw [← nxt_back (iter_lt h k), e, nxt_back (iter_lt ht k)])

theorem iter_period {s : Nat} (h : s < m * n) : ∃ k, 0 < k ∧ k ≤ m * n ∧ (nxt m n)^[k] s = s := by
  obtain ⟨a, b, hab, e⟩ := Fintype.exists_ne_map_eq_of_card_lt (fun k : Fin (m * n + 1) => (⟨(nxt m n)^[k] s, iter_lt h k⟩ : Fin (m * n))) (by simp)
  have e : (nxt m n)^[(a : Nat)] s = (nxt m n)^[(b : Nat)] s := congrArg Fin.val e
  have key : ∀ a b : Nat, a < b → b ≤ m * n → (nxt m n)^[a] s = (nxt m n)^[b] s → ∃ k, 0 < k ∧ k ≤ m * n ∧ (nxt m n)^[k] s = s := by
    intro a b hlt hb e
    refine ⟨b - a, by omega, by omega, ?_⟩
    rw [show b = a + (b - a) by omega, Function.iterate_add_apply] at e
    exact (iter_inj h (iter_lt h _) a e).symm
  have ha := a.2; have hb := b.2
  rcases Nat.lt_or_ge a b with g | g
  · exact key a b g (by omega) e
  · have : (a : Nat) ≠ b := fun h => hab (Fin.ext h)
    exact key b a (by omega) (by omega) e.symm

/-- The first return at or below the starting place. -/
theorem first_return {s : Nat} (h : s < m * n) : ∃ L, 0 < L ∧ L ≤ m * n ∧ (nxt m n)^[L] s ≤ s ∧ ∀ k, 0 < k → k < L → s < (nxt m n)^[k] s := by
  obtain ⟨k, h1, h2, h3⟩ := iter_period h
  have ex : ∃ L, 0 < L ∧ (nxt m n)^[L] s ≤ s := ⟨k, h1, by omega⟩
  classical
  refine ⟨Nat.find ex, (Nat.find_spec ex).1, ?_, (Nat.find_spec ex).2, fun j hj hlt => ?_⟩
  · exact Nat.le_trans (Nat.find_min' ex ⟨h1, by omega⟩) h2
  · have := Nat.find_min ex hlt
    omega

theorem follow_at {s L : Nat} (h1 : (nxt m n)^[L] s ≤ s) (h2 : ∀ k, 0 < k → k < L → s < (nxt m n)^[k] s) :
    ∀ fuel i, i < L → L ≤ fuel + i → follow m n s fuel ((nxt m n)^[i] s) i = some ((nxt m n)^[L] s, L)
  | 0, i, hi, hf => by omega
  | fuel + 1, i, hi, hf => by
    unfold follow
    simp only
    rw [← Function.iterate_succ_apply' (nxt m n), Nat.succ_eq_add_one]
    by_cases e : i + 1 = L
    · rw [if_neg (by rw [e]; omega), e]
    · rw [if_pos (h2 _ (by omega) (by omega))]
      exact follow_at h1 h2 fuel (i + 1) (by omega) (by omega)

theorem rotate_at {K : Type} {s L : Nat} (hs : s < m * n) {A0 : Nat → K} (h1 : (nxt m n)^[L] s = s) (h2 : ∀ k, 0 < k → k < L → s < (nxt m n)^[k] s) :
    ∀ fuel i (A : Nat → K), i < L → L ≤ fuel + i → (∀ k, i ≤ k → k < L → A ((nxt m n)^[k] s) = A0 ((nxt m n)^[k] s) ∨ k = 0) →
      ∃ A', rotate m n s (A0 s) fuel ((nxt m n)^[i] s) A = some A' ∧
        (∀ k, i ≤ k → k < L → A' ((nxt m n)^[k] s) = A0 ((nxt m n)^[k + 1] s)) ∧
        (∀ p, (∀ k, i ≤ k → k < L → p ≠ (nxt m n)^[k] s) → A' p = A p)
  | 0, i, A, hi, hf, _ => by omega
  | fuel + 1, i, A, hi, hf, hA => by
    unfold rotate
    simp only
    rw [← Function.iterate_succ_apply' (nxt m n), Nat.succ_eq_add_one]
    have distinct : ∀ a b, a < b → b < L → (nxt m n)^[a] s ≠ (nxt m n)^[b] s := by
      intro a b hab hb e
      rw [show b = a + (b - a) by omega, Function.iterate_add_apply] at e
      have := iter_inj hs (iter_lt hs _) a e
      have := h2 (b - a) (by omega) (by omega)
      omega
    by_cases e : i + 1 = L
    · rw [if_neg (by rw [e]; omega), e, if_pos h1]
      refine ⟨_, rfl, fun k hk1 hk2 => ?_, fun p hp => ?_⟩
      · rw [show k = i by omega, set_same, e, h1]
      · rw [set_ne _ _ (hp i (Nat.le_refl _) hi)]
    · have hgt := h2 (i + 1) (by omega) (by omega)
      rw [if_pos hgt, if_neg (by omega)]
      obtain ⟨A', g1, g2, g3⟩ := rotate_at (K := K) hs (A0 := A0) h1 h2 fuel (i + 1) (set A ((nxt m n)^[i] s) (A ((nxt m n)^[i + 1] s))) (by omega) (by omega)
        (fun k hk1 hk2 => by
          rw [set_ne _ _ (Ne.symm (distinct i k (by omega) hk2))]
          exact hA k (by omega) hk2)
      refine ⟨A', g1, fun k hk1 hk2 => ?_, fun p hp => ?_⟩
      · by_cases ek : k = i
        · subst ek
          rw [g3 _ (fun j hj1 hj2 => distinct k j (by omega) hj2), set_same]
          rcases hA (k + 1) (by omega) (by omega) with h | h
          · exact h
          · omega
        · exact g2 k (by omega) hk2
      · rw [g3 p (fun k hk1 hk2 => hp k (by omega) hk2), set_ne _ _ (hp i (Nat.le_refl _) hi)]

theorem reaches_back {p s k : Nat} (hp : p < m * n) (e : (nxt m n)^[k] p = s) : ∃ k', (nxt m n)^[k'] s = p := by
  obtain ⟨q, h1, h2, h3⟩ := iter_period hp
  have hmul : ∀ t, (nxt m n)^[t * q] p = p := fun t => by
    induction t with
    | zero => simp
    | succ t ih => rw [Nat.add_mul, Nat.one_mul, Function.iterate_add_apply, h3, ih]
  refine ⟨(k + 1) * q - k, ?_⟩
  have : k ≤ (k + 1) * q := by nlinarith
  rw [← e, ← Function.iterate_add_apply, Nat.sub_add_cancel this, hmul]

end Nxt

/-- The rows and columns of an array: `TransposeOf m n A A'` says that the row by row `n` by `m` array `A'` is the transpose of the `m` by `n` array `A`. -/
def TransposeOf {K : Type} (m n : Nat) (A A' : Nat → K) : Prop :=
  (∀ i j, i < m → j < n → A' (j * m + i) = A (i * n + j)) ∧ ∀ p, m * n ≤ p → A' p = A p

/-- **C38**: for every shape and all contents, `transpose` terminates and leaves the transpose, touching nothing else. -/
theorem C38_transpose {K : Type} (m n : Nat) (A : Nat → K) : ∃ A', transpose m n A = .ok A' ∧ TransposeOf m n A A' := by
  suffices h : ∃ A', transpose m n A = .ok A' ∧ (∀ p, p < m * n → A' p = A (nxt m n p)) ∧ ∀ p, m * n ≤ p → A' p = A p by
    obtain ⟨A', h1, h2, h3⟩ := h
    refine ⟨A', h1, fun i j hi hj => ?_, h3⟩
    rw [h2 _ (by rw [Nat.mul_comm m n]; exact addr_lt hj hi)]
    unfold nxt
    congr 1
    rw [Nat.mul_comm j m, Nat.mul_add_mod, Nat.mod_eq_of_lt hi, Nat.mul_add_div (by omega), Nat.div_eq_of_lt hi, Nat.add_zero]
  obtain ⟨A', h1, h2, h3⟩ := loopM_total (s := A) (f := fun s A =>
    match follow m n s (m * n) s 0 with
    | none => .ub
    | some (j, i) =>
      if j < s ∨ i = 1 then .ok A
      else match rotate m n s (A s) (m * n) s A with
        | none => .ub
        | some A => .ok A) (fun s (B : Nat → K) =>
    (∀ p, p < m * n → ((∃ k, (nxt m n)^[k] p < s) → B p = A (nxt m n p)) ∧ ((∀ k, s ≤ (nxt m n)^[k] p) → B p = A p)) ∧ ∀ p, m * n ≤ p → B p = A p)
    (Nat.zero_le (m * n)) ⟨fun p _ => ⟨fun ⟨k, h⟩ => by omega, fun _ => rfl⟩, fun _ _ => rfl⟩ (by
      rintro s B _ hs ⟨g1, g2⟩
      obtain ⟨L, l1, l2, l3, l4⟩ := first_return hs
      have hf := follow_at l3 l4 (m * n) 0 l1 (by omega)
      rw [Function.iterate_zero_apply] at hf
      simp only [hf]
      by_cases c1 : (nxt m n)^[L] s < s
      · rw [if_pos (.inl c1)]
        refine ⟨B, rfl, fun p hp => ⟨?_, fun h => (g1 p hp).2 (fun k => Nat.le_of_succ_le (h k))⟩, g2⟩
        rintro ⟨k, hk⟩
        refine (g1 p hp).1 ?_
        by_cases e : (nxt m n)^[k] p = s
        · exact ⟨L + k, by rw [Function.iterate_add_apply, e]; exact c1⟩
        · exact ⟨k, by omega⟩
      · have c2 : (nxt m n)^[L] s = s := by omega
        -- no earlier place lies on this cycle
        have fresh : ∀ k, s ≤ (nxt m n)^[k] s := by
          intro k
          have hmul : ∀ t, (nxt m n)^[t * L] s = s := fun t => by
            induction t with
            | zero => simp
            | succ t ih => rw [Nat.add_mul, Nat.one_mul, Function.iterate_add_apply, c2, ih]
          have e : (nxt m n)^[k] s = (nxt m n)^[k % L] s := by
            conv_lhs => rw [← Nat.mod_add_div k L, Nat.mul_comm L, Function.iterate_add_apply, hmul]
          rw [e]
          rcases Nat.eq_zero_or_pos (k % L) with h | h
          · rw [h]; exact Nat.le_refl _
          · exact Nat.le_of_lt (l4 _ h (Nat.mod_lt _ l1))
        have onCycle : ∀ p, p < m * n → (∃ k, (nxt m n)^[k] p = s) → ∃ k, k < L ∧ p = (nxt m n)^[k] s := by
          rintro p hp ⟨k, e⟩
          obtain ⟨k', e'⟩ := reaches_back hp e
          refine ⟨k' % L, Nat.mod_lt _ l1, ?_⟩
          have hmul : ∀ t, (nxt m n)^[t * L] s = s := fun t => by
            induction t with
            | zero => simp
            | succ t ih => rw [Nat.add_mul, Nat.one_mul, Function.iterate_add_apply, c2, ih]
          rw [← e']
          conv_lhs => rw [← Nat.mod_add_div k' L, Nat.mul_comm L, Function.iterate_add_apply, hmul]
        have offCycle : ∀ p, p < m * n → (∃ k, (nxt m n)^[k] p < s) → ∀ k, p ≠ (nxt m n)^[k] s := by
          rintro p hp ⟨k, e⟩ k' rfl
          rw [← Function.iterate_add_apply] at e
          have := fresh (k + k')
          omega
        have keepAll : ∀ k, B ((nxt m n)^[k] s) = A ((nxt m n)^[k] s) := fun k =>
          (g1 _ (iter_lt hs k)).2 (fun j => by rw [← Function.iterate_add_apply]; exact fresh _)
        by_cases c3 : L = 1
        · rw [if_pos (.inr c3)]
          refine ⟨B, rfl, fun p hp => ⟨?_, fun h => (g1 p hp).2 (fun k => Nat.le_of_succ_le (h k))⟩, g2⟩
          rintro ⟨k, hk⟩
          by_cases e : (nxt m n)^[k] p = s
          · obtain ⟨k, hk, rfl⟩ := onCycle p hp ⟨k, e⟩
            have : k = 0 := by omega
            subst this
            rw [keepAll 0, ← Function.iterate_succ_apply' (nxt m n)]
            rw [c3] at c2
            rw [c2]; rfl
          · exact (g1 p hp).1 ⟨k, by omega⟩
        · rw [if_neg (by omega)]
          obtain ⟨B', r1, r2, r3⟩ := rotate_at hs (A0 := B) c2 l4 (m * n) 0 B l1 (by omega) (fun _ _ _ => .inl rfl)
          rw [Function.iterate_zero_apply] at r1
          simp only [r1]
          refine ⟨B', rfl, fun p hp => ⟨?_, fun h => ?_⟩, fun p hp => ?_⟩
          · rintro ⟨k, hk⟩
            by_cases e : (nxt m n)^[k] p = s
            · obtain ⟨k, hk', rfl⟩ := onCycle p hp ⟨k, e⟩
              rw [r2 k (by omega) hk', keepAll, Function.iterate_succ_apply']
            · have lt : ∃ k, (nxt m n)^[k] p < s := ⟨k, by omega⟩
              rw [r3 p (fun k _ _ => offCycle p hp lt k)]
              exact (g1 p hp).1 lt
          · rw [r3 p (fun k _ _ e => by
              obtain ⟨k', e'⟩ := reaches_back hs e.symm
              have := h k'
              omega)]
            exact (g1 p hp).2 (fun k => Nat.le_of_succ_le (h k))
          · rw [r3 p (fun k _ _ e => by have := iter_lt hs k; omega)]
            exact g2 p hp)
  exact ⟨A', h1, fun p hp => (h2 p hp).1 ⟨0 + (m * n), iter_lt hp _⟩, h3⟩

/-- **C38**, twice: transposing back restores every place of the array. -/
theorem C38_twice {K : Type} (m n : Nat) (A : Nat → K) : (transpose m n A >>= fun A => transpose n m A) = .ok A := by
  obtain ⟨A1, h1, h2, h3⟩ := C38_transpose m n A
  obtain ⟨A2, g1, g2, g3⟩ := C38_transpose n m A1
  rw [h1, Res.ok_bind, g1]
  congr 1
  funext p
  rcases Nat.lt_or_ge p (m * n) with h | h
  · have hn : 0 < n := Nat.pos_of_ne_zero (fun e => by subst e; omega)
    have hd : p / n < m := by rw [Nat.div_lt_iff_lt_mul hn]; exact h
    have hm := Nat.mod_lt p hn
    rw [show p = p / n * n + p % n by rw [Nat.mul_comm]; exact (Nat.div_add_mod p n).symm, g2 _ _ hm hd, h2 _ _ hd hm]
  · rw [g3 p (by rw [Nat.mul_comm]; exact h), h3 p h]

/-- A shape with cycles of several lengths. -/
example : (transpose 3 4 (fun p => p)).bind (fun A => .ok ((List.range 12).map A)) = .ok [0, 4, 8, 1, 5, 9, 2, 6, 10, 3, 7, 11] := by decide

end OP.Lin
