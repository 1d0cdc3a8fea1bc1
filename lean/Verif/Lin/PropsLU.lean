import Verif.Lin.LULemmas
import Mathlib.Tactic.NormNum
/-!
# C41: LU decomposition
-/
namespace OP.Lin
open Finset
variable {K : Type} [Field K] [LinearOrder K] [IsStrictOrderedRing K]

/-! ## The scaling loop -/

theorem rowMax_spec {n i : Nat} (A : Nat → K) : 0 ≤ rowMax n i A ∧ (∀ j, j < n → |A (i * n + j)| ≤ rowMax n i A) ∧
    (rowMax n i A = 0 ∨ ∃ j, j < n ∧ rowMax n i A = |A (i * n + j)|) := by
  unfold rowMax
  refine loop_rule (fun k mx => 0 ≤ mx ∧ (∀ j, j < k → |A (i * n + j)| ≤ mx) ∧ (mx = 0 ∨ ∃ j, j < k ∧ mx = |A (i * n + j)|)) (Nat.zero_le n)
    ⟨le_refl _, by omega, .inl rfl⟩ ?_
  rintro k mx _ hk ⟨h0, h1, h2⟩
  split
  · rename_i hc
    refine ⟨abs_nonneg _, fun j hj => ?_, .inr ⟨k, by omega, rfl⟩⟩
    rcases Nat.lt_or_ge j k with h | h
    · exact le_trans (h1 j h) (le_of_lt hc)
    · rw [show j = k by omega]
  · rename_i hc
    refine ⟨h0, fun j hj => ?_, h2.imp id (fun ⟨j, h, e⟩ => ⟨j, by omega, e⟩)⟩
    rcases Nat.lt_or_ge j k with h | h
    · exact h1 j h
    · rw [show j = k by omega]; exact not_lt.mp hc

/-- A row in which some entry counts as nonzero. -/
def RowSeen (eps : K) (n : Nat) (A : Nat → K) (i : Nat) : Prop := ∃ j, j < n ∧ eps ≤ |A (i * n + j)|

theorem rowMax_seen {eps : K} (he : 0 < eps) {n i : Nat} {A : Nat → K} : eps ≤ rowMax n i A ↔ RowSeen eps n A i := by
  obtain ⟨h0, h1, h2⟩ := rowMax_spec (n := n) (i := i) A
  constructor
  · intro h
    rcases h2 with h2 | ⟨j, hj, e⟩
    · rw [h2] at h; exact absurd h (not_le.mpr he)
    · exact ⟨j, hj, by rw [← e]; exact h⟩
  · rintro ⟨j, hj, h⟩
    exact le_trans h (h1 j hj)

theorem luScale_ok {eps : K} (he : 0 < eps) {n : Nat} {A g : Nat → K} :
    (∀ w, luScale eps n A g = .ok w → (∀ i, i < n → RowSeen eps n A i) ∧ ∀ r, r < n → 0 < w r) ∧
    ((∀ i, i < n → RowSeen eps n A i) → ∃ w, luScale eps n A g = .ok w ∧ ∀ r, r < n → 0 < w r) ∧ luScale eps n A g ≠ .ub := by
  refine ⟨fun w h => ?_, fun h => ?_, ?_⟩
  · refine loopM_rule (fun k (w : Nat → K) => (∀ i, i < k → RowSeen eps n A i) ∧ ∀ r, r < k → 0 < w r) (Nat.zero_le n) ⟨by omega, by omega⟩ ?_ h
    rintro k w w' _ hk ⟨h1, h2⟩ e
    split at e
    · cases e
    · rename_i hc
      cases e
      have hs := (rowMax_seen he).mp (not_lt.mp hc)
      refine ⟨fun i hi => ?_, fun r hr => ?_⟩
      · rcases Nat.lt_or_ge i k with h | h
        · exact h1 i h
        · rw [show i = k by omega]; exact hs
      · rcases Nat.lt_or_ge r k with h | h
        · rw [set_ne _ _ (by omega)]; exact h2 r h
        · rw [show r = k by omega, set_same]; exact lt_of_lt_of_le he (not_lt.mp hc)
  · refine loopM_total (fun k (w : Nat → K) => ∀ r, r < k → 0 < w r) (Nat.zero_le n) (by omega) ?_
    intro k w _ hk h2
    have hs := (rowMax_seen he).mpr (h k hk)
    rw [if_neg (not_lt.mpr hs)]
    refine ⟨_, rfl, fun r hr => ?_⟩
    rcases Nat.lt_or_ge r k with h | h
    · rw [set_ne _ _ (by omega)]; exact h2 r h
    · rw [show r = k by omega, set_same]; exact lt_of_lt_of_le he hs
  · refine loopFromM_no_ub (fun _ _ => True) _ _ _ trivial (fun k s _ _ _ => ⟨?_, fun _ _ => trivial⟩)
    split <;> simp

theorem lu_start {n : Nat} {A : Nat → K} {idx : Nat → Nat} {w : Nat → K} (hw : ∀ r, r < n → 0 < w r) : LUInv n A 0 ⟨A, idx, w, 1⟩ :=
  ⟨fun _ _ => rfl, by omega, by omega, by omega, fun _ _ _ _ _ => rfl, hw, by simp⟩

/-- The factors as matrices. -/
def Lmat (n : Nat) (A : Nat → K) : Matrix (Fin n) (Fin n) K := fun r c => lowerF n A r c
def Umat (n : Nat) (A : Nat → K) : Matrix (Fin n) (Fin n) K := fun r c => upperF n A r c

/-- What `decmp_lu` promises about its results: the rows of A0, in the order given by the recorded exchanges, are the rows of L U. -/
structure Factored (n : Nat) (A0 : Nat → K) (A : Nat → K) (idx : Nat → Nat) : Prop where
  ran : ∀ c, c < n → c ≤ idx c ∧ idx c < n
  piv : ∀ c, c < n → A (c * n + c) ≠ 0
  prod : ∀ r c : Fin n, (Lmat n A * Umat n A) r c = A0 (rowsOf idx n r * n + c)

theorem LUInv.factored {n : Nat} {A0 : Nat → K} {s : LU K} (h : LUInv n A0 n s) : Factored n A0 s.A s.idx := by
  refine ⟨h.idx, h.piv, fun r c => ?_⟩
  rw [h.low r c r.2 c.2, ← lu_sum (N := n) s.A (by have := r.2; omega), Matrix.mul_apply]
  exact Fin.sum_univ_eq_sum_range (fun k => lowerF n s.A r k * upperF n s.A k c) n

theorem Factored.det {n : Nat} {A0 A : Nat → K} {idx : Nat → Nat} (h : Factored n A0 A idx) :
    (rect n n A0).det = ((∏ c ∈ range n, if idx c = c then 1 else -1 : Int) : K) * ∏ c ∈ range n, A (c * n + c) := by
  obtain ⟨σ, h1, h2⟩ := rows_perm (n := n) (idx := idx) (i := n) (Nat.le_refl _) (fun c hc => (h.ran c hc).2)
  have e : (rect n n A0).submatrix σ id = Lmat n A * Umat n A := by
    ext r c
    rw [h.prod r c, Matrix.submatrix_apply, id, ← h1 r]; rfl
  have hd := congrArg Matrix.det e
  rw [Matrix.det_permute, Matrix.det_mul] at hd
  have hL : (Lmat n A).det = 1 := by
    rw [Matrix.det_of_isLowerTriangular]
    · exact prod_eq_one (fun c _ => by simp [Lmat, lowerF])
    · intro r c hrc
      have : (r : Nat) < c := hrc
      simp only [Lmat, lowerF]
      rw [if_neg (by omega), if_neg (by omega)]
  have hU : (Umat n A).det = ∏ c ∈ range n, A (c * n + c) := by
    rw [Matrix.det_of_isUpperTriangular]
    · rw [← Fin.prod_univ_eq_prod_range (fun c => A (c * n + c)) n]
      exact prod_congr rfl (fun c _ => by simp [Umat, upperF])
    · intro r c hrc
      have : (c : Nat) < r := hrc
      simp only [Umat, upperF]
      rw [if_neg (by omega)]
  rw [hL, hU, one_mul] at hd
  have hs : ((Equiv.Perm.sign σ : Int) : K) * ((Equiv.Perm.sign σ : Int) : K) = 1 := by
    rcases Int.units_eq_one_or (Equiv.Perm.sign σ) with h | h <;> rw [h] <;> simp
  rw [← h2]
  calc (rect n n A0).det = (((Equiv.Perm.sign σ : Int) : K) * ((Equiv.Perm.sign σ : Int) : K)) * (rect n n A0).det := by rw [hs, one_mul]
    _ = _ := by rw [mul_assoc, hd]

/-- **C41**, the decomposition.  `decmp_lu` returns exactly when the matrix is nonsingular and every row has an entry of size at least `eps`;
otherwise it throws.  When it returns, the recorded exchanges and the packed factors satisfy P A = L U with L unit lower triangular
and U upper triangular with nonzero diagonal, `d` is the sign of the exchanges, and nothing outside the array is written. -/
theorem C41_decmp_lu {eps : K} (he : 0 < eps) {n : Nat} (hn : 0 < n) (A : Nat → K) (gi : Nat → Nat) (g : Nat → K) (d : Int) :
    ((∃ s, decmpLu eps n A gi g d = .ok s) ↔ (rect n n A).det ≠ 0 ∧ ∀ i, i < n → RowSeen eps n A i) ∧
    decmpLu eps n A gi g d ≠ .ub ∧
    ∀ s, decmpLu eps n A gi g d = .ok s → Factored n A s.A s.idx ∧ s.d = (∏ c ∈ range n, if s.idx c = c then 1 else -1) ∧
      (∀ p, n * n ≤ p → s.A p = A p) := by
  have ret : ∀ s, decmpLu eps n A gi g d = .ok s → LUInv n A n s ∧ ∀ i, i < n → RowSeen eps n A i := by
    intro s h
    unfold decmpLu at h
    rw [if_neg (by omega), Res.bind_eq_ok] at h
    obtain ⟨w, h1, h2⟩ := h
    obtain ⟨g1, g2⟩ := (luScale_ok he).1 w h1
    exact ⟨loopM_rule (LUInv n A) (Nat.zero_le n) (lu_start g2) (fun k s s' _ hk hi e => luStep_inv hk hi e) h2, g1⟩
  refine ⟨⟨?_, ?_⟩, ?_, ?_⟩
  · rintro ⟨s, h⟩
    obtain ⟨hi, hr⟩ := ret s h
    refine ⟨?_, hr⟩
    rw [hi.factored.det]
    refine mul_ne_zero ?_ (prod_ne_zero_iff.mpr (fun c hc => hi.piv c (mem_range.mp hc)))
    rw [Int.cast_prod]
    refine prod_ne_zero_iff.mpr (fun c _ => ?_)
    split <;> simp
  · rintro ⟨hdet, hr⟩
    obtain ⟨w, h1, h2⟩ := (luScale_ok he (g := g)).2.1 hr
    unfold decmpLu
    rw [if_neg (by omega), h1]
    simp only [Res.ok_bind]
    obtain ⟨s, hs, -⟩ := loopM_total (f := luStep n) (LUInv n A) (Nat.zero_le n) (lu_start (idx := gi) h2) (fun k s _ hk hi => by
      cases e : luStep n k s with
      | ok s' => exact ⟨s', rfl, luStep_inv hk hi e⟩
      | throw =>
        exfalso
        obtain ⟨A', p, A2, work', g1, g2, g3, g4, g5, g6, g7⟩ := luStep_cases hk hi
        rw [g7] at e
        split at e
        · rename_i h0
          exact hdet (no_pivot_singular hk hi g1 (g4 h0))
        · cases e
      | ub =>
        exfalso
        obtain ⟨A', p, A2, work', g1, g2, g3, g4, g5, g6, g7⟩ := luStep_cases hk hi
        rw [g7] at e
        split at e <;> cases e)
    exact ⟨s, hs⟩
  · unfold decmpLu
    rw [if_neg (by omega)]
    cases e : luScale eps n A g with
    | ok w =>
      simp only [Res.ok_bind]
      have := (luScale_ok he).1 w e
      refine loopFromM_no_ub (LUInv n A) _ _ _ (lu_start this.2) (fun k s _ hk hi => ⟨?_, fun s' h => luStep_inv (by omega) hi h⟩)
      obtain ⟨A', p, A2, work', g1, g2, g3, g4, g5, g6, g7⟩ := luStep_cases (by omega) hi
      rw [g7]; split <;> simp
    | throw => simp
    | ub => exact ((luScale_ok he).2.2 e).elim
  · intro s h
    obtain ⟨hi, -⟩ := ret s h
    exact ⟨hi.factored, hi.d, hi.frame⟩

/-! ## Back substitution -/

omit [LinearOrder K] [IsStrictOrderedRing K] in
/-- Upwards through column `c` of an array with `m` columns. -/
theorem backCol_at {n m c : Nat} (hc : c < m) {A y : Nat → K} (hp : ∀ c, c < n → A (c * n + c) ≠ 0) :
    let x := down n (fun i b =>
      let b := loop (i + 1) n (fun j b => set b (i * m + c) (b (i * m + c) - A (i * n + j) * b (j * m + c))) b
      set b (i * m + c) (b (i * m + c) / A (i * n + i))) y
    (∀ r, r < n → ∑ j ∈ Ico r n, A (r * n + j) * x (j * m + c) = y (r * m + c)) ∧
    (∀ r, n ≤ r → x (r * m + c) = y (r * m + c)) ∧ ∀ r c', c' < m → c' ≠ c → x (r * m + c') = y (r * m + c') := by
  have key := down_rule (n := n) (s := y) (f := fun i b =>
      let b := loop (i + 1) n (fun j b => set b (i * m + c) (b (i * m + c) - A (i * n + j) * b (j * m + c))) b
      set b (i * m + c) (b (i * m + c) / A (i * n + i))) (fun i (x : Nat → K) =>
    (∀ r, i ≤ r → r < n → ∑ j ∈ Ico r n, A (r * n + j) * x (j * m + c) = y (r * m + c)) ∧
    (∀ r, r < i ∨ n ≤ r → x (r * m + c) = y (r * m + c)) ∧ ∀ r c', c' < m → c' ≠ c → x (r * m + c') = y (r * m + c')) ⟨by omega, fun _ _ => rfl, fun _ _ _ _ => rfl⟩ ?_
  · intro x
    exact ⟨fun r hr => key.1 r (by omega) hr, fun r hr => key.2.1 r (.inr hr), key.2.2⟩
  · rintro i x hi ⟨h1, h2, h3⟩
    simp only
    rw [loop_acc (t := fun j b => A (i * n + j) * b (j * m + c)) (by omega)]
    · rw [set_set, set_same]
      have keep : ∀ v r, r ≠ i → set x (i * m + c) v (r * m + c) = x (r * m + c) := by
        intro v r hr; rw [set_addr _ _ hc hc, if_neg (by omega)]
      refine ⟨fun r hr hrn => ?_, fun r hr => ?_, fun r c' hc' hne => ?_⟩
      · by_cases hri : r = i
        · subst hri
          rw [sum_eq_sum_Ico_succ_bot hrn, set_same]
          rw [sum_congr rfl (fun j hj => congrArg (A (r * n + j) * ·) (keep _ j (by have := (mem_Ico.mp hj).1; omega)))]
          rw [h2 r (.inl (by omega))]
          have := hp r hrn
          field_simp
          ring
        · rw [sum_congr rfl (fun j hj => congrArg (A (r * n + j) * ·) (keep _ j (by have := (mem_Ico.mp hj).1; omega)))]
          exact h1 r (by omega) hrn
      · rw [keep _ r (by omega)]; exact h2 r (by omega)
      · rw [set_addr _ _ hc hc', if_neg (by omega)]; exact h3 r c' hc' hne
    · intro k v hk1 hk2
      rw [set_addr _ _ hc hc, if_neg (by omega)]

/-- Both substitutions: L U x = b with the rows of b exchanged. -/
theorem bksubLu_at {n m c : Nat} (hc : c < m) {A b : Nat → K} {idx : Nat → Nat} (hp : ∀ c, c < n → A (c * n + c) ≠ 0)
    (hidx : ∀ c, c < n → c ≤ idx c ∧ idx c < n) :
    (∀ r, r < n → ∑ k ∈ range n, lowerF n A r k * ∑ q ∈ range n, upperF n A k q * bksubLu n A idx b m c (q * m + c) = b (rowsOf idx n r * m + c)) ∧
    (∀ r, n ≤ r → bksubLu n A idx b m c (r * m + c) = b (r * m + c)) ∧
    ∀ r c', c' < m → c' ≠ c → bksubLu n A idx b m c (r * m + c') = b (r * m + c') := by
  obtain ⟨f, hf⟩ : ∃ f, f = loop 0 n (fun i (s : (Nat → K) × Nat) =>
    let j := idx i
    let sum := s.1 (j * m + c)
    let b := set s.1 (j * m + c) (s.1 (i * m + c))
    if s.2 > 0 then
      let sum := if s.2 ≤ i then loop (s.2 - 1) i (fun j sum => sum - A (i * n + j) * b (j * m + c)) sum else sum
      (set b (i * m + c) sum, s.2)
    else if sum ≠ 0 then (set b (i * m + c) sum, i + 1)
    else (set b (i * m + c) sum, s.2)) (b, 0) := ⟨_, rfl⟩
  have fwd : (∀ r c', c' < m → c' ≠ c ∨ n ≤ r → f.1 (r * m + c') = b (r * m + c')) ∧
      (∀ r, r < n → f.1 (r * m + c) + ∑ q ∈ range r, A (r * n + q) * f.1 (q * m + c) = b (rowsOf idx n r * m + c)) := by
    have := loop_rule (f := fun i (s : (Nat → K) × Nat) =>
      let j := idx i
      let sum := s.1 (j * m + c)
      let b := set s.1 (j * m + c) (s.1 (i * m + c))
      if s.2 > 0 then
        let sum := if s.2 ≤ i then loop (s.2 - 1) i (fun j sum => sum - A (i * n + j) * b (j * m + c)) sum else sum
        (set b (i * m + c) sum, s.2)
      else if sum ≠ 0 then (set b (i * m + c) sum, i + 1)
      else (set b (i * m + c) sum, s.2)) (fun i (s : (Nat → K) × Nat) =>
      (∀ r c', c' < m → c' ≠ c ∨ n ≤ r → s.1 (r * m + c') = b (r * m + c')) ∧
      (∀ r, i ≤ r → r < n → s.1 (r * m + c) = b (rowsOf idx i r * m + c)) ∧
      (∀ r, r < i → s.1 (r * m + c) + ∑ q ∈ range r, A (r * n + q) * s.1 (q * m + c) = b (rowsOf idx i r * m + c)) ∧
      (s.2 = 0 → ∀ r, r < i → s.1 (r * m + c) = 0) ∧ s.2 ≤ i ∧ (∀ r, r + 1 < s.2 → s.1 (r * m + c) = 0)) (Nat.zero_le n) (s := (b, 0))
      ⟨fun _ _ _ _ => rfl, fun _ _ _ => rfl, by omega, by omega, Nat.le_refl _, fun r h => by simp at h⟩ ?_
    · rw [← hf] at this
      exact ⟨this.1, this.2.2.1⟩
    · rintro i ⟨x, k⟩ _ hi ⟨h1, h2, h3, h4, h5, h6⟩
      obtain ⟨hj1, hj2⟩ := hidx i hi
      simp only at h1 h2 h3 h4 h5 h6
      -- the value stored in row i, whichever branch is taken
      obtain ⟨k', e, hk0, hk1, hk2⟩ : ∃ k', (let j := idx i
          let sum := x (j * m + c)
          let b := set x (j * m + c) (x (i * m + c))
          if k > 0 then
            let sum := if k ≤ i then loop (k - 1) i (fun j sum => sum - A (i * n + j) * b (j * m + c)) sum else sum
            (set b (i * m + c) sum, k)
          else if sum ≠ 0 then (set b (i * m + c) sum, i + 1)
          else (set b (i * m + c) sum, k)) =
            (set (set x (idx i * m + c) (x (i * m + c))) (i * m + c) (x (idx i * m + c) - ∑ q ∈ range i, A (i * n + q) * x (q * m + c)), k') ∧
          (k' = 0 → (∀ r, r < i → x (r * m + c) = 0) ∧ x (idx i * m + c) = 0) ∧ k' ≤ i + 1 ∧ ∀ r, r + 1 < k' → x (r * m + c) = 0 := by
        simp only
        split
        · rename_i hk
          have es : loop (k - 1) i (fun j sum => sum - A (i * n + j) * set x (idx i * m + c) (x (i * m + c)) (j * m + c)) (x (idx i * m + c)) =
              x (idx i * m + c) - ∑ q ∈ range i, A (i * n + q) * x (q * m + c) := by
            rw [loop_sub (fun j => A (i * n + j) * set x (idx i * m + c) (x (i * m + c)) (j * m + c)) _ (by omega)]
            congr 1
            rw [← sum_range_add_sum_Ico _ (show k - 1 ≤ i by omega), sum_eq_zero (s := range (k - 1)) (fun q hq => by
              have := mem_range.mp hq
              rw [h6 q (by omega), mul_zero]), zero_add]
            refine sum_congr rfl (fun q hq => ?_)
            have := mem_Ico.mp hq
            rw [set_addr _ _ hc hc, if_neg (by omega)]
          rw [es]
          exact ⟨k, rfl, by omega, by omega, h6⟩
        · rename_i hk
          have hk : k = 0 := by omega
          have ez : ∑ q ∈ range i, A (i * n + q) * x (q * m + c) = 0 :=
            sum_eq_zero (fun q hq => by rw [h4 hk q (mem_range.mp hq), mul_zero])
          rw [ez, sub_zero]
          split
          · exact ⟨i + 1, rfl, by omega, Nat.le_refl _, fun r hr => h4 hk r (by omega)⟩
          · rename_i hz
            exact ⟨k, rfl, fun _ => ⟨h4 hk, not_not.mp hz⟩, by omega, by omega⟩
      refine e ▸ ?_
      have b1 : ∀ r, r < i → set (set x (idx i * m + c) (x (i * m + c))) (i * m + c) (x (idx i * m + c) - ∑ q ∈ range i, A (i * n + q) * x (q * m + c)) (r * m + c) = x (r * m + c) := by
        intro r hr
        rw [set_addr _ _ hc hc, if_neg (by omega), set_addr _ _ hc hc, if_neg (by omega)]
      simp only
      refine ⟨fun r c' hc' hr => ?_, fun r hr hrn => ?_, fun r hr => ?_, fun hk r hr => ?_, hk1, fun r hr => ?_⟩
      · rw [set_addr _ _ hc hc', if_neg (by omega), set_addr _ _ hc hc', if_neg (by omega)]
        exact h1 r c' hc' hr
      · rw [set_addr _ _ hc hc, if_neg (by omega), set_addr _ _ hc hc, rowsOf_succ, ← h2 _ (swap_ge hj1 (by omega)) (swap_lt hi hj2 hrn)]
        by_cases hrj : r = idx i
        · rw [if_pos ⟨hrj, rfl⟩, hrj, Equiv.swap_apply_right]
        · rw [if_neg (by omega), Equiv.swap_apply_of_ne_of_ne (by omega) hrj]
      · rw [sum_congr rfl (fun q hq => congrArg (A (r * n + q) * ·) (b1 q (by have := mem_range.mp hq; omega)))]
        rcases Nat.lt_or_ge r i with hlt | hge
        · rw [b1 r hlt, rowsOf_succ, Equiv.swap_apply_of_ne_of_ne (by omega) (by omega)]
          exact h3 r hlt
        · have : r = i := by omega
          subst this
          rw [set_same, rowsOf_succ, Equiv.swap_apply_left, ← h2 _ hj1 hj2]
          ring
      · obtain ⟨z1, z2⟩ := hk0 hk
        rcases Nat.lt_or_ge r i with hlt | hge
        · rw [b1 r hlt]; exact z1 r hlt
        · have : r = i := by omega
          subst this
          rw [set_same, z2, zero_sub, neg_eq_zero]
          exact sum_eq_zero (fun q hq => by rw [z1 q (mem_range.mp hq), mul_zero])
      · rw [b1 r (by omega)]; exact hk2 r hr
  have bk := backCol_at (n := n) hc (y := f.1) hp
  have e : bksubLu n A idx b m c = down n (fun i b =>
      let b := loop (i + 1) n (fun j b => set b (i * m + c) (b (i * m + c) - A (i * n + j) * b (j * m + c))) b
      set b (i * m + c) (b (i * m + c) / A (i * n + i))) f.1 := by rw [hf]; rfl
  simp only at bk
  rw [e]
  obtain ⟨k1, k2, k3⟩ := bk
  refine ⟨fun r hr => ?_, fun r hr => by rw [k2 r hr]; exact fwd.1 r c hc (.inr hr), fun r c' hc' hne => by rw [k3 r c' hc' hne]; exact fwd.1 r c' hc' (.inl hne)⟩
  rw [← fwd.2 r hr]
  have eU : ∀ k, k < n → ∑ q ∈ range n, upperF n A k q * (down n (fun i b =>
      let b := loop (i + 1) n (fun j b => set b (i * m + c) (b (i * m + c) - A (i * n + j) * b (j * m + c))) b
      set b (i * m + c) (b (i * m + c) / A (i * n + i))) f.1) (q * m + c) = f.1 (k * m + c) := by
    intro k hk
    rw [← k1 k hk, ← sum_range_add_sum_Ico _ (Nat.le_of_lt hk), sum_eq_zero (s := range k) (fun q hq => by
      have := mem_range.mp hq
      unfold upperF; rw [if_neg (by omega), zero_mul]), zero_add]
    refine sum_congr rfl (fun q hq => ?_)
    have := mem_Ico.mp hq
    unfold upperF; rw [if_pos (by omega)]
  rw [sum_congr rfl (fun k hk => congrArg (lowerF n A r k * ·) (eU k (mem_range.mp hk)))]
  rw [← sum_range_add_sum_Ico _ (Nat.le_of_lt hr), sum_eq_sum_Ico_succ_bot hr, sum_eq_zero (s := Ico (r + 1) n) (fun q hq => by
    have := mem_Ico.mp hq
    unfold lowerF; rw [if_neg (by omega), if_neg (by omega), zero_mul])]
  rw [add_zero, add_comm]
  congr 1
  · unfold lowerF; rw [if_neg (Nat.lt_irrefl _), if_pos rfl, one_mul]
  · refine sum_congr rfl (fun q hq => ?_)
    have := mem_range.mp hq
    unfold lowerF; rw [if_pos (by omega)]

/-- **C41**, the solution.  From the results of a decomposition of A, `bksub_lu` replaces column c of b by the solution of A x = b, and
touches nothing else. -/
theorem C41_bksub_lu {n m c : Nat} (hc : c < m) {A0 A b : Nat → K} {idx : Nat → Nat} (h : Factored n A0 A idx) :
    (rect n n A0).mulVec (fun k => bksubLu n A idx b m c (k * m + c)) = (fun r : Fin n => b (r * m + c)) ∧
    (∀ r, n ≤ r → bksubLu n A idx b m c (r * m + c) = b (r * m + c)) ∧
    ∀ r c', c' < m → c' ≠ c → bksubLu n A idx b m c (r * m + c') = b (r * m + c') := by
  obtain ⟨h1, h2, h3⟩ := bksubLu_at (b := b) hc h.piv h.ran
  refine ⟨?_, h2, h3⟩
  obtain ⟨σ, hσ, -⟩ := rows_perm (n := n) (idx := idx) (i := n) (Nat.le_refl _) (fun c hc => (h.ran c hc).2)
  have key : ∀ r : Fin n, (rect n n A0).mulVec (fun k => bksubLu n A idx b m c (k * m + c)) (σ r) = b ((σ r : Fin n) * m + c) := by
    intro r
    rw [hσ r, ← h1 r r.2]
    have e : ∀ c : Fin n, rect n n A0 (σ r) c = ∑ k ∈ range n, lowerF n A r k * upperF n A k c := by
      intro q
      rw [show rect n n A0 (σ r) q = A0 (rowsOf idx n r * n + q) by unfold rect; rw [hσ r], ← h.prod r q, Matrix.mul_apply]
      exact Fin.sum_univ_eq_sum_range (fun k => lowerF n A r k * upperF n A k q) n
    simp only [Matrix.mulVec, dotProduct]
    rw [sum_congr rfl (fun q _ => by rw [e q])]
    rw [Fin.sum_univ_eq_sum_range (fun q => (∑ k ∈ range n, lowerF n A r k * upperF n A k q) * bksubLu n A idx b m c (q * m + c)) n]
    simp only [sum_mul]
    rw [sum_comm]
    refine sum_congr rfl (fun k _ => ?_)
    rw [mul_sum]
    exact sum_congr rfl (fun q _ => by ring)
  funext r
  obtain ⟨r', rfl⟩ := σ.surjective r
  exact key r'

omit [LinearOrder K] [IsStrictOrderedRing K] in
/-- The residual loop shared by the `equ_` functions. -/
theorem residual_at {n : Nat} (A b x g : Nat → K) :
    vect n (loop 0 n (fun i r => loop 0 n (fun j r => set r i (r i + A (i * n + j) * x j)) (set r i (-b i))) g) =
      (rect n n A).mulVec (vect n x) - vect n b := by
  have key := loop_rule (f := fun i r => loop 0 n (fun j r => set r i (r i + A (i * n + j) * x j)) (set r i (-b i)))
    (fun k (r : Nat → K) => ∀ i, i < k → r i = -b i + ∑ j ∈ range n, A (i * n + j) * x j) (Nat.zero_le n) (s := g) (by omega) (by
      intro k r _ hk h i hi
      rw [loop_acc_add (t := fun j _ => A (k * n + j) * x j) (Nat.zero_le n) (fun _ _ _ _ => rfl), set_set, set_same]
      rcases Nat.lt_or_ge i k with hlt | hge
      · rw [set_ne _ _ (by omega)]; exact h i hlt
      · rw [show i = k by omega, set_same, Nat.Ico_zero_eq_range])
  funext i
  simp only [vect, Pi.sub_apply, Matrix.mulVec, dotProduct, rect]
  rw [key i i.2, Fin.sum_univ_eq_sum_range (fun j => A (i * n + j) * x j) n]
  ring

omit [LinearOrder K] [IsStrictOrderedRing K] in
theorem subtract_at {n : Nat} (x r : Nat → K) :
    vect n (loop 0 n (fun i x => set x i (x i - r i)) x) = vect n x - vect n r := by
  have key := loop_rule (f := fun i x => set x i (x i - r i)) (fun k (y : Nat → K) => ∀ i, y i = if i < k then x i - r i else x i) (Nat.zero_le n) (s := x)
    (by intro i; rw [if_neg (by omega)]) (by
      intro k y _ hk h i
      by_cases e : i = k
      · subst e; rw [set_same, if_pos (by omega), h i, if_neg (by omega)]
      · rw [set_ne _ _ e, h i]
        by_cases hik : i < k
        · rw [if_pos hik, if_pos (by omega)]
        · rw [if_neg hik, if_neg (by omega)])
  funext i
  simp only [vect, Pi.sub_apply]
  rw [key i, if_pos i.2]

/-- **C41**, `equ_lu`: it returns the solution of A x = b, and throws, exactly as `decmp_lu` does. -/
theorem C41_equ_lu {eps : K} (he : 0 < eps) {n : Nat} (hn : 0 < n) (A b g : Nat → K) (gi : Nat → Nat) :
    ((∃ x, equLu eps n A b g gi = .ok x) ↔ (rect n n A).det ≠ 0 ∧ ∀ i, i < n → RowSeen eps n A i) ∧ equLu eps n A b g gi ≠ .ub ∧
    ∀ x, equLu eps n A b g gi = .ok x → (rect n n A).mulVec (vect n x) = vect n b := by
  obtain ⟨h1, h2, h3⟩ := C41_decmp_lu he hn A gi g 0
  unfold equLu
  rw [if_neg (by omega), ← h1]
  cases e : decmpLu eps n A gi g 0 with
  | ub => exact (h2 e).elim
  | throw => simp
  | ok s =>
    refine ⟨by simp, by simp, fun x hx => ?_⟩
    simp only [Res.ok_bind, Res.ok.injEq] at hx
    subst hx
    have hf := (h3 s e).1
    have hd : (rect n n A).det ≠ 0 := (h1.mp ⟨s, e⟩).1
    have sol : ∀ b : Nat → K, (rect n n A).mulVec (vect n (bksubLu n s.A s.idx b 1 0)) = vect n b := by
      intro b
      have := (C41_bksub_lu (b := b) (m := 1) (c := 0) (by omega) hf).1
      simp only [Nat.mul_one, Nat.add_zero] at this
      exact this
    rw [subtract_at, Matrix.mulVec_sub, sol, sol, residual_at, sol, sub_self, sub_zero]

/-- Every column solved in turn. -/
theorem bksubLu_columns {n m : Nat} {A0 A B : Nat → K} {idx : Nat → Nat} (h : Factored n A0 A idx) :
    rect n n A0 * rect n m (loop 0 m (fun i B => bksubLu n A idx B m i) B) = rect n m B ∧
    (0 < m → ∀ p, n * m ≤ p → loop 0 m (fun i B => bksubLu n A idx B m i) B p = B p) := by
  have key := loop_rule (f := fun i B => bksubLu n A idx B m i) (fun k (X : Nat → K) =>
      (∀ c, c < m → ∀ r : Fin n, if c < k then (rect n n A0).mulVec (fun q => X (q * m + c)) r = B (r * m + c) else X (r * m + c) = B (r * m + c)) ∧
      ∀ r c, c < m → n ≤ r → X (r * m + c) = B (r * m + c)) (Nat.zero_le m) (s := B)
    ⟨fun c _ r => by rw [if_neg (by omega)], fun _ _ _ _ => rfl⟩ (by
      rintro k X _ hk ⟨g1, g2⟩
      obtain ⟨b1, b2, b3⟩ := C41_bksub_lu (b := X) hk h
      refine ⟨fun c hc r => ?_, fun r c hc hr => ?_⟩
      · by_cases e : c = k
        · subst e
          rw [if_pos (by omega), b1]
          have := g1 c hc r
          rwa [if_neg (by omega)] at this
        · have := g1 c hc r
          by_cases hlt : c < k
          · rw [if_pos (by omega)]
            rw [if_pos hlt] at this
            rw [← this]
            congr 1; congr 1
            funext q; exact b3 q c hc e
          · rw [if_neg (by omega)]
            rw [if_neg hlt] at this
            rw [b3 r c hc e, this]
      · rw [← g2 r c hc hr]
        by_cases e : c = k
        · subst e; exact b2 r hr
        · exact b3 r c hc e)
  refine ⟨?_, fun hm p hp => frame_of_rows (fun r c hc hr => key.2 r c hc hr) hp hm⟩
  ext r c
  have := key.1 c c.2 r
  rw [if_pos c.2] at this
  rw [Matrix.mul_apply]
  exact this

/-- **C41**, `inv_mul_lu`: for a nonempty matrix it replaces B by X with A X = B and returns the determinant of A, sign included; it
throws exactly as `decmp_lu` does. -/
theorem C41_inv_mul_lu {eps : K} (he : 0 < eps) {n m : Nat} (hn : 0 < n) (A B g : Nat → K) (gi : Nat → Nat) :
    ((∃ x, invMulLu eps n m A B g gi = .ok x) ↔ (rect n n A).det ≠ 0 ∧ ∀ i, i < n → RowSeen eps n A i) ∧ invMulLu eps n m A B g gi ≠ .ub ∧
    ∀ X d, invMulLu eps n m A B g gi = .ok (X, d) →
      rect n n A * rect n m X = rect n m B ∧ d = (rect n n A).det ∧ (0 < m → ∀ p, n * m ≤ p → X p = B p) := by
  obtain ⟨h1, h2, h3⟩ := C41_decmp_lu he hn A gi g 0
  unfold invMulLu
  rw [if_neg (by omega), ← h1]
  cases e : decmpLu eps n A gi g 0 with
  | ub => exact (h2 e).elim
  | throw => simp
  | ok s =>
    refine ⟨by simp, by simp, fun X d hx => ?_⟩
    simp only [Res.ok_bind, Res.ok.injEq, Prod.mk.injEq] at hx
    obtain ⟨rfl, rfl⟩ := hx
    obtain ⟨hf, hd, -⟩ := h3 s e
    refine ⟨(bksubLu_columns hf).1, ?_, (bksubLu_columns hf).2⟩
    rw [hf.det, ← hd]
    refine loop_rule (fun k v => v = (s.d : K) * ∏ c ∈ range k, s.A (c * n + c)) (Nat.zero_le n) (by simp) ?_
    intro k v _ _ hv
    rw [hv, prod_range_succ, mul_assoc]

/-- **C41**, `inv_lu`: for a nonempty matrix it replaces A by its inverse, and throws exactly as `decmp_lu` does. -/
theorem C41_inv_lu {eps : K} (he : 0 < eps) {n : Nat} (hn : 0 < n) (A g : Nat → K) (gi : Nat → Nat) :
    ((∃ x, invLu eps n A g gi = .ok x) ↔ (rect n n A).det ≠ 0 ∧ ∀ i, i < n → RowSeen eps n A i) ∧ invLu eps n A g gi ≠ .ub ∧
    ∀ X, invLu eps n A g gi = .ok X →
      rect n n A * rect n n X = 1 ∧ rect n n X * rect n n A = 1 ∧ (∀ p, n * n ≤ p → X p = A p) := by
  obtain ⟨h1, h2, h3⟩ := C41_decmp_lu he hn A gi g 0
  unfold invLu
  rw [if_neg (by omega), ← h1]
  cases e : decmpLu eps n A gi g 0 with
  | ub => exact (h2 e).elim
  | throw => simp
  | ok s =>
    refine ⟨by simp, by simp, fun X hx => ?_⟩
    simp only [Res.ok_bind, Res.ok.injEq] at hx
    subst hx
    obtain ⟨hf, hd, -⟩ := h3 s e
    have z := loop_rule (f := fun p I => set I p 0) (fun k (I : Nat → K) => ∀ p, I p = if p < k then 0 else A p) (Nat.zero_le (n * n)) (s := A)
      (by intro p; rw [if_neg (by omega)]) (by
        intro k I _ _ h p
        by_cases e : p = k
        · subst e; rw [set_same, if_pos (by omega)]
        · rw [set_ne _ _ e, h p]
          by_cases hpk : p < k
          · rw [if_pos hpk, if_pos (by omega)]
          · rw [if_neg hpk, if_neg (by omega)])
    have o := loop_rule (f := fun i I => set I (i * n + i) 1) (fun k (I : Nat → K) =>
        (∀ r c, r < n → c < n → I (r * n + c) = if r = c ∧ r < k then 1 else 0) ∧ ∀ p, n * n ≤ p → I p = A p) (Nat.zero_le n)
      (s := loop 0 (n * n) (fun p I => set I p 0) A)
      ⟨fun r c hr hc => by rw [z, if_pos (addr_lt hr hc), if_neg (by omega)], fun p hp => by rw [z, if_neg (by omega)]⟩ (by
        rintro k I _ hk ⟨g1, g2⟩
        refine ⟨fun r c hr hc => ?_, fun p hp => ?_⟩
        · rw [set_addr _ _ hk hc, g1 r c hr hc]
          by_cases e : r = k ∧ c = k
          · rw [if_pos e, if_pos (by omega)]
          · rw [if_neg e]
            by_cases e2 : r = c ∧ r < k
            · rw [if_pos e2, if_pos (by omega)]
            · rw [if_neg e2, if_neg (by omega)]
        · rw [set_ne _ _ (by have := addr_lt hk hk; omega)]; exact g2 p hp)
    have main : rect n n A * rect n n (loop 0 n (fun i I => bksubLu n s.A s.idx I n i) (loop 0 n (fun i I => set I (i * n + i) 1) (loop 0 (n * n) (fun p I => set I p 0) A))) = 1 := by
      rw [(bksubLu_columns hf).1]
      ext r c
      rw [Matrix.one_apply, rect, o.1 r c r.2 c.2]
      by_cases e : r = c
      · rw [if_pos e, if_pos ⟨by rw [e], r.2⟩]
      · rw [if_neg e, if_neg (fun h => e (Fin.ext h.1))]
    exact ⟨main, mul_eq_one_comm.mp main, fun p hp => by rw [(bksubLu_columns hf).2 hn p hp, o.2 p hp]⟩

/-- **C41**, what fails: the determinant reported for the empty matrix is zero, though its determinant is one. -/
theorem C41_empty_determinant_wrong (eps : K) (m : Nat) (A B g : Nat → K) (gi : Nat → Nat) :
    invMulLu eps 0 m A B g gi = .ok (B, 0) ∧ (rect 0 0 A).det = 1 := ⟨rfl, by simp⟩

/-- **C41**, what fails: a nonsingular matrix with a row of small entries is reported as singular, whatever the other rows hold. -/
theorem C41_small_row_rejected {eps : K} (he : 0 < eps) {n : Nat} (hn : 0 < n) (A b g : Nat → K) (gi : Nat → Nat) {i : Nat} (hi : i < n)
    (hs : ∀ j, j < n → |A (i * n + j)| < eps) : decmpLu eps n A gi g 0 = .throw ∧ equLu eps n A b g gi = .throw := by
  have no : ¬ ∀ i, i < n → RowSeen eps n A i := fun h => by
    obtain ⟨j, hj, e⟩ := h i hi
    exact absurd e (not_le.mpr (hs j hj))
  obtain ⟨h1, h2, -⟩ := C41_decmp_lu he hn A gi g 0
  obtain ⟨g1, g2, -⟩ := C41_equ_lu he hn A b g gi
  constructor
  · cases e : decmpLu eps n A gi g 0 with
    | ok s => exact (no (h1.mp ⟨s, e⟩).2).elim
    | throw => rfl
    | ub => exact (h2 e).elim
  · cases e : equLu eps n A b g gi with
    | ok s => exact (no (g1.mp ⟨s, e⟩).2).elim
    | throw => rfl
    | ub => exact (g2 e).elim

/-- The hypotheses are met by a nonsingular matrix whose second row is small. -/
example : ∃ A : Nat → ℚ, (rect 2 2 A).det ≠ 0 ∧ ∀ j, j < 2 → |A (1 * 2 + j)| < 1 / 1000 := by
  refine ⟨fun p => if p = 0 then 1 else if p = 3 then 1 / 2000 else 0, by rw [Matrix.det_fin_two]; norm_num [rect], fun j hj => ?_⟩
  rcases j with _ | _ | j
  · norm_num
  · norm_num
  · omega

/-- A matrix which needs a row exchange: the solution, and the determinant with its sign. -/
example : (equLu (1 / 1000 : ℚ) 2 (fun p => if p = 0 then 0 else p) (fun p => p + 1) (fun _ => 7) (fun _ => 9)).bind (fun x => .ok (x 0, x 1)) =
    .ok (-1 / 2, 1) := by decide +kernel
example : (invMulLu (1 / 1000 : ℚ) 2 1 (fun p => if p = 0 then 0 else p) (fun p => p + 1) (fun _ => 7) (fun _ => 9)).bind (fun x => .ok (x.1 0, x.1 1, x.2)) =
    .ok (-1 / 2, 1, -2) := by decide +kernel

end OP.Lin
