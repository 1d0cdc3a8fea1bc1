import Verif.Lin.CholLemmas
import Mathlib.Analysis.SpecialFunctions.Sqrt
/-!
# C42: Cholesky decomposition
-/
namespace OP.Lin
open Finset

section Congr
variable {S : Type}

theorem loopFrom_congr {f g : Nat → S → S} : ∀ (m i : Nat) (s : S), (∀ k s, i ≤ k → k < i + m → f k s = g k s) → loopFrom f m i s = loopFrom g m i s
  | 0, _, _, _ => rfl
  | m + 1, i, s, h => by
    simp only [loopFrom]
    rw [h i s (Nat.le_refl _) (by omega)]
    exact loopFrom_congr m (i + 1) _ (fun k s h1 h2 => h k s (by omega) (by omega))

theorem loop_congr {f g : Nat → S → S} {lo lo' hi hi' : Nat} (s : S) (h1 : lo = lo') (h2 : hi = hi') (h : ∀ k s, lo ≤ k → k < hi → f k s = g k s) :
    loop lo hi f s = loop lo' hi' g s := by
  subst h1; subst h2
  exact loopFrom_congr _ _ _ (fun k s h1 h2 => h k s h1 (by omega))

theorem loopFromM_congr {f g : Nat → S → Res S} : ∀ (m i : Nat) (s : S), (∀ k s, i ≤ k → k < i + m → f k s = g k s) → loopFromM f m i s = loopFromM g m i s
  | 0, _, _, _ => rfl
  | m + 1, i, s, h => by
    simp only [loopFromM]
    rw [h i s (Nat.le_refl _) (by omega)]
    congr 1
    funext s'
    exact loopFromM_congr m (i + 1) _ (fun k s h1 h2 => h k s (by omega) (by omega))

theorem loopM_congr {f g : Nat → S → Res S} {lo lo' hi hi' : Nat} (s : S) (h1 : lo = lo') (h2 : hi = hi') (h : ∀ k s, lo ≤ k → k < hi → f k s = g k s) :
    loopM lo hi f s = loopM lo' hi' g s := by
  subst h1; subst h2
  exact loopFromM_congr _ _ _ (fun k s h1 h2 => h k s h1 (by omega))

theorem down_congr {f g : Nat → S → S} : ∀ (n : Nat) (s : S), (∀ k s, k < n → f k s = g k s) → down n f s = down n g s
  | 0, _, _ => rfl
  | n + 1, s, h => by
    simp only [down]
    rw [h n s (by omega)]
    exact down_congr n _ (fun k s hk => h k s (by omega))

end Congr

variable {K : Type} [Field K] [LinearOrder K] [IsStrictOrderedRing K]

/-! ## The matrices an array stands for -/

/-- The symmetric matrix whose lower triangle is in the rows of the array. -/
def lowerSym (n : Nat) (A : Nat → K) : Matrix (Fin n) (Fin n) K := fun i j => A (max (i : Nat) j * n + min (i : Nat) j)
/-- The symmetric matrix in triangular storage. -/
def triSym (n : Nat) (A : Nat → K) : Matrix (Fin n) (Fin n) K := fun i j => A (tIdx (min (i : Nat) j) (max (i : Nat) j))
/-- The symmetric matrix in band storage. -/
def bandSym (n w : Nat) (A : Nat → K) : Matrix (Fin n) (Fin n) K :=
  fun i j => if max (i : Nat) j ≤ min (i : Nat) j + w then A (bIdx n w (min i j) (max i j)) else 0

omit [LinearOrder K] [IsStrictOrderedRing K] in
theorem rect_lowerSym {n : Nat} {A : Nat → K} (h : ∀ i j, i < n → j < n → A (i * n + j) = A (j * n + i)) : rect n n A = lowerSym n A := by
  ext i j
  unfold rect lowerSym
  rcases Nat.le_total (i : Nat) j with e | e
  · rw [Nat.max_eq_right e, Nat.min_eq_left e, h i j i.2 j.2]
  · rw [Nat.max_eq_left e, Nat.min_eq_right e]

omit [LinearOrder K] [IsStrictOrderedRing K] in
theorem lowerSym_symOf (n : Nat) (A : Nat → K) : symOf (fun k i => i * n + k) n n A = lowerSym n A := by
  ext i j
  unfold symOf lowerSym
  rw [if_pos (by have := i.2; have := j.2; omega)]

omit [LinearOrder K] [IsStrictOrderedRing K] in
theorem triSym_symOf (n : Nat) (A : Nat → K) : symOf tIdx n n A = triSym n A := by
  ext i j
  unfold symOf triSym
  rw [if_pos (by have := i.2; have := j.2; omega)]

/-- The lower factor left in the rows of the array, with reciprocals on the diagonal. -/
def lowerL (n : Nat) (A : Nat → K) : Matrix (Fin n) (Fin n) K :=
  fun i j => if (j : Nat) < i then A (i * n + j) else if (j : Nat) = i then 1 / A (i * n + i) else 0
/-- The upper factor left in triangular storage. -/
def triU (n : Nat) (A : Nat → K) : Matrix (Fin n) (Fin n) K :=
  fun i j => if (i : Nat) ≤ j then A (tIdx i j) else 0
/-- The upper factor left in band storage, with reciprocals on the diagonal. -/
def bandU (n w : Nat) (A : Nat → K) : Matrix (Fin n) (Fin n) K :=
  fun i j => if (i : Nat) < j ∧ (j : Nat) ≤ i + w then A (bIdx n w i j) else if (i : Nat) = j then 1 / A (bIdx n w i i) else 0

omit [IsStrictOrderedRing K] in
theorem lower_inj {n w : Nat} : ∀ i j i' j', InBand n w i j → InBand n w i' j' → (fun k i => i * n + k) i j = (fun k i => i * n + k) i' j' → i = i' ∧ j = j' := by
  rintro i j i' j' ⟨h1, h2, h3⟩ ⟨h1', h2', h3'⟩ e
  have := (addr_inj (show i < n by omega) (show i' < n by omega)).mp e
  exact ⟨this.2, this.1⟩

theorem decmpChol_gen (rt : K → K) (n : Nat) (A : Nat → K) :
    decmpChol rt n A = gchol (fun k i => i * n + k) (fun x => 1 / rt x) (fun s d => s * d) n n A := by
  unfold decmpChol gchol
  refine loopM_congr _ rfl rfl (fun i A _ hi => loopM_congr _ rfl (by omega) (fun j A h1 h2 => ?_))
  simp only
  rw [loop_congr _ (show 0 = j - n by omega) rfl (fun k s _ _ => rfl)]

theorem decmpCholTri_gen (rt : K → K) (n : Nat) (A : Nat → K) :
    decmpCholTri rt n A = gchol tIdx rt (fun s d => s / d) n n A := by
  unfold decmpCholTri gchol
  refine loopM_congr _ rfl rfl (fun i A _ hi => loopM_congr _ rfl (by omega) (fun j A h1 h2 => ?_))
  simp only
  rw [loop_congr _ (show 0 = j - n by omega) rfl (fun k s _ _ => rfl)]

theorem decmpCholBand_gen (rt : K → K) (n w : Nat) (A : Nat → K) :
    decmpCholBand rt n w A = gchol (bIdx n w) (fun x => 1 / rt x) (fun s d => s * d) n w A := by
  unfold decmpCholBand gchol
  refine loopM_congr _ rfl rfl (fun i A _ hi => loopM_congr _ rfl rfl (fun j A h1 h2 => ?_))
  simp only
  rw [loop_congr _ (show (if w > j then 0 else j - w) = j - w by split <;> omega) rfl (fun k s _ _ => rfl)]

theorem bksubChol_gen (n : Nat) (A b : Nat → K) (m c : Nat) : bksubChol n A b m c = gbksub (fun k i => i * n + k) n n A b m c := by
  unfold bksubChol gbksub
  simp only
  rw [loop_congr b rfl rfl (fun i b _ hi => by
    rw [loop_congr b (show 0 = i - n by omega) rfl (fun k s _ _ => rfl)])]
  refine down_congr _ _ (fun i b hi => ?_)
  rw [loop_congr b rfl (show n = min (i + 1 + n) n by omega) (fun k s _ _ => rfl)]

theorem bksubCholBand_gen (n w : Nat) (A b : Nat → K) (m c : Nat) : bksubCholBand n w A b m c = gbksub (bIdx n w) n w A b m c := by
  unfold bksubCholBand gbksub
  simp only
  rw [loop_congr b rfl rfl (fun i b _ hi => by
    rw [loop_congr b (show (if w > i then 0 else i - w) = i - w by split <;> omega) rfl (fun k s _ _ => rfl)])]

theorem full_spec {rt : K → K} (hrt : IsRoot rt) {n : Nat} {A0 A : Nat → K} (h : decmpChol rt n A0 = .ok A) :
    CInv (fun k i => i * n + k) recip n n A0 n n A := by
  rw [decmpChol_gen] at h
  exact (gchol_spec (und := recip) lower_inj hrt (fun x => by simp [recip]) (fun s d => by simp [recip])).2.2 A h

theorem band_spec {rt : K → K} (hrt : IsRoot rt) {n w : Nat} (hw : w ≤ n) {A0 A : Nat → K} (h : decmpCholBand rt n w A0 = .ok A) :
    CInv (bIdx n w) recip n w A0 n n A := by
  rw [decmpCholBand_gen] at h
  exact (gchol_spec (und := recip) (C39_band_partial hw).2.1 hrt (fun x => by simp [recip]) (fun s d => by simp [recip])).2.2 A h

/-- **C42**, full storage.  `decmp_chol` returns exactly when the symmetric matrix whose lower triangle it is given is positive definite, and
throws otherwise.  What it returns is a lower triangular L with positive diagonal and L L' equal to that matrix; nothing outside the lower
triangle is written. -/
theorem C42_decmp_chol {rt : K → K} (hrt : IsRoot rt) (n : Nat) (A : Nat → K) :
    ((∃ A', decmpChol rt n A = .ok A') ↔ PosDefinite (lowerSym n A)) ∧ decmpChol rt n A ≠ .ub ∧
    ∀ A', decmpChol rt n A = .ok A' → lowerL n A' * (lowerL n A').transpose = lowerSym n A ∧ (∀ i, i < n → 0 < A' (i * n + i)) ∧
      ∀ p, (∀ i j, j ≤ i → i < n → p ≠ i * n + j) → A' p = A p := by
  obtain ⟨h1, h2, -⟩ := gchol_spec (ad := fun k i => i * n + k) (n := n) (w := n) (A0 := A) (und := recip) (dg := fun x => 1 / rt x) (off := fun s d => s * d)
    lower_inj hrt (fun x => by simp [recip]) (fun s d => by simp [recip])
  rw [lowerSym_symOf] at h1
  rw [← decmpChol_gen] at h1 h2
  refine ⟨h1, h2, fun A' e => ?_⟩
  have hi := full_spec hrt e
  refine ⟨?_, fun i hi' => ?_, fun p hp => hi.frame p (fun k l hkl => hp l k hkl.1 hkl.2.2)⟩
  · rw [← lowerSym_symOf, ← chol_product hi]
    have : UfMat (fun k i => i * n + k) recip n n A' = (lowerL n A').transpose := by
      ext q l
      simp only [UfMat, Uf, lowerL, Matrix.transpose_apply, recip]
      split
      · rw [if_pos (by have := l.2; omega)]
      · rfl
    rw [this, Matrix.transpose_transpose]
  · have := hi.pos i hi' (.inl hi')
    simpa [recip] using this

/-- **C42**, triangular storage: the same for `decmp_chol_tri`, with U' U equal to the matrix. -/
theorem C42_decmp_chol_tri {rt : K → K} (hrt : IsRoot rt) (n : Nat) (A : Nat → K) :
    ((∃ A', decmpCholTri rt n A = .ok A') ↔ PosDefinite (triSym n A)) ∧ decmpCholTri rt n A ≠ .ub ∧
    ∀ A', decmpCholTri rt n A = .ok A' → (triU n A').transpose * triU n A' = triSym n A ∧ (∀ i, i < n → 0 < A' (tIdx i i)) ∧
      ∀ p, tSize n ≤ p → A' p = A p := by
  obtain ⟨t1, t2, -⟩ := C39_triangular n
  obtain ⟨h1, h2, h3⟩ := gchol_spec (ad := tIdx) (n := n) (w := n) (A0 := A) (und := id) (dg := rt) (off := fun s d => s / d)
    (fun i j i' j' hb hb' => t2 i j i' j' hb.1 hb'.1) hrt (fun _ => rfl) (fun _ _ => rfl)
  rw [triSym_symOf] at h1
  rw [← decmpCholTri_gen] at h1 h2 h3
  refine ⟨h1, h2, fun A' e => ?_⟩
  have hi := h3 A' e
  refine ⟨?_, fun i hi' => hi.pos i hi' (.inl hi'), fun p hp => hi.frame p (fun k l hkl => ?_)⟩
  · rw [← triSym_symOf, ← chol_product hi]
    have : UfMat tIdx id n n A' = triU n A' := by
      ext q l
      simp only [UfMat, Uf, triU, id]
      have := l.2
      by_cases h1 : (q : Nat) < l
      · rw [if_pos h1, if_pos (by omega), if_pos (by omega)]
      · rw [if_neg h1]
        by_cases h2 : (q : Nat) = l
        · rw [if_pos h2, if_pos (by omega), h2]
        · rw [if_neg h2, if_neg (by omega)]
    rw [this]
  · have := t1 k l hkl.1 hkl.2.2
    omega

/-- **C42**, band storage: the same for the banded `decmp_chol`, when the half band width does not exceed the order; nothing outside the storage
advertised by `B_SIZE` is written.  The full property asks for every width: for wider bands the storage is too small, see
`C39_wide_band_overruns`. -/
theorem C42_decmp_chol_band_partial {rt : K → K} (hrt : IsRoot rt) {n w : Nat} (hw : w ≤ n) (A : Nat → K) :
    ((∃ A', decmpCholBand rt n w A = .ok A') ↔ PosDefinite (bandSym n w A)) ∧ decmpCholBand rt n w A ≠ .ub ∧
    ∀ A', decmpCholBand rt n w A = .ok A' → (bandU n w A').transpose * bandU n w A' = bandSym n w A ∧ (∀ i, i < n → 0 < A' (bIdx n w i i)) ∧
      ∀ p, bSize n w ≤ p → A' p = A p := by
  obtain ⟨t1, t2, -⟩ := C39_band_partial hw
  obtain ⟨h1, h2, -⟩ := gchol_spec (ad := bIdx n w) (n := n) (w := w) (A0 := A) (und := recip) (dg := fun x => 1 / rt x) (off := fun s d => s * d)
    t2 hrt (fun x => by simp [recip]) (fun s d => by simp [recip])
  rw [← decmpCholBand_gen] at h1 h2
  refine ⟨h1, h2, fun A' e => ?_⟩
  have hi := band_spec hrt hw e
  refine ⟨?_, fun i hi' => ?_, fun p hp => hi.frame p (fun k l hkl => ?_)⟩
  · have : UfMat (bIdx n w) recip n w A' = bandU n w A' := by
      ext q l
      simp only [UfMat, Uf, bandU, recip]
      by_cases h1 : (q : Nat) < l
      · rw [if_pos h1]
        by_cases h2 : (l : Nat) ≤ q + w
        · rw [if_pos h2, if_pos ⟨h1, h2⟩]
        · rw [if_neg h2, if_neg (by omega), if_neg (by omega)]
      · rw [if_neg h1, if_neg (show ¬((q : Nat) < l ∧ (l : Nat) ≤ q + w) from fun h => h1 h.1)]
        by_cases h2 : (q : Nat) = l
        · rw [if_pos h2, if_pos h2, h2]
        · rw [if_neg h2, if_neg h2]
    rw [← this]
    exact chol_product hi
  · have := hi.pos i hi' (.inl hi')
    simpa [recip] using this
  · have := t1 k l hkl
    omega

/-- **C42**, `bksub_chol`: from a decomposition it replaces column c of b by the solution of A x = b and touches nothing else. -/
theorem C42_bksub_chol {rt : K → K} (hrt : IsRoot rt) {n m c : Nat} (hc : c < m) {A A' b : Nat → K} (h : decmpChol rt n A = .ok A') :
    (lowerSym n A).mulVec (fun k : Fin n => bksubChol n A' b m c (k * m + c)) = (fun r : Fin n => b (r * m + c)) ∧
    (∀ r, n ≤ r → bksubChol n A' b m c (r * m + c) = b (r * m + c)) ∧
    ∀ r c', c' < m → c' ≠ c → bksubChol n A' b m c (r * m + c') = b (r * m + c') := by
  rw [bksubChol_gen, ← lowerSym_symOf]
  exact gbksub_solves hc (full_spec hrt h)

/-- **C42**, `bksub_chol` for a band no wider than the order. -/
theorem C42_bksub_chol_band_partial {rt : K → K} (hrt : IsRoot rt) {n w m c : Nat} (hw : w ≤ n) (hc : c < m) {A A' b : Nat → K} (h : decmpCholBand rt n w A = .ok A') :
    (bandSym n w A).mulVec (fun k : Fin n => bksubCholBand n w A' b m c (k * m + c)) = (fun r : Fin n => b (r * m + c)) ∧
    (∀ r, n ≤ r → bksubCholBand n w A' b m c (r * m + c) = b (r * m + c)) ∧
    ∀ r c', c' < m → c' ≠ c → bksubCholBand n w A' b m c (r * m + c') = b (r * m + c') := by
  rw [bksubCholBand_gen]
  exact gbksub_solves hc (band_spec hrt hw h)

/-- **C42**, `equ_chol`: it returns the solution exactly when the matrix is positive definite. -/
theorem C42_equ_chol {rt : K → K} (hrt : IsRoot rt) {n : Nat} (hn : 0 < n) (A b g : Nat → K) :
    ((∃ x, equChol rt n A b g = .ok x) ↔ PosDefinite (lowerSym n A)) ∧ equChol rt n A b g ≠ .ub ∧
    ∀ x, equChol rt n A b g = .ok x → (lowerSym n A).mulVec (vect n x) = vect n b := by
  obtain ⟨h1, h2, h3⟩ := C42_decmp_chol hrt n A
  unfold equChol
  rw [if_neg (by omega), ← h1]
  cases e : decmpChol rt n A with
  | ub => exact (h2 e).elim
  | throw => simp
  | ok s =>
    refine ⟨by simp, by simp, fun x hx => ?_⟩
    simp only [Res.ok_bind, Res.ok.injEq] at hx
    subst hx
    have := (C42_bksub_chol hrt (b := b) (m := 1) (c := 0) (by omega) e).1
    simp only [Nat.mul_one, Nat.add_zero] at this
    exact this

/-- **C42**, `equ_chol` for a band no wider than the order. -/
theorem C42_equ_chol_band_partial {rt : K → K} (hrt : IsRoot rt) {n w : Nat} (hn : 0 < n) (hw : w ≤ n) (A b g : Nat → K) :
    ((∃ x, equCholBand rt n w A b g = .ok x) ↔ PosDefinite (bandSym n w A)) ∧ equCholBand rt n w A b g ≠ .ub ∧
    ∀ x, equCholBand rt n w A b g = .ok x → (bandSym n w A).mulVec (vect n x) = vect n b := by
  obtain ⟨h1, h2, h3⟩ := C42_decmp_chol_band_partial hrt hw A
  unfold equCholBand
  rw [if_neg (by omega), ← h1]
  cases e : decmpCholBand rt n w A with
  | ub => exact (h2 e).elim
  | throw => simp
  | ok s =>
    refine ⟨by simp, by simp, fun x hx => ?_⟩
    simp only [Res.ok_bind, Res.ok.injEq] at hx
    subst hx
    have := (C42_bksub_chol_band_partial hrt hw (b := b) (m := 1) (c := 0) (by omega) e).1
    simp only [Nat.mul_one, Nat.add_zero] at this
    exact this

theorem PosDefinite.det_ne_zero {n : Nat} {M : Matrix (Fin n) (Fin n) K} (h : PosDefinite M) : M.det ≠ 0 := fun hd => by
  obtain ⟨x, hx, hz⟩ := Matrix.exists_mulVec_eq_zero_iff.mpr hd
  have := h x hx
  rw [hz] at this
  simp at this

/-- **C42**, agreement: on the same matrix the full and the banded version both throw or both give the same solution (bands no wider than the order). -/
theorem C42_band_agrees_partial {rt : K → K} (hrt : IsRoot rt) {n w : Nat} (hn : 0 < n) (hw : w ≤ n) {A B b g g' : Nat → K} (h : lowerSym n A = bandSym n w B) :
    (equChol rt n A b g = .throw ∧ equCholBand rt n w B b g' = .throw) ∨
    ∃ x y, equChol rt n A b g = .ok x ∧ equCholBand rt n w B b g' = .ok y ∧ ∀ i, i < n → x i = y i := by
  obtain ⟨h1, h2, h3⟩ := C42_equ_chol hrt hn A b g
  obtain ⟨k1, k2, k3⟩ := C42_equ_chol_band_partial hrt hn hw B b g'
  rw [← h] at k1 k3
  by_cases hp : PosDefinite (lowerSym n A)
  · right
    obtain ⟨x, hx⟩ := h1.mpr hp
    obtain ⟨y, hy⟩ := k1.mpr hp
    refine ⟨x, y, hx, hy, fun i hi => ?_⟩
    have e : (lowerSym n A).mulVec (vect n x - vect n y) = 0 := by
      rw [Matrix.mulVec_sub, h3 x hx, k3 y hy, sub_self]
    have z : vect n x - vect n y = 0 := by
      by_contra hne
      exact hp.det_ne_zero (Matrix.exists_mulVec_eq_zero_iff.mp ⟨_, hne, e⟩)
    have := congrFun z ⟨i, hi⟩
    simp only [Pi.sub_apply, vect, Pi.zero_apply] at this
    exact sub_eq_zero.mp this
  · left
    constructor
    · cases e : equChol rt n A b g with
      | ok x => exact (hp (h1.mp ⟨x, e⟩)).elim
      | throw => rfl
      | ub => exact (h2 e).elim
    · cases e : equCholBand rt n w B b g' with
      | ok x => exact (hp (k1.mp ⟨x, e⟩)).elim
      | throw => rfl
      | ub => exact (k2 e).elim

/-! ## The inverse -/

/-- The first loop of `inv_chol` inverts the factor in place. -/
theorem invChol_lower {n : Nat} {A1 : Nat → K} (hd : ∀ i, i < n → A1 (i * n + i) ≠ 0) :
    let W := loop 0 n (fun i A => loop (i + 1) n (fun j A =>
      let sum := loop i j (fun k sum => sum - A (j * n + k) * A (k * n + i)) 0
      set A (j * n + i) (sum * A (j * n + j))) A) A1
    (∀ r c, r < n → c < r → W (r * n + c) = -(∑ k ∈ Ico c r, A1 (r * n + k) * W (k * n + c)) * A1 (r * n + r)) ∧
    (∀ r c, r < n → c < n → r ≤ c → W (r * n + c) = A1 (r * n + c)) ∧ ∀ p, n * n ≤ p → W p = A1 p := by
  let P : Nat → Nat → (Nat → K) → Prop := fun i j W =>
    (∀ r c, r < n → c < r → (c < i ∨ c = i ∧ r < j) → W (r * n + c) = -(∑ k ∈ Ico c r, A1 (r * n + k) * W (k * n + c)) * A1 (r * n + r)) ∧
    (∀ r c, r < n → c < n → ¬(c < r ∧ (c < i ∨ c = i ∧ r < j)) → W (r * n + c) = A1 (r * n + c)) ∧ ∀ p, n * n ≤ p → W p = A1 p
  have main := loop_rule (s := A1) (f := fun i A => loop (i + 1) n (fun j A =>
      let sum := loop i j (fun k sum => sum - A (j * n + k) * A (k * n + i)) 0
      set A (j * n + i) (sum * A (j * n + j))) A) (fun i W => P i (i + 1) W) (Nat.zero_le n)
    ⟨fun r c h1 h2 h3 => by omega, fun r c _ _ _ => rfl, fun _ _ => rfl⟩ (by
      intro i W _ hi hP
      have inner := loop_rule (s := W) (f := fun j A =>
        let sum := loop i j (fun k sum => sum - A (j * n + k) * A (k * n + i)) 0
        set A (j * n + i) (sum * A (j * n + j))) (fun j W => P i j W) (show i + 1 ≤ n by omega) hP (by
          rintro j W hj1 hj2 ⟨g1, g2, g3⟩
          simp only
          rw [loop_sub (fun k => W (j * n + k) * W (k * n + i)) _ (by omega)]
          have keep : ∀ v r c, c < n → ¬(r = j ∧ c = i) → set W (j * n + i) v (r * n + c) = W (r * n + c) := fun v r c hc hne => by
            rw [set_addr _ _ hi hc, if_neg hne]
          refine ⟨fun r c hr hcr hlt => ?_, fun r c hr hc hlt => ?_, fun p hp => ?_⟩
          · have hsum : ∀ v, ∑ k ∈ Ico c r, A1 (r * n + k) * set W (j * n + i) v (k * n + c) = ∑ k ∈ Ico c r, A1 (r * n + k) * W (k * n + c) := fun v =>
              sum_congr rfl (fun k hk => by
                have := mem_Ico.mp hk
                rw [keep _ k c (by omega) (by omega)])
            rw [hsum]
            by_cases e : r = j ∧ c = i
            · obtain ⟨rfl, rfl⟩ := e
              rw [set_same, g2 r r hr hr (by omega), zero_sub]
              congr 2
              refine sum_congr rfl (fun k hk => ?_)
              have := mem_Ico.mp hk
              rw [g2 r k hr (by omega) (by omega)]
            · rw [keep _ r c (by omega) e]
              exact g1 r c hr hcr (by omega)
          · rw [keep _ r c hc (by omega)]
            exact g2 r c hr hc (by omega)
          · rw [set_ne _ _ (by have := addr_lt hj2 hi; omega)]; exact g3 p hp)
      obtain ⟨g1, g2, g3⟩ := inner
      exact ⟨fun r c hr hcr hlt => g1 r c hr hcr (by omega), fun r c hr hc hlt => g2 r c hr hc (by omega), g3⟩)
  intro W
  obtain ⟨g1, g2, g3⟩ := main
  exact ⟨fun r c hr hcr => g1 r c hr hcr (by omega), fun r c hr hc hle => g2 r c hr hc (by omega), g3⟩

/-- The second loop of `inv_chol` multiplies the inverted factor by its transpose. -/
theorem invChol_mul {n : Nat} (W : Nat → K) :
    let X := loop 0 n (fun i A =>
      let A := set A (i * n + i) (A (i * n + i) * A (i * n + i))
      let A := loop (i + 1) n (fun j A => set A (i * n + i) (A (i * n + i) + A (j * n + i) * A (j * n + i))) A
      loop (i + 1) n (fun j A =>
        let A := set A (i * n + j) 0
        let A := loop j n (fun k A => set A (i * n + j) (A (i * n + j) + A (k * n + i) * A (k * n + j))) A
        set A (j * n + i) (A (i * n + j))) A) W
    (∀ r c, r < n → c < n → X (r * n + c) = ∑ k ∈ Ico (max r c) n, W (k * n + r) * W (k * n + c)) ∧ ∀ p, n * n ≤ p → X p = W p := by
  let Q : Nat → Nat → (Nat → K) → Prop := fun i j X =>
    (∀ r c, r < n → c < n → (min r c < i ∨ min r c = i ∧ max r c < j) → X (r * n + c) = ∑ k ∈ Ico (max r c) n, W (k * n + r) * W (k * n + c)) ∧
    (∀ r c, r < n → c < n → ¬(min r c < i ∨ min r c = i ∧ max r c < j) → X (r * n + c) = W (r * n + c)) ∧ ∀ p, n * n ≤ p → X p = W p
  have main := loop_rule (s := W) (f := fun i A =>
      let A := set A (i * n + i) (A (i * n + i) * A (i * n + i))
      let A := loop (i + 1) n (fun j A => set A (i * n + i) (A (i * n + i) + A (j * n + i) * A (j * n + i))) A
      loop (i + 1) n (fun j A =>
        let A := set A (i * n + j) 0
        let A := loop j n (fun k A => set A (i * n + j) (A (i * n + j) + A (k * n + i) * A (k * n + j))) A
        set A (j * n + i) (A (i * n + j))) A) (fun i X => Q i i X) (Nat.zero_le n)
    ⟨fun r c _ _ h => by omega, fun _ _ _ _ _ => rfl, fun _ _ => rfl⟩ (by
      rintro i X _ hi ⟨g1, g2, g3⟩
      simp only
      have dg : ∀ v, loop (i + 1) n (fun j A => set A (i * n + i) (A (i * n + i) + A (j * n + i) * A (j * n + i))) (set X (i * n + i) v) =
          set X (i * n + i) (v + ∑ j ∈ Ico (i + 1) n, X (j * n + i) * X (j * n + i)) := fun v => by
        rw [loop_acc_add (t := fun j A => A (j * n + i) * A (j * n + i)) (by omega) (fun k u h1 h2 => by
          simp only [set_set]
          rw [set_addr _ _ hi hi, if_neg (by omega), set_addr _ _ hi hi, if_neg (by omega)]), set_set, set_same]
        congr 2
        refine sum_congr rfl (fun j hj => ?_)
        have := mem_Ico.mp hj
        rw [set_addr _ _ hi hi, if_neg (by omega)]
      rw [dg]
      have start : Q i (i + 1) (set X (i * n + i) (X (i * n + i) * X (i * n + i) + ∑ j ∈ Ico (i + 1) n, X (j * n + i) * X (j * n + i))) := by
        refine ⟨fun r c hr hc hlt => ?_, fun r c hr hc hlt => ?_, fun p hp => ?_⟩
        · rw [set_addr _ _ hi hc]
          by_cases e : r = i ∧ c = i
          · obtain ⟨e1, e2⟩ := e
            rw [if_pos ⟨e1, e2⟩, e1, e2, Nat.max_self, sum_eq_sum_Ico_succ_bot hi, g2 i i hi hi (by omega)]
            congr 1
            refine sum_congr rfl (fun j hj => ?_)
            have := mem_Ico.mp hj
            rw [g2 j i (by omega) hi (by omega)]
          · rw [if_neg e]
            exact g1 r c hr hc (by omega)
        · rw [set_addr _ _ hi hc, if_neg (by omega)]
          exact g2 r c hr hc (by omega)
        · rw [set_ne _ _ (by have := addr_lt hi hi; omega)]; exact g3 p hp
      have inner := loop_rule (s := set X (i * n + i) (X (i * n + i) * X (i * n + i) + ∑ j ∈ Ico (i + 1) n, X (j * n + i) * X (j * n + i))) (f := fun j A =>
        let A := set A (i * n + j) 0
        let A := loop j n (fun k A => set A (i * n + j) (A (i * n + j) + A (k * n + i) * A (k * n + j))) A
        set A (j * n + i) (A (i * n + j))) (fun j X => Q i j X) (show i + 1 ≤ n by omega) start (by
          rintro j Y hj1 hj2 ⟨g1, g2, g3⟩
          simp only
          rw [loop_acc_add (t := fun k A => A (k * n + i) * A (k * n + j)) (by omega) (fun k u h1 h2 => by
            simp only [set_set]
            rw [set_addr _ _ hj2 hi, if_neg (by omega), set_addr _ _ hj2 hj2, if_neg (by omega), set_addr _ _ hj2 hi, if_neg (by omega), set_addr _ _ hj2 hj2, if_neg (by omega)]),
            set_set, set_same, set_same, zero_add]
          have es : ∑ k ∈ Ico j n, set Y (i * n + j) 0 (k * n + i) * set Y (i * n + j) 0 (k * n + j) = ∑ k ∈ Ico j n, W (k * n + i) * W (k * n + j) := by
            refine sum_congr rfl (fun k hk => ?_)
            have := mem_Ico.mp hk
            rw [set_addr _ _ hj2 hi, if_neg (by omega), set_addr _ _ hj2 hj2, if_neg (by omega), g2 k i (by omega) hi (by omega), g2 k j (by omega) hj2 (by omega)]
          rw [es]
          refine ⟨fun r c hr hc hlt => ?_, fun r c hr hc hlt => ?_, fun p hp => ?_⟩
          · rw [set_addr _ _ hi hc]
            by_cases e : r = j ∧ c = i
            · obtain ⟨rfl, rfl⟩ := e
              rw [if_pos ⟨rfl, rfl⟩, show max r c = r by omega]
              exact sum_congr rfl (fun k _ => mul_comm _ _)
            · rw [if_neg e, set_addr _ _ hj2 hc]
              by_cases e2 : r = i ∧ c = j
              · obtain ⟨rfl, rfl⟩ := e2
                rw [if_pos ⟨rfl, rfl⟩, show max r c = c by omega]
              · rw [if_neg e2]
                exact g1 r c hr hc (by omega)
          · rw [set_addr _ _ hi hc, if_neg (by omega), set_addr _ _ hj2 hc, if_neg (by omega)]
            exact g2 r c hr hc (by omega)
          · rw [set_ne _ _ (by have := addr_lt hj2 hi; omega), set_ne _ _ (by have := addr_lt hi hj2; omega)]; exact g3 p hp)
      obtain ⟨g1, g2, g3⟩ := inner
      exact ⟨fun r c hr hc hlt => g1 r c hr hc (by omega), fun r c hr hc hlt => g2 r c hr hc (by omega), g3⟩)
  intro X
  obtain ⟨g1, g2, g3⟩ := main
  exact ⟨fun r c hr hc => g1 r c hr hc (by omega), g3⟩

/-- **C42**, `inv_chol`: it replaces a positive definite matrix by its inverse, both triangles, and throws for any other. -/
theorem C42_inv_chol {rt : K → K} (hrt : IsRoot rt) (n : Nat) (A : Nat → K) :
    ((∃ X, invChol rt n A = .ok X) ↔ PosDefinite (lowerSym n A)) ∧ invChol rt n A ≠ .ub ∧
    ∀ X, invChol rt n A = .ok X → lowerSym n A * rect n n X = 1 ∧ rect n n X * lowerSym n A = 1 ∧ ∀ p, n * n ≤ p → X p = A p := by
  obtain ⟨h1, h2, h3⟩ := C42_decmp_chol hrt n A
  unfold invChol
  rw [← h1]
  cases e : decmpChol rt n A with
  | ub => exact (h2 e).elim
  | throw => simp
  | ok A1 =>
    refine ⟨by simp, by simp, fun X hx => ?_⟩
    simp only [Res.ok_bind, Res.ok.injEq] at hx
    obtain ⟨l1, l2, l3⟩ := h3 A1 e
    obtain ⟨w1, w2, w3⟩ := invChol_lower (n := n) (A1 := A1) (fun i hi => ne_of_gt (l2 i hi))
    generalize loop 0 n (fun i A => loop (i + 1) n (fun j A =>
      let sum := loop i j (fun k sum => sum - A (j * n + k) * A (k * n + i)) 0
      set A (j * n + i) (sum * A (j * n + j))) A) A1 = W at w1 w2 w3 hx
    obtain ⟨x1, x2⟩ := invChol_mul (n := n) W
    rw [hx] at x1 x2
    -- the lower triangle of W, as a matrix, inverts the factor
    let Wm : Matrix (Fin n) (Fin n) K := fun k c => if (c : Nat) ≤ k then W (k * n + c) else 0
    have hLW : lowerL n A1 * Wm = 1 := by
      ext r c
      rw [Matrix.mul_apply, Matrix.one_apply]
      have e1 : ∑ k : Fin n, lowerL n A1 r k * Wm k c =
          ∑ k ∈ range n, (if k < (r : Nat) then A1 (r * n + k) else if k = r then 1 / A1 (r * n + r) else 0) * (if (c : Nat) ≤ k then W (k * n + c) else 0) :=
        Fin.sum_univ_eq_sum_range (fun k => (if k < (r : Nat) then A1 (r * n + k) else if k = r then 1 / A1 (r * n + r) else 0) * (if (c : Nat) ≤ k then W (k * n + c) else 0)) n
      have hr := r.2; have hc := c.2
      have hdr := ne_of_gt (l2 r hr)
      rw [e1, ← sum_range_add_sum_Ico _ (Nat.le_of_lt hr), sum_eq_sum_Ico_succ_bot hr, sum_eq_zero (s := Ico ((r : Nat) + 1) n) (fun k hk => by
        have := mem_Ico.mp hk
        rw [if_neg (by omega), if_neg (by omega), zero_mul]), add_zero, if_neg (Nat.lt_irrefl _), if_pos rfl]
      rcases Nat.lt_trichotomy (r : Nat) c with hlt | heq | hgt
      · rw [if_neg (show ¬ r = c from fun h => by rw [h] at hlt; omega), if_neg (by omega), mul_zero, add_zero]
        exact sum_eq_zero (fun k hk => by
          have := mem_range.mp hk
          rw [if_neg (show ¬ (c : Nat) ≤ k by omega), mul_zero])
      · rw [if_pos (Fin.ext heq), if_pos (by omega), sum_eq_zero (fun k hk => by
          have := mem_range.mp hk
          rw [if_neg (show ¬ (c : Nat) ≤ k by omega), mul_zero]), zero_add, ← heq, w2 r r hr hr (Nat.le_refl _), one_div, inv_mul_cancel₀ hdr]
      · rw [if_neg (show ¬ r = c from fun h => by rw [h] at hgt; omega), if_pos (by omega), w1 r c hr hgt, ← sum_range_add_sum_Ico _ (Nat.le_of_lt hgt),
          sum_eq_zero (s := range (c : Nat)) (fun k hk => by
            have := mem_range.mp hk
            rw [if_neg (show ¬ (c : Nat) ≤ k by omega), mul_zero]), zero_add]
        rw [sum_congr rfl (fun k hk => by
          have := mem_Ico.mp hk
          rw [if_pos (by omega), if_pos (by omega)] : ∀ k ∈ Ico (c : Nat) r, _ = A1 (r * n + k) * W (k * n + c))]
        field_simp
        ring
    have hX : rect n n X = Wm.transpose * Wm := by
      ext r c
      rw [Matrix.mul_apply]
      have hr := r.2; have hc := c.2
      have e1 : ∑ k : Fin n, Wm.transpose r k * Wm k c =
          ∑ k ∈ range n, (if (r : Nat) ≤ k then W (k * n + r) else 0) * (if (c : Nat) ≤ k then W (k * n + c) else 0) :=
        Fin.sum_univ_eq_sum_range (fun k => (if (r : Nat) ≤ k then W (k * n + r) else 0) * (if (c : Nat) ≤ k then W (k * n + c) else 0)) n
      rw [e1, rect, x1 r c hr hc, ← sum_range_add_sum_Ico _ (show max (r : Nat) c ≤ n by omega), sum_eq_zero (s := range (max (r : Nat) c)) (fun k hk => by
        have := mem_range.mp hk
        by_cases h : (r : Nat) ≤ k
        · rw [if_neg (show ¬ (c : Nat) ≤ k by omega), mul_zero]
        · rw [if_neg h, zero_mul]), zero_add]
      refine sum_congr rfl (fun k hk => ?_)
      have := mem_Ico.mp hk
      rw [if_pos (by omega), if_pos (by omega)]
    have main : lowerSym n A * rect n n X = 1 := by
      rw [hX, ← l1]
      have hWL : Wm * lowerL n A1 = 1 := mul_eq_one_comm.mp hLW
      calc lowerL n A1 * (lowerL n A1).transpose * (Wm.transpose * Wm)
          = lowerL n A1 * ((lowerL n A1).transpose * Wm.transpose) * Wm := by simp only [Matrix.mul_assoc]
        _ = 1 := by rw [← Matrix.transpose_mul, hWL, Matrix.transpose_one, Matrix.mul_one, hLW]
    refine ⟨main, mul_eq_one_comm.mp main, fun p hp => ?_⟩
    rw [x2 p hp, w3 p hp]
    exact l3 p (fun i j hj hi => by have := addr_lt hi (show j < n by omega); omega)

/-! ## The hypotheses are met -/

/-- The real square root has the property asked for. -/
example : IsRoot Real.sqrt := fun x hx => ⟨Real.sqrt_pos.mpr hx, Real.mul_self_sqrt (le_of_lt hx)⟩

/-- A two by two matrix which is decomposed, solved and inverted, and one which is rejected; the roots met are those of 4 and 9. -/
example : let rt : ℚ → ℚ := fun x => if x = 4 then 2 else if x = 9 then 3 else 0
    (equChol rt 2 (fun p => [4, 2, 2, 10].getD p 0) (fun p => [8, 22].getD p 0) (fun _ => 0)).bind (fun x => .ok (x 0, x 1)) = .ok (1, 2) ∧
    (equCholBand rt 2 1 (fun p => [4, 2, 10].getD p 0) (fun p => [8, 22].getD p 0) (fun _ => 0)).bind (fun x => .ok (x 0, x 1)) = .ok (1, 2) ∧
    (invChol rt 2 (fun p => [4, 2, 2, 10].getD p 0)).bind (fun x => .ok (x 0, x 1, x 2, x 3)) = .ok (5 / 18, -1 / 18, -1 / 18, 1 / 9) ∧
    (decmpChol rt 2 (fun p => [4, 8, 8, 10].getD p 0)).bind (fun x => .ok (x 0)) = .throw := by decide +kernel

end OP.Lin
