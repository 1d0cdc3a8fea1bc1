import Verif.Lin.TriRow
/-!
# C92: reduction of a symmetric matrix to tridiagonal form
-/
namespace OP.Lin
open Finset
variable {K : Type} [Field K] [LinearOrder K]

/-! ## Specification -/

/-- The tridiagonal matrix with the diagonal `d`, where `e k` is beside `d k` and `d (k - 1)`. -/
def triMat (d e : Nat → K) (a b : Nat) : K := if a = b then d a else if a + 1 = b then e b else if b + 1 = a then e a else 0

/-! ## Products of reflections -/

/-- The reflections `k`, `k + 1`, … one after the other. -/
def hseq (n : Nat) (A d : Nat → K) : Nat → Nat → (Nat → K) → (Nat → K)
  | 0, _, x => x
  | q + 1, k, x => hseq n A d q (k + 1) (house n k A d x)

theorem hseq_snoc (n : Nat) (A d : Nat → K) : ∀ q k x, hseq n A d (q + 1) k x = house n (k + q) A d (hseq n A d q k x)
  | 0, _, _ => rfl
  | q + 1, k, x => by
    have := hseq_snoc n A d q (k + 1) (house n k A d x)
    rw [hseq, this, hseq, show k + 1 + q = k + (q + 1) by omega]

theorem house_congr {n i : Nat} {A A' d d' : Nat → K} (hd : d i = d' i) (hA : ∀ r < i, A (i * n + r) = A' (i * n + r)) (x : Nat → K) :
    house n i A d x = house n i A' d' x := by
  have hu : (fun r => if r < i then A (i * n + r) else 0) = fun r => if r < i then A' (i * n + r) else 0 := by
    funext r
    by_cases h : r < i
    · rw [if_pos h, if_pos h, hA r h]
    · rw [if_neg h, if_neg h]
  by_cases h : d i = 0
  · rw [house_zero h, house_zero (hd ▸ h)]
  · rw [house_ne rfl h, house_ne hd.symm h, hu]

theorem hseq_congr {n : Nat} {A A' d d' : Nat → K} : ∀ q k x, (∀ i, k ≤ i → i < k + q → d i = d' i ∧ ∀ r < i, A (i * n + r) = A' (i * n + r)) →
    hseq n A d q k x = hseq n A' d' q k x
  | 0, _, _, _ => rfl
  | q + 1, k, x, h => by
    rw [hseq, hseq, house_congr (h k (Nat.le_refl _) (by omega)).1 (h k (Nat.le_refl _) (by omega)).2]
    exact hseq_congr q (k + 1) _ fun i h1 h2 => h i (by omega) (by omega)

theorem house_high {n i : Nat} {A d : Nat → K} (x : Nat → K) {r : Nat} (h : i ≤ r) : house n i A d x r = x r := by
  by_cases h0 : d i = 0
  · rw [house_zero h0]
  · rw [house_ne rfl h0]
    unfold refl
    dsimp only
    rw [if_neg (by omega), zero_mul, sub_zero]

theorem hseq_high {n : Nat} {A d : Nat → K} {r : Nat} : ∀ q k x, k + q ≤ r + 1 → hseq n A d q k x r = x r
  | 0, _, _, _ => rfl
  | q + 1, k, x, h => by rw [hseq, hseq_high q (k + 1) _ (by omega), house_high _ (by omega)]

/-- A unit vector. -/
def vunit (c : Nat) : Nat → K := fun r => if r = c then 1 else 0

theorem vdot_unit {n c : Nat} (hc : c < n) (x : Nat → K) : vdot n x (vunit c) = x c := by
  unfold vdot vunit
  simp [hc]

theorem vbil_unit {n a b : Nat} (ha : a < n) (hb : b < n) (B : Nat → Nat → K) : vbil n B (vunit a) (vunit b) = B a b := by
  unfold vbil vunit
  simp [ha, hb]

theorem house_unit {n i c : Nat} (hc : c < n) (h : i ≤ c) (A d : Nat → K) : house n i A d (vunit c) = vunit c := by
  by_cases h0 : d i = 0
  · rw [house_zero h0]
  · rw [house_ne rfl h0]
    unfold refl
    rw [vdot_unit hc]
    funext r
    rw [if_neg (by omega), zero_div, mul_zero, sub_zero]

theorem hseq_unit {n c : Nat} (hc : c < n) (A d : Nat → K) : ∀ q k, k + q ≤ c + 1 → hseq n A d q k (vunit c) = vunit c
  | 0, _, _ => rfl
  | q + 1, k, h => by rw [hseq, house_unit hc (by omega), hseq_unit hc A d q (k + 1) (by omega)]

/-- The stored vectors have the right length. -/
structure HhOk (n : Nat) (A d : Nat → K) (lo : Nat) : Prop where
  norm : ∀ i, lo ≤ i → i < n → d i ≠ 0 → vdot n (fun r => if r < i then A (i * n + r) else 0) (fun r => if r < i then A (i * n + r) else 0) = 2 * d i
  col : ∀ i, lo ≤ i → i < n → d i ≠ 0 → ∀ r < i, A (r * n + i) = A (i * n + r) / d i

theorem house_dot {n i lo : Nat} {A d : Nat → K} (h : HhOk n A d lo) (h1 : lo ≤ i) (h2 : i < n) (x y : Nat → K) :
    vdot n (house n i A d x) (house n i A d y) = vdot n x y := by
  by_cases h0 : d i = 0
  · rw [house_zero h0, house_zero h0]
  · rw [house_ne rfl h0, house_ne rfl h0]
    exact refl_dot h0 (h.norm i h1 h2 h0) x y

theorem hseq_dot {n lo : Nat} {A d : Nat → K} (h : HhOk n A d lo) : ∀ q k x y, lo ≤ k → k + q ≤ n →
    vdot n (hseq n A d q k x) (hseq n A d q k y) = vdot n x y
  | 0, _, _, _, _, _ => rfl
  | q + 1, k, x, y, h1, h2 => by rw [hseq, hseq, hseq_dot h q (k + 1) _ _ (by omega) (by omega), house_dot h h1 (by omega)]

/-! ## The first loop -/

/-- What holds when the rows above `k` are reduced. -/
structure TriInv (n : Nat) (s0 : Tri K) (k : Nat) (s : Tri K) : Prop where
  form : ∀ x y, vbil n (stg n (k + 1) s.A s.e) x y = vbil n (stg n n s0.A s0.e) (hseq n s.A s.d (n - 1 - k) (k + 1) x) (hseq n s.A s.d (n - 1 - k) (k + 1) y)
  ok : HhOk n s.A s.d (k + 1)
  outA : ∀ r c, c < n → n ≤ r → s.A (r * n + c) = s0.A (r * n + c)
  outd : ∀ k, n ≤ k → s.d k = s0.d k
  oute : ∀ k, n ≤ k → s.e k = s0.e k

variable [IsStrictOrderedRing K]

theorem down_tri {rt : K → K} (hrt : IsRoot0 rt) {n : Nat} (hn : 0 < n) (s : Tri K) :
    TriInv n s 0 (down (n - 1) (fun i s => hhRow rt n (i + 1) s) s) := by
  refine down_rule (f := fun i s => hhRow rt n (i + 1) s) (fun k t => k < n → TriInv n s k t) (n := n - 1) (s := s) ?_ ?_ hn
  · intro _
    refine ⟨fun x y => ?_, ⟨fun i h1 h2 => by omega, fun i h1 h2 => by omega⟩, fun _ _ _ _ => rfl, fun _ _ => rfl, fun _ _ => rfl⟩
    rw [Nat.sub_self, show n - 1 + 1 = n by omega]; rfl
  · intro k t hk ih _
    obtain ⟨i1, ⟨i2, i3⟩, i4, i5, i6⟩ := ih (by omega)
    have hr := hhRow_spec hrt (show k + 1 < n by omega) t
    obtain ⟨t', ht'⟩ : ∃ t', t' = hhRow rt n (k + 1) t := ⟨_, rfl⟩
    rw [← ht'] at hr ⊢
    refine ⟨fun x y => ?_, ⟨fun i h1 h2 h3 => ?_, fun i h1 h2 h3 => ?_⟩, fun r c hc hr' => ?_, fun j hj => ?_, fun j hj => ?_⟩
    · rw [hr.form, i1, show n - 1 - k = n - 1 - (k + 1) + 1 by omega, hseq, hseq]
      have hc : ∀ x, hseq n t.A t.d (n - 1 - (k + 1)) (k + 1 + 1) x = hseq n t'.A t'.d (n - 1 - (k + 1)) (k + 1 + 1) x := fun x =>
        hseq_congr _ _ _ fun i h1 h2 => ⟨(hr.dsame i (by omega)).symm, fun r hr' => (hr.same i r (by omega) (Or.inl (by omega))).symm⟩
      rw [hc, hc]
    · by_cases h : i = k + 1
      · subst h; exact hr.norm h3
      · rw [hr.dsame i h] at h3 ⊢
        have hu : (fun r => if r < i then t'.A (i * n + r) else 0) = fun r => if r < i then t.A (i * n + r) else 0 := by
          funext r
          by_cases h4 : r < i
          · rw [if_pos h4, if_pos h4, hr.same i r (by omega) (Or.inl (by omega))]
          · rw [if_neg h4, if_neg h4]
        rw [hu]
        exact i2 i (by omega) h2 h3
    · by_cases h : i = k + 1
      · subst h; exact hr.col h3
      · rw [hr.dsame i h] at h3 ⊢
        intro r hr'
        rw [hr.same i r (by omega) (Or.inl (by omega)), hr.same r i h2 (Or.inr (Or.inl (by omega)))]
        exact i3 i (by omega) h2 h3 r hr'
    · rw [hr.same r c hc (Or.inl (by omega)), i4 r c hc hr']
    · rw [hr.dsame j (by omega), i5 j hj]
    · rw [hr.esame j (by omega), i6 j hj]

/-! ## The second loop -/

omit [LinearOrder K] [IsStrictOrderedRing K] in
theorem hhAcc_spec {n i j : Nat} (hi : i < n) (hj : j < i) (A : Nat → K) : ∀ r, ∀ c < n, hhAcc n i j A (r * n + c) =
    if c = j ∧ r < i then A (r * n + c) - (∑ k ∈ range i, A (i * n + k) * A (k * n + j)) * A (r * n + i) else A (r * n + c) := by
  have hf : loop 0 i (fun k f => f + A (i * n + k) * A (k * n + j)) 0 = ∑ k ∈ range i, A (i * n + k) * A (k * n + j) := by
    rw [loop_add (fun k => A (i * n + k) * A (k * n + j)) 0 (Nat.zero_le i), zero_add, range_eq_Ico]
  unfold hhAcc
  rw [hf]
  generalize ∑ k ∈ range i, A (i * n + k) * A (k * n + j) = f
  refine loop_rule (fun m A' => ∀ r, ∀ c < n, A' (r * n + c) = if c = j ∧ r < m then A (r * n + c) - f * A (r * n + i) else A (r * n + c))
    (Nat.zero_le i) (s := A) (fun r c _ => by rw [if_neg (by omega)]) ?_
  rintro m A1 - hm h1 r c hc
  rw [set_addr _ _ (by omega) hc]
  by_cases h : r = m ∧ c = j
  · obtain ⟨rfl, rfl⟩ := h
    rw [if_pos ⟨rfl, rfl⟩, if_pos ⟨rfl, by omega⟩, h1 r c hc, h1 r i hi, if_neg (by omega), if_neg (by omega)]
  · rw [if_neg h, h1 r c hc]
    by_cases h3 : c = j ∧ r < m
    · rw [if_pos h3, if_pos ⟨h3.1, by omega⟩]
    · rw [if_neg h3, if_neg (by omega)]

omit [LinearOrder K] [IsStrictOrderedRing K] in
theorem hhAccs_spec {n i : Nat} (hi : i < n) (A : Nat → K) : ∀ r, ∀ c < n, loop 0 i (fun j A => hhAcc n i j A) A (r * n + c) =
    if c < i ∧ r < i then A (r * n + c) - (∑ k ∈ range i, A (i * n + k) * A (k * n + c)) * A (r * n + i) else A (r * n + c) := by
  refine loop_rule (fun m A' => ∀ r, ∀ c < n, A' (r * n + c) = if c < m ∧ r < i then
      A (r * n + c) - (∑ k ∈ range i, A (i * n + k) * A (k * n + c)) * A (r * n + i) else A (r * n + c))
    (Nat.zero_le i) (s := A) (fun r c _ => by rw [if_neg (by omega)]) ?_
  rintro m A1 - hm h1 r c hc
  rw [hhAcc_spec hi hm A1 r c hc]
  have e1 : ∑ k ∈ range i, A1 (i * n + k) * A1 (k * n + m) = ∑ k ∈ range i, A (i * n + k) * A (k * n + m) :=
    sum_congr rfl fun k hk => by
      have hk := mem_range.1 hk
      rw [h1 i k (by omega), if_neg (by omega), h1 k m (by omega), if_neg (by omega)]
  by_cases h : c = m ∧ r < i
  · rw [if_pos h, e1, h1 r c hc, if_neg (by omega), h1 r i hi, if_neg (by omega), if_pos (by omega), h.1]
  · rw [if_neg h, h1 r c hc]
    by_cases h3 : c < m ∧ r < i
    · rw [if_pos h3, if_pos ⟨by omega, h3.2⟩]
    · rw [if_neg h3, if_neg (by omega)]

omit [LinearOrder K] [IsStrictOrderedRing K] in
theorem hhClear_spec {n i : Nat} (hi : i < n) (A : Nat → K) : ∀ r, ∀ c < n,
    loop 0 i (fun j A => set (set A (i * n + j) 0) (j * n + i) 0) A (r * n + c) = if r = i ∧ c < i ∨ c = i ∧ r < i then 0 else A (r * n + c) := by
  refine loop_rule (fun m A' => ∀ r, ∀ c < n, A' (r * n + c) = if r = i ∧ c < m ∨ c = i ∧ r < m then 0 else A (r * n + c))
    (Nat.zero_le i) (s := A) (fun r c _ => by rw [if_neg (by omega)]) ?_
  rintro m A1 - hm h1 r c hc
  rw [set_addr _ _ (by omega) hc, set_addr _ _ (by omega) hc, h1 r c hc]
  by_cases h : r = m ∧ c = i
  · rw [if_pos h, if_pos (by omega)]
  · rw [if_neg h]
    by_cases h2 : r = i ∧ c = m
    · rw [if_pos h2, if_pos (by omega)]
    · rw [if_neg h2]
      by_cases h3 : r = i ∧ c < m ∨ c = i ∧ r < m
      · rw [if_pos h3, if_pos (by omega)]
      · rw [if_neg h3, if_neg (by omega)]

/-- What holds before the round `i` of the second loop. -/
structure BackInv (n : Nat) (A1 d1 : Nat → K) (i : Nat) (s : (Nat → K) × (Nat → K)) : Prop where
  old : ∀ r, ∀ c < n, i ≤ r ∨ i ≤ c → s.1 (r * n + c) = A1 (r * n + c)
  new : ∀ r < i, ∀ c < i, s.1 (r * n + c) = hseq n A1 d1 i 0 (vunit c) r
  diag : ∀ k, s.2 k = if k < i then A1 (k * n + k) else d1 k

omit [IsStrictOrderedRing K] in
theorem hhBack_step {n i : Nat} (hi : i < n) {A1 d1 : Nat → K} (hok : HhOk n A1 d1 0) {s : (Nat → K) × (Nat → K)} (h : BackInv n A1 d1 i s) :
    BackInv n A1 d1 (i + 1) (hhBack n i s) := by
  obtain ⟨A, d⟩ := s
  obtain ⟨h1, h2, h3⟩ := h
  dsimp only at h1 h2 h3
  have hdi : d i = d1 i := by rw [h3, if_neg (by omega)]
  obtain ⟨A2, hA2⟩ : ∃ A2, A2 = if d i ≠ 0 then loop 0 i (fun j A => hhAcc n i j A) A else A := ⟨_, rfl⟩
  have a1 : ∀ r, ∀ c < n, i ≤ r ∨ i ≤ c → A2 (r * n + c) = A1 (r * n + c) := by
    intro r c hc hrc
    rw [hA2]
    by_cases h : d i ≠ 0
    · rw [if_pos h, hhAccs_spec hi A r c hc, if_neg (by omega), h1 r c hc hrc]
    · rw [if_neg h, h1 r c hc hrc]
  have a2 : ∀ r < i, ∀ c < i, A2 (r * n + c) = hseq n A1 d1 (i + 1) 0 (vunit c) r := by
    intro r hr c hc
    rw [hA2, hseq_snoc, Nat.zero_add]
    by_cases h : d i = 0
    · rw [if_neg (by simpa using h), h2 r hr c hc, house_zero (hdi ▸ h)]
    · rw [if_pos h, hhAccs_spec hi A r c (by omega), if_pos ⟨hc, hr⟩, h2 r hr c hc, house_ne hdi.symm h]
      unfold refl
      dsimp only
      rw [if_pos hr, h1 r i hi (Or.inr (Nat.le_refl _)), hok.col i (Nat.zero_le _) hi (hdi ▸ h) r hr, ← hdi]
      have e1 : vdot n (fun r => if r < i then A1 (i * n + r) else 0) (hseq n A1 d1 i 0 (vunit c)) = ∑ k ∈ range i, A (i * n + k) * A (k * n + c) := by
        unfold vdot
        rw [← sum_subset (range_subset_range.2 hi.le : range i ⊆ range n) fun k _ hk => by
          dsimp only; rw [if_neg (by simpa using hk), zero_mul]]
        refine sum_congr rfl fun k hk => ?_
        have hk := mem_range.1 hk
        dsimp only
        rw [if_pos hk, h1 i k (by omega) (Or.inl (Nat.le_refl _)), h2 k hk c hc]
      rw [e1]; ring
  unfold hhBack
  dsimp only
  rw [← hA2]
  refine ⟨fun r c hc hrc => ?_, fun r hr c hc => ?_, fun k => ?_⟩
  · dsimp only
    rw [hhClear_spec hi _ r c hc, if_neg (by omega), set_addr _ _ hi hc, if_neg (by omega), a1 r c hc (by omega)]
  · dsimp only
    rw [hhClear_spec hi _ r c (by omega), set_addr _ _ hi (by omega)]
    rcases Nat.lt_or_ge r i with hr' | hr'
    · rcases Nat.lt_or_ge c i with hc' | hc'
      · rw [if_neg (by omega), if_neg (by omega), a2 r hr' c hc']
      · rw [if_pos (by omega), show c = i by omega, hseq_unit hi A1 d1 (i + 1) 0 (by omega)]
        unfold vunit; rw [if_neg (by omega)]
    · rw [hseq_high (r := r) (i + 1) 0 _ (by omega)]
      unfold vunit
      by_cases h4 : c = i
      · rw [if_neg (by omega), if_pos ⟨by omega, h4⟩, if_pos (by omega)]
      · rw [if_pos (by omega), if_neg (by omega)]
  · dsimp only
    by_cases h4 : k = i
    · rw [h4, set_same, if_pos (by omega), a1 i i hi (Or.inl (Nat.le_refl _))]
    · rw [set_ne _ _ h4, h3 k]
      by_cases h5 : k < i
      · rw [if_pos h5, if_pos (by omega)]
      · rw [if_neg h5, if_neg (by omega)]

/-- C92: the reduction of the symmetric matrix that is given by the lower triangle: the columns of the result are orthonormal and turn
the matrix into the tridiagonal one of `d` and `e`; nothing outside the arrays changes. -/
theorem C92_tridiag {rt : K → K} (hrt : IsRoot0 rt) (n : Nat) (s : Tri K) :
    (∀ a < n, ∀ b < n, colDot n (tridiag rt n s).A a b = if a = b then 1 else 0) ∧
    (∀ a < n, ∀ b < n, ∑ r ∈ range n, ∑ c ∈ range n, low n s.A r c * (tridiag rt n s).A (r * n + a) * (tridiag rt n s).A (c * n + b) =
      triMat (tridiag rt n s).d (tridiag rt n s).e a b) ∧
    (∀ p, n * n ≤ p → (tridiag rt n s).A p = s.A p) ∧ ∀ k, n ≤ k → (tridiag rt n s).d k = s.d k ∧ (tridiag rt n s).e k = s.e k := by
  by_cases hn : n = 0
  · subst hn
    unfold tridiag
    rw [if_pos rfl]
    exact ⟨fun a ha => by omega, fun a ha => by omega, fun _ _ => rfl, fun _ _ => ⟨rfl, rfl⟩⟩
  have hn : 0 < n := by omega
  obtain ⟨i1, ⟨i2, i3⟩, i4, i5, i6⟩ := down_tri hrt hn s
  unfold tridiag
  rw [if_neg (by omega)]
  dsimp only
  obtain ⟨t, ht⟩ : ∃ t, t = down (n - 1) (fun i s => hhRow rt n (i + 1) s) s := ⟨_, rfl⟩
  rw [← ht] at i1 i2 i3 i4 i5 i6 ⊢
  obtain ⟨d1, hd1⟩ : ∃ d1, d1 = set t.d 0 0 := ⟨_, rfl⟩
  rw [← hd1]
  have d10 : d1 0 = 0 := by rw [hd1, set_same]
  have d1k : ∀ k, k ≠ 0 → d1 k = t.d k := fun k hk => by rw [hd1, set_ne _ _ hk]
  have hok : HhOk n t.A d1 0 := by
    refine ⟨fun i _ h2 h3 => ?_, fun i _ h2 h3 => ?_⟩
    · have h0 : i ≠ 0 := fun h => h3 (by rw [h, d10])
      rw [d1k i h0] at h3 ⊢
      exact i2 i (by omega) h2 h3
    · have h0 : i ≠ 0 := fun h => h3 (by rw [h, d10])
      rw [d1k i h0] at h3 ⊢
      exact i3 i (by omega) h2 h3
  have hb : BackInv n t.A d1 n (loop 0 n (fun i t => hhBack n i t) (t.A, d1)) := by
    refine loop_rule (fun i s => BackInv n t.A d1 i s) (Nat.zero_le n) ⟨fun _ _ _ _ => rfl, fun r hr => by omega, fun k => by rw [if_neg (by omega)]⟩ ?_
    intro i s' _ hi h
    exact hhBack_step hi hok h
  obtain ⟨z, hz⟩ : ∃ z, z = loop 0 n (fun i t => hhBack n i t) (t.A, d1) := ⟨_, rfl⟩
  rw [← hz] at hb ⊢
  obtain ⟨b1, b2, b3⟩ := hb
  refine ⟨fun a ha b hb => ?_, fun a ha b hb => ?_, fun p hp => ?_, fun k hk => ⟨?_, ?_⟩⟩
  · have : colDot n z.1 a b = vdot n (hseq n t.A d1 n 0 (vunit a)) (hseq n t.A d1 n 0 (vunit b)) :=
      sum_congr rfl fun i hi => by rw [b2 i (mem_range.1 hi) a ha, b2 i (mem_range.1 hi) b hb]
    rw [this, hseq_dot hok n 0 _ _ (Nat.le_refl _) (by omega), vdot_unit hb]
    unfold vunit
    simp only [eq_comm]
  · have e1 : ∑ r ∈ range n, ∑ c ∈ range n, low n s.A r c * z.1 (r * n + a) * z.1 (c * n + b) =
        vbil n (stg n n s.A s.e) (hseq n t.A d1 n 0 (vunit a)) (hseq n t.A d1 n 0 (vunit b)) := by
      refine sum_congr rfl fun r hr => sum_congr rfl fun c hc => ?_
      have hr := mem_range.1 hr
      have hc := mem_range.1 hc
      rw [b2 r hr a ha, b2 c hc b hb]
      congr 2
      unfold low
      by_cases h : c ≤ r
      · rw [if_pos h, stg_le h, if_pos hr]
      · rw [if_neg h, stg_symm, stg_le (by omega), if_pos hc]
    have e2 : ∀ x, hseq n t.A d1 n 0 x = hseq n t.A t.d (n - 1 - 0) (0 + 1) x := by
      intro x
      have : n = n - 1 + 1 := by omega
      conv_lhs => rw [this, hseq]
      rw [house_zero d10]
      rw [← this]
      exact hseq_congr _ _ _ fun i h1 h2 => ⟨d1k i (by omega), fun _ _ => rfl⟩
    rw [e1, e2, e2, ← i1, vbil_unit ha hb]
    unfold triMat
    wlog hab : b ≤ a generalizing a b
    · have := this b hb a ha (by
        refine sum_congr rfl fun r hr => sum_congr rfl fun c hc => ?_
        have hr := mem_range.1 hr
        have hc := mem_range.1 hc
        rw [b2 r hr b hb, b2 c hc a ha]
        congr 2
        unfold low
        by_cases h : c ≤ r
        · rw [if_pos h, stg_le h, if_pos hr]
        · rw [if_neg h, stg_symm, stg_le (by omega), if_pos hc]) (by omega)
      rw [stg_symm, this, if_neg (by omega), if_neg (by omega)]
      by_cases h : a + 1 = b
      · rw [if_pos h, if_neg (by omega), if_pos h]
      · rw [if_neg h, if_neg (by omega), if_neg h, if_neg (by omega)]
    rw [stg_le hab]
    by_cases h : a < 0 + 1
    · rw [if_pos h, if_pos (by omega), b3, if_pos ha, show b = a by omega]
    · rw [if_neg h]
      by_cases h1 : b = a
      · rw [if_pos h1, if_pos h1.symm, b3, if_pos ha]
      · rw [if_neg h1, if_neg (Ne.symm h1), if_neg (show ¬a + 1 = b by omega)]
        by_cases h2 : b + 1 = a
        · rw [if_pos h2, if_pos h2, set_ne _ _ (by omega)]
        · rw [if_neg h2, if_neg h2]
  · have hp' : p = p / n * n + p % n := by rw [Nat.mul_comm]; exact (Nat.div_add_mod p n).symm
    have h1 : p % n < n := Nat.mod_lt _ hn
    have h2 : n ≤ p / n := (Nat.le_div_iff_mul_le hn).2 hp
    rw [hp', b1 _ _ h1 (Or.inl h2), i4 _ _ h1 h2]
  · rw [b3, if_neg (by omega), d1k k (by omega), i5 k hk]
  · rw [set_ne _ _ (by omega), i6 k hk]

end OP.Lin
