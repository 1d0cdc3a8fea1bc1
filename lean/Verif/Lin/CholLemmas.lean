import Verif.Lin.Chol
import Verif.Lin.PropsPack
import Verif.Lin.PropsLU
/-!
# Lemmas for the Cholesky decompositions

The three versions of the decomposition differ in where an entry is stored and in what is stored on the diagonal.
-/
namespace OP.Lin
open Finset
variable {K : Type} [Field K] [LinearOrder K]

/-- One decomposition for all storages: `ad i j` is the address of the entry in row `i` and column `j ≥ i`, `dg` what is stored on
the diagonal, `off` how the other entries are formed from it. -/
def gchol (ad : Nat → Nat → Nat) (dg : K → K) (off : K → K → K) (n w : Nat) (A : Nat → K) : Res (Nat → K) :=
  loopM 0 n (fun i A => loopM i (min (i + w + 1) n) (fun j A =>
    let sum := loop (j - w) i (fun k sum => sum - A (ad k i) * A (ad k j)) (A (ad i j))
    if i = j then
      if sum ≤ 0 then .throw else .ok (set A (ad i i) (dg sum))
    else .ok (set A (ad i j) (off sum (A (ad i i))))) A) A

/-- The upper triangular factor held in an array. -/
def Uf (ad : Nat → Nat → Nat) (und : K → K) (w : Nat) (A : Nat → K) (q l : Nat) : K :=
  if q < l then (if l ≤ q + w then A (ad q l) else 0) else if q = l then und (A (ad l l)) else 0

/-- The symmetric band matrix of which an array holds the upper part. -/
def symOf (ad : Nat → Nat → Nat) (n w : Nat) (A : Nat → K) : Matrix (Fin n) (Fin n) K :=
  fun i j => if max (i : Nat) j ≤ min (i : Nat) j + w then A (ad (min i j) (max i j)) else 0

structure CInv (ad : Nat → Nat → Nat) (und : K → K) (n w : Nat) (A0 : Nat → K) (i j : Nat) (A : Nat → K) : Prop where
  eqn : ∀ k l, InBand n w k l → (k < i ∨ k = i ∧ l < j) → ∑ q ∈ range (k + 1), Uf ad und w A q k * Uf ad und w A q l = A0 (ad k l)
  pos : ∀ k, k < n → (k < i ∨ k = i ∧ k < j) → 0 < und (A (ad k k))
  rest : ∀ k l, InBand n w k l → ¬(k < i ∨ k = i ∧ l < j) → A (ad k l) = A0 (ad k l)
  frame : ∀ p, (∀ k l, InBand n w k l → p ≠ ad k l) → A p = A0 p

variable {ad : Nat → Nat → Nat} {dg und rt : K → K} {off : K → K → K} {n w : Nat} {A0 : Nat → K}

omit [LinearOrder K] in
theorem Uf_set (hinj : ∀ i j i' j', InBand n w i j → InBand n w i' j' → ad i j = ad i' j' → i = i' ∧ j = j') {i j q l : Nat} (A : Nat → K) (v : K)
    (hij : InBand n w i j) (hl : l < n) (hne : ¬(q = i ∧ l = j)) : Uf ad und w (set A (ad i j) v) q l = Uf ad und w A q l := by
  unfold Uf
  split
  · split
    · rw [set_ne]
      intro e
      exact hne (hinj _ _ _ _ ⟨by omega, by omega, hl⟩ hij e)
    · rfl
  · split
    · rw [set_ne]
      intro e
      have := hinj l l i j ⟨Nat.le_refl _, by omega, hl⟩ hij e
      exact hne (by omega)
    · rfl

theorem chol_sum {A : Nat → K} {i j : Nat} (h : CInv ad und n w A0 i j A) (hij : InBand n w i j) :
    loop (j - w) i (fun k sum => sum - A (ad k i) * A (ad k j)) (A (ad i j)) =
      A0 (ad i j) - ∑ q ∈ range i, Uf ad und w A q i * Uf ad und w A q j := by
  obtain ⟨h1, h2, h3⟩ := hij
  rw [loop_sub (fun k => A (ad k i) * A (ad k j)) _ (by omega), h.rest i j ⟨h1, h2, h3⟩ (by omega),
    ← sum_range_add_sum_Ico _ (show j - w ≤ i by omega),
    sum_eq_zero (s := range (j - w)) (fun q hq => by
      have := mem_range.mp hq
      unfold Uf
      rw [if_pos (show q < j by omega), if_neg (show ¬ j ≤ q + w by omega), mul_zero]), zero_add]
  congr 1
  refine sum_congr rfl (fun q hq => ?_)
  have := mem_Ico.mp hq
  unfold Uf
  rw [if_pos (by omega), if_pos (by omega), if_pos (by omega), if_pos (by omega)]

theorem chol_put (hinj : ∀ i j i' j', InBand n w i j → InBand n w i' j' → ad i j = ad i' j' → i = i' ∧ j = j')
    {A : Nat → K} {i j : Nat} (h : CInv ad und n w A0 i j A) (hij : InBand n w i j) (v : K) (hd : i = j → 0 < und v)
    (hv : ∑ q ∈ range (i + 1), Uf ad und w (set A (ad i j) v) q i * Uf ad und w (set A (ad i j) v) q j = A0 (ad i j)) :
    CInv ad und n w A0 i (j + 1) (set A (ad i j) v) := by
  refine ⟨fun k l hkl hlt => ?_, fun k hk hlt => ?_, fun k l hkl hlt => ?_, fun p hp => ?_⟩
  · by_cases e : k = i ∧ l = j
    · rw [e.1, e.2]; exact hv
    · rw [← h.eqn k l hkl (by omega)]
      have hb := hij.1
      have hkl' := hkl.1
      have hln := hkl.2.2
      refine sum_congr rfl (fun q hq => ?_)
      have := mem_range.mp hq
      rw [Uf_set hinj A v hij hln (by omega), Uf_set hinj A v hij (by omega)]
      omega
  · by_cases e : k = i ∧ k = j
    · obtain ⟨rfl, rfl⟩ := e
      rw [set_same]; exact hd rfl
    · rw [set_ne]
      · exact h.pos k hk (by omega)
      · intro e2
        exact e (hinj _ _ _ _ ⟨Nat.le_refl _, by omega, hk⟩ hij e2)
  · rw [set_ne]
    · exact h.rest k l hkl (by omega)
    · intro e
      have := hinj _ _ _ _ hkl hij e
      omega
  · rw [set_ne _ _ (hp i j hij)]; exact h.frame p hp

variable [IsStrictOrderedRing K]

/-- What is needed of `sqrt`. -/
def IsRoot (rt : K → K) : Prop := ∀ x, 0 < x → 0 < rt x ∧ rt x * rt x = x

theorem chol_step (hinj : ∀ i j i' j', InBand n w i j → InBand n w i' j' → ad i j = ad i' j' → i = i' ∧ j = j')
    (hrt : IsRoot rt) (hund : ∀ x, und (dg x) = rt x) (hoff : ∀ s d, off s d = s / und d)
    {A A' : Nat → K} {i j : Nat} (h : CInv ad und n w A0 i j A) (hij : InBand n w i j)
    (e : (let sum := loop (j - w) i (fun k sum => sum - A (ad k i) * A (ad k j)) (A (ad i j))
      if i = j then
        if sum ≤ 0 then .throw else .ok (set A (ad i i) (dg sum))
      else .ok (set A (ad i j) (off sum (A (ad i i))))) = Res.ok A') : CInv ad und n w A0 i (j + 1) A' := by
  simp only [chol_sum h hij] at e
  split at e
  · rename_i hd
    subst hd
    split at e
    · cases e
    · rename_i hs
      cases e
      obtain ⟨r1, r2⟩ := hrt _ (not_le.mp hs)
      refine chol_put hinj h hij _ (fun _ => by rw [hund]; exact r1) ?_
      rw [sum_range_succ]
      rw [sum_congr rfl (fun q hq => by
        have := mem_range.mp hq
        rw [Uf_set hinj A _ hij hij.2.2 (by omega)] : ∀ q ∈ range i, _ = Uf ad und w A q i * Uf ad und w A q i)]
      rw [show Uf ad und w (set A (ad i i) (dg (A0 (ad i i) - ∑ q ∈ range i, Uf ad und w A q i * Uf ad und w A q i))) i i =
        rt (A0 (ad i i) - ∑ q ∈ range i, Uf ad und w A q i * Uf ad und w A q i) by
          unfold Uf; rw [if_neg (Nat.lt_irrefl _), if_pos rfl, set_same, hund]]
      rw [r2]; ring
  · rename_i hne
    cases e
    obtain ⟨h1, h2, h3⟩ := hij
    have hij : InBand n w i j := ⟨h1, h2, h3⟩
    refine chol_put hinj h hij _ (fun e => absurd e hne) ?_
    rw [sum_range_succ]
    rw [sum_congr rfl (fun q hq => by
      have := mem_range.mp hq
      rw [Uf_set hinj A _ hij (by omega) (by omega), Uf_set hinj A _ hij (by omega) (by omega)] :
        ∀ q ∈ range i, _ = Uf ad und w A q i * Uf ad und w A q j)]
    rw [Uf_set hinj A _ hij (show i < n by omega) (by omega)]
    have hp := h.pos i (by omega) (.inr ⟨rfl, by omega⟩)
    have e1 : Uf ad und w A i i = und (A (ad i i)) := by unfold Uf; rw [if_neg (Nat.lt_irrefl _), if_pos rfl]
    have e2 : ∀ v, Uf ad und w (set A (ad i j) v) i j = v := fun v => by
      unfold Uf; rw [if_pos (by omega), if_pos (by omega), set_same]
    rw [e1, e2, hoff, mul_div_cancel₀ _ (ne_of_gt hp)]
    ring

theorem CInv.next {A : Nat → K} {i : Nat} (h : CInv ad und n w A0 i (min (i + w + 1) n) A) (hi : i < n) : CInv ad und n w A0 (i + 1) (i + 1) A := by
  refine ⟨fun k l hkl hlt => ?_, fun k hk hlt => ?_, fun k l hkl hlt => ?_, h.frame⟩
  · obtain ⟨h1, h2, h3⟩ := hkl
    exact h.eqn k l ⟨h1, h2, h3⟩ (by omega)
  · exact h.pos k hk (by omega)
  · exact h.rest k l hkl (by omega)

/-- A symmetric matrix is positive definite. -/
def PosDefinite {n : Nat} (M : Matrix (Fin n) (Fin n) K) : Prop := ∀ x : Fin n → K, x ≠ 0 → 0 < dotProduct x (M.mulVec x)

omit [IsStrictOrderedRing K] in
/-- Where both rows are done, the products of the columns of the factor give the entries of the matrix. -/
theorem chol_entry {A : Nat → K} {i : Nat} (h : CInv ad und n w A0 i i A) {N : Nat} (r c : Fin n) (hr : min (r : Nat) c < i) (hN : min (r : Nat) c < N) :
    symOf ad n w A0 r c = ∑ q ∈ range N, Uf ad und w A q r * Uf ad und w A q c := by
  have key : ∀ k l : Nat, k ≤ l → l < n → k < i → k < N →
      (if l ≤ k + w then A0 (ad k l) else 0) = ∑ q ∈ range N, Uf ad und w A q k * Uf ad und w A q l := by
    intro k l hkl hl hk hN
    rw [← sum_range_add_sum_Ico _ (show k + 1 ≤ N by omega), sum_eq_zero (s := Ico (k + 1) N) (fun q hq => by
      have := mem_Ico.mp hq
      have : Uf ad und w A q k = 0 := by unfold Uf; rw [if_neg (by omega), if_neg (by omega)]
      rw [this, zero_mul]), add_zero]
    by_cases hb : l ≤ k + w
    · rw [if_pos hb, h.eqn k l ⟨hkl, hb, hl⟩ (.inl hk)]
    · rw [if_neg hb]
      refine (sum_eq_zero (fun q hq => ?_)).symm
      have := mem_range.mp hq
      have : Uf ad und w A q l = 0 := by unfold Uf; rw [if_pos (by omega), if_neg (by omega)]
      rw [this, mul_zero]
  unfold symOf
  have hr1 := r.2; have hc1 := c.2
  rcases Nat.le_total (r : Nat) c with hle | hle
  · rw [Nat.min_eq_left hle] at *
    rw [Nat.max_eq_right hle]
    exact key r c hle hc1 hr hN
  · rw [Nat.min_eq_right hle] at *
    rw [Nat.max_eq_left hle, key c r hle hr1 hr hN]
    exact sum_congr rfl (fun q _ => mul_comm _ _)

theorem quad {n : Nat} (M : Matrix (Fin n) (Fin n) K) (x : Fin n → K) : dotProduct x (M.mulVec x) = ∑ r : Fin n, ∑ c : Fin n, x r * M r c * x c := by
  simp only [dotProduct, Matrix.mulVec, mul_sum]
  exact sum_congr rfl (fun r _ => sum_congr rfl (fun c _ => by ring))

/-- A pivot that is not positive shows that the matrix is not positive definite. -/
theorem chol_bad_pivot {A : Nat → K} {i : Nat} (h : CInv ad und n w A0 i i A) (hi : i < n)
    (hs : A0 (ad i i) - ∑ q ∈ range i, Uf ad und w A q i * Uf ad und w A q i ≤ 0) : ¬ PosDefinite (symOf ad n w A0) := by
  intro hp
  obtain ⟨v, hv⟩ := upper_solvable (i := i) (Uf ad und w A) (fun r c hc => by unfold Uf; rw [if_neg (by omega), if_neg (by omega)])
    (fun c hc => by
      unfold Uf; rw [if_neg (Nat.lt_irrefl _), if_pos rfl]
      exact ne_of_gt (h.pos c (by omega) (.inl hc))) (fun k => Uf ad und w A k i)
  let x : Nat → K := fun c => if c < i then v c else if c = i then -1 else 0
  have xi : x i = -1 := by simp [x]
  have hx : ∀ q, q < i → ∑ c ∈ range n, Uf ad und w A q c * x c = 0 := by
    intro q hq
    rw [← sum_range_add_sum_Ico _ (Nat.le_of_lt hi), sum_eq_sum_Ico_succ_bot hi]
    rw [sum_eq_zero (s := Ico (i + 1) n) (fun c hc => by
      have := mem_Ico.mp hc
      simp only [x]
      rw [if_neg (by omega), if_neg (by omega), mul_zero])]
    rw [sum_congr rfl (fun c hc => by
      simp only [x]; rw [if_pos (mem_range.mp hc)] : ∀ c ∈ range i, _ = Uf ad und w A q c * v c)]
    rw [hv q hq, xi]
    ring
  have hlt := hp (fun c => x c) (by
    intro hz
    have := congrFun hz ⟨i, hi⟩
    simp [x] at this)
  have entry : ∀ r c : Fin n, x r * symOf ad n w A0 r c * x c = (∑ q ∈ range i, (Uf ad und w A q r * x r) * (Uf ad und w A q c * x c)) +
      (if (r : Nat) = i ∧ (c : Nat) = i then A0 (ad i i) - ∑ q ∈ range i, Uf ad und w A q i * Uf ad und w A q i else 0) := by
    intro r c
    have expand : x r * (∑ q ∈ range i, Uf ad und w A q r * Uf ad und w A q c) * x c = ∑ q ∈ range i, (Uf ad und w A q r * x r) * (Uf ad und w A q c * x c) := by
      rw [mul_sum, sum_mul]
      exact sum_congr rfl (fun q _ => by ring)
    rcases Nat.lt_or_ge (min (r : Nat) c) i with hlt | hge
    · rw [chol_entry h r c hlt hlt, if_neg (by omega), add_zero, expand]
    · by_cases e : (r : Nat) = i ∧ (c : Nat) = i
      · rw [if_pos e, ← expand]
        have er : symOf ad n w A0 r c = A0 (ad i i) := by
          unfold symOf; rw [e.1, e.2, if_pos (by omega), Nat.min_self, Nat.max_self]
        rw [er, e.1, e.2, xi]
        ring
      · rw [if_neg e, ← expand]
        have : x r = 0 ∨ x c = 0 := by
          simp only [x]
          by_cases e1 : (r : Nat) = i
          · right; rw [if_neg (by omega), if_neg (by omega)]
          · left; rw [if_neg (by omega), if_neg e1]
        rcases this with h0 | h0 <;> rw [h0] <;> ring
  rw [quad, sum_congr rfl (fun r _ => sum_congr rfl (fun c _ => entry r c))] at hlt
  simp only [sum_add_distrib] at hlt
  have z : ∑ r : Fin n, ∑ c : Fin n, ∑ q ∈ range i, (Uf ad und w A q r * x r) * (Uf ad und w A q c * x c) = 0 := by
    rw [sum_congr rfl (fun r _ => sum_comm)]
    rw [sum_comm]
    refine sum_eq_zero (fun q hq => ?_)
    rw [← sum_mul_sum, Fin.sum_univ_eq_sum_range (fun c => Uf ad und w A q c * x c) n, hx q (mem_range.mp hq), mul_zero]
  have z2 : ∑ r : Fin n, ∑ c : Fin n, (if (r : Nat) = i ∧ (c : Nat) = i then A0 (ad i i) - ∑ q ∈ range i, Uf ad und w A q i * Uf ad und w A q i else 0) =
      A0 (ad i i) - ∑ q ∈ range i, Uf ad und w A q i * Uf ad und w A q i := by
    rw [sum_eq_single (⟨i, hi⟩ : Fin n), sum_eq_single (⟨i, hi⟩ : Fin n)]
    · rw [if_pos ⟨rfl, rfl⟩]
    · intro c _ hc
      rw [if_neg (fun e => hc (Fin.ext e.2))]
    · intro h; exact absurd (mem_univ _) h
    · intro r _ hr
      exact sum_eq_zero (fun c _ => if_neg (fun e => hr (Fin.ext e.1)))
    · intro h; exact absurd (mem_univ _) h
  rw [z, z2, zero_add] at hlt
  exact absurd hlt (not_lt.mpr hs)

/-- The factor as a matrix. -/
def UfMat (ad : Nat → Nat → Nat) (und : K → K) (n w : Nat) (A : Nat → K) : Matrix (Fin n) (Fin n) K := fun q l => Uf ad und w A q l

omit [IsStrictOrderedRing K] in
theorem chol_product {A : Nat → K} (h : CInv ad und n w A0 n n A) :
    (UfMat ad und n w A).transpose * UfMat ad und n w A = symOf ad n w A0 := by
  ext r c
  rw [chol_entry h (N := n) r c (by have := r.2; omega) (by have := r.2; omega), Matrix.mul_apply]
  exact Fin.sum_univ_eq_sum_range (fun q => Uf ad und w A q r * Uf ad und w A q c) n

omit [IsStrictOrderedRing K] in
theorem chol_det {A : Nat → K} (h : ∀ k, k < n → 0 < und (A (ad k k))) : (UfMat ad und n w A).det ≠ 0 := by
  rw [Matrix.det_of_isUpperTriangular (M := UfMat ad und n w A) (fun r c hrc => by
    have : (c : Nat) < r := hrc
    simp only [UfMat, Uf]
    rw [if_neg (by omega), if_neg (by omega)])]
  refine prod_ne_zero_iff.mpr (fun c _ => ?_)
  simp only [UfMat, Uf]
  rw [if_neg (Nat.lt_irrefl _), if_pos trivial]
  exact ne_of_gt (h c c.2)

theorem chol_posdef {A : Nat → K} (h : CInv ad und n w A0 n n A) : PosDefinite (symOf ad n w A0) := by
  intro x hx
  rw [← chol_product h, ← Matrix.mulVec_mulVec, Matrix.dotProduct_mulVec, Matrix.vecMul_transpose]
  have hd := chol_det (w := w) (fun k hk => h.pos k hk (.inl hk))
  have hne : (UfMat ad und n w A).mulVec x ≠ 0 := fun hz => hd (Matrix.exists_mulVec_eq_zero_iff.mp ⟨x, hx, hz⟩)
  obtain ⟨q, hq⟩ : ∃ q, (UfMat ad und n w A).mulVec x q ≠ 0 := by
    by_contra hc
    push Not at hc
    exact hne (funext hc)
  refine sum_pos' (fun i _ => mul_self_nonneg _) ⟨q, mem_univ _, mul_self_pos.mpr hq⟩

/-- The decomposition, for every storage. -/
theorem gchol_spec (hinj : ∀ i j i' j', InBand n w i j → InBand n w i' j' → ad i j = ad i' j' → i = i' ∧ j = j')
    (hrt : IsRoot rt) (hund : ∀ x, und (dg x) = rt x) (hoff : ∀ s d, off s d = s / und d) :
    ((∃ A, gchol ad dg off n w A0 = .ok A) ↔ PosDefinite (symOf ad n w A0)) ∧ gchol ad dg off n w A0 ≠ .ub ∧
    ∀ A, gchol ad dg off n w A0 = .ok A → CInv ad und n w A0 n n A := by
  have start : CInv ad und n w A0 0 0 A0 := ⟨by omega, by omega, fun _ _ _ _ => rfl, fun _ _ => rfl⟩
  have inner : ∀ i A A', i < n → CInv ad und n w A0 i i A → loopM i (min (i + w + 1) n) (fun j A =>
      let sum := loop (j - w) i (fun k sum => sum - A (ad k i) * A (ad k j)) (A (ad i j))
      if i = j then
        if sum ≤ 0 then .throw else .ok (set A (ad i i) (dg sum))
      else .ok (set A (ad i j) (off sum (A (ad i i))))) A = .ok A' → CInv ad und n w A0 (i + 1) (i + 1) A' := by
    intro i A A' hi h e
    refine CInv.next (loopM_rule (fun j (A : Nat → K) => CInv ad und n w A0 i j A) (by omega) h ?_ e) hi
    intro j A A' h1 h2 hc e
    exact chol_step hinj hrt hund hoff hc ⟨h1, by omega, by omega⟩ e
  have noub : ∀ i (A : Nat → K), loopM i (min (i + w + 1) n) (fun j A =>
      let sum := loop (j - w) i (fun k sum => sum - A (ad k i) * A (ad k j)) (A (ad i j))
      if i = j then
        if sum ≤ 0 then .throw else .ok (set A (ad i i) (dg sum))
      else .ok (set A (ad i j) (off sum (A (ad i i))))) A ≠ .ub := by
    intro i A
    refine loopFromM_no_ub (fun _ _ => True) _ _ _ trivial (fun k s _ _ _ => ⟨?_, fun _ _ => trivial⟩)
    simp only
    split
    · split <;> simp
    · simp
  refine ⟨⟨?_, ?_⟩, ?_, ?_⟩
  · rintro ⟨A, e⟩
    exact chol_posdef (loopM_rule (fun i (A : Nat → K) => CInv ad und n w A0 i i A) (Nat.zero_le n) start (fun i A A' _ hi hc e => inner i A A' hi hc e) e)
  · intro hp
    obtain ⟨A, e, -⟩ := loopM_total (f := fun i A => loopM i (min (i + w + 1) n) (fun j A =>
        let sum := loop (j - w) i (fun k sum => sum - A (ad k i) * A (ad k j)) (A (ad i j))
        if i = j then
          if sum ≤ 0 then .throw else .ok (set A (ad i i) (dg sum))
        else .ok (set A (ad i j) (off sum (A (ad i i))))) A) (fun i (A : Nat → K) => CInv ad und n w A0 i i A) (Nat.zero_le n) start (fun i A _ hi hc => by
      obtain ⟨A', e, -⟩ := loopM_total (f := fun j A =>
        let sum := loop (j - w) i (fun k sum => sum - A (ad k i) * A (ad k j)) (A (ad i j))
        if i = j then
          if sum ≤ 0 then .throw else .ok (set A (ad i i) (dg sum))
        else .ok (set A (ad i j) (off sum (A (ad i i))))) (s := A) (fun j (A : Nat → K) => CInv ad und n w A0 i j A) (show i ≤ min (i + w + 1) n by omega) hc (fun j A h1 h2 hc => by
          have hb : InBand n w i j := ⟨h1, by omega, by omega⟩
          have hstep := fun A' => chol_step (A' := A') hinj hrt hund hoff hc hb
          simp only [chol_sum hc hb] at hstep ⊢
          by_cases hij : i = j
          · subst hij
            rw [if_pos rfl] at hstep ⊢
            have : ¬ (A0 (ad i i) - ∑ q ∈ range i, Uf ad und w A q i * Uf ad und w A q i ≤ 0) := fun hs => chol_bad_pivot hc hi hs hp
            rw [if_neg this] at hstep ⊢
            exact ⟨_, rfl, hstep _ rfl⟩
          · rw [if_neg hij] at hstep ⊢
            exact ⟨_, rfl, hstep _ rfl⟩)
      exact ⟨A', e, inner i A A' hi hc e⟩)
    exact ⟨A, e⟩
  · exact loopFromM_no_ub (fun _ _ => True) _ _ _ trivial (fun k s _ _ _ => ⟨noub k s, fun _ _ => trivial⟩)
  · intro A e
    exact loopM_rule (fun i (A : Nat → K) => CInv ad und n w A0 i i A) (Nat.zero_le n) start (fun i A A' _ hi hc e => inner i A A' hi hc e) e

/-! ## Substitution -/

/-- One substitution for both storages that are solved with. -/
def gbksub (ad : Nat → Nat → Nat) (n w : Nat) (A b : Nat → K) (m c : Nat) : Nat → K :=
  let b := loop 0 n (fun i b =>
    let b := loop (i - w) i (fun k b => set b (i * m + c) (b (i * m + c) - A (ad k i) * b (k * m + c))) b
    set b (i * m + c) (b (i * m + c) * A (ad i i))) b
  down n (fun i b =>
    let b := loop (i + 1) (min (i + 1 + w) n) (fun k b => set b (i * m + c) (b (i * m + c) - A (ad i k) * b (k * m + c))) b
    set b (i * m + c) (b (i * m + c) * A (ad i i))) b

/-- On the diagonal the reciprocal is stored. -/
def recip (d : K) : K := 1 / d

theorem gbksub_at {m c : Nat} (hc : c < m) {A b : Nat → K} (hp : ∀ k, k < n → 0 < recip (A (ad k k))) :
    (∀ r, r < n → ∑ q ∈ range n, Uf ad recip w A q r * ∑ l ∈ range n, Uf ad recip w A q l * gbksub ad n w A b m c (l * m + c) = b (r * m + c)) ∧
    (∀ r, n ≤ r → gbksub ad n w A b m c (r * m + c) = b (r * m + c)) ∧
    ∀ r c', c' < m → c' ≠ c → gbksub ad n w A b m c (r * m + c') = b (r * m + c') := by
  have hne : ∀ k, k < n → A (ad k k) ≠ 0 := fun k hk h0 => by
    have := hp k hk
    rw [recip, h0, div_zero] at this
    exact lt_irrefl _ this
  have diag : ∀ k, Uf ad recip w A k k = recip (A (ad k k)) := fun k => by unfold Uf; rw [if_neg (Nat.lt_irrefl _), if_pos rfl]
  have below : ∀ q l, l < q → Uf ad recip w A q l = 0 := fun q l h => by unfold Uf; rw [if_neg (by omega), if_neg (by omega)]
  obtain ⟨f, hf⟩ : ∃ f, f = loop 0 n (fun i b =>
    let b := loop (i - w) i (fun k b => set b (i * m + c) (b (i * m + c) - A (ad k i) * b (k * m + c))) b
    set b (i * m + c) (b (i * m + c) * A (ad i i))) b := ⟨_, rfl⟩
  have fwd : (∀ r, r < n → ∑ q ∈ range (r + 1), Uf ad recip w A q r * f (q * m + c) = b (r * m + c)) ∧
      (∀ r c', c' < m → c' ≠ c ∨ n ≤ r → f (r * m + c') = b (r * m + c')) := by
    have := loop_rule (s := b) (f := fun i b =>
      let b := loop (i - w) i (fun k b => set b (i * m + c) (b (i * m + c) - A (ad k i) * b (k * m + c))) b
      set b (i * m + c) (b (i * m + c) * A (ad i i))) (fun i (x : Nat → K) =>
      (∀ r, r < i → ∑ q ∈ range (r + 1), Uf ad recip w A q r * x (q * m + c) = b (r * m + c)) ∧
      (∀ r c', c' < m → c' ≠ c ∨ i ≤ r → x (r * m + c') = b (r * m + c'))) (Nat.zero_le n) ⟨by omega, fun _ _ _ _ => rfl⟩ (by
      rintro i x _ hi ⟨g1, g2⟩
      simp only
      rw [loop_acc (t := fun k b => A (ad k i) * b (k * m + c)) (by omega) (fun k v h1 h2 => by rw [set_addr _ _ hc hc, if_neg (by omega)]), set_set, set_same]
      refine ⟨fun r hr => ?_, fun r c' hc' hr => ?_⟩
      · have keep : ∀ v q, q < i → set x (i * m + c) v (q * m + c) = x (q * m + c) := fun v q hq => by
          rw [set_addr _ _ hc hc, if_neg (by omega)]
        rcases Nat.lt_or_ge r i with hlt | hge
        · rw [← g1 r hlt]
          refine sum_congr rfl (fun q hq => ?_)
          rw [keep _ q (by have := mem_range.mp hq; omega)]
        · have : r = i := by omega
          subst this
          rw [sum_range_succ, set_same, diag, sum_congr rfl (fun q hq => congrArg (Uf ad recip w A q r * ·) (keep _ q (mem_range.mp hq)))]
          have es : ∑ q ∈ range r, Uf ad recip w A q r * x (q * m + c) = ∑ k ∈ Ico (r - w) r, A (ad k r) * x (k * m + c) := by
            rw [← sum_range_add_sum_Ico _ (show r - w ≤ r by omega), sum_eq_zero (s := range (r - w)) (fun q hq => by
              have := mem_range.mp hq
              unfold Uf; rw [if_pos (by omega), if_neg (by omega), zero_mul]), zero_add]
            refine sum_congr rfl (fun q hq => ?_)
            have := mem_Ico.mp hq
            unfold Uf; rw [if_pos (by omega), if_pos (by omega)]
          rw [es, g2 r c hc (.inr (Nat.le_refl _)), recip]
          have := hne r hi
          field_simp
          ring
      · rw [set_addr _ _ hc hc', if_neg (by omega)]; exact g2 r c' hc' (by omega))
    rw [← hf] at this
    exact this
  have bk := down_rule (n := n) (s := f) (f := fun i b =>
    let b := loop (i + 1) (min (i + 1 + w) n) (fun k b => set b (i * m + c) (b (i * m + c) - A (ad i k) * b (k * m + c))) b
    set b (i * m + c) (b (i * m + c) * A (ad i i))) (fun i (x : Nat → K) =>
    (∀ r, i ≤ r → r < n → ∑ l ∈ Ico r n, Uf ad recip w A r l * x (l * m + c) = f (r * m + c)) ∧
    (∀ r c', c' < m → c' ≠ c ∨ r < i ∨ n ≤ r → x (r * m + c') = f (r * m + c'))) ⟨by omega, fun _ _ _ _ => rfl⟩ (by
    rintro i x hi ⟨g1, g2⟩
    simp only
    rw [loop_acc (t := fun k b => A (ad i k) * b (k * m + c)) (by omega) (fun k v h1 h2 => by rw [set_addr _ _ hc hc, if_neg (by omega)]), set_set, set_same]
    have keep : ∀ v q, i < q → set x (i * m + c) v (q * m + c) = x (q * m + c) := fun v q hq => by
      rw [set_addr _ _ hc hc, if_neg (by omega)]
    refine ⟨fun r hr hrn => ?_, fun r c' hc' hr => ?_⟩
    · by_cases hri : r = i
      · subst hri
        rw [sum_eq_sum_Ico_succ_bot hrn, set_same, diag]
        rw [sum_congr rfl (fun q hq => congrArg (Uf ad recip w A r q * ·) (keep _ q (by have := mem_Ico.mp hq; omega)))]
        have es : ∑ q ∈ Ico (r + 1) n, Uf ad recip w A r q * x (q * m + c) = ∑ k ∈ Ico (r + 1) (min (r + 1 + w) n), A (ad r k) * x (k * m + c) := by
          rw [← sum_Ico_consecutive _ (show r + 1 ≤ min (r + 1 + w) n by omega) (show min (r + 1 + w) n ≤ n by omega),
            sum_eq_zero (s := Ico (min (r + 1 + w) n) n) (fun q hq => by
              have := mem_Ico.mp hq
              unfold Uf; rw [if_pos (by omega), if_neg (by omega), zero_mul]), add_zero]
          refine sum_congr rfl (fun q hq => ?_)
          have := mem_Ico.mp hq
          unfold Uf; rw [if_pos (by omega), if_pos (by omega)]
        rw [es, g2 r c hc (.inr (.inl (by omega))), recip]
        have := hne r hi
        field_simp
        ring
      · rw [← g1 r (by omega) hrn]
        refine sum_congr rfl (fun q hq => ?_)
        rw [keep _ q (by have := mem_Ico.mp hq; omega)]
    · rw [set_addr _ _ hc hc', if_neg (by omega)]; exact g2 r c' hc' (by omega))
  have e : gbksub ad n w A b m c = down n (fun i b =>
    let b := loop (i + 1) (min (i + 1 + w) n) (fun k b => set b (i * m + c) (b (i * m + c) - A (ad i k) * b (k * m + c))) b
    set b (i * m + c) (b (i * m + c) * A (ad i i))) f := by rw [hf]; rfl
  rw [← e] at bk
  obtain ⟨k1, k2⟩ := bk
  refine ⟨fun r hr => ?_, fun r hr => by rw [k2 r c hc (.inr (.inr hr)), fwd.2 r c hc (.inr hr)],
    fun r c' hc' hn => by rw [k2 r c' hc' (.inl hn), fwd.2 r c' hc' (.inl hn)]⟩
  have inner : ∀ q, q < n → ∑ l ∈ range n, Uf ad recip w A q l * gbksub ad n w A b m c (l * m + c) = f (q * m + c) := by
    intro q hq
    rw [← k1 q (Nat.zero_le _) hq, ← sum_range_add_sum_Ico _ (Nat.le_of_lt hq), sum_eq_zero (s := range q) (fun l hl => by
      rw [below q l (mem_range.mp hl), zero_mul]), zero_add]
  rw [sum_congr rfl (fun q hq => congrArg (Uf ad recip w A q r * ·) (inner q (mem_range.mp hq))), ← fwd.1 r hr,
    ← sum_range_add_sum_Ico _ (show r + 1 ≤ n by omega), sum_eq_zero (s := Ico (r + 1) n) (fun q hq => by
      rw [below q r (by have := mem_Ico.mp hq; omega), zero_mul]), add_zero]

theorem gbksub_solves {m c : Nat} (hc : c < m) {A b : Nat → K} (h : CInv ad recip n w A0 n n A) :
    (symOf ad n w A0).mulVec (fun k : Fin n => gbksub ad n w A b m c (k * m + c)) = (fun r : Fin n => b (r * m + c)) ∧
    (∀ r, n ≤ r → gbksub ad n w A b m c (r * m + c) = b (r * m + c)) ∧
    ∀ r c', c' < m → c' ≠ c → gbksub ad n w A b m c (r * m + c') = b (r * m + c') := by
  obtain ⟨h1, h2⟩ := gbksub_at (w := w) (b := b) hc (fun k hk => h.pos k hk (.inl hk))
  refine ⟨?_, h2⟩
  funext r
  rw [← chol_product h, ← Matrix.mulVec_mulVec, ← h1 r r.2]
  simp only [Matrix.mulVec, dotProduct, Matrix.transpose_apply, UfMat]
  rw [← Fin.sum_univ_eq_sum_range (fun q => Uf ad recip w A q r * ∑ l ∈ range n, Uf ad recip w A q l * gbksub ad n w A b m c (l * m + c)) n]
  refine sum_congr rfl (fun q _ => ?_)
  rw [Fin.sum_univ_eq_sum_range (fun l => Uf ad recip w A q l * gbksub ad n w A b m c (l * m + c)) n]

end OP.Lin
