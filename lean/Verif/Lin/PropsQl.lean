import Verif.Lin.QlSweep
/-!
# C92: the QL iteration
-/
namespace OP.Lin
open Finset
variable {K : Type} [Field K] [LinearOrder K]

/-! ## Specification -/

/-- Turned by the columns of `Q` the symmetric matrix `B` is the diagonal of `d`, up to `δ` times the square of the vector; and the columns
are orthonormal. -/
structure Diag (n : Nat) (B : Nat → Nat → K) (Q d : Nat → K) (δ : K) : Prop where
  dot : ∀ x y, vdot n (app n Q x) (app n Q y) = vdot n x y
  form : ∀ x, |vbil n B (app n Q x) (app n Q x) - ∑ k ∈ range n, d k * (x k * x k)| ≤ δ * vdot n x x

/-- The test for numbers that vanish beside others: zero vanishes, and what vanishes is at most the part `τ`. -/
structure NegOk (neg : K → K → Bool) (τ : K) : Prop where
  zero : ∀ g, neg 0 g = true
  le : ∀ x g, 0 ≤ x → neg x g = true → x ≤ τ * g

/-! ## The invariant -/

/-- What holds at the row `i` after `N` numbers have been left out. -/
structure QlInv (n i : Nat) (B : Nat → Nat → K) (δ : K) (t : Tri K) : Prop where
  dot : ∀ x y, vdot n (app n t.A x) (app n t.A y) = vdot n x y
  form : ∀ x, |vbil n B (app n t.A x) (app n t.A x) - tq n (aD n t.d) (aE n i t.e) x| ≤ δ * vdot n x x

omit [LinearOrder K] in
theorem tq_unit {n k : Nat} (hk : k < n) {D E : Nat → K} (hE : E 0 = 0) : tq n D E (vunit k) = D k := by
  unfold tq
  rw [sum_eq_single k]
  · unfold vunit
    rw [if_pos rfl]
    rcases Nat.eq_zero_or_pos k with rfl | h
    · rw [hE]; ring
    · rw [if_neg (by omega)]; ring
  · intro j _ hj
    unfold vunit
    rw [if_neg hj]; ring
  · intro h; rw [mem_range] at h; omega

omit [LinearOrder K] in
theorem vbil_app_congr {n : Nat} {B : Nat → Nat → K} {u v : Nat → K} (h : ∀ r < n, u r = v r) : vbil n B u u = vbil n B v v :=
  sum_congr rfl fun r hr => sum_congr rfl fun s hs => by rw [h r (mem_range.1 hr), h s (mem_range.1 hs)]

omit [LinearOrder K] in
theorem vdot_app_congr {n : Nat} {u v u' v' : Nat → K} (h : ∀ r < n, u r = u' r) (h' : ∀ r < n, v r = v' r) : vdot n u v = vdot n u' v' :=
  sum_congr rfl fun r hr => by rw [h r (mem_range.1 hr), h' r (mem_range.1 hr)]

variable [IsStrictOrderedRing K]

omit [IsStrictOrderedRing K] in
/-- A number beside the diagonal is left out. -/
theorem tq_drop {n m : Nat} (hm : m < n) (D E : Nat → K) (x : Nat → K) :
    tq n D E x = tq n D (fun k => if k = m + 1 then 0 else E k) x + 2 * E (m + 1) * (x m * x (m + 1)) := by
  unfold tq
  rw [← sub_eq_iff_eq_add', ← sum_sub_distrib, sum_eq_single (m + 1)]
  · dsimp only
    rw [if_pos rfl, Nat.add_sub_cancel]; ring
  · intro k _ hk
    dsimp only
    rw [if_neg hk, sub_self]
  · intro h; rw [mem_range] at h; omega

theorem two_le {n m : Nat} (hm : m + 1 < n) (x : Nat → K) : |2 * (x m * x (m + 1))| ≤ vdot n x x := by
  have h1 : x m * x m + x (m + 1) * x (m + 1) ≤ vdot n x x := by
    unfold vdot
    have : ∑ k ∈ ({m, m + 1} : Finset Nat), x k * x k ≤ ∑ k ∈ range n, x k * x k :=
      sum_le_sum_of_subset_of_nonneg (fun k hk => by simp only [mem_insert, mem_singleton] at hk; rw [mem_range]; omega) fun k _ _ => mul_self_nonneg _
    rwa [sum_insert (by simp), sum_singleton] at this
  rw [abs_le]
  constructor
  · nlinarith [mul_self_nonneg (x m + x (m + 1))]
  · nlinarith [mul_self_nonneg (x m - x (m + 1))]

omit [LinearOrder K] [IsStrictOrderedRing K] in
theorem aE_zero {n i : Nat} {e : Nat → K} : aE n i e 0 = 0 := if_pos (Or.inr (Nat.zero_le i))

/-- The bound after one more number. -/
theorem drop_step {n i m : Nat} (him : i ≤ m) (hmn : m < n) {B : Nat → Nat → K} {ρ τ : K} (hρ0 : 0 ≤ ρ) (hρ : ∀ y, |vbil n B y y| ≤ ρ * vdot n y y)
    {neg : K → K → Bool} (hτ0 : 0 ≤ τ) (hneg : NegOk neg τ) {N : Nat} {t : Tri K} (h : QlInv n i B (ρ * ((1 + 2 * τ) ^ N - 1)) t)
    (hm : m + 1 < n → neg |t.e (m + 1)| (|t.d m| + |t.d (m + 1)|) = true) (x : Nat → K) :
    |vbil n B (app n t.A x) (app n t.A x) - tq n (aD n t.d) (fun k => if k = m + 1 then 0 else aE n i t.e k) x| ≤ ρ * ((1 + 2 * τ) ^ (N + 1) - 1) * vdot n x x := by
  obtain ⟨h1, h2⟩ := h
  have hx : 0 ≤ vdot n x x := sum_nonneg fun _ _ => mul_self_nonneg _
  have hq : 0 ≤ ρ * (1 + 2 * τ) ^ N := mul_nonneg hρ0 (pow_nonneg (by linarith) N)
  have hd : ∀ k < n, |t.d k| ≤ ρ * (1 + 2 * τ) ^ N := by
    intro k hk
    have e := h2 (vunit k)
    rw [tq_unit hk aE_zero, vdot_unit hk, show vunit k k = (1 : K) from if_pos rfl, mul_one, show aD n t.d k = t.d k from if_neg (by omega)] at e
    have e' := hρ (app n t.A (vunit k))
    rw [h1, vdot_unit hk, show vunit k k = (1 : K) from if_pos rfl, mul_one] at e'
    rw [abs_le] at e e' ⊢
    constructor <;> linarith [e.1, e.2, e'.1, e'.2]
  have he : |aE n i t.e (m + 1)| ≤ 2 * τ * (ρ * (1 + 2 * τ) ^ N) := by
    by_cases hn : m + 1 < n
    · rw [show aE n i t.e (m + 1) = t.e (m + 1) from if_neg (by omega)]
      have e1 := hneg.le _ _ (abs_nonneg _) (hm hn)
      have e2 := hd m hmn
      have e3 := hd (m + 1) hn
      have e4 : τ * (|t.d m| + |t.d (m + 1)|) ≤ τ * (2 * (ρ * (1 + 2 * τ) ^ N)) := mul_le_mul_of_nonneg_left (by linarith) hτ0
      linarith
    · rw [show aE n i t.e (m + 1) = 0 from if_pos (by omega), abs_zero]
      exact mul_nonneg (by linarith) hq
  have e1 := h2 x
  rw [tq_drop hmn] at e1
  have e2 : |2 * aE n i t.e (m + 1) * (x m * x (m + 1))| ≤ 2 * τ * (ρ * (1 + 2 * τ) ^ N) * vdot n x x := by
    by_cases hn : m + 1 < n
    · rw [show 2 * aE n i t.e (m + 1) * (x m * x (m + 1)) = aE n i t.e (m + 1) * (2 * (x m * x (m + 1))) by ring, abs_mul]
      exact mul_le_mul he (two_le hn x) (abs_nonneg _) (mul_nonneg (by linarith) hq)
    · rw [show aE n i t.e (m + 1) = 0 from if_pos (by omega), mul_zero, zero_mul, abs_zero]
      exact mul_nonneg (mul_nonneg (by linarith) hq) hx
  have e3 : ρ * ((1 + 2 * τ) ^ (N + 1) - 1) * vdot n x x = ρ * ((1 + 2 * τ) ^ N - 1) * vdot n x x + 2 * τ * (ρ * (1 + 2 * τ) ^ N) * vdot n x x := by
    rw [pow_succ]; ring
  rw [e3]
  rw [abs_le] at e1 e2 ⊢
  constructor <;> linarith [e1.1, e1.2, e2.1, e2.2]

omit [IsStrictOrderedRing K] in
theorem qlFind_spec {neg : K → K → Bool} {d e : Nat → K} : ∀ c m, m ≤ qlFind neg d e c m ∧ qlFind neg d e c m ≤ m + c ∧
    (∀ k, m ≤ k → k < qlFind neg d e c m → neg |e (k + 1)| (|d k| + |d (k + 1)|) = false) ∧
    (qlFind neg d e c m < m + c → neg |e (qlFind neg d e c m + 1)| (|d (qlFind neg d e c m)| + |d (qlFind neg d e c m + 1)|) = true)
  | 0, m => ⟨Nat.le_refl _, Nat.le_refl _, fun k h1 h2 => absurd h2 (by simp only [qlFind]; omega), fun h => absurd h (by simp only [qlFind]; omega)⟩
  | c + 1, m => by
    rw [qlFind]
    by_cases h : neg |e (m + 1)| (|d m| + |d (m + 1)|) = true
    · rw [if_pos h]
      exact ⟨Nat.le_refl _, by omega, fun k h1 h2 => by omega, fun _ => h⟩
    · rw [if_neg h]
      obtain ⟨h1, h2, h3, h4⟩ := qlFind_spec (neg := neg) (d := d) (e := e) c (m + 1)
      refine ⟨by omega, by omega, fun k a b => ?_, fun a => h4 (by omega)⟩
      rcases Nat.eq_or_lt_of_le a with rfl | a
      · simpa using h
      · exact h3 k a b

/-- One row. -/
theorem qlWhile_spec {rt : K → K} (hrt : IsRoot0 rt) {n i : Nat} (hi : i < n) {B : Nat → Nat → K} {ρ τ : K} (hρ0 : 0 ≤ ρ)
    (hρ : ∀ y, |vbil n B y y| ≤ ρ * vdot n y y) {neg : K → K → Bool} (hτ0 : 0 ≤ τ) (hneg : NegOk neg τ) : ∀ fuel N (t t' : Tri K),
    QlInv n i B (ρ * ((1 + 2 * τ) ^ N - 1)) t → qlWhile rt neg n i fuel t = some t' →
    QlInv n (i + 1) B (ρ * ((1 + 2 * τ) ^ (N + fuel) - 1)) t' ∧ (∀ r, ∀ k < n, n ≤ r → t'.A (r * n + k) = t.A (r * n + k)) ∧
      ∀ k, n ≤ k → t'.d k = t.d k ∧ t'.e k = t.e k := by
  intro fuel
  induction fuel with
  | zero => intro N t t' _ h; cases h
  | succ fuel ih =>
    intro N t t' h e
    obtain ⟨f1, f2, f3, f4⟩ := qlFind_spec (neg := neg) (d := t.d) (e := t.e) (n - 1 - i) i
    unfold qlWhile at e
    dsimp only at e
    obtain ⟨m, hm⟩ : ∃ m, m = qlFind neg t.d t.e (n - 1 - i) i := ⟨_, rfl⟩
    rw [← hm] at f1 f2 f3 f4 e
    have hdrop := drop_step f1 (by omega) hρ0 hρ hτ0 hneg h (fun h => f4 (by omega))
    by_cases hmi : m = i
    · rw [if_pos hmi] at e
      cases e
      refine ⟨⟨h.dot, fun x => ?_⟩, fun _ _ _ _ => rfl, fun _ _ => ⟨rfl, rfl⟩⟩
      have e1 := hdrop x
      have e2 : tq n (aD n t.d) (fun k => if k = m + 1 then 0 else aE n i t.e k) x = tq n (aD n t.d) (aE n (i + 1) t.e) x := by
        unfold tq
        refine sum_congr rfl fun k _ => ?_
        have : (if k = m + 1 then 0 else aE n i t.e k) = aE n (i + 1) t.e k := by
          unfold aE
          by_cases h1 : k = m + 1
          · rw [if_pos h1, if_pos (by omega)]
          · rw [if_neg h1]
            by_cases h2 : n ≤ k ∨ k ≤ i
            · rw [if_pos h2, if_pos (by omega)]
            · rw [if_neg h2, if_neg (by omega)]
        dsimp only
        rw [this]
      rw [e2] at e1
      refine e1.trans (mul_le_mul_of_nonneg_right (mul_le_mul_of_nonneg_left ?_ hρ0) (sum_nonneg fun _ _ => mul_self_nonneg _))
      have : (1 + 2 * τ) ^ (N + 1) ≤ (1 + 2 * τ) ^ (N + (fuel + 1)) := pow_le_pow_right₀ (by linarith) (by omega)
      linarith
    · rw [if_neg hmi] at e
      have he : ∀ k, i < k → k ≤ m → t.e k ≠ 0 := by
        intro k h1 h2 h3
        have := f3 (k - 1) (by omega) (by omega)
        rw [Nat.sub_add_cancel (by omega), h3, abs_zero, hneg.zero] at this
        cases this
      obtain ⟨G, g1, g2, g3⟩ := qlPass_spec hrt (show i < m by omega) (show m < n by omega) t he
      have hP : QlInv n i B (ρ * ((1 + 2 * τ) ^ (N + 1) - 1)) (qlPass rt n i m t) := by
        refine ⟨fun x y => ?_, fun x => ?_⟩
        · rw [vdot_app_congr (g1.app x) (g1.app y), h.dot, g1.dot]
        · have := hdrop (G x)
          rw [g1.dot, ← g3, ← vbil_app_congr (g1.app x)] at this
          exact this
      obtain ⟨i1, i2, i3⟩ := ih (N + 1) _ t' hP e
      rw [show N + 1 + fuel = N + (fuel + 1) by omega] at i1
      refine ⟨i1, fun r k hk hr => by rw [i2 r k hk hr, g1.out r k hk hr], fun k hk => ?_⟩
      rw [(i3 k hk).1, (i3 k hk).2]; exact g2 k hk

theorem qlFrom_spec {rt : K → K} (hrt : IsRoot0 rt) {n : Nat} {B : Nat → Nat → K} {ρ τ : K} (hρ0 : 0 ≤ ρ)
    (hρ : ∀ y, |vbil n B y y| ≤ ρ * vdot n y y) {neg : K → K → Bool} (hτ0 : 0 ≤ τ) (hneg : NegOk neg τ) {fuel : Nat} : ∀ q i N (t t' : Tri K), i + q = n →
    QlInv n i B (ρ * ((1 + 2 * τ) ^ N - 1)) t → qlFrom rt neg n fuel q i t = some t' →
    QlInv n n B (ρ * ((1 + 2 * τ) ^ (N + q * fuel) - 1)) t' ∧ (∀ r, ∀ k < n, n ≤ r → t'.A (r * n + k) = t.A (r * n + k)) ∧
      ∀ k, n ≤ k → t'.d k = t.d k ∧ t'.e k = t.e k := by
  intro q
  induction q with
  | zero =>
    intro i N t t' hi h e
    cases e
    have : i = n := by omega
    subst this
    rw [Nat.zero_mul, Nat.add_zero]
    exact ⟨h, fun _ _ _ _ => rfl, fun _ _ => ⟨rfl, rfl⟩⟩
  | succ q ih =>
    intro i N t t' hi h e
    unfold qlFrom at e
    rw [Option.bind_eq_some_iff] at e
    obtain ⟨t1, e1, e2⟩ := e
    obtain ⟨w1, w2, w3⟩ := qlWhile_spec hrt (show i < n by omega) hρ0 hρ hτ0 hneg fuel N t t1 h e1
    obtain ⟨i1, i2, i3⟩ := ih (i + 1) (N + fuel) t1 t' (by omega) w1 e2
    rw [show N + fuel + q * fuel = N + (q + 1) * fuel by ring] at i1
    refine ⟨i1, fun r k hk hr => by rw [i2 r k hk hr, w2 r k hk hr], fun k hk => ?_⟩
    rw [(i3 k hk).1, (i3 k hk).2]; exact w3 k hk

/-! ## The whole -/

omit [LinearOrder K] [IsStrictOrderedRing K] in
/-- The form of the columns, from that of the unit vectors. -/
theorem vbil_app (n : Nat) (B : Nat → Nat → K) (A x y : Nat → K) : vbil n B (app n A x) (app n A y) =
    ∑ a ∈ range n, ∑ b ∈ range n, (∑ r ∈ range n, ∑ c ∈ range n, B r c * A (r * n + a) * A (c * n + b)) * x a * y b := by
  unfold vbil app
  have h1 : ∀ r c, B r c * (∑ a ∈ range n, A (r * n + a) * x a) * (∑ b ∈ range n, A (c * n + b) * y b) =
      ∑ a ∈ range n, ∑ b ∈ range n, B r c * A (r * n + a) * A (c * n + b) * x a * y b := by
    intro r c
    rw [mul_assoc, sum_mul_sum, mul_sum]
    refine sum_congr rfl fun a _ => ?_
    rw [mul_sum]
    exact sum_congr rfl fun b _ => by ring
  simp only [h1, sum_mul]
  rw [show (∑ r ∈ range n, ∑ c ∈ range n, ∑ a ∈ range n, ∑ b ∈ range n, B r c * A (r * n + a) * A (c * n + b) * x a * y b) =
    ∑ r ∈ range n, ∑ a ∈ range n, ∑ b ∈ range n, ∑ c ∈ range n, B r c * A (r * n + a) * A (c * n + b) * x a * y b from
      sum_congr rfl fun r _ => by rw [sum_comm]; exact sum_congr rfl fun a _ => by rw [sum_comm]]
  rw [sum_comm]
  exact sum_congr rfl fun a _ => by rw [sum_comm]

omit [LinearOrder K] [IsStrictOrderedRing K] in
theorem vdot_app (n : Nat) (A x y : Nat → K) : vdot n (app n A x) (app n A y) = ∑ a ∈ range n, ∑ b ∈ range n, colDot n A a b * x a * y b := by
  unfold vdot app colDot
  have h1 : ∀ r, (∑ a ∈ range n, A (r * n + a) * x a) * (∑ b ∈ range n, A (r * n + b) * y b) =
      ∑ a ∈ range n, ∑ b ∈ range n, A (r * n + a) * A (r * n + b) * x a * y b := by
    intro r
    rw [sum_mul_sum]
    exact sum_congr rfl fun a _ => sum_congr rfl fun b _ => by ring
  simp only [h1, sum_mul]
  rw [sum_comm]
  exact sum_congr rfl fun a _ => by rw [sum_comm]

omit [IsStrictOrderedRing K] in
theorem triMat_form {n : Nat} (d e : Nat → K) (x : Nat → K) :
    ∑ a ∈ range n, ∑ b ∈ range n, triMat d e a b * x a * x b = tq n (aD n d) (aE n 0 e) x := by
  have h1 : ∀ m ≤ n, ∑ a ∈ range m, ∑ b ∈ range m, triMat d e a b * x a * x b = ∑ k ∈ range m, (aD n d k * (x k * x k) + 2 * aE n 0 e k * (x (k - 1) * x k)) := by
    intro m
    induction m with
    | zero => intro _; rfl
    | succ m ih =>
      intro hm
      rw [sum_range_succ _ m, sum_range_succ _ m, sum_range_succ _ m]
      simp only [sum_range_succ _ m]
      rw [sum_add_distrib, ih (by omega)]
      have hd : triMat d e m m = aD n d m := by unfold triMat aD; rw [if_pos rfl, if_neg (by omega)]
      have h2 : ∑ a ∈ range m, triMat d e a m * x a * x m = aE n 0 e m * (x (m - 1) * x m) := by
        rcases Nat.eq_zero_or_pos m with rfl | hm0
        · rw [aE_zero, zero_mul]; rfl
        · rw [sum_eq_single (m - 1)]
          · unfold triMat aE
            rw [if_neg (by omega), if_pos (by omega), if_neg (by omega)]; ring
          · intro a ha hne
            rw [mem_range] at ha
            unfold triMat
            rw [if_neg (by omega), if_neg (by omega), if_neg (by omega)]; ring
          · intro h; rw [mem_range] at h; omega
      have h3 : ∑ b ∈ range m, triMat d e m b * x m * x b = ∑ a ∈ range m, triMat d e a m * x a * x m := by
        refine sum_congr rfl fun a ha => ?_
        rw [mem_range] at ha
        have : triMat d e m a = triMat d e a m := by
          unfold triMat
          rw [if_neg (by omega), if_neg (show ¬m + 1 = a by omega), if_neg (show ¬a = m by omega)]
          by_cases h : a + 1 = m
          · rw [if_pos h, if_pos h]
          · rw [if_neg h, if_neg h, if_neg (by omega)]
        rw [this]; ring
      rw [h3, h2, hd]; ring
  rw [h1 n (Nat.le_refl _)]
  unfold tq
  rw [sum_range_succ]
  rw [show aD n d n = 0 from if_pos (Nat.le_refl _), show aE n 0 e n = 0 from if_pos (Or.inl (Nat.le_refl _))]
  ring

/-- C92: tridiagonal reduction and QL iteration.  When the iteration ends, the columns are orthonormal and turn the matrix into the
diagonal one of `d`, up to the numbers that were left out. -/
theorem C92_iteration {rt : K → K} (hrt : IsRoot0 rt) {neg : K → K → Bool} {τ : K} (hτ0 : 0 ≤ τ) (hneg : NegOk neg τ) (n fuel : Nat) (s t : Tri K)
    {ρ : K} (hρ0 : 0 ≤ ρ) (hρ : ∀ y, |vbil n (low n s.A) y y| ≤ ρ * vdot n y y) (e : eigTri rt neg n fuel (tridiag rt n s) = some t) :
    Diag n (low n s.A) t.A t.d (ρ * ((1 + 2 * τ) ^ (n * fuel) - 1)) ∧ (∀ p, n * n ≤ p → t.A p = s.A p) ∧ ∀ k, n ≤ k → t.d k = s.d k ∧ t.e k = s.e k := by
  obtain ⟨h1, h2, h3, h4⟩ := C92_tridiag hrt n s
  obtain ⟨u, hu⟩ : ∃ u, u = tridiag rt n s := ⟨_, rfl⟩
  rw [← hu] at h1 h2 h3 h4 e
  have hI : QlInv n 0 (low n s.A) (ρ * ((1 + 2 * τ) ^ 0 - 1)) u := by
    refine ⟨fun x y => ?_, fun x => ?_⟩
    · rw [vdot_app]
      unfold vdot
      refine sum_congr rfl fun a ha => ?_
      rw [sum_eq_single a]
      · rw [h1 a (mem_range.1 ha) a (mem_range.1 ha), if_pos rfl, one_mul]
      · intro b hb hne
        rw [h1 a (mem_range.1 ha) b (mem_range.1 hb), if_neg (Ne.symm hne), zero_mul, zero_mul]
      · intro h; exact absurd ha h
    · rw [vbil_app, ← triMat_form]
      rw [sum_congr rfl fun a ha => sum_congr rfl fun b hb => by rw [h2 a (mem_range.1 ha) b (mem_range.1 hb)], sub_self, abs_zero, pow_zero, sub_self, mul_zero,
        zero_mul]
  obtain ⟨q1, q2, q3⟩ := qlFrom_spec hrt hρ0 hρ hτ0 hneg n 0 0 u t (Nat.zero_add n) hI e
  rw [Nat.zero_add] at q1
  refine ⟨⟨q1.dot, fun x => ?_⟩, fun p hp => ?_, fun k hk => ?_⟩
  · have := q1.form x
    have e1 : tq n (aD n t.d) (aE n n t.e) x = ∑ k ∈ range n, t.d k * (x k * x k) := by
      unfold tq
      rw [sum_range_succ, show aD n t.d n = 0 from if_pos (Nat.le_refl _), show aE n n t.e n = 0 from if_pos (Or.inl (Nat.le_refl _))]
      rw [mul_zero, zero_mul, zero_mul, add_zero, add_zero]
      refine sum_congr rfl fun k hk => ?_
      rw [mem_range] at hk
      rw [show aD n t.d k = t.d k from if_neg (by omega), show aE n n t.e k = 0 from if_pos (by omega), mul_zero, zero_mul, add_zero]
    rw [e1] at this
    exact this
  · rcases Nat.eq_zero_or_pos n with rfl | hn
    · rw [eigTri, qlFrom] at e
      cases e
      exact h3 p hp
    have hp' : p = p / n * n + p % n := by rw [Nat.mul_comm]; exact (Nat.div_add_mod p n).symm
    rw [hp', q2 _ _ (Nat.mod_lt _ hn) ((Nat.le_div_iff_mul_le hn).2 hp), ← hp', h3 p hp]
  · rw [(q3 k hk).1, (q3 k hk).2]; exact h4 k hk

end OP.Lin
