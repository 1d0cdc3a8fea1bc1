import Verif.Lin.Orth
import Mathlib.Algebra.Order.Field.Basic
import Mathlib.Tactic.FieldSimp
import Mathlib.Algebra.BigOperators.Field
import Mathlib.Tactic.NormNum
import Mathlib.Analysis.SpecialFunctions.Sqrt
/-!
# C91: Gram-Schmidt
-/
namespace OP.Lin
open Finset
variable {K : Type} [Field K]

/-! ## Specification -/

/-- The scalar product of two columns. -/
def colDot (n : Nat) (Q : Nat → K) (a b : Nat) : K := ∑ i ∈ range n, Q (i * n + a) * Q (i * n + b)

/-! ## The loops -/

theorem colDot_comm (n : Nat) (Q : Nat → K) (a b : Nat) : colDot n Q a b = colDot n Q b a :=
  sum_congr rfl fun i _ => mul_comm _ _

theorem colSq_eq (n k : Nat) (Q : Nat → K) : colSq n k Q = colDot n Q k k := by
  unfold colSq colDot
  rw [loop_add (fun i => Q (i * n + k) ^ 2) 0 (Nat.zero_le n), zero_add, range_eq_Ico]
  exact sum_congr rfl fun i _ => by ring

/-- A loop that sets a column. -/
theorem loop_col {n k : Nat} (hk : k < n) (f : Nat → K → (Nat → K) → K) (Q : Nat → K)
    (hf : ∀ i x Q', (∀ r c, c < n → c ≠ k → Q' (r * n + c) = Q (r * n + c)) → f i x Q' = f i x Q) :
    (∀ r < n, ∀ c < n, loop 0 n (fun i Q => set Q (i * n + k) (f i (Q (i * n + k)) Q)) Q (r * n + c) =
      if c = k then f r (Q (r * n + c)) Q else Q (r * n + c)) ∧
    ∀ p, n * n ≤ p → loop 0 n (fun i Q => set Q (i * n + k) (f i (Q (i * n + k)) Q)) Q p = Q p := by
  have := loop_rule (f := fun i Q => set Q (i * n + k) (f i (Q (i * n + k)) Q))
    (fun m Q' => (∀ r, ∀ c < n, Q' (r * n + c) = if c = k ∧ r < m then f r (Q (r * n + c)) Q else Q (r * n + c)) ∧ ∀ p, n * n ≤ p → Q' p = Q p)
    (Nat.zero_le n) (s := Q) ⟨fun r c _ => by rw [if_neg (by omega)], fun _ _ => rfl⟩ (by
      rintro m Q' - hm ⟨h1, h2⟩
      refine ⟨fun r c hc => ?_, fun p hp => ?_⟩
      · rw [set_addr _ _ hk hc]
        by_cases h : r = m ∧ c = k
        · obtain ⟨rfl, rfl⟩ := h
          rw [if_pos ⟨rfl, rfl⟩, if_pos ⟨rfl, by omega⟩, h1 r c hc, if_neg (by omega)]
          exact hf _ _ _ fun r' c' hc' hne => by rw [h1 r' c' hc', if_neg fun h => hne h.1]
        · rw [if_neg h, h1 r c hc]
          by_cases h3 : c = k ∧ r < m
          · rw [if_pos h3, if_pos ⟨h3.1, by omega⟩]
          · rw [if_neg h3, if_neg]
            rintro ⟨rfl, h4⟩
            exact h ⟨by omega, rfl⟩
      · rw [set_ne _ _ (by have := addr_lt hm hk; omega), h2 p hp])
  refine ⟨fun r hr c hc => ?_, this.2⟩
  rw [this.1 r c hc]
  by_cases h : c = k
  · rw [if_pos ⟨h, hr⟩, if_pos h]
  · rw [if_neg fun hc => h hc.1, if_neg h]

theorem colDiv_spec {n k : Nat} (hk : k < n) (ρ : K) (Q : Nat → K) :
    (∀ r < n, ∀ c < n, colDiv n k ρ Q (r * n + c) = if c = k then Q (r * n + c) / ρ else Q (r * n + c)) ∧
    ∀ p, n * n ≤ p → colDiv n k ρ Q p = Q p :=
  loop_col hk (fun _ x _ => x / ρ) Q fun _ _ _ _ => rfl

theorem colTake_spec {n k j : Nat} (hk : k < n) (hj : j < n) (hkj : k ≠ j) (Q : Nat → K) :
    (∀ r < n, ∀ c < n, colTake n k j Q (r * n + c) = if c = j then Q (r * n + c) - colDot n Q k j * Q (r * n + k) else Q (r * n + c)) ∧
    ∀ p, n * n ≤ p → colTake n k j Q p = Q p := by
  have hr : loop 0 n (fun i r => r + Q (i * n + k) * Q (i * n + j)) 0 = colDot n Q k j := by
    rw [loop_add (fun i => Q (i * n + k) * Q (i * n + j)) 0 (Nat.zero_le n), zero_add, ← range_eq_Ico]; rfl
  unfold colTake
  rw [hr]
  refine loop_col hj (fun i x Q' => x - colDot n Q k j * Q' (i * n + k)) Q fun i x Q' h => ?_
  rw [h i k hk hkj]

theorem colDot_congr {n : Nat} {Q Q' : Nat → K} {a b : Nat} (h : ∀ r < n, Q (r * n + a) = Q' (r * n + a) ∧ Q (r * n + b) = Q' (r * n + b)) :
    colDot n Q a b = colDot n Q' a b :=
  sum_congr rfl fun i hi => by rw [(h i (mem_range.1 hi)).1, (h i (mem_range.1 hi)).2]

/-- The columns after one. -/
theorem gsTake_spec {n k : Nat} (hk : k < n) (Q : Nat → K) :
    (∀ r < n, ∀ c < n, loop (k + 1) n (fun j Q => colTake n k j Q) Q (r * n + c) =
      if k < c then Q (r * n + c) - colDot n Q k c * Q (r * n + k) else Q (r * n + c)) ∧
    ∀ p, n * n ≤ p → loop (k + 1) n (fun j Q => colTake n k j Q) Q p = Q p := by
  have := loop_rule (f := fun j Q => colTake n k j Q)
    (fun m Q' => (∀ r < n, ∀ c < n, Q' (r * n + c) = if k < c ∧ c < m then Q (r * n + c) - colDot n Q k c * Q (r * n + k) else Q (r * n + c)) ∧
      ∀ p, n * n ≤ p → Q' p = Q p)
    (lo := k + 1) (hi := n) (by omega) (s := Q) ⟨fun r _ c _ => by rw [if_neg (by omega)], fun _ _ => rfl⟩ (by
      rintro m Q' h0 hm ⟨h1, h2⟩
      obtain ⟨t1, t2⟩ := colTake_spec hk hm (by omega) Q'
      have hd : colDot n Q' k m = colDot n Q k m := colDot_congr fun r hr => by
        rw [h1 r hr k hk, h1 r hr m hm, if_neg (by omega), if_neg (by omega)]; exact ⟨rfl, rfl⟩
      refine ⟨fun r hr c hc => ?_, fun p hp => by rw [t2 p hp, h2 p hp]⟩
      rw [t1 r hr c hc]
      by_cases h : c = m
      · subst h
        rw [if_pos rfl, if_pos ⟨by omega, by omega⟩, hd, h1 r hr c hc, h1 r hr k hk, if_neg (by omega), if_neg (by omega)]
      · rw [if_neg h, h1 r hr c hc]
        by_cases h3 : k < c ∧ c < m
        · rw [if_pos h3, if_pos ⟨h3.1, by omega⟩]
        · rw [if_neg h3, if_neg (by omega)])
  refine ⟨fun r hr c hc => ?_, this.2⟩
  rw [this.1 r hr c hc]
  by_cases h : k < c
  · rw [if_pos ⟨h, hc⟩, if_pos h]
  · rw [if_neg fun hc => h hc.1, if_neg h]

/-- What holds before the column `k`. -/
structure GsInv [LinearOrder K] (n : Nat) (Q0 : Nat → K) (k : Nat) (Q : Nat → K) : Prop where
  one : ∀ a < k, ∀ b < k, colDot n Q a b = if a = b then 1 else 0
  rest : ∀ a < k, ∀ b < n, k ≤ b → colDot n Q a b = 0
  span : ∃ S : Nat → Nat → K, (∀ c < n, 0 < S c c) ∧ (∀ a c, c < a → S a c = 0) ∧
    ∀ r < n, ∀ c < n, Q (r * n + c) = ∑ a ∈ range n, Q0 (r * n + a) * S a c
  out : ∀ p, n * n ≤ p → Q p = Q0 p

variable [LinearOrder K] [IsStrictOrderedRing K]

theorem gs_step {n k : Nat} (hk : k < n) {Q0 Q : Nat → K} (h : GsInv n Q0 k Q) {ρ : K} (hρ : 0 < ρ) (hρ2 : ρ * ρ = colDot n Q k k) :
    GsInv n Q0 (k + 1) (loop (k + 1) n (fun j Q => colTake n k j Q) (colDiv n k ρ Q)) := by
  obtain ⟨d1, d2⟩ := colDiv_spec hk ρ Q
  obtain ⟨Q1, hQ1⟩ : ∃ Q1, Q1 = colDiv n k ρ Q := ⟨_, rfl⟩
  rw [← hQ1] at d1 d2 ⊢
  obtain ⟨t1, t2⟩ := gsTake_spec hk Q1
  obtain ⟨Q2, hQ2⟩ : ∃ Q2, Q2 = loop (k + 1) n (fun j Q => colTake n k j Q) Q1 := ⟨_, rfl⟩
  rw [← hQ2] at t1 t2 ⊢
  obtain ⟨o1, o2, ⟨S, s1, s2, s3⟩, o4⟩ := h
  have hne := hρ.ne'
  -- scalar products after the division
  have e1 : ∀ a < n, ∀ b < n, colDot n Q1 a b = colDot n Q a b / (if a = k then ρ else 1) / (if b = k then ρ else 1) := by
    intro a ha b hb
    unfold colDot
    rw [sum_div, sum_div]
    refine sum_congr rfl fun i hi => ?_
    have hi := mem_range.1 hi
    rw [d1 i hi a ha, d1 i hi b hb]
    by_cases h1 : a = k <;> by_cases h2 : b = k <;> simp [h1, h2] <;> field_simp
  have ekk : colDot n Q1 k k = 1 := by
    rw [e1 k hk k hk, if_pos rfl, ← hρ2]; field_simp
  have eak : ∀ a < k, colDot n Q1 a k = 0 := by
    intro a ha
    rw [e1 a (by omega) k hk, o2 a ha k hk (le_refl _), zero_div, zero_div]
  have eab : ∀ a < k, ∀ b < n, b ≠ k → colDot n Q1 a b = colDot n Q a b := by
    intro a ha b hb hne
    rw [e1 a (by omega) b hb, if_neg (by omega), if_neg hne, div_one, div_one]
  -- and after the columns behind
  have f1 : ∀ a ≤ k, ∀ b < n, colDot n Q2 a b = if k < b then colDot n Q1 a b - colDot n Q1 k b * colDot n Q1 a k else colDot n Q1 a b := by
    intro a ha b hb
    by_cases h : k < b
    · rw [if_pos h]
      unfold colDot
      rw [mul_sum, ← sum_sub_distrib]
      refine sum_congr rfl fun i hi => ?_
      have hi := mem_range.1 hi
      rw [t1 i hi a (by omega), if_neg (by omega), t1 i hi b hb, if_pos h]
      unfold colDot
      ring
    · rw [if_neg h]
      refine colDot_congr fun i hi => ?_
      rw [t1 i hi a (by omega), if_neg (by omega), t1 i hi b hb, if_neg h]; exact ⟨rfl, rfl⟩
  refine ⟨?_, ?_, ?_, fun p hp => by rw [t2 p hp, d2 p hp, o4 p hp]⟩
  · intro a ha b hb
    rw [f1 a (by omega) b (by omega), if_neg (by omega)]
    rcases Nat.lt_or_ge a k with h1 | h1
    · rcases Nat.lt_or_ge b k with h2 | h2
      · rw [eab a h1 b (by omega) (by omega), o1 a h1 b h2]
      · rw [show b = k by omega, eak a h1, if_neg (by omega)]
    · rw [show a = k by omega]
      rcases Nat.lt_or_ge b k with h2 | h2
      · rw [colDot_comm, eak b h2, if_neg (by omega)]
      · rw [show b = k by omega, ekk, if_pos rfl]
  · intro a ha b hb hkb
    rw [f1 a (by omega) b hb, if_pos (by omega)]
    rcases Nat.lt_or_ge a k with h1 | h1
    · rw [eab a h1 b hb (by omega), o2 a h1 b hb (by omega), eak a h1, mul_zero, sub_zero]
    · rw [show a = k by omega, ekk, mul_one, sub_self]
  · refine ⟨fun a c => if c = k then S a c / ρ else if k < c then S a c - colDot n Q1 k c * (S a k / ρ) else S a c, ?_, ?_, ?_⟩
    · intro c hc
      dsimp only
      by_cases h1 : c = k
      · rw [if_pos h1]; exact div_pos (s1 c hc) hρ
      · rw [if_neg h1]
        by_cases h2 : k < c
        · rw [if_pos h2, s2 c k h2, zero_div, mul_zero, sub_zero]; exact s1 c hc
        · rw [if_neg h2]; exact s1 c hc
    · intro a c hca
      dsimp only
      rw [s2 a c hca, zero_div, zero_sub]
      by_cases h1 : c = k
      · rw [if_pos h1]
      · rw [if_neg h1]
        by_cases h2 : k < c
        · rw [if_pos h2, s2 a k (by omega), zero_div, mul_zero, neg_zero]
        · rw [if_neg h2]
    · intro r hr c hc
      dsimp only
      have hk' : Q1 (r * n + k) = ∑ a ∈ range n, Q0 (r * n + a) * (S a k / ρ) := by
        rw [d1 r hr k hk, if_pos rfl, s3 r hr k hk, sum_div]
        exact sum_congr rfl fun a _ => mul_div_assoc _ _ _
      rw [t1 r hr c hc]
      by_cases h1 : c = k
      · subst h1
        rw [if_neg (by omega), hk']
        exact sum_congr rfl fun a _ => by rw [if_pos rfl]
      · simp only [if_neg h1]
        rw [d1 r hr c hc, if_neg h1]
        by_cases h2 : k < c
        · simp only [if_pos h2]
          rw [s3 r hr c hc, hk', mul_sum, ← sum_sub_distrib]
          exact sum_congr rfl fun a _ => by ring
        · simp only [if_neg h2]
          exact s3 r hr c hc

/-- A square root of the numbers that are not negative. -/
def IsRoot0 (rt : K → K) : Prop := ∀ x, 0 ≤ x → 0 ≤ rt x ∧ rt x * rt x = x

theorem gsFrom_spec {rt : K → K} (hrt : IsRoot0 rt) {n : Nat} (Q0 : Nat → K) : ∀ m k (Q : Nat → K), k + m = n → GsInv n Q0 k Q →
    ∃ k', k' ≤ n ∧ GsInv n Q0 k' (gsFrom rt n m k Q) ∧ (k' = n ∨ k' < n ∧ ∀ r < n, gsFrom rt n m k Q (r * n + k') = 0) := by
  intro m
  induction m with
  | zero => intro k Q hk h; exact ⟨k, by omega, h, Or.inl (by omega)⟩
  | succ m ih =>
    intro k Q hk h
    unfold gsFrom
    dsimp only
    have h0 : 0 ≤ colDot n Q k k := sum_nonneg fun i _ => mul_self_nonneg _
    obtain ⟨r1, r2⟩ := hrt _ h0
    rw [colSq_eq]
    by_cases hz : rt (colDot n Q k k) = 0
    · rw [if_pos hz]
      refine ⟨k, by omega, h, Or.inr ⟨by omega, fun r hr => ?_⟩⟩
      rw [hz, mul_zero] at r2
      have := (sum_eq_zero_iff_of_nonneg fun i _ => mul_self_nonneg (Q (i * n + k))).1 r2.symm r (mem_range.2 hr)
      exact mul_self_eq_zero.1 this
    · rw [if_neg hz]
      exact ih (k + 1) _ (by omega) (gs_step (by omega) h (lt_of_le_of_ne r1 (Ne.symm hz)) r2)

/-- C91: for some `k` the first `k` columns are orthonormal and the others orthogonal to them; `k` is the number of columns, or else the
column `k` is zero.  Every column is a positive multiple of the old one plus a combination of the old ones before it, and nothing
outside the matrix changes. -/
theorem C91_columns {rt : K → K} (hrt : IsRoot0 rt) (n : Nat) (Q : Nat → K) : ∃ k ≤ n,
    (∀ a < k, ∀ b < k, colDot n (orthGs rt n Q) a b = if a = b then 1 else 0) ∧
    (∀ a < k, ∀ b < n, k ≤ b → colDot n (orthGs rt n Q) a b = 0) ∧
    (k = n ∨ k < n ∧ ∀ r < n, orthGs rt n Q (r * n + k) = 0) ∧
    (∃ S : Nat → Nat → K, (∀ c < n, 0 < S c c) ∧ (∀ a c, c < a → S a c = 0) ∧
      ∀ r < n, ∀ c < n, orthGs rt n Q (r * n + c) = ∑ a ∈ range n, Q (r * n + a) * S a c) ∧
    ∀ p, n * n ≤ p → orthGs rt n Q p = Q p := by
  obtain ⟨k, h1, h2, h3⟩ := gsFrom_spec hrt Q n 0 Q (Nat.zero_add n) ⟨fun a ha => absurd ha (by omega), fun a ha => absurd ha (by omega),
    ⟨fun a c => if a = c then 1 else 0, fun c _ => by simp, fun a c h => if_neg (by omega), fun r _ c hc => by simp [hc]⟩, fun _ _ => rfl⟩
  exact ⟨k, h1, h2.one, h2.rest, h3, h2.span, h2.out⟩

/-- C91: independent columns become orthonormal. -/
theorem C91_orthonormal {rt : K → K} (hrt : IsRoot0 rt) (n : Nat) (Q : Nat → K)
    (hQ : ∀ x : Nat → K, (∀ r < n, ∑ a ∈ range n, Q (r * n + a) * x a = 0) → ∀ a < n, x a = 0) :
    ∀ a < n, ∀ b < n, colDot n (orthGs rt n Q) a b = if a = b then 1 else 0 := by
  obtain ⟨k, -, h1, -, h3 | ⟨h3, h4⟩, ⟨S, s1, s2, s3⟩, -⟩ := C91_columns hrt n Q
  · subst h3; exact h1
  · exfalso
    have := hQ (fun a => S a k) (fun r hr => by rw [← s3 r hr k h3, h4 r hr]) k h3
    exact (s1 k h3).ne' this

theorem gsFrom_same {rt : K → K} (hrt : IsRoot0 rt) {n : Nat} : ∀ m k (Q : Nat → K), k + m = n →
    (∀ a < n, ∀ b < n, colDot n Q a b = if a = b then 1 else 0) → ∀ r < n, ∀ c < n, gsFrom rt n m k Q (r * n + c) = Q (r * n + c) := by
  intro m
  induction m with
  | zero => intro k Q _ _ r _ c _; rfl
  | succ m ih =>
    intro k Q hk hQ
    have hkn : k < n := by omega
    have h1 : rt (colDot n Q k k) = 1 := by
      rw [hQ k hkn k hkn, if_pos rfl]
      obtain ⟨a, b⟩ := hrt 1 zero_le_one
      nlinarith [mul_self_nonneg (rt 1 - 1)]
    have key : ∀ r < n, ∀ c < n, loop (k + 1) n (fun j Q => colTake n k j Q) (colDiv n k 1 Q) (r * n + c) = Q (r * n + c) := by
      have hd : ∀ r < n, ∀ c < n, colDiv n k 1 Q (r * n + c) = Q (r * n + c) := by
        intro r hr c hc
        rw [(colDiv_spec hkn 1 Q).1 r hr c hc, div_one, ite_self]
      intro r hr c hc
      rw [(gsTake_spec hkn _).1 r hr c hc, hd r hr c hc]
      by_cases h : k < c
      · rw [if_pos h, colDot_congr (Q' := Q) fun r hr => ⟨hd r hr k hkn, hd r hr c hc⟩, hQ k hkn c hc, if_neg (by omega), zero_mul, sub_zero]
      · rw [if_neg h]
    unfold gsFrom
    dsimp only
    rw [colSq_eq, h1, if_neg one_ne_zero]
    intro r hr c hc
    rw [ih (k + 1) _ (by omega) (fun a ha b hb => by
      rw [colDot_congr (Q' := Q) fun r hr => ⟨key r hr a ha, key r hr b hb⟩]; exact hQ a ha b hb) r hr c hc, key r hr c hc]

/-- C91: orthonormal columns are left alone. -/
theorem C91_again {rt : K → K} (hrt : IsRoot0 rt) (n : Nat) (Q : Nat → K) (hQ : ∀ a < n, ∀ b < n, colDot n Q a b = if a = b then 1 else 0) :
    ∀ r < n, ∀ c < n, orthGs rt n Q (r * n + c) = Q (r * n + c) := gsFrom_same hrt n 0 Q (by omega) hQ

/-- C91: columns after a dependent one are not made orthonormal: when the first column is zero nothing happens. -/
theorem C91_dependent {rt : K → K} (hrt : IsRoot0 rt) (n : Nat) (Q : Nat → K) (h : ∀ r < n, Q (r * n) = 0) : orthGs rt n Q = Q := by
  have h0 : rt (colDot n Q 0 0) = 0 := by
    have : colDot n Q 0 0 = 0 := sum_eq_zero fun i hi => by rw [Nat.add_zero, h i (mem_range.1 hi), zero_mul]
    rw [this]
    exact mul_self_eq_zero.1 (hrt 0 (le_refl _)).2
  unfold orthGs
  cases n with
  | zero => rfl
  | succ n => unfold gsFrom; dsimp only; rw [colSq_eq, if_pos h0]

/-- The real root is one, and a matrix that is not orthonormal has independent columns. -/
example : IsRoot0 Real.sqrt := fun _ h => ⟨Real.sqrt_nonneg _, Real.mul_self_sqrt h⟩

example : ∀ x : Nat → ℝ, (∀ r < 2, ∑ a ∈ range 2, (fun p => if p = 0 then 1 else if p = 1 then 1 else if p = 2 then 0 else 2 : Nat → ℝ) (r * 2 + a) * x a = 0) →
    ∀ a < 2, x a = 0 := by
  intro x h a ha
  have h0 := h 0 (by omega)
  have h1 := h 1 (by omega)
  norm_num [sum_range_succ] at h0 h1
  rcases (by omega : a = 0 ∨ a = 1) with rfl | rfl
  · rw [h1, add_zero] at h0; exact h0
  · exact h1

end OP.Lin
