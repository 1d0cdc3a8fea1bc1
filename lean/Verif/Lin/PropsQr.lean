import Verif.Lin.Qr
import Verif.Lin.PropsEig
import Mathlib.LinearAlgebra.Matrix.ToLinearEquiv
import Mathlib.LinearAlgebra.Matrix.Block
/-!
# C93: the QR decomposition
-/
namespace OP.Lin
open Finset
variable {K : Type} [Field K] [LinearOrder K]

/-! ## The loops -/

/-- The part of a column from the diagonal on. -/
def colv (n : Nat) (A : Nat → K) (k r : Nat) : K := if k ≤ r then A (r * n + k) else 0

theorem vdot_colv {n k : Nat} (hk : k ≤ n) (A x : Nat → K) : vdot n (colv n A k) x = ∑ i ∈ Ico k n, A (i * n + k) * x i := by
  unfold vdot colv
  rw [range_eq_Ico, ← sum_Ico_consecutive _ (Nat.zero_le k) hk, sum_eq_zero (s := Ico 0 k), zero_add]
  · exact sum_congr rfl fun i hi => by rw [if_pos (mem_Ico.1 hi).1]
  · intro i hi
    rw [if_neg (by have := (mem_Ico.1 hi).2; omega), zero_mul]

theorem qrScale_spec (n k : Nat) (hk : k < n) (A : Nat → K) [IsStrictOrderedRing K] :
    0 ≤ qrScale n k A ∧ (qrScale n k A = 0 → ∀ r, k ≤ r → r < n → A (r * n + k) = 0) ∧ ((∀ r, k ≤ r → r < n → A (r * n + k) = 0) → qrScale n k A = 0) := by
  have := loop_rule (f := fun i scale => if scale < |A (i * n + k)| then |A (i * n + k)| else scale)
    (fun m (sc : K) => 0 ≤ sc ∧ (∀ r, k ≤ r → r < m → |A (r * n + k)| ≤ sc) ∧ ((∀ r, k ≤ r → r < m → A (r * n + k) = 0) → sc = 0)) (by omega : k ≤ n) (s := 0)
    ⟨le_refl 0, fun r h1 h2 => by omega, fun _ => rfl⟩ (by
      rintro m sc h0 hm ⟨h1, h2, h3⟩
      by_cases h : sc < |A (m * n + k)|
      · rw [if_pos h]
        refine ⟨abs_nonneg _, fun r h4 h5 => ?_, fun h4 => by rw [h4 m h0 (by omega), abs_zero]⟩
        rcases Nat.lt_succ_iff_lt_or_eq.1 h5 with h6 | rfl
        · exact (h2 r h4 h6).trans h.le
        · exact le_refl _
      · rw [if_neg h]
        refine ⟨h1, fun r h4 h5 => ?_, fun h4 => h3 fun r h5 h6 => h4 r h5 (by omega)⟩
        rcases Nat.lt_succ_iff_lt_or_eq.1 h5 with h6 | rfl
        · exact h2 r h4 h6
        · exact not_lt.1 h)
  refine ⟨this.1, fun h r h1 h2 => ?_, this.2.2⟩
  have h3 := this.2.1 r h1 h2
  have h4 : qrScale n k A = loop k n (fun i scale => if scale < |A (i * n + k)| then |A (i * n + k)| else scale) 0 := rfl
  rw [← h4, h] at h3
  exact abs_eq_zero.1 (le_antisymm h3 (abs_nonneg _))

theorem qrDiv_spec {n k : Nat} (hk : k < n) (scale : K) (A : Nat → K) :
    (∀ r, ∀ c < n, (qrDiv n k scale A).1 (r * n + c) = if c = k ∧ k ≤ r ∧ r < n then A (r * n + c) / scale else A (r * n + c)) ∧
    (qrDiv n k scale A).2 = ∑ i ∈ Ico k n, A (i * n + k) / scale * (A (i * n + k) / scale) := by
  have := loop_rule (f := fun i (p : (Nat → K) × K) =>
      let A := set p.1 (i * n + k) (p.1 (i * n + k) / scale)
      (A, p.2 + A (i * n + k) * A (i * n + k)))
    (fun m p => (∀ r, ∀ c < n, p.1 (r * n + c) = if c = k ∧ k ≤ r ∧ r < m then A (r * n + c) / scale else A (r * n + c)) ∧
      p.2 = ∑ i ∈ Ico k m, A (i * n + k) / scale * (A (i * n + k) / scale)) (by omega : k ≤ n) (s := (A, 0))
    ⟨fun r c _ => by rw [if_neg (by omega)], by simp⟩ (by
      rintro m ⟨B, v⟩ h0 hm ⟨h1, h2⟩
      dsimp only at h1 h2 ⊢
      have e1 : B (m * n + k) = A (m * n + k) := by rw [h1 m k hk, if_neg (by omega)]
      constructor
      · intro r c hc
        rw [set_addr _ _ hk hc, e1, h1 r c hc]
        by_cases h : r = m ∧ c = k
        · rw [if_pos h, if_pos ⟨h.2, by omega, by omega⟩, h.1, h.2]
        · rw [if_neg h]
          by_cases h' : c = k ∧ k ≤ r ∧ r < m
          · rw [if_pos h', if_pos ⟨h'.1, h'.2.1, by omega⟩]
          · rw [if_neg h', if_neg (by omega)]
      · rw [set_same, e1, h2, sum_Ico_succ_top h0])
  exact this

theorem qrCol_spec {n k j : Nat} (hk : k < j) (hj : j < n) (s A : Nat → K) : ∀ r, ∀ c < n,
    qrCol n k j s A (r * n + c) = if c = j ∧ k ≤ r ∧ r < n then refl n (colv n A k) (s k) (fun i => A (i * n + j)) r else A (r * n + c) := by
  unfold qrCol
  rw [loop_add (fun i => A (i * n + k) * A (i * n + j)) 0 (by omega), zero_add, ← vdot_colv (by omega) A (fun i => A (i * n + j))]
  obtain ⟨v, hv⟩ : ∃ v, v = vdot n (colv n A k) (fun i => A (i * n + j)) / s k := ⟨_, rfl⟩
  rw [← hv]
  have := loop_rule (f := fun i A => set A (i * n + j) (A (i * n + j) - v * A (i * n + k)))
    (fun m B => ∀ r, ∀ c < n, B (r * n + c) = if c = j ∧ k ≤ r ∧ r < m then A (r * n + j) - v * A (r * n + k) else A (r * n + c)) (by omega : k ≤ n) (s := A)
    (fun r c _ => by rw [if_neg (by omega)]) (by
      rintro m B h0 hm h r c hc
      have e1 : B (m * n + j) = A (m * n + j) := by rw [h m j hj, if_neg (by omega)]
      have e2 : B (m * n + k) = A (m * n + k) := by rw [h m k (by omega), if_neg (by omega)]
      rw [set_addr _ _ hj hc, e1, e2, h r c hc]
      by_cases h1 : r = m ∧ c = j
      · rw [if_pos h1, if_pos ⟨h1.2, by omega, by omega⟩, h1.1]
      · rw [if_neg h1]
        by_cases h' : c = j ∧ k ≤ r ∧ r < m
        · rw [if_pos h', if_pos ⟨h'.1, h'.2.1, by omega⟩]
        · rw [if_neg h', if_neg (by omega)])
  intro r c hc
  rw [this r c hc]
  by_cases h : c = j ∧ k ≤ r ∧ r < n
  · rw [if_pos h, if_pos h]
    unfold refl
    rw [← hv]
    unfold colv
    rw [if_pos h.2.1]
    ring
  · rw [if_neg h, if_neg h]

theorem refl_congr {n : Nat} {u u' x x' : Nat → K} {H : K} (hu : ∀ r < n, u r = u' r) (hx : ∀ r < n, x r = x' r) : ∀ r < n, refl n u H x r = refl n u' H x' r := by
  intro r hr
  unfold refl
  rw [hu r hr, hx r hr, show vdot n u x = vdot n u' x' from sum_congr rfl fun i hi => by rw [hu i (mem_range.1 hi), hx i (mem_range.1 hi)]]

theorem qrCols_spec {n k : Nat} (hk : k < n) (s A : Nat → K) : ∀ r, ∀ c < n,
    loop (k + 1) n (fun j A => qrCol n k j s A) A (r * n + c) =
      if k < c ∧ k ≤ r ∧ r < n then refl n (colv n A k) (s k) (fun i => A (i * n + c)) r else A (r * n + c) := by
  have := loop_rule (f := fun j A => qrCol n k j s A)
    (fun m B => ∀ r, ∀ c < n, B (r * n + c) = if (k < c ∧ c < m) ∧ k ≤ r ∧ r < n then refl n (colv n A k) (s k) (fun i => A (i * n + c)) r else A (r * n + c))
    (by omega : k + 1 ≤ n) (s := A) (fun r c _ => by rw [if_neg (by omega)]) (by
      rintro m B h0 hm h r c hc
      rw [qrCol_spec (by omega) hm s B r c hc]
      by_cases h1 : c = m ∧ k ≤ r ∧ r < n
      · rw [if_pos h1, if_pos ⟨⟨by omega, by omega⟩, h1.2⟩, h1.1]
        refine refl_congr ?_ ?_ r h1.2.2
        · intro i hi
          unfold colv
          rw [h i k hk, if_neg (show ¬((k < k ∧ k < m) ∧ k ≤ i ∧ i < n) by omega)]
        · intro i hi
          rw [h i m hm, if_neg (by omega)]
      · rw [if_neg h1, h r c hc]
        by_cases h2 : (k < c ∧ c < m) ∧ k ≤ r ∧ r < n
        · rw [if_pos h2, if_pos ⟨⟨h2.1.1, by omega⟩, h2.2⟩]
        · rw [if_neg h2, if_neg (by omega)])
  intro r c hc
  rw [this r c hc]
  by_cases h : k < c ∧ k ≤ r ∧ r < n
  · rw [if_pos h, if_pos ⟨⟨h.1, hc⟩, h.2⟩]
  · rw [if_neg h, if_neg (by omega)]

/-! ## The decomposition -/

/-- The first `m` reflections, one after the other. -/
def turns (n : Nat) (A s : Nat → K) : Nat → (Nat → K) → Nat → K
  | 0, x => x
  | m + 1, x => refl n (colv n A m) (s m) (turns n A s m x)

/-- The triangular matrix: what is above the diagonal, and `d` on it. -/
def upperOf (n : Nat) (A d : Nat → K) (r c : Nat) : K := if r < c then A (r * n + c) else if r = c then d c else 0

theorem turns_succ (n : Nat) (A s : Nat → K) (m : Nat) (x : Nat → K) : turns n A s (m + 1) x = refl n (colv n A m) (s m) (turns n A s m x) := rfl

theorem turns_congr {n : Nat} {A A' s s' : Nat → K} : ∀ m, (∀ k < m, ∀ r < n, k ≤ r → A (r * n + k) = A' (r * n + k)) → (∀ k < m, s k = s' k) → ∀ x, ∀ r < n,
    turns n A s m x r = turns n A' s' m x r
  | 0, _, _, _, _, _ => rfl
  | m + 1, h, h', x, r, hr => by
    unfold turns
    rw [h' m (by omega)]
    refine refl_congr (fun i hi => ?_) (turns_congr m (fun k hk => h k (by omega)) (fun k hk => h' k (by omega)) x) r hr
    unfold colv
    by_cases hmi : m ≤ i
    · rw [if_pos hmi, if_pos hmi, h m (by omega) i hi hmi]
    · rw [if_neg hmi, if_neg hmi]

/-- A reflection that leaves a vector alone. -/
theorem refl_none {n : Nat} {u x : Nat → K} {H : K} (h : ∀ r < n, u r * x r = 0) : ∀ r, refl n u H x r = x r := by
  intro r
  unfold refl
  rw [show vdot n u x = 0 from sum_eq_zero fun i hi => h i (mem_range.1 hi), zero_div, mul_zero, sub_zero]

/-- What holds after `m` rounds. -/
structure QrInv (n m : Nat) (A0 s0 d0 : Nat → K) (t : Qr K) : Prop where
  rest : ∀ c < n, m ≤ c → ∀ r < n, turns n t.A t.s m (fun i => A0 (i * n + c)) r = t.A (r * n + c)
  done : ∀ c < m, ∀ r < n, turns n t.A t.s m (fun i => A0 (i * n + c)) r = upperOf n t.A t.d r c
  orth : ∀ k < m, (t.s k ≠ 0 ∧ vdot n (colv n t.A k) (colv n t.A k) = 2 * t.s k) ∨ ∀ r < n, colv n t.A k r = 0
  good : t.rv = true ↔ ∀ k < m, t.d k ≠ 0
  mem : ∀ r, n ≤ r → ∀ c < n, t.A (r * n + c) = A0 (r * n + c)
  ms : ∀ k, m ≤ k → t.s k = s0 k
  md : ∀ k, m ≤ k → t.d k = d0 k

variable [IsStrictOrderedRing K]

theorem qrStep_inv {rt : K → K} (hrt : IsRoot0 rt) {n m : Nat} (hm : m < n) {A0 s0 d0 : Nat → K} {t : Qr K} (h : QrInv n m A0 s0 d0 t) :
    QrInv n (m + 1) A0 s0 d0 (qrStep rt n m t) := by
  obtain ⟨g1, g2, g3, g4, g5, g6, g7⟩ := h
  obtain ⟨p1, p2, p3⟩ := qrScale_spec n m hm t.A
  unfold qrStep
  dsimp only
  by_cases h0 : qrScale n m t.A = 0
  · rw [if_pos h0]
    have hz := p2 h0
    have cv : ∀ r < n, colv n t.A m r = 0 := fun r hr => by
      unfold colv; split
      · exact hz r (by assumption) hr
      · rfl
    have tc : ∀ x, ∀ r < n, turns n t.A (set t.s m 0) (m + 1) x r = turns n t.A t.s m x r := by
      intro x r hr
      rw [turns_succ, refl_none fun i hi => by rw [cv i hi, zero_mul]]
      exact turns_congr m (fun _ _ _ _ _ => rfl) (fun k hk => set_ne _ _ (show k ≠ m by omega)) x r hr
    constructor
    · intro c hc hmc r hr
      dsimp only
      rw [tc _ r hr, g1 c hc (by omega) r hr]
    · intro c hc r hr
      dsimp only
      rw [tc _ r hr]
      rcases Nat.lt_succ_iff_lt_or_eq.1 hc with h1 | rfl
      · rw [g2 c h1 r hr]
        unfold upperOf
        rw [set_ne _ _ (by omega)]
      · rw [g1 c hm (Nat.le_refl _) r hr]
        unfold upperOf
        rw [set_same]
        by_cases h2 : r < c
        · rw [if_pos h2]
        · rw [if_neg h2, hz r (by omega) hr, ite_self]
    · intro k hk
      dsimp only
      rcases Nat.lt_succ_iff_lt_or_eq.1 hk with h1 | rfl
      · rw [set_ne _ _ (by omega)]; exact g3 k h1
      · exact Or.inr cv
    · dsimp only
      refine ⟨fun h => (by cases h), fun h => absurd (set_same ..) (h m (by omega))⟩
    · exact g5
    · intro k hk; dsimp only; rw [set_ne _ _ (by omega)]; exact g6 k (by omega)
    · intro k hk; dsimp only; rw [set_ne _ _ (by omega)]; exact g7 k (by omega)
  · rw [if_neg h0]
    obtain ⟨scale, hsc⟩ : ∃ scale, scale = qrScale n m t.A := ⟨_, rfl⟩
    rw [← hsc] at h0 p1 p2 p3 ⊢
    obtain ⟨q1, q2⟩ := qrDiv_spec hm scale t.A
    obtain ⟨P, hP⟩ : ∃ P, P = qrDiv n m scale t.A := ⟨_, rfl⟩
    rw [← hP] at q1 q2 ⊢
    have hnn : 0 ≤ P.2 := by rw [q2]; exact sum_nonneg fun _ _ => mul_self_nonneg _
    obtain ⟨sg, hsg⟩ : ∃ sg : K, sg = (if P.1 (m * n + m) < 0 then -1 else 1) * rt P.2 := ⟨_, rfl⟩
    rw [← hsg]
    have hr2 := hrt _ hnn
    have hsg2 : sg * sg = P.2 := by
      rw [hsg]; split <;> linear_combination hr2.2
    have hsga : 0 ≤ sg * P.1 (m * n + m) := by
      rw [hsg]; split
      · nlinarith [hr2.1]
      · nlinarith [hr2.1]
    have hpos : 0 < P.2 := by
      rcases eq_or_lt_of_le hnn with h1 | h1
      · exfalso
        apply h0
        apply p3
        intro r h2 h3
        rw [q2] at h1
        have := (sum_eq_zero_iff_of_nonneg fun _ _ => mul_self_nonneg _).1 h1.symm r (mem_Ico.2 ⟨h2, h3⟩)
        have := mul_self_eq_zero.1 this
        rcases div_eq_zero_iff.1 this with h4 | h4
        · exact h4
        · exact absurd h4 h0
      · exact h1
    have hP1 : ∀ i, m ≤ i → i < n → P.1 (i * n + m) = t.A (i * n + m) / scale := fun i h1 h2 => by rw [q1 i m hm, if_pos ⟨rfl, h1, h2⟩]
    obtain ⟨A1, hA1⟩ : ∃ A1, A1 = set P.1 (m * n + m) (P.1 (m * n + m) + sg) := ⟨_, rfl⟩
    rw [← hA1]
    have a1 : A1 (m * n + m) = P.1 (m * n + m) + sg := by rw [hA1, set_same]
    have a2 : ∀ r, ∀ c < n, A1 (r * n + c) = if r = m ∧ c = m then P.1 (m * n + m) + sg else P.1 (r * n + c) := fun r c hc => by
      rw [hA1, set_addr _ _ hm hc]
    obtain ⟨S, hS⟩ : ∃ S, S = sg * A1 (m * n + m) := ⟨_, rfl⟩
    rw [← hS]
    have hS0 : 0 < S := by rw [hS, a1]; nlinarith
    have b1 := qrCols_spec hm (set t.s m S) A1
    obtain ⟨B, hB⟩ : ∃ B, B = loop (m + 1) n (fun j A => qrCol n m j (set t.s m S) A) A1 := ⟨_, rfl⟩
    rw [← hB] at b1 ⊢
    rw [set_same] at b1
    -- the column of the reflection
    have cvA : ∀ r < n, colv n B m r = colv n A1 m r := fun r hr => by
      unfold colv
      rw [b1 r m hm, if_neg (show ¬(m < m ∧ m ≤ r ∧ r < n) by omega)]
    have cvv : ∀ i, m ≤ i → i < n → A1 (i * n + m) = t.A (i * n + m) / scale + if i = m then sg else 0 := fun i h1 h2 => by
      rw [a2 i m hm]
      by_cases h : i = m
      · rw [if_pos ⟨h, rfl⟩, if_pos h, h, hP1 m (Nat.le_refl _) hm]
      · rw [if_neg fun h' => h h'.1, if_neg h, add_zero, hP1 i h1 h2]
    have hsum : ∀ x : Nat → K, vdot n (colv n A1 m) x = (∑ i ∈ Ico m n, t.A (i * n + m) / scale * x i) + sg * x m := by
      intro x
      rw [vdot_colv hm.le, sum_congr rfl fun i hi => by rw [cvv i (mem_Ico.1 hi).1 (mem_Ico.1 hi).2]]
      simp only [add_mul, sum_add_distrib]
      congr 1
      rw [sum_eq_single m]
      · rw [if_pos rfl]
      · intro b _ hb; rw [if_neg hb, zero_mul]
      · intro h; exact absurd (mem_Ico.2 ⟨Nat.le_refl _, hm⟩) h
    have hscol : vdot n (colv n A1 m) (fun i => t.A (i * n + m)) = scale * S := by
      rw [hsum]
      have e1 : ∑ i ∈ Ico m n, t.A (i * n + m) / scale * t.A (i * n + m) = scale * P.2 := by
        rw [q2, mul_sum]
        exact sum_congr rfl fun i _ => by field_simp
      rw [e1, hS, a1, hP1 m (Nat.le_refl _) hm, ← hsg2]
      field_simp
      ring
    have hvv : vdot n (colv n A1 m) (colv n A1 m) = 2 * S := by
      rw [hsum]
      have e0 : colv n A1 m m = P.1 (m * n + m) + sg := by unfold colv; rw [if_pos (Nat.le_refl _), a1]
      have e1 : ∑ i ∈ Ico m n, t.A (i * n + m) / scale * colv n A1 m i = P.2 + P.1 (m * n + m) * sg := by
        rw [q2, hP1 m (Nat.le_refl _) hm]
        have : ∀ i ∈ Ico m n, t.A (i * n + m) / scale * colv n A1 m i =
            t.A (i * n + m) / scale * (t.A (i * n + m) / scale) + if i = m then t.A (m * n + m) / scale * sg else 0 := by
          intro i hi
          unfold colv
          rw [if_pos (mem_Ico.1 hi).1, cvv i (mem_Ico.1 hi).1 (mem_Ico.1 hi).2]
          by_cases h : i = m
          · rw [if_pos h, if_pos h, h]; ring
          · rw [if_neg h, if_neg h]; ring
        rw [sum_congr rfl this, sum_add_distrib]
        congr 1
        rw [sum_ite_eq' (Ico m n) m, if_pos (mem_Ico.2 ⟨Nat.le_refl _, hm⟩)]
      rw [e0, e1, hS, a1, ← hsg2]
      ring
    have tc : ∀ x, ∀ r < n, turns n B (set t.s m S) (m + 1) x r = refl n (colv n A1 m) S (turns n t.A t.s m x) r := by
      intro x r hr
      rw [turns_succ, set_same]
      refine refl_congr cvA ?_ r hr
      refine turns_congr m (fun k hk i hi _ => ?_) (fun k hk => set_ne _ _ (show k ≠ m by omega)) x
      rw [b1 i k (by omega), if_neg (by omega), a2 i k (by omega), if_neg (by omega), q1 i k (by omega), if_neg (by omega)]
    -- columns after the m-th
    have later : ∀ c < n, m < c → ∀ r, A1 (r * n + c) = t.A (r * n + c) := fun c hc h1 r => by
      rw [a2 r c hc, if_neg (by omega), q1 r c hc, if_neg (by omega)]
    constructor
    · intro c hc hmc r hr
      dsimp only
      rw [tc _ r hr, b1 r c hc]
      by_cases h1 : m < c ∧ m ≤ r ∧ r < n
      · rw [if_pos h1]
        exact refl_congr (fun _ _ => rfl) (fun i hi => by rw [g1 c hc (by omega) i hi, later c hc h1.1]) r hr
      · rw [if_neg h1, later c hc (by omega), ← g1 c hc (by omega) r hr]
        unfold refl
        rw [show colv n A1 m r = 0 from if_neg (by omega), zero_mul, sub_zero]
    · intro c hc r hr
      dsimp only
      rw [tc _ r hr]
      rcases Nat.lt_succ_iff_lt_or_eq.1 hc with h1 | rfl
      · have e1 : ∀ i < n, turns n t.A t.s m (fun i => A0 (i * n + c)) i = upperOf n t.A t.d i c := g2 c h1
        rw [refl_none fun i hi => by
          rw [e1 i hi]
          unfold colv upperOf
          by_cases h2 : m ≤ i
          · rw [if_pos h2, if_neg (by omega), if_neg (by omega), mul_zero]
          · rw [if_neg h2, zero_mul], e1 r hr]
        unfold upperOf
        rw [set_ne _ _ (by omega)]
        by_cases h2 : r < c
        · rw [if_pos h2, if_pos h2, b1 r c (by omega), if_neg (by omega), a2 r c (by omega), if_neg (by omega), q1 r c (by omega), if_neg (by omega)]
        · rw [if_neg h2, if_neg h2]
      · have e1 : ∀ i < n, turns n t.A t.s c (fun i => A0 (i * n + c)) i = t.A (i * n + c) := g1 c hm (Nat.le_refl _)
        rw [refl_congr (fun _ _ => rfl) e1 r hr]
        unfold refl
        rw [hscol, mul_div_assoc, div_self hS0.ne', mul_one]
        unfold upperOf
        rw [set_same]
        by_cases h2 : r < c
        · rw [if_pos h2, show colv n A1 c r = 0 from if_neg (by omega), zero_mul, sub_zero, b1 r c hm, if_neg (by omega), a2 r c hm, if_neg (by omega), q1 r c hm,
            if_neg (by omega)]
        · rw [if_neg h2, show colv n A1 c r = A1 (r * n + c) from if_pos (by omega), cvv r (by omega) hr]
          by_cases h3 : r = c
          · rw [if_pos h3, if_pos h3]; field_simp; ring
          · rw [if_neg h3, if_neg h3]; field_simp; ring
    · intro k hk
      dsimp only
      rcases Nat.lt_succ_iff_lt_or_eq.1 hk with h1 | rfl
      · have e1 : ∀ r < n, colv n B k r = colv n t.A k r := fun r hr => by
          have : B (r * n + k) = t.A (r * n + k) := by
            rw [b1 r k (by omega), if_neg (by omega), a2 r k (by omega), if_neg (by omega), q1 r k (by omega), if_neg (by omega)]
          unfold colv
          rw [this]
        rw [set_ne _ _ (by omega)]
        rcases g3 k h1 with h2 | h2
        · exact Or.inl ⟨h2.1, by rw [vdot_app_congr e1 e1]; exact h2.2⟩
        · exact Or.inr fun r hr => by rw [e1 r hr, h2 r hr]
      · refine Or.inl ⟨by rw [set_same]; exact hS0.ne', ?_⟩
        rw [set_same, vdot_app_congr cvA cvA, hvv]
    · dsimp only
      rw [g4]
      have hd : -scale * sg ≠ 0 := by
        refine mul_ne_zero (neg_ne_zero.2 h0) fun h => ?_
        rw [h, mul_zero] at hsg2
        exact hpos.ne hsg2
      constructor
      · intro h k hk
        rcases Nat.lt_succ_iff_lt_or_eq.1 hk with h1 | rfl
        · rw [set_ne _ _ (by omega)]; exact h k h1
        · rw [set_same]; exact hd
      · intro h k hk
        have := h k (by omega)
        rwa [set_ne _ _ (by omega)] at this
    · intro r hr c hc
      dsimp only
      rw [b1 r c hc, if_neg (by omega), a2 r c hc, if_neg (by omega), q1 r c hc, if_neg (by omega)]
      exact g5 r hr c hc
    · intro k hk; dsimp only; rw [set_ne _ _ (by omega)]; exact g6 k (by omega)
    · intro k hk; dsimp only; rw [set_ne _ _ (by omega)]; exact g7 k (by omega)

/-- C93: the reflections kept below the diagonal turn every column of the matrix into that of the triangular matrix above it, and keep scalar products. `s[n-1]`
keeps what it was. -/
theorem C93_decomposition {rt : K → K} (hrt : IsRoot0 rt) {n : Nat} (hn : 0 < n) (A s d : Nat → K) :
    (∀ c < n, ∀ r < n, turns n (decmpQr rt n A s d).A (decmpQr rt n A s d).s (n - 1) (fun i => A (i * n + c)) r =
      upperOf n (decmpQr rt n A s d).A (decmpQr rt n A s d).d r c) ∧
    (∀ x y, vdot n (turns n (decmpQr rt n A s d).A (decmpQr rt n A s d).s (n - 1) x) (turns n (decmpQr rt n A s d).A (decmpQr rt n A s d).s (n - 1) y) = vdot n x y) ∧
    ((decmpQr rt n A s d).rv = true ↔ ∀ k < n, (decmpQr rt n A s d).d k ≠ 0) ∧
    (∀ r, n ≤ r → ∀ c < n, (decmpQr rt n A s d).A (r * n + c) = A (r * n + c)) ∧
    (∀ k, n - 1 ≤ k → (decmpQr rt n A s d).s k = s k) ∧ ∀ k, n ≤ k → (decmpQr rt n A s d).d k = d k := by
  have key : QrInv n (n - 1) A s d (loop 0 (n - 1) (fun k t => qrStep rt n k t) ⟨true, A, s, d⟩) := by
    refine loop_rule (fun m t => QrInv n m A s d t) (Nat.zero_le _) ?_ fun m t _ hm h => qrStep_inv hrt (by omega) h
    exact ⟨fun _ _ _ _ _ => rfl, fun c hc => by omega, fun k hk => by omega, ⟨fun _ k hk => by omega, fun _ => rfl⟩, fun _ _ _ _ => rfl, fun _ _ => rfl, fun _ _ => rfl⟩
  unfold decmpQr
  rw [if_neg (by omega)]
  dsimp only
  obtain ⟨t, ht⟩ : ∃ t, t = loop 0 (n - 1) (fun k t => qrStep rt n k t) ⟨true, A, s, d⟩ := ⟨_, rfl⟩
  rw [← ht] at key ⊢
  obtain ⟨g1, g2, g3, g4, g5, g6, g7⟩ := key
  have last : n * n - 1 = (n - 1) * n + (n - 1) := by
    obtain ⟨k, rfl⟩ : ∃ k, n = k + 1 := ⟨n - 1, by omega⟩
    simp only [Nat.add_sub_cancel]
    have : (k + 1) * (k + 1) = k * (k + 1) + (k + 1) := by ring
    omega
  refine ⟨fun c hc r hr => ?_, ?_, ?_, g5, g6, fun k hk => by rw [set_ne _ _ (by omega)]; exact g7 k (by omega)⟩
  · by_cases h : c < n - 1
    · rw [g2 c h r hr]
      unfold upperOf
      rw [set_ne _ _ (by omega)]
    · have hc' : c = n - 1 := by omega
      rw [g1 c hc (by omega) r hr]
      unfold upperOf
      by_cases h1 : r < c
      · rw [if_pos h1]
      · rw [if_neg h1, if_pos (by omega), hc', set_same, last, show r = n - 1 by omega]
  · have : ∀ m, m ≤ n - 1 → ∀ x y, vdot n (turns n t.A t.s m x) (turns n t.A t.s m y) = vdot n x y := by
      intro m
      induction m with
      | zero => intro _ x y; rfl
      | succ m ih =>
        intro hm x y
        rw [← ih (by omega) x y]
        rcases g3 m (by omega) with h | h
        · exact refl_dot h.1 h.2 _ _
        · have e : ∀ x, ∀ r < n, refl n (colv n t.A m) (t.s m) x r = x r := fun x r _ => refl_none (fun i hi => by rw [h i hi, zero_mul]) r
          exact vdot_app_congr (e _) (e _)
    exact this (n - 1) (Nat.le_refl _)
  · rw [last]
    by_cases h : t.A ((n - 1) * n + (n - 1)) = 0
    · rw [set_same, if_pos h]
      exact ⟨fun h => (by cases h), fun h' => absurd (by rw [set_same]; exact h) (h' (n - 1) (by omega))⟩
    · rw [set_same, if_neg h, g4]
      constructor
      · intro h1 k hk
        by_cases h2 : k = n - 1
        · rw [h2, set_same]; exact h
        · rw [set_ne _ _ h2]; exact h1 k (by omega)
      · intro h1 k hk
        have := h1 k (by omega)
        rwa [set_ne _ _ (by omega)] at this

/-! ## When the matrix is singular -/

omit [LinearOrder K] [IsStrictOrderedRing K] in
theorem refl_lin {n : Nat} (u : Nat → K) (H : K) (X : Nat → Nat → K) (y : Nat → K) : refl n u H (fun i => ∑ c ∈ range n, X c i * y c) =
    fun r => ∑ c ∈ range n, refl n u H (X c) r * y c := by
  funext r
  unfold refl vdot
  simp only [sub_mul, sum_sub_distrib, mul_sum, sum_div, sum_mul]
  congr 1
  rw [sum_comm]
  exact sum_congr rfl fun c _ => sum_congr rfl fun i _ => by ring

omit [IsStrictOrderedRing K] in
theorem turns_lin {n : Nat} (A s : Nat → K) (X : Nat → Nat → K) (y : Nat → K) : ∀ m, turns n A s m (fun i => ∑ c ∈ range n, X c i * y c) =
    fun r => ∑ c ∈ range n, turns n A s m (X c) r * y c
  | 0 => rfl
  | m + 1 => by
    rw [turns_succ, turns_lin A s X y m]
    exact refl_lin ..

theorem zero_of_vdot {n : Nat} {x : Nat → K} (h : vdot n x x = 0) : ∀ r < n, x r = 0 := fun r hr =>
  mul_self_eq_zero.1 ((sum_eq_zero_iff_of_nonneg fun _ _ => mul_self_nonneg _).1 h r (mem_range.2 hr))

/-- The equations and the triangular equations are equivalent. -/
theorem qr_equiv {rt : K → K} (hrt : IsRoot0 rt) {n : Nat} (hn : 0 < n) (A s d b y : Nat → K) :
    (∀ r < n, ∑ c ∈ range n, A (r * n + c) * y c = b r) ↔
    ∀ r < n, ∑ c ∈ range n, upperOf n (decmpQr rt n A s d).A (decmpQr rt n A s d).d r c * y c =
      turns n (decmpQr rt n A s d).A (decmpQr rt n A s d).s (n - 1) b r := by
  obtain ⟨h1, h2, -⟩ := C93_decomposition hrt hn A s d
  obtain ⟨t, ht⟩ : ∃ t, t = decmpQr rt n A s d := ⟨_, rfl⟩
  rw [← ht] at h1 h2 ⊢
  have e1 : ∀ r < n, ∑ c ∈ range n, upperOf n t.A t.d r c * y c = turns n t.A t.s (n - 1) (fun i => ∑ c ∈ range n, A (i * n + c) * y c) r := by
    intro r hr
    have := congrFun (turns_lin (n := n) t.A t.s (fun c i => A (i * n + c)) y (n - 1)) r
    rw [this]
    exact sum_congr rfl fun c hc => by rw [h1 c (mem_range.1 hc) r hr]
  have tcon : ∀ m, ∀ x x' : Nat → K, (∀ r < n, x r = x' r) → ∀ r < n, turns n t.A t.s m x r = turns n t.A t.s m x' r := by
    intro m
    induction m with
    | zero => intro x x' h r hr; exact h r hr
    | succ m ih => intro x x' h r hr; exact refl_congr (fun _ _ => rfl) (ih x x' h) r hr
  constructor
  · intro h r hr
    rw [e1 r hr]
    exact tcon _ _ _ h r hr
  · intro h
    have h3 : ∀ r < n, turns n t.A t.s (n - 1) (fun i => ∑ c ∈ range n, A (i * n + c) * y c) r = turns n t.A t.s (n - 1) b r := fun r hr => by rw [← e1 r hr, h r hr]
    obtain ⟨u, hu⟩ : ∃ u : Nat → K, u = fun i => ∑ c ∈ range n, A (i * n + c) * y c := ⟨_, rfl⟩
    rw [← hu] at h3
    have h4 : vdot n u u = vdot n b b := by rw [← h2 u u, ← h2 b b]; exact vdot_app_congr h3 h3
    have h5 : vdot n u b = vdot n b b := by rw [← h2 u b, ← h2 b b]; exact vdot_app_congr h3 fun _ _ => rfl
    have h6 : vdot n (fun k => u k + (-1) * b k) (fun k => u k + (-1) * b k) = 0 := by rw [vdot_add, h4, h5]; ring
    intro r hr
    have := zero_of_vdot h6 r hr
    have h7 : u r = ∑ c ∈ range n, A (r * n + c) * y c := by rw [hu]
    rw [← h7]
    linarith

omit [LinearOrder K] [IsStrictOrderedRing K] in
theorem upper_det (n : Nat) (A d : Nat → K) : (Matrix.of fun r c : Fin n => upperOf n A d r c).det = ∏ k : Fin n, d k := by
  rw [Matrix.det_of_upperTriangular]
  · refine prod_congr rfl fun k _ => ?_
    rw [Matrix.of_apply]
    unfold upperOf
    rw [if_neg (by omega), if_pos rfl]
  · intro r c h
    rw [Matrix.of_apply]
    unfold upperOf
    have h' : (c : Nat) < r := h
    rw [if_neg (by omega), if_neg (by omega)]

/-- C93: `decmp_qr` returns true exactly for the matrices that are not singular. -/
theorem C93_singular {rt : K → K} (hrt : IsRoot0 rt) {n : Nat} (hn : 0 < n) (A s d : Nat → K) :
    (decmpQr rt n A s d).rv = true ↔ ∀ y : Nat → K, (∀ r < n, ∑ c ∈ range n, A (r * n + c) * y c = 0) → ∀ c < n, y c = 0 := by
  obtain ⟨-, -, h3, -⟩ := C93_decomposition hrt hn A s d
  rw [h3]
  have he := fun y => qr_equiv hrt hn A s d (fun _ => 0) y
  obtain ⟨t, ht⟩ : ∃ t, t = decmpQr rt n A s d := ⟨_, rfl⟩
  rw [← ht] at he ⊢
  have tz : ∀ m r, turns n t.A t.s m (fun _ => 0) r = 0 := by
    intro m
    induction m with
    | zero => intro r; rfl
    | succ m ih => intro r; rw [turns_succ, refl_none fun i _ => by rw [ih i, mul_zero], ih r]
  have hdet : (∀ k < n, t.d k ≠ 0) ↔ (Matrix.of fun r c : Fin n => upperOf n t.A t.d r c).det ≠ 0 := by
    rw [upper_det, prod_ne_zero_iff]
    exact ⟨fun h k _ => h k k.2, fun h k hk => h ⟨k, hk⟩ (mem_univ _)⟩
  rw [hdet, ne_eq, ← Matrix.exists_mulVec_eq_zero_iff]
  constructor
  · intro h y hy c hc
    by_contra hne
    apply h
    refine ⟨fun k => y k, fun h0 => hne (congrFun h0 ⟨c, hc⟩), ?_⟩
    funext r
    have := (he y).1 hy r r.2
    rw [tz] at this
    rw [Matrix.mulVec, dotProduct, Pi.zero_apply, ← this, ← Fin.sum_univ_eq_sum_range (fun c => upperOf n t.A t.d r c * y c) n]
    rfl
  · rintro h ⟨v, hv0, hv⟩
    apply hv0
    have := h (fun k => if hk : k < n then v ⟨k, hk⟩ else 0) ((he _).2 fun r hr => ?_)
    · funext k
      have := this k k.2
      rwa [dif_pos k.2] at this
    · rw [tz, ← Fin.sum_univ_eq_sum_range (fun c => upperOf n t.A t.d r c * if hk : c < n then v ⟨c, hk⟩ else 0) n]
      have := congrFun hv ⟨r, hr⟩
      rw [Matrix.mulVec, dotProduct, Pi.zero_apply] at this
      rw [← this]
      exact sum_congr rfl fun c _ => by rw [dif_pos c.2]; rfl

/-! ## The substitution -/

omit [IsStrictOrderedRing K] in
theorem qrTurn_spec {n j m c : Nat} (hj : j < n) (hc : c < m) (A s b : Nat → K) : ∀ r, ∀ k < m,
    qrTurn n j A s m c b (r * m + k) = if k = c ∧ j ≤ r ∧ r < n then refl n (colv n A j) (s j) (fun i => b (i * m + c)) r else b (r * m + k) := by
  unfold qrTurn
  rw [loop_add (fun i => A (i * n + j) * b (i * m + c)) 0 (by omega), zero_add, ← vdot_colv (by omega) A (fun i => b (i * m + c))]
  obtain ⟨v, hv⟩ : ∃ v, v = vdot n (colv n A j) (fun i => b (i * m + c)) / s j := ⟨_, rfl⟩
  rw [← hv]
  have := loop_rule (f := fun i b => set b (i * m + c) (b (i * m + c) - v * A (i * n + j)))
    (fun l B => ∀ r, ∀ k < m, B (r * m + k) = if k = c ∧ j ≤ r ∧ r < l then b (r * m + c) - v * A (r * n + j) else b (r * m + k)) (by omega : j ≤ n) (s := b)
    (fun r c _ => by rw [if_neg (by omega)]) (by
      rintro l B h0 hl h r k hk
      have e1 : B (l * m + c) = b (l * m + c) := by rw [h l c hc, if_neg (by omega)]
      rw [set_addr _ _ hc hk, e1, h r k hk]
      by_cases h1 : r = l ∧ k = c
      · rw [if_pos h1, if_pos ⟨h1.2, by omega, by omega⟩, h1.1]
      · rw [if_neg h1]
        by_cases h' : k = c ∧ j ≤ r ∧ r < l
        · rw [if_pos h', if_pos ⟨h'.1, h'.2.1, by omega⟩]
        · rw [if_neg h', if_neg (by omega)])
  intro r k hk
  rw [this r k hk]
  by_cases h : k = c ∧ j ≤ r ∧ r < n
  · rw [if_pos h, if_pos h]
    unfold refl
    rw [← hv]
    unfold colv
    rw [if_pos h.2.1]
    ring
  · rw [if_neg h, if_neg h]

omit [IsStrictOrderedRing K] in
/-- `bksub_qr` turns the right-hand side once for every column, the last one too, and solves the triangular equations. -/
theorem bksubQr_spec {n m c : Nat} (hc : c < m) (A s d b : Nat → K) (hd : ∀ k < n, d k ≠ 0) :
    (∀ r < n, ∑ k ∈ range n, upperOf n A d r k * bksubQr n A s d b m c (k * m + c) = turns n A s n (fun i => b (i * m + c)) r) ∧
    ∀ r, ∀ k < m, (k ≠ c ∨ n ≤ r) → bksubQr n A s d b m c (r * m + k) = b (r * m + k) := by
  have h1 := loop_rule (f := fun j b => qrTurn n j A s m c b)
    (fun l B => (∀ r < n, B (r * m + c) = turns n A s l (fun i => b (i * m + c)) r) ∧ ∀ r, ∀ k < m, (k ≠ c ∨ n ≤ r) → B (r * m + k) = b (r * m + k)) (Nat.zero_le n) (s := b)
    ⟨fun _ _ => rfl, fun _ _ _ _ => rfl⟩ (by
      rintro l B - hl ⟨h1, h2⟩
      constructor
      · intro r hr
        rw [qrTurn_spec hl hc A s B r c hc, turns_succ]
        by_cases h : c = c ∧ l ≤ r ∧ r < n
        · rw [if_pos h]
          exact refl_congr (fun _ _ => rfl) h1 r hr
        · rw [if_neg h, h1 r hr]
          unfold refl
          rw [show colv n A l r = 0 from if_neg (by omega), zero_mul, sub_zero]
      · intro r k hk h
        rw [qrTurn_spec hl hc A s B r k hk, if_neg (by omega), h2 r k hk h])
  unfold bksubQr
  dsimp only
  obtain ⟨b1, hb1⟩ : ∃ b1, b1 = loop 0 n (fun j b => qrTurn n j A s m c b) b := ⟨_, rfl⟩
  rw [← hb1] at h1 ⊢
  obtain ⟨h1, h2⟩ := h1
  have h3 := down_rule (f := fun i b => set b (i * m + c) ((b (i * m + c) - loop (i + 1) n (fun j sum => sum + A (i * n + j) * b (j * m + c)) 0) / d i))
    (fun l B => (∀ r < n, l ≤ r → d r * B (r * m + c) + ∑ k ∈ Ico (r + 1) n, A (r * n + k) * B (k * m + c) = b1 (r * m + c)) ∧
      ∀ r, ∀ k < m, (k ≠ c ∨ r < l ∨ n ≤ r) → B (r * m + k) = b1 (r * m + k)) (n := n) (s := b1)
    ⟨fun r h1 h2 => by omega, fun _ _ _ _ => rfl⟩ (by
      rintro l B hl ⟨h4, h5⟩
      rw [loop_add (fun j => A (l * n + j) * B (j * m + c)) 0 (by omega), zero_add]
      obtain ⟨v, hv⟩ : ∃ v, v = (B (l * m + c) - ∑ k ∈ Ico (l + 1) n, A (l * n + k) * B (k * m + c)) / d l := ⟨_, rfl⟩
      rw [← hv]
      have hs : ∀ r, l ≤ r → ∑ k ∈ Ico (r + 1) n, A (r * n + k) * set B (l * m + c) v (k * m + c) = ∑ k ∈ Ico (r + 1) n, A (r * n + k) * B (k * m + c) := by
        intro r hr
        refine sum_congr rfl fun k hk => ?_
        rw [set_addr _ _ hc hc, if_neg (by have := (mem_Ico.1 hk).1; omega)]
      constructor
      · intro r hr hlr
        rw [hs r hlr, set_addr _ _ hc hc]
        by_cases h : r = l
        · rw [if_pos ⟨h, rfl⟩, hv, h, ← h5 l c hc (by omega)]
          have := hd l hl
          field_simp
          ring
        · rw [if_neg fun h' => h h'.1]
          exact h4 r hr (by omega)
      · intro r k hk h
        rw [set_addr _ _ hc hk, if_neg (by omega)]
        exact h5 r k hk (by omega))
  obtain ⟨B, hB⟩ : ∃ B, B = down n (fun i b => set b (i * m + c) ((b (i * m + c) - loop (i + 1) n (fun j sum => sum + A (i * n + j) * b (j * m + c)) 0) / d i)) b1 := ⟨_, rfl⟩
  rw [← hB] at h3 ⊢
  obtain ⟨h3, h4⟩ := h3
  constructor
  · intro r hr
    rw [← h1 r hr, ← h3 r hr (Nat.zero_le r), range_eq_Ico, ← sum_Ico_consecutive _ (Nat.zero_le r) hr.le, sum_eq_zero (s := Ico 0 r), zero_add, sum_eq_sum_Ico_succ_bot hr]
    · congr 1
      · unfold upperOf; rw [if_neg (by omega), if_pos rfl]
      · refine sum_congr rfl fun k hk => ?_
        unfold upperOf
        rw [if_pos (by have := (mem_Ico.1 hk).1; omega)]
    · intro k hk
      have := (mem_Ico.1 hk).2
      unfold upperOf
      rw [if_neg (by omega), if_neg (by omega), zero_mul]
  · intro r k hk h
    rw [h4 r k hk (by omega), h2 r k hk h]

omit [IsStrictOrderedRing K] in
theorem decmpQr_last (rt : K → K) {n : Nat} (hn : 0 < n) (A s d : Nat → K) :
    (decmpQr rt n A s d).d (n - 1) = (decmpQr rt n A s d).A ((n - 1) * n + (n - 1)) := by
  unfold decmpQr
  rw [if_neg (by omega)]
  dsimp only
  rw [set_same]
  obtain ⟨k, rfl⟩ : ∃ k, n = k + 1 := ⟨n - 1, by omega⟩
  simp only [Nat.add_sub_cancel]
  congr 1
  have : (k + 1) * (k + 1) = k * (k + 1) + (k + 1) := by ring
  omega

/-- C93, negation: `bksub_qr` also divides by `s[n-1]`, that `decmp_qr` never sets. Whatever number other than zero is there, the result solves the equations
only when the last unknown is zero; otherwise it does not. Other columns and the memory outside keep their values. -/
theorem C93_substitution_broken {rt : K → K} (hrt : IsRoot0 rt) {n : Nat} (hn : 0 < n) (A s d b z : Nat → K) {m c : Nat} (hc : c < m) (hs : s (n - 1) ≠ 0)
    (hrv : (decmpQr rt n A s d).rv = true) (hz : ∀ r < n, ∑ k ∈ range n, A (r * n + k) * z k = b (r * m + c)) :
    ((∀ r < n, ∑ k ∈ range n, A (r * n + k) * bksubQr n (decmpQr rt n A s d).A (decmpQr rt n A s d).s (decmpQr rt n A s d).d b m c (k * m + c) = b (r * m + c)) ↔
      z (n - 1) = 0) ∧
    ∀ r, ∀ k < m, (k ≠ c ∨ n ≤ r) → bksubQr n (decmpQr rt n A s d).A (decmpQr rt n A s d).s (decmpQr rt n A s d).d b m c (r * m + k) = b (r * m + k) := by
  obtain ⟨-, -, h3, -, h5, -⟩ := C93_decomposition hrt hn A s d
  have hsing := (C93_singular hrt hn A s d).1 hrv
  have hd := h3.1 hrv
  have hlast := decmpQr_last rt hn A s d
  have heq := fun y => qr_equiv hrt hn A s d (fun i => b (i * m + c)) y
  have hs' := h5 (n - 1) (Nat.le_refl _)
  obtain ⟨t, ht⟩ : ∃ t, t = decmpQr rt n A s d := ⟨_, rfl⟩
  rw [← ht] at hd hlast heq hs' ⊢
  obtain ⟨b1, b2⟩ := bksubQr_spec hc t.A t.s t.d b hd
  refine ⟨?_, b2⟩
  obtain ⟨x, hx⟩ : ∃ x, x = fun k => bksubQr n t.A t.s t.d b m c (k * m + c) := ⟨_, rfl⟩
  have hz' := (heq z).1 hz
  have cl : ∀ r < n, colv n t.A (n - 1) r = if r = n - 1 then t.d (n - 1) else 0 := by
    intro r hr
    unfold colv
    by_cases h : r = n - 1
    · rw [if_pos (by omega), if_pos h, h, hlast]
    · rw [if_neg (by omega), if_neg h]
  have rowz : ∀ y : Nat → K, ∑ k ∈ range n, upperOf n t.A t.d (n - 1) k * y k = t.d (n - 1) * y (n - 1) := by
    intro y
    rw [sum_eq_single (n - 1)]
    · unfold upperOf; rw [if_neg (by omega), if_pos rfl]
    · intro k hk h
      have := mem_range.1 hk
      unfold upperOf
      rw [if_neg (by omega), if_neg (by omega), zero_mul]
    · intro h; exact absurd (mem_range.2 (by omega)) h
  have hn1 : n = n - 1 + 1 := by omega
  have tn : ∀ r, turns n t.A t.s n (fun i => b (i * m + c)) r = refl n (colv n t.A (n - 1)) (t.s (n - 1)) (turns n t.A t.s (n - 1) (fun i => b (i * m + c))) r := by
    intro r
    have := turns_succ n t.A t.s (n - 1) (fun i => b (i * m + c))
    rw [← hn1] at this
    rw [this]
  have hd1 := hd (n - 1) (by omega)
  constructor
  · intro h
    have e1 : ∀ k < n, bksubQr n t.A t.s t.d b m c (k * m + c) - z k = 0 := hsing (fun k => bksubQr n t.A t.s t.d b m c (k * m + c) - z k) fun r hr => by
      simp only [mul_sub, sum_sub_distrib]
      rw [h r hr, hz r hr, sub_self]
    have e2 := b1 (n - 1) (by omega)
    rw [rowz fun k => bksubQr n t.A t.s t.d b m c (k * m + c), tn, sub_eq_zero.1 (e1 (n - 1) (by omega))] at e2
    unfold refl at e2
    rw [← hz' (n - 1) (by omega), rowz, cl (n - 1) (by omega), if_pos rfl, hs'] at e2
    rw [show vdot n (colv n t.A (n - 1)) (turns n t.A t.s (n - 1) (fun i => b (i * m + c))) = t.d (n - 1) * (t.d (n - 1) * z (n - 1)) by
      unfold vdot
      rw [sum_eq_single (n - 1)]
      · rw [cl (n - 1) (by omega), if_pos rfl, ← hz' (n - 1) (by omega), rowz]
      · intro k hk h
        rw [cl k (mem_range.1 hk), if_neg h, zero_mul]
      · intro h; exact absurd (mem_range.2 (by omega)) h] at e2
    have e3 : t.d (n - 1) * (t.d (n - 1) * (t.d (n - 1) * z (n - 1)) / s (n - 1)) = 0 := by linarith
    rcases mul_eq_zero.1 e3 with h1 | h1
    · exact absurd h1 hd1
    · rcases div_eq_zero_iff.1 h1 with h2 | h2
      · rcases mul_eq_zero.1 h2 with h3 | h3
        · exact absurd h3 hd1
        · rcases mul_eq_zero.1 h3 with h4 | h4
          · exact absurd h4 hd1
          · exact h4
      · exact absurd h2 hs
  · intro h
    refine (heq fun k => bksubQr n t.A t.s t.d b m c (k * m + c)).2 fun r hr => ?_
    rw [b1 r hr, tn, refl_none]
    intro i hi
    rw [cl i hi]
    by_cases h1 : i = n - 1
    · rw [h1, ← hz' (n - 1) (by omega), rowz, h, mul_zero, mul_zero]
    · rw [if_neg h1, zero_mul]

/-- The hypotheses can be met: the unit matrix of two rows, whatever is in `s`, and a right-hand side whose last number is not zero. -/
example (s d : Nat → ℝ) (hs : s 1 ≠ 0) : ∃ r < 2, ∑ k ∈ range 2, (fun p => if p = 0 ∨ p = 3 then (1 : ℝ) else 0) (r * 2 + k) *
    bksubQr 2 (decmpQr Real.sqrt 2 (fun p => if p = 0 ∨ p = 3 then 1 else 0) s d).A (decmpQr Real.sqrt 2 (fun p => if p = 0 ∨ p = 3 then 1 else 0) s d).s
      (decmpQr Real.sqrt 2 (fun p => if p = 0 ∨ p = 3 then 1 else 0) s d).d (fun p => if p = 1 then 1 else 0) 1 0 (k * 1 + 0) ≠ (fun p => if p = 1 then (1 : ℝ) else 0) (r * 1 + 0) := by
  have hrt : IsRoot0 Real.sqrt := fun x hx => ⟨Real.sqrt_nonneg x, Real.mul_self_sqrt hx⟩
  have := (C93_substitution_broken hrt (n := 2) (by omega) (fun p => if p = 0 ∨ p = 3 then (1 : ℝ) else 0) s d (fun p => if p = 1 then 1 else 0) (fun k => if k = 1 then 1 else 0)
    (m := 1) (c := 0) (by omega) hs ((C93_singular hrt (by omega) _ s d).2 fun y hy c hc => by
      have h0 := hy 0 (by omega)
      have h1 := hy 1 (by omega)
      simp [sum_range_succ] at h0 h1
      rcases c with _ | _ | c
      · exact h0
      · exact h1
      · omega) (by
      intro r hr
      rcases r with _ | _ | r
      · simp [sum_range_succ]
      · simp [sum_range_succ]
      · omega)).1
  by_contra hcon
  push Not at hcon
  have h := this.1 hcon
  norm_num at h

end OP.Lin
