import Verif.Fft.Fft
import Mathlib.RingTheory.RootsOfUnity.Complex
import Mathlib.Tactic.FieldSimp
/-! # Lemmas about the transforms -/
namespace OP.Fft
open OP.Lin

/-- `e^(2πi/N)` -/
noncomputable def root (N : Nat) : ℂ := Complex.exp (2 * Real.pi * Complex.I / N)

theorem root_parts (N : Nat) : root N = ⟨Real.cos (2 * Real.pi / N), Real.sin (2 * Real.pi / N)⟩ := by
  have : root N = Complex.exp (((2 * Real.pi / N : ℝ) : ℂ) * Complex.I) := by
    unfold root; congr 1; push_cast; ring
  rw [this]
  exact Complex.ext (Complex.exp_ofReal_mul_I_re _) (Complex.exp_ofReal_mul_I_im _)

theorem root_pow_self {N : Nat} (h : 0 < N) : root N ^ N = 1 := (Complex.isPrimitiveRoot_exp N (by omega)).pow_eq_one

theorem root_ne (N : Nat) : root N ≠ 0 := Complex.exp_ne_zero _

theorem root_mul (m N : Nat) (h : 0 < m) : root (m * N) ^ m = root N := by
  unfold root
  rw [← Complex.exp_nat_mul]
  congr 1
  have : (m : ℂ) ≠ 0 := by exact_mod_cast (by omega : m ≠ 0)
  push_cast
  by_cases hN : (N : ℂ) = 0
  · simp [hN]
  · field_simp

theorem root_one : root 1 = 1 := by have := root_pow_self (N := 1) (by omega); simpa using this
theorem root_two : root 2 = -1 := by rw [root_parts]; apply Complex.ext <;> simp
theorem root_four : root 4 = Complex.I := by
  rw [root_parts, show 2 * Real.pi / (4 : Nat) = Real.pi / 2 by push_cast; ring]
  apply Complex.ext <;> simp
theorem root_eight : root 8 = ⟨rtHalf, rtHalf⟩ := by
  rw [root_parts, show 2 * Real.pi / (8 : Nat) = Real.pi / 4 by push_cast; ring]
  apply Complex.ext <;> simp [rtHalf]

theorem root_norm (N k : Nat) : (root N ^ k).re * (root N ^ k).re + (root N ^ k).im * (root N ^ k).im = 1 := by
  have h : root N ^ k = Complex.exp (((2 * Real.pi / N * k : ℝ) : ℂ) * Complex.I) := by
    unfold root; rw [← Complex.exp_nat_mul]; congr 1; push_cast; ring
  rw [h, Complex.exp_ofReal_mul_I_re, Complex.exp_ofReal_mul_I_im]
  have := Real.sin_sq_add_cos_sq (2 * Real.pi / N * k)
  nlinarith

theorem root_step (N : Nat) (h : 0 < N) : root N = ⟨1 + -2 * -sinT 1 N * -sinT 1 N, sinT 2 N⟩ := by
  rw [root_parts]
  have h1 : 2 * Real.pi / N = 2 * (Real.pi / N) := by ring
  have h2 : ((1 : Nat) : ℝ) * Real.pi / N = Real.pi / N := by push_cast; ring
  apply Complex.ext
  · simp only [sinT, h2, h1, Real.cos_two_mul]
    have := Real.sin_sq_add_cos_sq (Real.pi / N)
    nlinarith
  · simp [sinT]

/-! ## One butterfly -/

/-- What a butterfly leaves in its four places, given the twiddle factor and what was there. -/
def IsBf (bf : Nat → Nat → Nat → Nat → ℝ → ℝ → (Nat → ℂ) → (Nat → ℂ)) (comp : Nat → ℂ → (Nat → ℂ) → ℂ) : Prop :=
  ∀ (p : Nat → Nat) (wr wi : ℝ) (a : Nat → ℂ), (∀ c d, c < 4 → d < 4 → c ≠ d → p c ≠ p d) →
    (∀ c, c < 4 → bf (p 0) (p 1) (p 2) (p 3) wr wi a (p c) = comp c ⟨wr, wi⟩ (fun d => a (p d))) ∧
    ∀ q, (∀ c, c < 4 → q ≠ p c) → bf (p 0) (p 1) (p 2) (p 3) wr wi a q = a q

noncomputable def tcomp (c : Nat) (w : ℂ) (x : Nat → ℂ) : ℂ :=
  match c with
  | 0 => x 0 + x 2
  | 1 => x 1 + x 3
  | 2 => (x 0 - x 2 + Complex.I * (x 1 - x 3)) * w
  | _ => (x 0 - x 2 - Complex.I * (x 1 - x 3)) * (starRingEnd ℂ) w

noncomputable def ucomp (c : Nat) (w : ℂ) (x : Nat → ℂ) : ℂ :=
  match c with
  | 0 => x 0 + (x 2 * (starRingEnd ℂ) w + x 3 * w)
  | 1 => x 1 - Complex.I * (x 2 * (starRingEnd ℂ) w - x 3 * w)
  | 2 => x 0 - (x 2 * (starRingEnd ℂ) w + x 3 * w)
  | _ => x 1 + Complex.I * (x 2 * (starRingEnd ℂ) w - x 3 * w)

/-- Only the four entries matter. -/
def IsLocal (comp : Nat → ℂ → (Nat → ℂ) → ℂ) : Prop := ∀ c w (x y : Nat → ℂ), (∀ d, d < 4 → x d = y d) → comp c w x = comp c w y

theorem tcomp_local : IsLocal tcomp := by
  intro c w x y h
  unfold tcomp
  rw [h 0 (by omega), h 1 (by omega), h 2 (by omega), h 3 (by omega)]

theorem ucomp_local : IsLocal ucomp := by
  intro c w x y h
  unfold ucomp
  rw [h 0 (by omega), h 1 (by omega), h 2 (by omega), h 3 (by omega)]

theorem TRANSFORM_bf : IsBf TRANSFORM tcomp := by
  intro p wr wi a hp
  have h (c d) (hc : c < 4) (hd : d < 4) (hcd : c ≠ d) := hp c d hc hd hcd
  constructor
  · intro c hc
    have : c = 0 ∨ c = 1 ∨ c = 2 ∨ c = 3 := by omega
    rcases this with rfl | rfl | rfl | rfl
    · simp only [TRANSFORM]
      rw [set_ne _ _ (h 0 3 (by omega) (by omega) (by omega)), set_ne _ _ (h 0 2 (by omega) (by omega) (by omega)),
        set_ne _ _ (h 0 1 (by omega) (by omega) (by omega)), set_same]
      apply Complex.ext <;> simp [tcomp]
    · simp only [TRANSFORM]
      rw [set_ne _ _ (h 1 3 (by omega) (by omega) (by omega)), set_ne _ _ (h 1 2 (by omega) (by omega) (by omega)), set_same]
      apply Complex.ext <;> simp [tcomp]
    · simp only [TRANSFORM]
      rw [set_ne _ _ (h 2 3 (by omega) (by omega) (by omega)), set_same]
      apply Complex.ext <;> simp only [tcomp, Complex.mul_re, Complex.mul_im, Complex.add_re, Complex.add_im, Complex.sub_re, Complex.sub_im, Complex.I_re,
        Complex.I_im] <;> ring
    · simp only [TRANSFORM]
      rw [set_same]
      apply Complex.ext <;> simp only [tcomp, Complex.mul_re, Complex.mul_im, Complex.add_re, Complex.add_im, Complex.sub_re, Complex.sub_im, Complex.I_re,
        Complex.I_im, Complex.conj_re, Complex.conj_im] <;> ring
  · intro q hq
    simp only [TRANSFORM]
    rw [set_ne _ _ (hq 3 (by omega)), set_ne _ _ (hq 2 (by omega)), set_ne _ _ (hq 1 (by omega)), set_ne _ _ (hq 0 (by omega))]

theorem UNTRANSFORM_bf : IsBf UNTRANSFORM ucomp := by
  intro p wr wi a hp
  have h (c d) (hc : c < 4) (hd : d < 4) (hcd : c ≠ d) := hp c d hc hd hcd
  constructor
  · intro c hc
    have : c = 0 ∨ c = 1 ∨ c = 2 ∨ c = 3 := by omega
    rcases this with rfl | rfl | rfl | rfl
    · simp only [UNTRANSFORM]
      rw [set_ne _ _ (h 0 1 (by omega) (by omega) (by omega)), set_same]
      apply Complex.ext <;> simp [ucomp] <;> ring
    · simp only [UNTRANSFORM]
      rw [set_same]
      apply Complex.ext <;> simp [ucomp] <;> ring
    · simp only [UNTRANSFORM]
      rw [set_ne _ _ (h 2 1 (by omega) (by omega) (by omega)), set_ne _ _ (h 2 0 (by omega) (by omega) (by omega)),
        set_ne _ _ (h 2 3 (by omega) (by omega) (by omega)), set_same]
      apply Complex.ext <;> simp [ucomp] <;> ring
    · simp only [UNTRANSFORM]
      rw [set_ne _ _ (h 3 1 (by omega) (by omega) (by omega)), set_ne _ _ (h 3 0 (by omega) (by omega) (by omega)), set_same]
      apply Complex.ext <;> simp [ucomp] <;> ring
  · intro q hq
    simp only [UNTRANSFORM]
    rw [set_ne _ _ (hq 1 (by omega)), set_ne _ _ (hq 0 (by omega)), set_ne _ _ (hq 3 (by omega)), set_ne _ _ (hq 2 (by omega))]

/-- Undoing a butterfly whose outputs were scaled. -/
theorem ucomp_tcomp (w : ℂ) (hw : w * (starRingEnd ℂ) w = 1) (x y : Nat → ℂ) (S : ℂ) (h0 : y 0 = 2 * S * tcomp 0 w x)
    (h1 : y 1 = 2 * S * tcomp 1 w x) (h2 : y 2 = S * tcomp 2 w x) (h3 : y 3 = S * tcomp 3 w x) :
    ∀ c, c < 4 → ucomp c w y = 4 * S * x c := by
  intro c hc
  have hI : Complex.I * Complex.I = -1 := Complex.I_mul_I
  have k2 : y 2 * (starRingEnd ℂ) w = S * (x 0 - x 2 + Complex.I * (x 1 - x 3)) := by
    rw [h2]; simp only [tcomp]; linear_combination (S * (x 0 - x 2 + Complex.I * (x 1 - x 3))) * hw
  have k3 : y 3 * w = S * (x 0 - x 2 - Complex.I * (x 1 - x 3)) := by
    rw [h3]; simp only [tcomp]; linear_combination (S * (x 0 - x 2 - Complex.I * (x 1 - x 3))) * hw
  have : c = 0 ∨ c = 1 ∨ c = 2 ∨ c = 3 := by omega
  rcases this with rfl | rfl | rfl | rfl <;> simp only [ucomp, k2, k3, h0, h1] <;> simp only [tcomp]
  · ring
  · linear_combination (-2 * S * (x 1 - x 3)) * hI
  · ring
  · linear_combination (2 * S * (x 1 - x 3)) * hI

/-! ## A pass over the quarters -/

/-- The four places of round `k`. -/
theorem bf_at {bf : Nat → Nat → Nat → Nat → ℝ → ℝ → (Nat → ℂ) → (Nat → ℂ)} {comp : Nat → ℂ → (Nat → ℂ) → ℂ} (hb : IsBf bf comp) {o m k : Nat} (hk : k < m)
    (p0 p1 p2 p3 : Nat) (e0 : p0 = o + k) (e1 : p1 = o + (m + k)) (e2 : p2 = o + (2 * m + k)) (e3 : p3 = o + (3 * m + k)) (wr wi : ℝ) (a : Nat → ℂ) :
    (∀ c, c < 4 → bf p0 p1 p2 p3 wr wi a (o + (c * m + k)) = comp c ⟨wr, wi⟩ (fun d => a (o + (d * m + k)))) ∧
    (∀ c k', c < 4 → k' < m → k' ≠ k → bf p0 p1 p2 p3 wr wi a (o + (c * m + k')) = a (o + (c * m + k'))) ∧
    ∀ q, (q < o ∨ o + 4 * m ≤ q) → bf p0 p1 p2 p3 wr wi a q = a q := by
  have hne : ∀ c k' d, k' < m → c * m + k' = d * m + k → c = d ∧ k' = k := by
    intro c k' d hk' e
    have h1 : (k' + m * c) / m = (k + m * d) / m := by congr 1; rw [Nat.mul_comm m c, Nat.mul_comm m d]; omega
    rw [Nat.add_mul_div_left _ _ (by omega), Nat.add_mul_div_left _ _ (by omega), Nat.div_eq_of_lt hk', Nat.div_eq_of_lt hk] at h1
    have h2 : c = d := by omega
    subst h2; exact ⟨rfl, by omega⟩
  obtain ⟨h1, h2⟩ := hb (fun c => o + (c * m + k)) wr wi a (by
    intro c d _ _ hcd e
    exact hcd (hne c k d hk (by simpa using e)).1)
  have e0' : p0 = o + (0 * m + k) := by rw [e0]; simp
  have e1' : p1 = o + (1 * m + k) := by rw [e1]; simp
  rw [e0', e1', e2, e3]
  refine ⟨h1, ?_, ?_⟩
  · intro c k' hc hk' hkk
    refine h2 _ (fun d hd e => hkk ((hne c k' d hk' (by simpa using e)).2))
  · intro q hq
    refine h2 _ (fun d hd e => ?_)
    have : d * m ≤ 3 * m := Nat.mul_le_mul_right _ (by omega)
    omega

theorem twist {N n i : Nat} (hN : N = 8 * n) (hi : i < n) {wr wi : ℝ} (h : root N ^ i = ⟨wr, wi⟩) : root N ^ (2 * n - i) = ⟨wi, wr⟩ := by
  have h1 : root N ^ (2 * n - i) * root N ^ i = Complex.I := by
    rw [← pow_add, show 2 * n - i + i = 2 * n by omega, hN, show 8 * n = 2 * n * 4 by ring, root_mul (2 * n) 4 (by omega), root_four]
  have h2 := root_norm N i
  have h3 : (⟨wi, wr⟩ : ℂ) * root N ^ i = Complex.I := by
    rw [h] at h2 ⊢
    simp only at h2
    apply Complex.ext
    · simp; ring
    · simp; linarith
  exact mul_right_cancel₀ (pow_ne_zero i (root_ne N)) (h1.trans h3.symm)

/-- The pass applies the butterfly with twiddle factor `e^(2πik/N)` to the four entries at distance N/4 from `k`, for every `k < N/4`, and touches nothing else. -/
theorem quarters_at {bf : Nat → Nat → Nat → Nat → ℝ → ℝ → (Nat → ℂ) → (Nat → ℂ)} {comp : Nat → ℂ → (Nat → ℂ) → ℂ} (hb : IsBf bf comp) (hl : IsLocal comp) {N n : Nat} (hN : N = 8 * n)
    (hn : 0 < n) (o : Nat) (a : Nat → ℂ) :
    (∀ c k, c < 4 → k < 2 * n → quarters bf N o a (o + (c * (2 * n) + k)) = comp c (root N ^ k) (fun d => a (o + (d * (2 * n) + k)))) ∧
    ∀ q, (q < o ∨ o + N ≤ q) → quarters bf N o a q = a q := by
  have hn8 : N / 8 = n := by omega
  unfold quarters
  simp only [hn8]
  obtain ⟨A1, A2, A3⟩ := bf_at hb (o := o) (m := 2 * n) (k := 0) (by omega) (o + 0) (o + 2 * n) (o + 4 * n) (o + 6 * n) (by omega) (by omega) (by omega) (by omega) 1 0 a
  generalize bf (o + 0) (o + 2 * n) (o + 4 * n) (o + 6 * n) 1 0 a = a1 at A1 A2 A3 ⊢
  obtain ⟨B1, B2, B3⟩ := bf_at hb (o := o) (m := 2 * n) (k := n) (by omega) (o + n) (o + 3 * n) (o + 5 * n) (o + 7 * n) (by omega) (by omega) (by omega) (by omega) rtHalf rtHalf a1
  generalize bf (o + n) (o + 3 * n) (o + 5 * n) (o + 7 * n) rtHalf rtHalf a1 = a2 at B1 B2 B3 ⊢
  have hr0 : root N ^ 0 = ⟨1, 0⟩ := by rw [pow_zero]; rfl
  have hrn : root N ^ n = ⟨rtHalf, rtHalf⟩ := by rw [hN, show 8 * n = n * 8 by ring, root_mul n 8 hn, root_eight]
  have key := loop_rule (f := fun i (s : (Nat → ℂ) × ℝ × ℝ) =>
      (bf (o + (2 * n - i)) (o + (4 * n - i)) (o + (6 * n - i)) (o + (8 * n - i))
        (-(s.2.2 + (s.2.2 * (-2 * -sinT 1 N * -sinT 1 N) + s.2.1 * -sinT 2 N))) (s.2.1 + (s.2.1 * (-2 * -sinT 1 N * -sinT 1 N) - s.2.2 * -sinT 2 N))
        (bf (o + i) (o + (2 * n + i)) (o + (4 * n + i)) (o + (6 * n + i)) (s.2.1 + (s.2.1 * (-2 * -sinT 1 N * -sinT 1 N) - s.2.2 * -sinT 2 N))
          (-(s.2.2 + (s.2.2 * (-2 * -sinT 1 N * -sinT 1 N) + s.2.1 * -sinT 2 N))) s.1),
        s.2.1 + (s.2.1 * (-2 * -sinT 1 N * -sinT 1 N) - s.2.2 * -sinT 2 N), s.2.2 + (s.2.2 * (-2 * -sinT 1 N * -sinT 1 N) + s.2.1 * -sinT 2 N)))
    (fun i (s : (Nat → ℂ) × ℝ × ℝ) => root N ^ (i - 1) = ⟨s.2.1, -s.2.2⟩ ∧
      (∀ c k, c < 4 → k < 2 * n → s.1 (o + (c * (2 * n) + k)) = if k < i ∨ k = n ∨ 2 * n - i < k then comp c (root N ^ k) (fun d => a (o + (d * (2 * n) + k)))
        else a (o + (c * (2 * n) + k))) ∧ ∀ q, (q < o ∨ o + N ≤ q) → s.1 q = a q) (show 1 ≤ n from hn) (s := (a2, 1, 0)) (by
      refine ⟨by simpa using hr0, ?_, ?_⟩
      · intro c k hc hk
        by_cases hkn : k = n
        · subst hkn
          rw [if_pos (by omega), show (a2, (1 : ℝ), (0 : ℝ)).1 = a2 from rfl, B1 c hc, hrn]
          exact hl _ _ _ _ (fun d hd => A2 d k hd hk (by omega))
        · rw [show (a2, (1 : ℝ), (0 : ℝ)).1 = a2 from rfl, B2 c k hc hk hkn]
          by_cases h0 : k = 0
          · subst h0
            rw [if_pos (by omega), A1 c hc, hr0]
          · rw [if_neg (by omega), A2 c k hc hk h0]
      · intro q hq
        rw [show (a2, (1 : ℝ), (0 : ℝ)).1 = a2 from rfl, B3 q (by omega), A3 q (by omega)])
    (by
      intro i s hi1 hin ⟨I1, I2, I3⟩
      have hw : root N ^ i = ⟨s.2.1 + (s.2.1 * (-2 * -sinT 1 N * -sinT 1 N) - s.2.2 * -sinT 2 N),
          -(s.2.2 + (s.2.2 * (-2 * -sinT 1 N * -sinT 1 N) + s.2.1 * -sinT 2 N))⟩ := by
        rw [show i = i - 1 + 1 by omega, pow_succ, I1, root_step N (by omega)]
        apply Complex.ext <;> simp only [Complex.mul_re, Complex.mul_im] <;> ring
      have hw2 := twist hN hin hw
      generalize s.2.1 + (s.2.1 * (-2 * -sinT 1 N * -sinT 1 N) - s.2.2 * -sinT 2 N) = wr at hw hw2 ⊢
      generalize s.2.2 + (s.2.2 * (-2 * -sinT 1 N * -sinT 1 N) + s.2.1 * -sinT 2 N) = wi at hw hw2 ⊢
      obtain ⟨C1, C2, C3⟩ := bf_at hb (o := o) (m := 2 * n) (k := i) (by omega) (o + i) (o + (2 * n + i)) (o + (4 * n + i)) (o + (6 * n + i))
        (by omega) (by omega) (by omega) (by omega) wr (-wi) s.1
      generalize bf (o + i) (o + (2 * n + i)) (o + (4 * n + i)) (o + (6 * n + i)) wr (-wi) s.1 = b1 at C1 C2 C3 ⊢
      obtain ⟨D1, D2, D3⟩ := bf_at hb (o := o) (m := 2 * n) (k := 2 * n - i) (by omega) (o + (2 * n - i)) (o + (4 * n - i)) (o + (6 * n - i)) (o + (8 * n - i))
        (by omega) (by omega) (by omega) (by omega) (-wi) wr b1
      generalize bf (o + (2 * n - i)) (o + (4 * n - i)) (o + (6 * n - i)) (o + (8 * n - i)) (-wi) wr b1 = b2 at D1 D2 D3 ⊢
      refine ⟨by simpa using hw, ?_, ?_⟩
      · intro c k hc hk
        show b2 _ = _
        by_cases h2 : k = 2 * n - i
        · rw [if_pos (by omega), h2, D1 c hc, hw2]
          refine hl _ _ _ _ (fun d hd => ?_)
          show b1 _ = _
          rw [C2 d _ hd (by omega) (by omega), I2 d _ hd (by omega), if_neg (by omega)]
        · rw [D2 c k hc hk h2]
          by_cases h1 : k = i
          · rw [if_pos (by omega), h1, C1 c hc, hw]
            refine hl _ _ _ _ (fun d hd => ?_)
            show s.1 _ = _
            rw [I2 d _ hd (by omega), if_neg (by omega)]
          · rw [C2 c k hc hk h1, I2 c k hc hk]
            by_cases h3 : k < i ∨ k = n ∨ 2 * n - i < k
            · rw [if_pos h3, if_pos (by omega)]
            · rw [if_neg h3, if_neg (by omega)]
      · intro q hq
        show b2 q = a q
        rw [D3 q (by omega), C3 q (by omega), I3 q hq])
  obtain ⟨_, k2, k3⟩ := key
  refine ⟨fun c k hc hk => ?_, k3⟩
  rw [k2 c k hc hk, if_pos (by omega)]

/-! ## The recursion -/

theorem fft2_at (o : Nat) (a : Nat → ℂ) : fft2 o a o = a o + a (o + 1) ∧ fft2 o a (o + 1) = a o - a (o + 1) ∧
    ∀ q, (q < o ∨ o + 2 ≤ q) → fft2 o a q = a q := by
  unfold fft2
  simp only [Nat.add_zero]
  refine ⟨?_, ?_, ?_⟩
  · rw [set_ne _ _ (by omega), set_same]; rfl
  · rw [set_same]; rfl
  · intro q hq; rw [set_ne _ _ (by omega), set_ne _ _ (by omega)]

/-- The pass over the quarters for a transform of four. -/
theorem four_at {bf : Nat → Nat → Nat → Nat → ℝ → ℝ → (Nat → ℂ) → (Nat → ℂ)} {comp : Nat → ℂ → (Nat → ℂ) → ℂ} (hb : IsBf bf comp) (o : Nat) (a : Nat → ℂ) :
    (∀ c, c < 4 → bf (o + 0) (o + 1) (o + 2) (o + 3) 1 0 a (o + c) = comp c 1 (fun d => a (o + d))) ∧
    ∀ q, (q < o ∨ o + 4 ≤ q) → bf (o + 0) (o + 1) (o + 2) (o + 3) 1 0 a q = a q := by
  obtain ⟨h1, _, h3⟩ := bf_at hb (o := o) (m := 1) (k := 0) (by omega) (o + 0) (o + 1) (o + 2) (o + 3) (by omega) (by omega) (by omega) (by omega) 1 0 a
  refine ⟨fun c hc => ?_, fun q hq => h3 q (by omega)⟩
  have := h1 c hc
  simp only [Nat.mul_one, Nat.add_zero] at this ⊢
  exact this

theorem pow3 (e : Nat) : 2 ^ (e + 3) = 8 * 2 ^ e ∧ 2 ^ (e + 2) = 4 * 2 ^ e ∧ 2 ^ (e + 1) = 2 * 2 ^ e ∧ 0 < 2 ^ e := by
  refine ⟨by ring, by ring, by ring, Nat.two_pow_pos e⟩

theorem fftc_out : ∀ (e o : Nat) (a : Nat → ℂ) (q : Nat), (q < o ∨ o + 2 ^ e ≤ q) → fftc e o a q = a q
  | 0, _, _, _, _ => by rw [fftc]
  | 1, o, a, q, h => by rw [fftc]; exact (fft2_at o a).2.2 q (by simpa using h)
  | 2, o, a, q, h => by
    rw [fftc, (fft2_at o _).2.2 q (by omega), (four_at TRANSFORM_bf o a).2 q (by omega)]
  | e + 3, o, a, q, h => by
    obtain ⟨p3, p2, p1, p0⟩ := pow3 e
    rw [fftc]
    rw [fftc_out (e + 1) _ _ q (by omega), fftc_out (e + 1) _ _ q (by omega), fftc_out (e + 2) _ _ q (by omega),
      (quarters_at TRANSFORM_bf tcomp_local p3 p0 o a).2 q h]

theorem fftcUn_out : ∀ (e o : Nat) (a : Nat → ℂ) (q : Nat), (q < o ∨ o + 2 ^ e ≤ q) → fftcUn e o a q = a q
  | 0, _, _, _, _ => by rw [fftcUn]
  | 1, o, a, q, h => by rw [fftcUn]; exact (fft2_at o a).2.2 q (by simpa using h)
  | 2, o, a, q, h => by
    rw [fftcUn, (four_at UNTRANSFORM_bf o _).2 q (by omega), (fft2_at o a).2.2 q (by omega)]
  | e + 3, o, a, q, h => by
    obtain ⟨p3, p2, p1, p0⟩ := pow3 e
    rw [fftcUn]
    rw [(quarters_at UNTRANSFORM_bf ucomp_local p3 p0 o _).2 q h, fftcUn_out (e + 1) _ _ q (by omega), fftcUn_out (e + 1) _ _ q (by omega),
      fftcUn_out (e + 2) _ _ q (by omega)]

theorem root_unit (N k : Nat) : root N ^ k * (starRingEnd ℂ) (root N ^ k) = 1 := by
  have := root_norm N k
  apply Complex.ext
  · simp only [Complex.mul_re, Complex.conj_re, Complex.conj_im, Complex.one_re]; linarith
  · simp only [Complex.mul_im, Complex.conj_re, Complex.conj_im, Complex.one_im]; ring

/-- Undoing a transform gives the data times its length. -/
theorem fftcUn_fftc : ∀ (e o : Nat) (a b : Nat → ℂ), (∀ i, i < 2 ^ e → b (o + i) = fftc e o a (o + i)) →
    ∀ i, i < 2 ^ e → fftcUn e o b (o + i) = 2 ^ e * a (o + i)
  | 0, o, a, b, h, i, hi => by rw [fftcUn, h i hi, fftc]; simp
  | 1, o, a, b, h, i, hi => by
    obtain ⟨A0, A1, _⟩ := fft2_at o a
    obtain ⟨B0, B1, _⟩ := fft2_at o b
    have h0 := h 0 (by omega)
    have h1 := h 1 (by omega)
    simp only [fftc, Nat.add_zero] at h0 h1
    have : i = 0 ∨ i = 1 := by omega
    rw [fftcUn]
    rcases this with rfl | rfl
    · rw [Nat.add_zero, B0, h0, h1, A0, A1]; ring
    · rw [B1, h0, h1, A0, A1]; ring
  | 2, o, a, b, h, i, hi => by
    obtain ⟨T, _⟩ := four_at TRANSFORM_bf o a
    simp only [fftc] at h
    generalize TRANSFORM (o + 0) (o + 1) (o + 2) (o + 3) 1 0 a = a' at T h
    obtain ⟨A0, A1, A2⟩ := fft2_at o a'
    obtain ⟨B0, B1, B2⟩ := fft2_at o b
    rw [fftcUn]
    obtain ⟨U, _⟩ := four_at UNTRANSFORM_bf o (fft2 o b)
    rw [U i hi]
    have T0 := T 0 (by omega)
    have h0 := h 0 (by omega)
    simp only [Nat.add_zero] at T0 h0
    have hr := ucomp_tcomp 1 (by simp) (fun d => a (o + d)) (fun d => fft2 o b (o + d)) 1 (by
        show fft2 o b (o + 0) = _
        rw [Nat.add_zero, B0, h0, h 1 (by omega), A0, A1, ← T0]; ring) (by
        show fft2 o b (o + 1) = _
        rw [B1, h0, h 1 (by omega), A0, A1, ← T 1 (by omega)]; ring) (by
        show fft2 o b (o + 2) = _
        rw [B2 _ (by omega), h 2 (by omega), A2 _ (by omega), ← T 2 (by omega)]; ring) (by
        show fft2 o b (o + 3) = _
        rw [B2 _ (by omega), h 3 (by omega), A2 _ (by omega), ← T 3 (by omega)]; ring) i hi
    rw [hr]; norm_num
  | e + 3, o, a, b, h, i, hi => by
    obtain ⟨p3, p2, p1, p0⟩ := pow3 e
    obtain ⟨T, _⟩ := quarters_at TRANSFORM_bf tcomp_local p3 p0 o a
    have hh : 2 ^ (e + 3) / 2 = 4 * 2 ^ e := by omega
    have hq : 3 * 2 ^ (e + 3) / 4 = 6 * 2 ^ e := by omega
    simp only [fftc, hh, hq] at h
    generalize quarters TRANSFORM (2 ^ (e + 3)) o a = a0 at T h
    have fo1 := fftc_out (e + 2) o a0
    have ih1 := fftcUn_fftc (e + 2) o a0
    generalize fftc (e + 2) o a0 = a1 at fo1 ih1 h
    have fo2 := fftc_out (e + 1) (o + 4 * 2 ^ e) a1
    have ih2 := fftcUn_fftc (e + 1) (o + 4 * 2 ^ e) a1
    generalize fftc (e + 1) (o + 4 * 2 ^ e) a1 = a2 at fo2 ih2 h
    have fo3 := fftc_out (e + 1) (o + 6 * 2 ^ e) a2
    have ih3 := fftcUn_fftc (e + 1) (o + 6 * 2 ^ e) a2
    generalize fftc (e + 1) (o + 6 * 2 ^ e) a2 = a3 at fo3 ih3 h
    simp only [fftcUn, hh, hq]
    have fu1 := fftcUn_out (e + 2) o b
    have ih1 := ih1 b (fun i hi => by rw [h i (by omega), fo3 _ (by omega), fo2 _ (by omega)])
    generalize fftcUn (e + 2) o b = b1 at fu1 ih1
    have fu2 := fftcUn_out (e + 1) (o + 4 * 2 ^ e) b1
    have ih2 := ih2 b1 (fun i hi => by rw [fu1 _ (by omega), Nat.add_assoc, h _ (by omega), fo3 _ (by omega)])
    generalize fftcUn (e + 1) (o + 4 * 2 ^ e) b1 = b2 at fu2 ih2
    have fu3 := fftcUn_out (e + 1) (o + 6 * 2 ^ e) b2
    have ih3 := ih3 b2 (fun i hi => by rw [fu2 _ (by omega), fu1 _ (by omega), Nat.add_assoc, h _ (by omega)])
    generalize fftcUn (e + 1) (o + 6 * 2 ^ e) b2 = b3 at fu3 ih3
    obtain ⟨U, _⟩ := quarters_at UNTRANSFORM_bf ucomp_local p3 p0 o b3
    obtain ⟨c, k, hc, hk, e1⟩ : ∃ c k, c < 4 ∧ k < 2 * 2 ^ e ∧ i = c * (2 * 2 ^ e) + k :=
      ⟨i / (2 * 2 ^ e), i % (2 * 2 ^ e), Nat.div_lt_of_lt_mul (by omega), Nat.mod_lt _ (by omega), by
        rw [Nat.mul_comm]; exact (Nat.div_add_mod i _).symm⟩
    have lo : ∀ d, d < 2 → b3 (o + (d * (2 * 2 ^ e) + k)) = 2 * 2 ^ (e + 1) * a0 (o + (d * (2 * 2 ^ e) + k)) := by
      intro d hd
      have hd1 : d * (2 * 2 ^ e) ≤ 1 * (2 * 2 ^ e) := Nat.mul_le_mul_right _ (by omega)
      rw [fu3 _ (by omega), fu2 _ (by omega), ih1 _ (by omega)]
      ring
    rw [e1, U c k hc hk, ucomp_tcomp (root (2 ^ (e + 3)) ^ k) (root_unit _ _) (fun d => a (o + (d * (2 * 2 ^ e) + k))) _ (2 ^ (e + 1)) (by
        rw [← T 0 k (by omega) hk, ← lo 0 (by omega)]) (by
        rw [← T 1 k (by omega) hk, ← lo 1 (by omega)]) (by
        rw [← T 2 k (by omega) hk]
        show b3 (o + (2 * (2 * 2 ^ e) + k)) = _
        rw [fu3 _ (by omega), show o + (2 * (2 * 2 ^ e) + k) = o + 4 * 2 ^ e + k by omega, ih2 k (by omega), fo1 _ (by omega)]) (by
        rw [← T 3 k (by omega) hk]
        show b3 (o + (3 * (2 * 2 ^ e) + k)) = _
        rw [show o + (3 * (2 * 2 ^ e) + k) = o + 6 * 2 ^ e + k by omega, ih3 k (by omega), fo2 _ (by omega), fo1 _ (by omega)]) c hc]
    ring

/-! ## The frequencies -/

/-- The frequency whose coefficient the transform leaves at place `p`. -/
def freq : Nat → Nat → Nat
  | 0, _ => 0
  | 1, p => p
  | e + 2, p =>
    if p < 2 ^ (e + 1) then 2 * freq (e + 1) p
    else if p < 3 * 2 ^ e then 4 * freq e (p - 2 ^ (e + 1)) + 1
    else (4 * freq e (p - 3 * 2 ^ e) + (2 ^ (e + 2) - 1)) % 2 ^ (e + 2)

theorem freq_lt : ∀ (e p : Nat), p < 2 ^ e → freq e p < 2 ^ e
  | 0, _, _ => by simp [freq]
  | 1, p, h => by simpa [freq] using h
  | e + 2, p, h => by
    have q1 : 2 ^ (e + 2) = 4 * 2 ^ e := by ring
    have q2 : 2 ^ (e + 1) = 2 * 2 ^ e := by ring
    have q0 : 0 < 2 ^ e := Nat.two_pow_pos e
    unfold freq
    by_cases h1 : p < 2 ^ (e + 1)
    · rw [if_pos h1]; have := freq_lt (e + 1) p h1; omega
    · rw [if_neg h1]
      by_cases h2 : p < 3 * 2 ^ e
      · rw [if_pos h2]; have := freq_lt e (p - 2 ^ (e + 1)) (by omega); omega
      · rw [if_neg h2]; exact Nat.mod_lt _ (by omega)

theorem freq_mod (e f : Nat) : ∃ g, (4 * f + (2 ^ (e + 2) - 1)) % 2 ^ (e + 2) = 4 * g + 3 ∧ ((f = 0 ∧ g = 2 ^ e - 1) ∨ (f = g + 1 ∨ 2 ^ e < f)) := by
  have q1 : 2 ^ (e + 2) = 4 * 2 ^ e := by ring
  have q0 : 0 < 2 ^ e := Nat.two_pow_pos e
  rw [q1, show 4 * f + (4 * 2 ^ e - 1) = 4 * (f + 2 ^ e - 1) + 3 by omega]
  generalize hM : 2 ^ e = M at *
  rcases Nat.eq_zero_or_pos f with h | h
  · exact ⟨M - 1, by rw [h, Nat.mod_eq_of_lt (by omega)]; omega, Or.inl ⟨h, rfl⟩⟩
  · by_cases hf : f ≤ M
    · refine ⟨f - 1, ?_, Or.inr (Or.inl (by omega))⟩
      rw [show 4 * (f + M - 1) + 3 = (4 * (f - 1) + 3) + 4 * M by omega, Nat.add_mod_right, Nat.mod_eq_of_lt (by omega)]
    · refine ⟨(f + M - 1) % M, ?_, Or.inr (Or.inr (by omega))⟩
      have h1 := Nat.div_add_mod (f + M - 1) M
      have h2 := Nat.mod_lt (f + M - 1) q0
      generalize (f + M - 1) % M = r at *
      generalize (f + M - 1) / M = d at *
      rw [← h1, show 4 * (M * d + r) + 3 = (4 * r + 3) + 4 * M * d by ring, Nat.add_mul_mod_self_left, Nat.mod_eq_of_lt (by omega)]

theorem freq_inj : ∀ (e p q : Nat), p < 2 ^ e → q < 2 ^ e → freq e p = freq e q → p = q
  | 0, p, q, hp, hq, _ => by simp at hp hq; omega
  | 1, p, q, _, _, h => by simpa [freq] using h
  | e + 2, p, q, hp, hq, h => by
    have q1 : 2 ^ (e + 2) = 4 * 2 ^ e := by ring
    have q2 : 2 ^ (e + 1) = 2 * 2 ^ e := by ring
    have q0 : 0 < 2 ^ e := Nat.two_pow_pos e
    have P : ∀ p, p < 2 ^ (e + 2) →
        (p < 2 ^ (e + 1) ∧ freq (e + 2) p = 2 * freq (e + 1) p) ∨
        (2 ^ (e + 1) ≤ p ∧ p < 3 * 2 ^ e ∧ freq (e + 2) p = 4 * freq e (p - 2 ^ (e + 1)) + 1) ∨
        (3 * 2 ^ e ≤ p ∧ ∃ g, freq (e + 2) p = 4 * g + 3 ∧ ((freq e (p - 3 * 2 ^ e) = 0 ∧ g = 2 ^ e - 1) ∨ freq e (p - 3 * 2 ^ e) = g + 1)) := by
      intro p hp
      by_cases h1 : p < 2 ^ (e + 1)
      · exact Or.inl ⟨h1, by rw [freq, if_pos h1]⟩
      · by_cases h2 : p < 3 * 2 ^ e
        · exact Or.inr (Or.inl ⟨by omega, h2, by rw [freq, if_neg h1, if_pos h2]⟩)
        · obtain ⟨g, hg, hg2⟩ := freq_mod e (freq e (p - 3 * 2 ^ e))
          have := freq_lt e (p - 3 * 2 ^ e) (by omega)
          exact Or.inr (Or.inr ⟨by omega, g, by rw [freq, if_neg h1, if_neg h2, hg], by omega⟩)
    rcases P p hp with ⟨a1, a2⟩ | ⟨a1, a2, a3⟩ | ⟨a1, g, a2, a3⟩ <;> rcases P q hq with ⟨b1, b2⟩ | ⟨b1, b2, b3⟩ | ⟨b1, g', b2, b3⟩
    · exact freq_inj (e + 1) p q a1 b1 (by omega)
    · omega
    · omega
    · omega
    · have := freq_inj e (p - 2 ^ (e + 1)) (q - 2 ^ (e + 1)) (by omega) (by omega) (by omega); omega
    · omega
    · omega
    · omega
    · have k1 := freq_lt e (p - 3 * 2 ^ e) (by omega)
      have k2 := freq_lt e (q - 3 * 2 ^ e) (by omega)
      have := freq_inj e (p - 3 * 2 ^ e) (q - 3 * 2 ^ e) (by omega) (by omega) (by omega); omega

/-! ## What a transform computes -/

open Finset in
theorem sum_halves (m : Nat) (g : Nat → ℂ) : ∑ j ∈ range (2 * m), g j = ∑ k ∈ range m, (g k + g (m + k)) := by
  rw [show 2 * m = m + m by ring, sum_range_add, sum_add_distrib]

open Finset in
theorem sum_quarters (m : Nat) (g : Nat → ℂ) :
    ∑ j ∈ range (4 * m), g j = ∑ k ∈ range m, (g k + g (m + k) + g (2 * m + k) + g (3 * m + k)) := by
  rw [show 4 * m = m + m + m + m by ring, sum_range_add, sum_range_add, sum_range_add, sum_add_distrib, sum_add_distrib, sum_add_distrib]
  refine congrArg₂ _ (congrArg₂ _ rfl ?_) ?_ <;> refine sum_congr rfl (fun k _ => ?_) <;> congr 1 <;> ring

theorem conj_root {m : Nat} (hm : 0 < m) (k : Nat) : (starRingEnd ℂ) (root (4 * m) ^ k) = root (4 * m) ^ (k * (4 * m - 1)) := by
  have h1 := root_unit (4 * m) k
  have h2 : root (4 * m) ^ k * root (4 * m) ^ (k * (4 * m - 1)) = 1 := by
    rw [← pow_add, show k + k * (4 * m - 1) = (4 * m) * k by
      obtain ⟨M, hM⟩ : ∃ M, 4 * m = M + 1 := ⟨4 * m - 1, by omega⟩
      rw [hM]; simp; ring, pow_mul, root_pow_self (by omega), one_pow]
  exact mul_left_cancel₀ (pow_ne_zero k (root_ne _)) (h1.trans h2.symm)

theorem root_quarter {m : Nat} (hm : 0 < m) : root (4 * m) ^ m = Complex.I := by
  rw [show 4 * m = m * 4 by ring, root_mul m 4 hm, root_four]

open Finset in
/-- One level of the recursion, whether the quarters are single entries or not. -/
theorem dft_step {e o : Nat} {a a0 b : Nat → ℂ} {m : Nat} (hme : m = 2 ^ e) (hm : 0 < m)
    (T : ∀ c k, c < 4 → k < m → a0 (o + (c * m + k)) = tcomp c (root (4 * m) ^ k) (fun d => a (o + (d * m + k))))
    (h1 : ∀ p, p < 2 * m → b (o + p) = ∑ j ∈ range (2 * m), a0 (o + j) * root (2 * m) ^ (j * freq (e + 1) p))
    (h2 : ∀ p, p < m → b (o + (2 * m + p)) = ∑ j ∈ range m, a0 (o + (2 * m + j)) * root m ^ (j * freq e p))
    (h3 : ∀ p, p < m → b (o + (3 * m + p)) = ∑ j ∈ range m, a0 (o + (3 * m + j)) * root m ^ (j * freq e p)) :
    ∀ p, p < 4 * m → b (o + p) = ∑ j ∈ range (4 * m), a (o + j) * root (4 * m) ^ (j * freq (e + 2) p) := by
  intro p hp
  have q1 : 2 ^ (e + 2) = 4 * m := by rw [hme]; ring
  have q2 : 2 ^ (e + 1) = 2 * m := by rw [hme]; ring
  have hN : root (4 * m) ^ (4 * m) = 1 := root_pow_self (by omega)
  have hr2 : root (2 * m) = root (4 * m) ^ 2 := by rw [← root_mul 2 (2 * m) (by omega)]; congr 2; ring
  have hr4 : root m = root (4 * m) ^ 4 := (root_mul 4 m (by omega)).symm
  have hI := root_quarter hm
  have T0 : ∀ k, k < m → a0 (o + k) = tcomp 0 (root (4 * m) ^ k) (fun d => a (o + (d * m + k))) := fun k hk => by
    rw [← T 0 k (by omega) hk]; congr 2; omega
  have T1 : ∀ k, k < m → a0 (o + (m + k)) = tcomp 1 (root (4 * m) ^ k) (fun d => a (o + (d * m + k))) := fun k hk => by
    rw [← T 1 k (by omega) hk]; congr 2; omega
  rw [freq, q1, q2, ← hme]
  by_cases c1 : p < 2 * m
  · rw [if_pos c1, h1 p c1, hr2, sum_halves, sum_quarters]
    refine sum_congr rfl (fun k hk => ?_)
    rw [mem_range] at hk
    rw [T0 k hk, T1 k hk]
    simp only [tcomp]
    generalize freq (e + 1) p = f
    have w1 : root (4 * m) ^ ((2 * m + k) * (2 * f)) = root (4 * m) ^ (k * (2 * f)) := by
      rw [show (2 * m + k) * (2 * f) = 4 * m * f + k * (2 * f) by ring, pow_add, pow_mul, hN, one_pow, one_mul]
    have w2 : root (4 * m) ^ ((3 * m + k) * (2 * f)) = root (4 * m) ^ ((m + k) * (2 * f)) := by
      rw [show (3 * m + k) * (2 * f) = 4 * m * f + (m + k) * (2 * f) by ring, pow_add, pow_mul, hN, one_pow, one_mul]
    rw [w1, w2, ← pow_mul, ← pow_mul, show 2 * (k * f) = k * (2 * f) by ring, show 2 * ((m + k) * f) = (m + k) * (2 * f) by ring]
    simp only [Nat.zero_mul, Nat.one_mul, Nat.zero_add]
    ring
  · rw [if_neg c1]
    by_cases c2 : p < 3 * m
    · rw [if_pos c2]
      obtain ⟨p', rfl⟩ : ∃ p', p = 2 * m + p' := ⟨p - 2 * m, by omega⟩
      rw [h2 p' (by omega), hr4, sum_quarters, Nat.add_sub_cancel_left]
      refine sum_congr rfl (fun k hk => ?_)
      rw [mem_range] at hk
      rw [T 2 k (by omega) hk]
      simp only [tcomp]
      generalize freq e p' = f
      have w : ∀ c, root (4 * m) ^ ((c * m + k) * (4 * f + 1)) = Complex.I ^ c * root (4 * m) ^ (k * (4 * f + 1)) := by
        intro c
        rw [show (c * m + k) * (4 * f + 1) = 4 * m * (c * f) + (m * c + k * (4 * f + 1)) by ring, pow_add, pow_mul, hN, one_pow, one_mul, pow_add, pow_mul, hI]
      have w1 := w 1
      rw [Nat.one_mul] at w1
      rw [w1, w 2, w 3, ← pow_mul, show k * (4 * f + 1) = k + 4 * (k * f) by ring, pow_add, pow_one, Complex.I_sq,
        show Complex.I ^ 3 = -Complex.I by rw [pow_succ, Complex.I_sq]; ring]
      simp only [Nat.zero_mul, Nat.one_mul, Nat.zero_add]
      ring
    · rw [if_neg c2]
      obtain ⟨p', rfl⟩ : ∃ p', p = 3 * m + p' := ⟨p - 3 * m, by omega⟩
      rw [h3 p' (by omega), hr4, sum_quarters, Nat.add_sub_cancel_left]
      refine sum_congr rfl (fun k hk => ?_)
      rw [mem_range] at hk
      rw [T 3 k (by omega) hk]
      simp only [tcomp]
      generalize freq e p' = f
      have hmod : ∀ j, root (4 * m) ^ (j * ((4 * f + (4 * m - 1)) % (4 * m))) = root (4 * m) ^ (j * (4 * f + (4 * m - 1))) := by
        intro j
        conv_rhs => rw [← Nat.div_add_mod (4 * f + (4 * m - 1)) (4 * m)]
        rw [Nat.mul_add, pow_add, show j * (4 * m * ((4 * f + (4 * m - 1)) / (4 * m))) = 4 * m * (j * ((4 * f + (4 * m - 1)) / (4 * m))) by ring, pow_mul _ (4 * m), hN, one_pow,
          one_mul]
      have hI3 : Complex.I ^ 3 = -Complex.I := by rw [pow_succ, Complex.I_sq]; ring
      have w : ∀ c, root (4 * m) ^ ((c * m + k) * (4 * f + (4 * m - 1))) = (-Complex.I) ^ c * root (4 * m) ^ (k * (4 * f + (4 * m - 1))) := by
        intro c
        have hM : 4 * f + (4 * m - 1) = 4 * (f + (m - 1)) + 3 := by omega
        rw [show (c * m + k) * (4 * f + (4 * m - 1)) = m * (c * (4 * f + (4 * m - 1))) + k * (4 * f + (4 * m - 1)) by ring, pow_add, pow_mul, hI]
        congr 1
        rw [hM, show c * (4 * (f + (m - 1)) + 3) = 4 * (c * (f + (m - 1))) + 3 * c by ring, pow_add, pow_mul, Complex.I_pow_four, one_pow, one_mul, pow_mul, hI3]
      have w1 := w 1
      rw [Nat.one_mul] at w1
      rw [conj_root hm, hmod, hmod, hmod, hmod, w1, w 2, w 3, ← pow_mul, show k * (4 * f + (4 * m - 1)) = k * (4 * m - 1) + 4 * (k * f) by ring, pow_add, pow_one,
        show (-Complex.I) ^ 2 = -1 by rw [neg_sq, Complex.I_sq], show (-Complex.I) ^ 3 = Complex.I by rw [pow_succ, neg_sq, Complex.I_sq]; ring]
      simp only [Nat.zero_mul, Nat.one_mul, Nat.zero_add]
      ring

open Finset in
/-- The transform leaves at place `p` the Fourier coefficient of frequency `freq e p`. -/
theorem fftc_dft : ∀ (e o : Nat) (a : Nat → ℂ) (p : Nat), p < 2 ^ e →
    fftc e o a (o + p) = ∑ j ∈ range (2 ^ e), a (o + j) * root (2 ^ e) ^ (j * freq e p)
  | 0, o, a, p, hp => by
    have : p = 0 := by simpa using hp
    subst this; simp [fftc]
  | 1, o, a, p, hp => by
    obtain ⟨A0, A1, _⟩ := fft2_at o a
    have : p = 0 ∨ p = 1 := by omega
    rw [fftc]
    rcases this with rfl | rfl
    · rw [Nat.add_zero, A0]; simp [sum_range_succ, freq]
    · rw [A1]; simp [sum_range_succ, freq, root_two]; ring
  | 2, o, a, p, hp => by
    obtain ⟨T, _⟩ := four_at TRANSFORM_bf o a
    rw [fftc]
    generalize TRANSFORM (o + 0) (o + 1) (o + 2) (o + 3) 1 0 a = a0 at T
    obtain ⟨A0, A1, A2⟩ := fft2_at o a0
    refine dft_step (e := 0) (a := a) (a0 := a0) (m := 1) rfl (by omega) ?_ ?_ ?_ ?_ p hp
    · intro c k hc hk
      have : k = 0 := by omega
      subst this
      simp only [Nat.mul_one, Nat.add_zero, pow_zero]
      exact T c hc
    · intro p hp
      have : p = 0 ∨ p = 1 := by omega
      rcases this with rfl | rfl
      · rw [Nat.add_zero, A0]; simp [sum_range_succ, freq]
      · rw [A1]; simp [sum_range_succ, freq, root_two]; ring
    · intro p hp
      have : p = 0 := by omega
      subst this
      rw [A2 _ (by omega)]; simp [root_one]
    · intro p hp
      have : p = 0 := by omega
      subst this
      rw [A2 _ (by omega)]; simp [root_one]
  | e + 3, o, a, p, hp => by
    obtain ⟨p3, p2, p1, p0⟩ := pow3 e
    obtain ⟨T, _⟩ := quarters_at TRANSFORM_bf tcomp_local p3 p0 o a
    have hh : 2 ^ (e + 3) / 2 = 4 * 2 ^ e := by omega
    have hq : 3 * 2 ^ (e + 3) / 4 = 6 * 2 ^ e := by omega
    simp only [fftc, hh, hq]
    generalize quarters TRANSFORM (2 ^ (e + 3)) o a = a0 at T
    have fo1 := fftc_out (e + 2) o a0
    have ih1 := fftc_dft (e + 2) o a0
    generalize fftc (e + 2) o a0 = a1 at fo1 ih1
    have fo2 := fftc_out (e + 1) (o + 4 * 2 ^ e) a1
    have ih2 := fftc_dft (e + 1) (o + 4 * 2 ^ e) a1
    generalize fftc (e + 1) (o + 4 * 2 ^ e) a1 = a2 at fo2 ih2
    have fo3 := fftc_out (e + 1) (o + 6 * 2 ^ e) a2
    have ih3 := fftc_dft (e + 1) (o + 6 * 2 ^ e) a2
    generalize fftc (e + 1) (o + 6 * 2 ^ e) a2 = a3 at fo3 ih3
    have hN : 2 ^ (e + 3) = 4 * 2 ^ (e + 1) := by omega
    rw [hN] at T hp ⊢
    rw [← p1] at T
    refine dft_step (e := e + 1) (a := a) (a0 := a0) (m := 2 ^ (e + 1)) rfl (by omega) T ?_ ?_ ?_ p hp
    · intro p hp
      rw [fo3 _ (by omega), fo2 _ (by omega), ih1 p (by omega), show 2 * 2 ^ (e + 1) = 2 ^ (e + 2) by omega]
    · intro p hp
      rw [fo3 _ (by omega), show o + (2 * 2 ^ (e + 1) + p) = o + 4 * 2 ^ e + p by omega, ih2 p hp]
      refine sum_congr rfl (fun j hj => ?_)
      rw [mem_range] at hj
      rw [fo1 _ (by omega), show o + 4 * 2 ^ e + j = o + (2 * 2 ^ (e + 1) + j) by omega]
    · intro p hp
      rw [show o + (3 * 2 ^ (e + 1) + p) = o + 6 * 2 ^ e + p by omega, ih3 p hp]
      refine sum_congr rfl (fun j hj => ?_)
      rw [mem_range] at hj
      rw [fo2 _ (by omega), fo1 _ (by omega), show o + 6 * 2 ^ e + j = o + (3 * 2 ^ (e + 1) + j) by omega]

end OP.Fft
