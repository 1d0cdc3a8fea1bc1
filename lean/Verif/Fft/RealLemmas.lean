import Verif.Fft.Real
import Verif.Fft.PropsFft
/-! # Lemmas about the real transforms -/
namespace OP.Fft
open OP.Lin

/-- Entry `k` of the array read as complex numbers. -/
noncomputable def pr (a : Nat → ℝ) (k : Nat) : ℂ := ⟨a (2 * k), a (2 * k + 1)⟩

theorem pr_ext {a b : Nat → ℝ} {k : Nat} (h : pr a k = pr b k) : a (2 * k) = b (2 * k) ∧ a (2 * k + 1) = b (2 * k + 1) := by
  have h1 := congrArg Complex.re h
  have h2 := congrArg Complex.im h
  exact ⟨h1, h2⟩

theorem arr_ext {a b : Nat → ℝ} (h : ∀ k, pr a k = pr b k) : a = b := by
  funext q
  rcases Nat.even_or_odd' q with ⟨k, hk | hk⟩ <;> rw [hk]
  · exact (pr_ext (h k)).1
  · exact (pr_ext (h k)).2

theorem asC_pr (m : Nat) (a : Nat → ℝ) (i : Nat) : asC (2 * m) a i = pr a (m + i) := by
  unfold asC pr
  rw [show 2 * (m + i) = 2 * m + 2 * i by ring, Nat.add_assoc (2 * m) (2 * i) 1]

theorem ofC_pr (m : Nat) (c : Nat → ℂ) (a : Nat → ℝ) (k : Nat) : pr (ofC (2 * m) c a) k = if k < m then pr a k else c (k - m) := by
  unfold pr ofC
  by_cases h : k < m
  · rw [if_pos h, if_pos (by omega), if_pos (by omega)]
  · rw [if_neg h, if_neg (show ¬ 2 * k < 2 * m by omega), if_neg (show ¬ 2 * k + 1 < 2 * m by omega), if_pos (show (2 * k - 2 * m) % 2 = 0 by omega),
      if_neg (show ¬ (2 * k + 1 - 2 * m) % 2 = 0 by omega), show (2 * k - 2 * m) / 2 = k - m by omega, show (2 * k + 1 - 2 * m) / 2 = k - m by omega]

/-- What a real butterfly leaves in its two pairs. -/
def IsRf (bf : Nat → Nat → Nat → Nat → ℝ → ℝ → (Nat → ℝ) → (Nat → ℝ)) (c0 c1 : ℂ → ℂ → ℂ → ℂ) : Prop :=
  ∀ (k l : Nat) (wr wi : ℝ) (a : Nat → ℝ), k ≠ l →
    pr (bf (2 * k) (2 * k + 1) (2 * l) (2 * l + 1) wr wi a) k = c0 ⟨wr, wi⟩ (pr a k) (pr a l) ∧
    pr (bf (2 * k) (2 * k + 1) (2 * l) (2 * l + 1) wr wi a) l = c1 ⟨wr, wi⟩ (pr a k) (pr a l) ∧
    ∀ q, q ≠ k → q ≠ l → pr (bf (2 * k) (2 * k + 1) (2 * l) (2 * l + 1) wr wi a) q = pr a q

noncomputable def r0 (_ x y : ℂ) : ℂ := ⟨x.re + x.im, y.re + y.im⟩
noncomputable def r1 (w x y : ℂ) : ℂ := ⟨x.re - x.im, y.re - y.im⟩ * w
noncomputable def v0 (w x y : ℂ) : ℂ := ⟨x.re + (y * (starRingEnd ℂ) w).re, x.re - (y * (starRingEnd ℂ) w).re⟩
noncomputable def v1 (w x y : ℂ) : ℂ := ⟨x.im + (y * (starRingEnd ℂ) w).im, x.im - (y * (starRingEnd ℂ) w).im⟩

theorem R_rf : IsRf R r0 r1 := by
  intro k l wr wi a h
  simp only [R, pr]
  refine ⟨?_, ?_, ?_⟩
  · rw [set_ne _ _ (by omega), set_same, set_same]; rfl
  · rw [set_ne _ _ (by omega), set_ne _ _ (by omega), set_ne _ _ (by omega), set_same, set_ne _ _ (by omega), set_ne _ _ (by omega), set_same]
    apply Complex.ext
    · simp only [r1, Complex.mul_re]
    · simp only [r1, Complex.mul_im]; ring
  · intro q h1 h2
    rw [set_ne _ _ (by omega), set_ne _ _ (by omega), set_ne _ _ (by omega), set_ne _ _ (by omega), set_ne _ _ (by omega), set_ne _ _ (by omega), set_ne _ _ (by omega), set_ne _ _ (by omega)]

theorem V_rf : IsRf V v0 v1 := by
  intro k l wr wi a h
  simp only [V, pr]
  refine ⟨?_, ?_, ?_⟩
  · rw [set_ne _ _ (by omega), set_ne _ _ (by omega), set_ne _ _ (by omega), set_same, set_ne _ _ (by omega), set_ne _ _ (by omega), set_same]
    apply Complex.ext <;> simp only [v0, Complex.mul_re, Complex.conj_re, Complex.conj_im] <;> ring
  · rw [set_ne _ _ (by omega), set_same, set_same]
    apply Complex.ext <;> simp only [v1, Complex.mul_im, Complex.conj_re, Complex.conj_im] <;> ring
  · intro q h1 h2
    rw [set_ne _ _ (by omega), set_ne _ _ (by omega), set_ne _ _ (by omega), set_ne _ _ (by omega), set_ne _ _ (by omega), set_ne _ _ (by omega), set_ne _ _ (by omega), set_ne _ _ (by omega)]

theorem rf_at {bf : Nat → Nat → Nat → Nat → ℝ → ℝ → (Nat → ℝ) → (Nat → ℝ)} {c0 c1 : ℂ → ℂ → ℂ → ℂ} (hb : IsRf bf c0 c1) {m k : Nat} (hm : 0 < m)
    (p0 p1 q0 q1 : Nat) (e0 : p0 = 2 * k) (e1 : p1 = 2 * k + 1) (e2 : q0 = 2 * (m + k)) (e3 : q1 = 2 * (m + k) + 1) (wr wi : ℝ) (a : Nat → ℝ) :
    pr (bf p0 p1 q0 q1 wr wi a) k = c0 ⟨wr, wi⟩ (pr a k) (pr a (m + k)) ∧
    pr (bf p0 p1 q0 q1 wr wi a) (m + k) = c1 ⟨wr, wi⟩ (pr a k) (pr a (m + k)) ∧
    ∀ q, q ≠ k → q ≠ m + k → pr (bf p0 p1 q0 q1 wr wi a) q = pr a q := by
  rw [e0, e1, e2, e3]
  exact hb k (m + k) wr wi a (by omega)

/-- The pass over the halves. -/
theorem halves_at {bf : Nat → Nat → Nat → Nat → ℝ → ℝ → (Nat → ℝ) → (Nat → ℝ)} {c0 c1 : ℂ → ℂ → ℂ → ℂ} (hb : IsRf bf c0 c1) {N n : Nat} (hN : N = 8 * n)
    (hn : 0 < n) (a : Nat → ℝ) :
    (∀ k, k < 2 * n → pr (halves bf N a) k = c0 (root N ^ k) (pr a k) (pr a (2 * n + k)) ∧
      pr (halves bf N a) (2 * n + k) = c1 (root N ^ k) (pr a k) (pr a (2 * n + k))) ∧
    ∀ q, 4 * n ≤ q → pr (halves bf N a) q = pr a q := by
  have hn8 : N / 8 = n := by omega
  unfold halves
  simp only [hn8]
  obtain ⟨A0, A1, A2⟩ := rf_at hb (m := 2 * n) (k := 0) (by omega) 0 1 (4 * n) (4 * n + 1) (by omega) (by omega) (by omega) (by omega) 1 0 a
  generalize bf 0 1 (4 * n) (4 * n + 1) 1 0 a = a1 at A0 A1 A2 ⊢
  obtain ⟨B0, B1, B2⟩ := rf_at hb (m := 2 * n) (k := n) (by omega) (2 * n) (2 * n + 1) (6 * n) (6 * n + 1) (by omega) (by omega) (by omega) (by omega) rtHalf rtHalf a1
  generalize bf (2 * n) (2 * n + 1) (6 * n) (6 * n + 1) rtHalf rtHalf a1 = a2 at B0 B1 B2 ⊢
  have hr0 : root N ^ 0 = ⟨1, 0⟩ := by rw [pow_zero]; rfl
  have hrn : root N ^ n = ⟨rtHalf, rtHalf⟩ := by rw [hN, show 8 * n = n * 8 by ring, root_mul n 8 hn, root_eight]
  have key := loop_rule (f := fun i (s : (Nat → ℝ) × ℝ × ℝ) =>
      (bf (4 * n - 2 * i) (4 * n + 1 - 2 * i) (8 * n - 2 * i) (8 * n + 1 - 2 * i)
        (-(s.2.2 + (s.2.2 * (-2 * -sinT 1 N * -sinT 1 N) + s.2.1 * -sinT 2 N))) (s.2.1 + (s.2.1 * (-2 * -sinT 1 N * -sinT 1 N) - s.2.2 * -sinT 2 N))
        (bf (2 * i) (1 + 2 * i) (4 * n + 2 * i) (4 * n + 1 + 2 * i) (s.2.1 + (s.2.1 * (-2 * -sinT 1 N * -sinT 1 N) - s.2.2 * -sinT 2 N))
          (-(s.2.2 + (s.2.2 * (-2 * -sinT 1 N * -sinT 1 N) + s.2.1 * -sinT 2 N))) s.1),
        s.2.1 + (s.2.1 * (-2 * -sinT 1 N * -sinT 1 N) - s.2.2 * -sinT 2 N), s.2.2 + (s.2.2 * (-2 * -sinT 1 N * -sinT 1 N) + s.2.1 * -sinT 2 N)))
    (fun i (s : (Nat → ℝ) × ℝ × ℝ) => root N ^ (i - 1) = ⟨s.2.1, -s.2.2⟩ ∧
      (∀ k, k < 2 * n → (k < i ∨ k = n ∨ 2 * n - i < k) → pr s.1 k = c0 (root N ^ k) (pr a k) (pr a (2 * n + k)) ∧
        pr s.1 (2 * n + k) = c1 (root N ^ k) (pr a k) (pr a (2 * n + k))) ∧
      (∀ k, k < 2 * n → ¬ (k < i ∨ k = n ∨ 2 * n - i < k) → pr s.1 k = pr a k ∧ pr s.1 (2 * n + k) = pr a (2 * n + k)) ∧
      ∀ q, 4 * n ≤ q → pr s.1 q = pr a q) (show 1 ≤ n from hn) (s := (a2, 1, 0)) (by
      refine ⟨by simpa using hr0, ?_, ?_, ?_⟩
      · intro k hk hc
        show pr a2 k = _ ∧ pr a2 (2 * n + k) = _
        by_cases hkn : k = n
        · subst hkn
          rw [B0, B1, A2 _ (by omega) (by omega), A2 _ (by omega) (by omega), hrn]; exact ⟨rfl, rfl⟩
        · have : k = 0 := by omega
          subst this
          rw [B2 _ (by omega) (by omega), B2 _ (by omega) (by omega), A0, A1, hr0]; exact ⟨rfl, rfl⟩
      · intro k hk hc
        show pr a2 k = _ ∧ pr a2 (2 * n + k) = _
        rw [B2 _ (by omega) (by omega), B2 _ (by omega) (by omega), A2 _ (by omega) (by omega), A2 _ (by omega) (by omega)]; exact ⟨rfl, rfl⟩
      · intro q hq
        show pr a2 q = _
        rw [B2 _ (by omega) (by omega), A2 _ (by omega) (by omega)])
    (by
      intro i s hi1 hin ⟨I1, I2, I3, I4⟩
      have hw : root N ^ i = ⟨s.2.1 + (s.2.1 * (-2 * -sinT 1 N * -sinT 1 N) - s.2.2 * -sinT 2 N),
          -(s.2.2 + (s.2.2 * (-2 * -sinT 1 N * -sinT 1 N) + s.2.1 * -sinT 2 N))⟩ := by
        rw [show i = i - 1 + 1 by omega, pow_succ, I1, root_step N (by omega)]
        apply Complex.ext <;> simp only [Complex.mul_re, Complex.mul_im] <;> ring
      have hw2 := twist hN hin hw
      generalize s.2.1 + (s.2.1 * (-2 * -sinT 1 N * -sinT 1 N) - s.2.2 * -sinT 2 N) = wr at hw hw2 ⊢
      generalize s.2.2 + (s.2.2 * (-2 * -sinT 1 N * -sinT 1 N) + s.2.1 * -sinT 2 N) = wi at hw hw2 ⊢
      obtain ⟨C0, C1, C2⟩ := rf_at hb (m := 2 * n) (k := i) (by omega) (2 * i) (1 + 2 * i) (4 * n + 2 * i) (4 * n + 1 + 2 * i)
        (by omega) (by omega) (by omega) (by omega) wr (-wi) s.1
      generalize bf (2 * i) (1 + 2 * i) (4 * n + 2 * i) (4 * n + 1 + 2 * i) wr (-wi) s.1 = b1 at C0 C1 C2 ⊢
      obtain ⟨D0, D1, D2⟩ := rf_at hb (m := 2 * n) (k := 2 * n - i) (by omega) (4 * n - 2 * i) (4 * n + 1 - 2 * i) (8 * n - 2 * i) (8 * n + 1 - 2 * i)
        (by omega) (by omega) (by omega) (by omega) (-wi) wr b1
      generalize bf (4 * n - 2 * i) (4 * n + 1 - 2 * i) (8 * n - 2 * i) (8 * n + 1 - 2 * i) (-wi) wr b1 = b2 at D0 D1 D2 ⊢
      refine ⟨by simpa using hw, ?_, ?_, ?_⟩
      · intro k hk hc
        show pr b2 k = _ ∧ pr b2 (2 * n + k) = _
        by_cases h2 : k = 2 * n - i
        · obtain ⟨u1, u2⟩ := I3 (2 * n - i) (by omega) (by omega)
          rw [h2, D0, D1, hw2, C2 _ (by omega) (by omega), C2 _ (by omega) (by omega), u1, u2]; exact ⟨rfl, rfl⟩
        · rw [D2 _ (by omega) (by omega), D2 _ (by omega) (by omega)]
          by_cases h1 : k = i
          · obtain ⟨u1, u2⟩ := I3 i (by omega) (by omega)
            rw [h1, C0, C1, hw, u1, u2]; exact ⟨rfl, rfl⟩
          · rw [C2 _ (by omega) (by omega), C2 _ (by omega) (by omega)]
            exact I2 k hk (by omega)
      · intro k hk hc
        show pr b2 k = _ ∧ pr b2 (2 * n + k) = _
        rw [D2 _ (by omega) (by omega), D2 _ (by omega) (by omega), C2 _ (by omega) (by omega), C2 _ (by omega) (by omega)]
        exact I3 k hk (by omega)
      · intro q hq
        show pr b2 q = _
        rw [D2 _ (by omega) (by omega), C2 _ (by omega) (by omega), I4 q hq])
  obtain ⟨_, k2, _, k4⟩ := key
  exact ⟨fun k hk => k2 k hk (by omega), k4⟩

theorem fftr2_at (a : Nat → ℝ) : pr (fftr2 a) 0 = ⟨a 0 + a 1, a 0 - a 1⟩ ∧ ∀ q, 1 ≤ q → pr (fftr2 a) q = pr a q := by
  unfold fftr2 pr
  refine ⟨?_, ?_⟩
  · simp only; rw [set_ne _ _ (by omega), set_same, set_same]
  · intro q hq; simp only
    rw [set_ne _ _ (by omega), set_ne _ _ (by omega), set_ne _ _ (by omega), set_ne _ _ (by omega)]

theorem fftr_out : ∀ (e : Nat) (a : Nat → ℝ) (q : Nat), 1 ≤ q → 2 ^ e ≤ 2 * q → pr (fftr e a) q = pr a q
  | 0, _, _, _, _ => by rw [fftr]
  | 1, a, q, h, _ => by rw [fftr]; exact (fftr2_at a).2 q h
  | 2, a, q, h, h2 => by
    obtain ⟨_, _, A2⟩ := rf_at R_rf (m := 1) (k := 0) (by omega) 0 1 2 3 rfl rfl rfl rfl 1 0 a
    rw [fftr, (fftr2_at _).2 q h, A2 _ (by omega) (by omega)]
  | e + 3, a, q, h, h2 => by
    obtain ⟨p3, p2, p1, p0⟩ := pow3 e
    rw [fftr]
    rw [show 2 ^ (e + 3) / 2 = 2 * (2 * 2 ^ e) by omega, ofC_pr, if_neg (by omega), fftc_out (e + 1) 0 _ _ (by omega), asC_pr,
      fftr_out (e + 2) _ _ (by omega) (by omega), (halves_at R_rf p3 p0 a).2 _ (by omega)]
    congr 1; omega

theorem fftrUn_out : ∀ (e : Nat) (a : Nat → ℝ) (q : Nat), 1 ≤ q → 2 ^ e ≤ 2 * q → pr (fftrUn e a) q = pr a q
  | 0, _, _, _, _ => by rw [fftrUn]
  | 1, a, q, h, _ => by rw [fftrUn]; exact (fftr2_at a).2 q h
  | 2, a, q, h, h2 => by
    obtain ⟨_, _, A2⟩ := rf_at V_rf (m := 1) (k := 0) (by omega) 0 1 2 3 rfl rfl rfl rfl 1 0 (fftr2 a)
    rw [fftrUn, A2 _ (by omega) (by omega), (fftr2_at _).2 q h]
  | e + 3, a, q, h, h2 => by
    obtain ⟨p3, p2, p1, p0⟩ := pow3 e
    rw [fftrUn]
    rw [(halves_at V_rf p3 p0 _).2 _ (by omega), fftrUn_out (e + 2) _ _ (by omega) (by omega), show 2 ^ (e + 3) / 2 = 2 * (2 * 2 ^ e) by omega, ofC_pr,
      if_neg (by omega), fftcUn_out (e + 1) 0 _ _ (by omega), asC_pr]
    congr 1; omega

/-! ## Undoing a transform -/

theorem v0_r (w x y x' y' : ℂ) (hw : w * (starRingEnd ℂ) w = 1) (S : ℝ) (h0 : x' = S * r0 w x y) (h1 : y' = S * r1 w x y) : v0 w x' y' = ((2 * S : ℝ) : ℂ) * x := by
  have k : y' * (starRingEnd ℂ) w = S * ⟨x.re - x.im, y.re - y.im⟩ := by
    rw [h1, r1]; linear_combination (S * (⟨x.re - x.im, y.re - y.im⟩ : ℂ)) * hw
  rw [v0, k, h0, r0]
  apply Complex.ext <;> simp <;> ring

theorem v1_r (w x y x' y' : ℂ) (hw : w * (starRingEnd ℂ) w = 1) (S : ℝ) (h0 : x' = S * r0 w x y) (h1 : y' = S * r1 w x y) : v1 w x' y' = ((2 * S : ℝ) : ℂ) * y := by
  have k : y' * (starRingEnd ℂ) w = S * ⟨x.re - x.im, y.re - y.im⟩ := by
    rw [h1, r1]; linear_combination (S * (⟨x.re - x.im, y.re - y.im⟩ : ℂ)) * hw
  rw [v1, k, h0, r0]
  apply Complex.ext <;> simp <;> ring

theorem fftc_smul (e o : Nat) (s : ℂ) (a : Nat → ℂ) (i : Nat) (hi : i < 2 ^ e) : fftc e o (fun q => s * a q) (o + i) = s * fftc e o a (o + i) := by
  rw [fftc_dft e o _ i hi, fftc_dft e o _ i hi, Finset.mul_sum]
  exact Finset.sum_congr rfl (fun j _ => by ring)

theorem fftrUn_fftr : ∀ (e : Nat) (a b : Nat → ℝ) (S : ℝ), 1 ≤ e → b 0 = S * fftr e a 0 → b 1 = S * fftr e a 1 →
    (∀ k, 1 ≤ k → 2 * k < 2 ^ e → pr b k = ((2 * S : ℝ) : ℂ) * pr (fftr e a) k) →
    ∀ k, 2 * k < 2 ^ e → pr (fftrUn e b) k = ((S * 2 ^ e : ℝ) : ℂ) * pr a k
  | 0, a, b, S, h, _, _, _ => by omega
  | 1, a, b, S, _, h0, h1, _ => by
    intro k hk
    have : k = 0 := by omega
    subst this
    obtain ⟨A0, _⟩ := fftr2_at a
    obtain ⟨B0, _⟩ := fftr2_at b
    rw [fftr] at h0 h1
    have e0 : fftr2 a 0 = a 0 + a 1 := congrArg Complex.re A0
    have e1 : fftr2 a 1 = a 0 - a 1 := congrArg Complex.im A0
    rw [fftrUn, B0, h0, h1, e0, e1]
    apply Complex.ext <;> simp [pr] <;> ring
  | 2, a, b, S, _, h0, h1, h2 => by
    intro k hk
    obtain ⟨A0, A1, _⟩ := rf_at R_rf (m := 1) (k := 0) (by omega) 0 1 2 3 rfl rfl rfl rfl 1 0 a
    rw [fftr] at h0 h1 h2
    generalize R 0 1 2 3 1 0 a = a0 at *
    obtain ⟨F0, F1⟩ := fftr2_at a0
    obtain ⟨B0, B1⟩ := fftr2_at b
    have e0 : fftr2 a0 0 = a0 0 + a0 1 := congrArg Complex.re F0
    have e1 : fftr2 a0 1 = a0 0 - a0 1 := congrArg Complex.im F0
    obtain ⟨V0, V1, _⟩ := rf_at V_rf (m := 1) (k := 0) (by omega) 0 1 2 3 rfl rfl rfl rfl 1 0 (fftr2 b)
    have hw : (⟨1, 0⟩ : ℂ) * (starRingEnd ℂ) (⟨1, 0⟩ : ℂ) = 1 := by apply Complex.ext <;> simp
    have g0 : pr (fftr2 b) 0 = ((2 * S : ℝ) : ℂ) * r0 ⟨1, 0⟩ (pr a 0) (pr a (1 + 0)) := by
      rw [B0, h0, h1, e0, e1, ← A0]
      apply Complex.ext <;> simp [pr] <;> ring
    have g1 : pr (fftr2 b) (1 + 0) = ((2 * S : ℝ) : ℂ) * r1 ⟨1, 0⟩ (pr a 0) (pr a (1 + 0)) := by
      rw [B1 _ (by omega), h2 _ (by omega) (by omega), F1 _ (by omega), A1]
    rw [fftrUn]
    have : k = 0 ∨ k = 1 := by omega
    rcases this with rfl | rfl
    · rw [V0, v0_r _ _ _ _ _ hw _ g0 g1]; congr 2; norm_num; ring
    · have := v1_r _ _ _ _ _ hw _ g0 g1
      rw [← V1] at this
      refine this.trans ?_
      congr 2; norm_num; ring
  | e + 3, a, b, S, _, h0, h1, h2 => by
    obtain ⟨p3, p2, p1, p0⟩ := pow3 e
    obtain ⟨T, _⟩ := halves_at R_rf p3 p0 a
    have hh : 2 ^ (e + 3) / 2 = 2 * (2 * 2 ^ e) := by omega
    simp only [fftr, hh] at h0 h1 h2
    generalize halves R (2 ^ (e + 3)) a = a0 at *
    have fo1 := fftr_out (e + 2) a0
    have ih := fftrUn_fftr (e + 2) a0
    generalize fftr (e + 2) a0 = a1 at *
    have sm := fftc_smul (e + 1) 0 ((2 * S : ℝ) : ℂ) (asC (2 * (2 * 2 ^ e)) a1)
    generalize fftc (e + 1) 0 (asC (2 * (2 * 2 ^ e)) a1) = cc at *
    have lo : ∀ k, k < 2 * 2 ^ e → pr (ofC (2 * (2 * 2 ^ e)) cc a1) k = pr a1 k := fun k hk => by rw [ofC_pr, if_pos hk]
    have z := lo 0 (by omega)
    have z0 : ofC (2 * (2 * 2 ^ e)) cc a1 0 = a1 0 := congrArg Complex.re z
    have z1 : ofC (2 * (2 * 2 ^ e)) cc a1 1 = a1 1 := congrArg Complex.im z
    rw [z0] at h0
    rw [z1] at h1
    intro k hk
    simp only [fftrUn, hh]
    have cu := fftcUn_fftc (e + 1) 0 (fun q => ((2 * S : ℝ) : ℂ) * asC (2 * (2 * 2 ^ e)) a1 q) (asC (2 * (2 * 2 ^ e)) b) (by
      intro i hi
      rw [sm i hi, Nat.zero_add, asC_pr, h2 _ (by omega) (by omega), ofC_pr, if_neg (by omega), Nat.add_sub_cancel_left])
    generalize fftcUn (e + 1) 0 (asC (2 * (2 * 2 ^ e)) b) = dd at *
    have lo2 : ∀ k, k < 2 * 2 ^ e → pr (ofC (2 * (2 * 2 ^ e)) dd b) k = pr b k := fun k hk => by rw [ofC_pr, if_pos hk]
    have hi2 : ∀ k, k < 2 * 2 ^ e → pr (ofC (2 * (2 * 2 ^ e)) dd b) (2 * 2 ^ e + k) = ((S * 2 ^ (e + 2) : ℝ) : ℂ) * pr a0 (2 * 2 ^ e + k) := by
      intro k hk
      have := cu k (by omega)
      rw [Nat.zero_add, asC_pr, fo1 _ (by omega) (by omega)] at this
      rw [ofC_pr, if_neg (by omega), Nat.add_sub_cancel_left, this]
      push_cast; ring
    have w := lo2 0 (by omega)
    have w0 : ofC (2 * (2 * 2 ^ e)) dd b 0 = b 0 := congrArg Complex.re w
    have w1 : ofC (2 * (2 * 2 ^ e)) dd b 1 = b 1 := congrArg Complex.im w
    generalize ofC (2 * (2 * 2 ^ e)) dd b = b1 at *
    have uo := fftrUn_out (e + 2) b1
    have ih := ih b1 S (by omega) (by rw [w0, h0]) (by rw [w1, h1]) (fun k h1 hk => by
      rw [lo2 k (by omega), h2 k h1 (by omega), lo k (by omega)])
    generalize fftrUn (e + 2) b1 = b2 at *
    obtain ⟨U, _⟩ := halves_at V_rf p3 p0 b2
    have key : ∀ k, k < 2 * 2 ^ e → pr b2 k = ((S * 2 ^ (e + 2) : ℝ) : ℂ) * r0 (root (2 ^ (e + 3)) ^ k) (pr a k) (pr a (2 * 2 ^ e + k)) ∧
        pr b2 (2 * 2 ^ e + k) = ((S * 2 ^ (e + 2) : ℝ) : ℂ) * r1 (root (2 ^ (e + 3)) ^ k) (pr a k) (pr a (2 * 2 ^ e + k)) := by
      intro k hk
      rw [← (T k hk).1, ← (T k hk).2, ih k (by omega), uo _ (by omega) (by omega), hi2 k hk]
      exact ⟨rfl, rfl⟩
    have hS : S * 2 ^ (e + 3) = 2 * (S * 2 ^ (e + 2)) := by ring
    rw [hS]
    by_cases c : k < 2 * 2 ^ e
    · rw [(U k c).1, v0_r _ _ _ _ _ (root_unit _ _) _ (key k c).1 (key k c).2]
    · obtain ⟨l, rfl⟩ : ∃ l, k = 2 * 2 ^ e + l := ⟨k - 2 * 2 ^ e, by omega⟩
      have c : l < 2 * 2 ^ e := by omega
      rw [(U l c).2, v1_r _ _ _ _ _ (root_unit _ _) _ (key l c).1 (key l c).2]

/-! ## The coefficients -/

/-- The real data, in order; the array holds entry `j` of the first half beside entry `j` of the second. -/
noncomputable def dataOf (N : Nat) (a : Nat → ℝ) (j : Nat) : ℝ := if j < N / 2 then a (2 * j) else a (2 * (j - N / 2) + 1)

open Finset in
theorem coef_even (m : Nat) (hm : 0 < m) (x : Nat → ℂ) (f : Nat) : ∑ j ∈ range (4 * m), x j * root (4 * m) ^ (j * (2 * f)) =
    ∑ j ∈ range (2 * m), (x j + x (2 * m + j)) * root (2 * m) ^ (j * f) := by
  have hN : root (4 * m) ^ (4 * m) = 1 := root_pow_self (by omega)
  have hr2 : root (2 * m) = root (4 * m) ^ 2 := by rw [← root_mul 2 (2 * m) (by omega)]; congr 2; ring
  have h4 : range (4 * m) = range (2 * (2 * m)) := by congr 1; ring
  rw [h4, sum_halves]
  refine sum_congr rfl (fun k hk => ?_)
  rw [hr2, ← pow_mul, show (2 * m + k) * (2 * f) = 4 * m * f + k * (2 * f) by ring, pow_add, pow_mul _ (4 * m), hN, one_pow,
    show 2 * (k * f) = k * (2 * f) by ring]
  ring

open Finset in
theorem coef_odd (m : Nat) (hm : 0 < m) (x : Nat → ℂ) (f : Nat) : ∑ j ∈ range (4 * m), x j * root (4 * m) ^ (j * (4 * f + 1)) =
    ∑ k ∈ range m, (x k - x (2 * m + k) + Complex.I * (x (m + k) - x (3 * m + k))) * root (4 * m) ^ k * root m ^ (k * f) := by
  have hN : root (4 * m) ^ (4 * m) = 1 := root_pow_self (by omega)
  have hr4 : root m = root (4 * m) ^ 4 := (root_mul 4 m (by omega)).symm
  have hI := root_quarter hm
  rw [hr4, sum_quarters]
  refine sum_congr rfl (fun k hk => ?_)
  have w : ∀ c, root (4 * m) ^ ((c * m + k) * (4 * f + 1)) = Complex.I ^ c * root (4 * m) ^ (k * (4 * f + 1)) := by
    intro c
    rw [show (c * m + k) * (4 * f + 1) = 4 * m * (c * f) + (m * c + k * (4 * f + 1)) by ring, pow_add, pow_mul, hN, one_pow, one_mul, pow_add, pow_mul, hI]
  have w1 := w 1
  rw [Nat.one_mul] at w1
  rw [w1, w 2, w 3, ← pow_mul, show k * (4 * f + 1) = k + 4 * (k * f) by ring, pow_add, pow_one, Complex.I_sq,
    show Complex.I ^ 3 = -Complex.I by rw [pow_succ, Complex.I_sq]; ring]
  ring

/-- The frequency whose coefficient the real transform leaves in pair `k`, for `k > 0`. -/
def rfreq : Nat → Nat → Nat
  | 0, _ => 0
  | 1, _ => 0
  | e + 2, k => if k < 2 ^ e then 2 * rfreq (e + 1) k else 4 * freq e (k - 2 ^ e) + 1

open Finset in
/-- What one level of the recursion does to the coefficients. -/
theorem rdft_step {e : Nat} {a a0 b : Nat → ℝ} {m : Nat} (hme : m = 2 ^ e) (hm : 0 < m)
    (T : ∀ k, k < m → pr a0 k = r0 (root (4 * m) ^ k) (pr a k) (pr a (m + k)) ∧ pr a0 (m + k) = r1 (root (4 * m) ^ k) (pr a k) (pr a (m + k)))
    (h0 : (b 0 : ℂ) = ∑ j ∈ range (2 * m), (dataOf (2 * m) a0 j : ℂ) * root (2 * m) ^ (j * 0))
    (h1 : (b 1 : ℂ) = ∑ j ∈ range (2 * m), (dataOf (2 * m) a0 j : ℂ) * root (2 * m) ^ (j * m))
    (h2 : ∀ k, 1 ≤ k → k < m → pr b k = ∑ j ∈ range (2 * m), (dataOf (2 * m) a0 j : ℂ) * root (2 * m) ^ (j * rfreq (e + 1) k))
    (h3 : ∀ k, k < m → pr b (m + k) = ∑ j ∈ range m, pr a0 (m + j) * root m ^ (j * freq e k)) :
    (b 0 : ℂ) = ∑ j ∈ range (4 * m), (dataOf (4 * m) a j : ℂ) * root (4 * m) ^ (j * 0) ∧
    (b 1 : ℂ) = ∑ j ∈ range (4 * m), (dataOf (4 * m) a j : ℂ) * root (4 * m) ^ (j * (2 * m)) ∧
    ∀ k, 1 ≤ k → k < 2 * m → pr b k = ∑ j ∈ range (4 * m), (dataOf (4 * m) a j : ℂ) * root (4 * m) ^ (j * rfreq (e + 2) k) := by
  have D : ∀ j, j < 2 * m → dataOf (2 * m) a0 j = dataOf (4 * m) a j + dataOf (4 * m) a (2 * m + j) := by
    intro j hj
    have q1 : 2 * m / 2 = m := by omega
    have q2 : 4 * m / 2 = 2 * m := by omega
    unfold dataOf
    rw [q1, q2, if_pos hj, if_neg (show ¬ 2 * m + j < 2 * m by omega), Nat.add_sub_cancel_left]
    by_cases c : j < m
    · rw [if_pos c]
      exact congrArg Complex.re (T j c).1
    · rw [if_neg c]
      have := congrArg Complex.im (T (j - m) (by omega)).1
      rw [show m + (j - m) = j by omega] at this
      exact this
  have ev : ∀ f, ∑ j ∈ range (2 * m), (dataOf (2 * m) a0 j : ℂ) * root (2 * m) ^ (j * f) =
      ∑ j ∈ range (4 * m), (dataOf (4 * m) a j : ℂ) * root (4 * m) ^ (j * (2 * f)) := by
    intro f
    rw [coef_even m hm]
    refine sum_congr rfl (fun j hj => ?_)
    rw [D j (mem_range.1 hj)]; push_cast; rfl
  refine ⟨?_, ?_, ?_⟩
  · rw [h0, ev]
  · rw [h1, ev]
  · intro k hk1 hk2
    rw [rfreq, ← hme]
    by_cases c : k < m
    · rw [if_pos c, h2 k hk1 c, ev]
    · rw [if_neg c]
      obtain ⟨l, rfl⟩ : ∃ l, k = m + l := ⟨k - m, by omega⟩
      rw [h3 l (by omega), Nat.add_sub_cancel_left, coef_odd m hm]
      refine sum_congr rfl (fun j hj => ?_)
      rw [mem_range] at hj
      rw [(T j hj).2, r1]
      congr 2
      have q2 : 4 * m / 2 = 2 * m := by omega
      unfold dataOf pr
      rw [q2, if_pos (show j < 2 * m by omega), if_neg (show ¬ 2 * m + j < 2 * m by omega), if_pos (show m + j < 2 * m by omega),
        if_neg (show ¬ 3 * m + j < 2 * m by omega), Nat.add_sub_cancel_left, show 3 * m + j - 2 * m = m + j by omega]
      apply Complex.ext <;> simp

open Finset in
theorem fftr_dft : ∀ (e : Nat) (a : Nat → ℝ), 1 ≤ e →
    (fftr e a 0 : ℂ) = ∑ j ∈ range (2 ^ e), (dataOf (2 ^ e) a j : ℂ) * root (2 ^ e) ^ (j * 0) ∧
    (fftr e a 1 : ℂ) = ∑ j ∈ range (2 ^ e), (dataOf (2 ^ e) a j : ℂ) * root (2 ^ e) ^ (j * (2 ^ e / 2)) ∧
    ∀ k, 1 ≤ k → 2 * k < 2 ^ e → pr (fftr e a) k = ∑ j ∈ range (2 ^ e), (dataOf (2 ^ e) a j : ℂ) * root (2 ^ e) ^ (j * rfreq e k)
  | 0, _, h => by omega
  | 1, a, _ => by
    obtain ⟨F0, _⟩ := fftr2_at a
    have e0 : fftr2 a 0 = a 0 + a 1 := congrArg Complex.re F0
    have e1 : fftr2 a 1 = a 0 - a 1 := congrArg Complex.im F0
    rw [fftr, e0, e1]
    refine ⟨?_, ?_, fun k _ _ => by omega⟩
    · simp [sum_range_succ, dataOf]
    · simp [sum_range_succ, dataOf, root_two]; ring
  | 2, a, _ => by
    obtain ⟨A0, A1, _⟩ := rf_at R_rf (m := 1) (k := 0) (by omega) 0 1 2 3 rfl rfl rfl rfl 1 0 a
    rw [fftr]
    generalize R 0 1 2 3 1 0 a = a0 at *
    obtain ⟨F0, F1⟩ := fftr2_at a0
    have e0 : fftr2 a0 0 = a0 0 + a0 1 := congrArg Complex.re F0
    have e1 : fftr2 a0 1 = a0 0 - a0 1 := congrArg Complex.im F0
    have := rdft_step (e := 0) (a := a) (a0 := a0) (b := fftr2 a0) (m := 1) rfl (by omega) (by
        intro k hk
        have : k = 0 := by omega
        subst this
        rw [pow_zero]; exact ⟨A0, A1⟩) (by
        rw [e0]; simp [sum_range_succ, dataOf]) (by
        rw [e1]; simp [sum_range_succ, dataOf, root_two]; ring) (by
        intro k h1 h2; omega) (by
        intro k hk
        have : k = 0 := by omega
        subst this
        rw [F1 _ (by omega)]; simp [root_one])
    exact ⟨this.1, this.2.1, fun k h1 h2 => this.2.2 k h1 (by omega)⟩
  | e + 3, a, _ => by
    obtain ⟨p3, p2, p1, p0⟩ := pow3 e
    obtain ⟨T, _⟩ := halves_at R_rf p3 p0 a
    have hh : 2 ^ (e + 3) / 2 = 2 * (2 * 2 ^ e) := by omega
    simp only [fftr, hh]
    generalize halves R (2 ^ (e + 3)) a = a0 at *
    have fo1 := fftr_out (e + 2) a0
    obtain ⟨i0, i1, i2⟩ := fftr_dft (e + 2) a0 (by omega)
    generalize fftr (e + 2) a0 = a1 at *
    have cd := fftc_dft (e + 1) 0 (asC (2 * (2 * 2 ^ e)) a1)
    generalize fftc (e + 1) 0 (asC (2 * (2 * 2 ^ e)) a1) = cc at *
    have lo : ∀ k, k < 2 * 2 ^ e → pr (ofC (2 * (2 * 2 ^ e)) cc a1) k = pr a1 k := fun k hk => by rw [ofC_pr, if_pos hk]
    have hi : ∀ k, k < 2 ^ (e + 1) → pr (ofC (2 * (2 * 2 ^ e)) cc a1) (2 ^ (e + 1) + k) = cc k := fun k hk => by
      rw [ofC_pr, if_neg (by omega), show 2 ^ (e + 1) + k - 2 * 2 ^ e = k by omega]
    have z := lo 0 (by omega)
    have z0 : ofC (2 * (2 * 2 ^ e)) cc a1 0 = a1 0 := congrArg Complex.re z
    have z1 : ofC (2 * (2 * 2 ^ e)) cc a1 1 = a1 1 := congrArg Complex.im z
    have hN : 2 ^ (e + 3) = 4 * 2 ^ (e + 1) := by omega
    have hN2 : 2 ^ (e + 2) = 2 * 2 ^ (e + 1) := by omega
    rw [hN] at T ⊢
    rw [← p1] at T
    rw [hN2] at i0 i1 i2
    rw [show 2 * 2 ^ (e + 1) / 2 = 2 ^ (e + 1) by omega] at i1
    have := rdft_step (e := e + 1) (a := a) (a0 := a0) (b := ofC (2 * (2 * 2 ^ e)) cc a1) (m := 2 ^ (e + 1)) rfl (by omega) T (by rw [z0, i0]) (by rw [z1, i1])
      (fun k h1 hk => by rw [lo k (by omega), i2 k h1 (by omega)]) (by
        intro k hk
        have c := cd k hk
        rw [Nat.zero_add] at c
        rw [hi k hk, c]
        refine sum_congr rfl (fun j hj => ?_)
        rw [mem_range] at hj
        rw [Nat.zero_add, asC_pr, fo1 _ (by omega) (by omega), p1])
    refine ⟨this.1, ?_, fun k h1 hk => this.2.2 k h1 (by omega)⟩
    rw [this.2.1, show 2 * (2 * 2 ^ e) = 2 * 2 ^ (e + 1) by omega]

end OP.Fft
