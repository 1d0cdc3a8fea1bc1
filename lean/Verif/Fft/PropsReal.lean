import Verif.Fft.RealLemmas
/-!
# Property C67: the real transforms

The real transforms work on 2^e doubles, e ≥ 1, in which the number that the caller calls `x(j)` lies at address 2j and `x(j+N/2)` at address 2j+1
(`dataOf`).
-/
namespace OP.Fft
open OP.Lin Finset

/-! ## Helpers -/

theorem fftrScale_at (N : Nat) (hN : 2 ≤ N) (a : Nat → ℝ) : fftrScale N a 0 = a 0 / N ∧ fftrScale N a 1 = a 1 / N ∧
    (∀ i, 2 ≤ i → i < N → fftrScale N a i = a i * (2 / N)) ∧ ∀ i, N ≤ i → fftrScale N a i = a i := by
  unfold fftrScale
  have key := loop_rule (f := fun i (a : Nat → ℝ) => set a i (a i * (2 / (N : ℝ))))
    (fun k (s : Nat → ℝ) => s 0 = a 0 / N ∧ s 1 = a 1 / N ∧ ∀ i, 2 ≤ i → s i = if i < k then a i * (2 / N) else a i) hN
    (s := set (set a 0 (a 0 / N)) 1 (set a 0 (a 0 / N) 1 / N)) (by
      refine ⟨?_, ?_, fun i hi => ?_⟩
      · rw [set_ne _ _ (by omega), set_same]
      · rw [set_same, set_ne _ _ (by omega)]
      · rw [set_ne _ _ (by omega), set_ne _ _ (by omega), if_neg (by omega)]) (by
      intro k s h1 hk ⟨s0, s1, s2⟩
      refine ⟨?_, ?_, fun i hi => ?_⟩
      · rw [set_ne _ _ (by omega), s0]
      · rw [set_ne _ _ (by omega), s1]
      · by_cases hik : i = k
        · subst hik
          rw [set_same, s2 i hi, if_neg (by omega), if_pos (by omega)]
        · rw [set_ne _ _ hik, s2 i hi]
          by_cases h1 : i < k
          · rw [if_pos h1, if_pos (by omega)]
          · rw [if_neg h1, if_neg (by omega)])
  obtain ⟨k0, k1, k2⟩ := key
  exact ⟨k0, k1, fun i h1 h2 => by rw [k2 i h1, if_pos h2], fun i h => by rw [k2 i (by omega), if_neg (by omega)]⟩

theorem fftrMul_at (m : Nat) (hm : 1 ≤ m) (a b : Nat → ℝ) : fftrMul (2 * m) a b 0 = a 0 * b 0 ∧ fftrMul (2 * m) a b 1 = a 1 * b 1 ∧
    (∀ k, 1 ≤ k → k < m → pr (fftrMul (2 * m) a b) k = pr a k * pr b k) ∧ ∀ k, m ≤ k → pr (fftrMul (2 * m) a b) k = pr a k := by
  unfold fftrMul
  by_cases h : 2 * m = 2
  · simp only [if_pos h]
    refine ⟨?_, ?_, fun k _ _ => by omega, fun k hk => ?_⟩
    · rw [set_ne _ _ (by omega), set_same]
    · rw [set_same, set_ne _ _ (by omega)]
    · unfold pr; rw [set_ne _ _ (by omega), set_ne _ _ (by omega), set_ne _ _ (by omega), set_ne _ _ (by omega)]
  · simp only [if_neg h]
    obtain ⟨m1, m2⟩ := fftcMul_at m (asC 0 a) (asC 0 b)
    have hp := ofC_pr 0 (fftcMul m (asC 0 a) (asC 0 b)) a
    have ha := asC_pr 0 a
    have hb := asC_pr 0 b
    simp only [Nat.mul_zero, Nat.zero_add] at hp ha hb
    rw [show 2 * m / 2 = m by omega]
    have hs : ∀ k (t0 t1 : ℝ), 1 ≤ k → pr (set (set (ofC 0 (fftcMul m (asC 0 a) (asC 0 b)) a) 0 t0) 1 t1) k = fftcMul m (asC 0 a) (asC 0 b) k := by
      intro k t0 t1 hk
      have := hp k
      rw [if_neg (by omega), Nat.sub_zero] at this
      rw [← this]
      unfold pr; rw [set_ne _ _ (by omega), set_ne _ _ (by omega), set_ne _ _ (by omega), set_ne _ _ (by omega)]
    refine ⟨?_, ?_, fun k h1 h2 => ?_, fun k hk => ?_⟩
    · rw [set_ne _ _ (by omega), set_same]
    · rw [set_same]
    · rw [hs k _ _ h1, m1 k h2, ha, hb]
    · rw [hs k _ _ (by omega), m2 k hk, ha]

theorem rfreq_facts : ∀ (e : Nat), (∀ k, 1 ≤ k → 2 * k < 2 ^ e → 0 < rfreq e k ∧ rfreq e k < 2 ^ e ∧ 2 * rfreq e k ≠ 2 ^ e) ∧
    (∀ k l, 1 ≤ k → 2 * k < 2 ^ e → 1 ≤ l → 2 * l < 2 ^ e → (rfreq e k = rfreq e l → k = l) ∧ rfreq e k + rfreq e l ≠ 2 ^ e)
  | 0 => ⟨fun k _ h => by omega, fun k l _ h => by omega⟩
  | 1 => ⟨fun k _ h => by omega, fun k l _ h => by omega⟩
  | e + 2 => by
    obtain ⟨i1, i2⟩ := rfreq_facts (e + 1)
    have q1 : 2 ^ (e + 2) = 4 * 2 ^ e := by ring
    have q2 : 2 ^ (e + 1) = 2 * 2 ^ e := by ring
    have q0 : 0 < 2 ^ e := Nat.two_pow_pos e
    have P : ∀ k, 1 ≤ k → 2 * k < 2 ^ (e + 2) → (k < 2 ^ e ∧ rfreq (e + 2) k = 2 * rfreq (e + 1) k) ∨
        (2 ^ e ≤ k ∧ rfreq (e + 2) k = 4 * freq e (k - 2 ^ e) + 1 ∧ freq e (k - 2 ^ e) < 2 ^ e) := by
      intro k h1 h2
      by_cases c : k < 2 ^ e
      · exact Or.inl ⟨c, by rw [rfreq, if_pos c]⟩
      · exact Or.inr ⟨by omega, by rw [rfreq, if_neg c], freq_lt e _ (by omega)⟩
    refine ⟨fun k h1 h2 => ?_, fun k l h1 h2 h3 h4 => ?_⟩
    · rcases P k h1 h2 with ⟨c, r⟩ | ⟨c, r, hf⟩
      · have := i1 k h1 (by omega); omega
      · omega
    · rcases P k h1 h2 with ⟨c, r⟩ | ⟨c, r, hf⟩ <;> rcases P l h3 h4 with ⟨d, s⟩ | ⟨d, s, hg⟩
      · have := i2 k l h1 (by omega) h3 (by omega)
        exact ⟨fun h => this.1 (by omega), by omega⟩
      · exact ⟨fun h => by omega, by omega⟩
      · exact ⟨fun h => by omega, by omega⟩
      · refine ⟨fun h => ?_, by omega⟩
        have := freq_inj e (k - 2 ^ e) (l - 2 ^ e) (by omega) (by omega) (by omega)
        omega

theorem even_pow (e : Nat) (he : 1 ≤ e) : ∃ m, 2 ^ e = 2 * m ∧ 1 ≤ m := by
  obtain ⟨d, rfl⟩ : ∃ d, e = d + 1 := ⟨e - 1, by omega⟩
  exact ⟨2 ^ d, by ring, Nat.two_pow_pos d⟩

/-- Scaling, then undoing, takes the transform of `a` to `a`, whatever array holds the transform. -/
theorem un_scale (e : Nat) (he : 1 ≤ e) (a b : Nat → ℝ) (h0 : b 0 = fftr e a 0) (h1 : b 1 = fftr e a 1)
    (h2 : ∀ k, 1 ≤ k → 2 * k < 2 ^ e → pr b k = pr (fftr e a) k) (k : Nat) (hk : 2 * k < 2 ^ e) : pr (fftrUn e (fftrScale (2 ^ e) b)) k = pr a k := by
  obtain ⟨m, hm, hm1⟩ := even_pow e he
  obtain ⟨s0, s1, s2, _⟩ := fftrScale_at (2 ^ e) (by omega) b
  have hp : ((2 : ℝ) ^ e) ≠ 0 := by positivity
  rw [fftrUn_fftr e a _ (1 / (2 ^ e : ℕ)) he (by rw [s0, h0]; ring) (by rw [s1, h1]; ring) (by
    intro k h1 hk
    rw [← h2 k h1 hk]
    have q1 := s2 (2 * k) (by omega) (by omega)
    have q2 := s2 (2 * k + 1) (by omega) (by omega)
    unfold pr
    rw [q1, q2]
    generalize ((2 ^ e : ℕ) : ℝ) = x
    apply Complex.ext
    · rw [Complex.re_ofReal_mul]; ring
    · rw [Complex.im_ofReal_mul]; ring) k hk]
  have : ((1 / (2 ^ e : ℕ) * 2 ^ e : ℝ) : ℂ) = 1 := by
    have : (1 / ((2 ^ e : ℕ) : ℝ) * 2 ^ e : ℝ) = 1 := by push_cast; field_simp
    rw [this]; simp
  rw [this, one_mul]

/-! ## The property -/

/-- C67: the real transform leaves in its array the Fourier coefficients of the data: the two real ones, of frequency 0 and N/2, in the first two places, and
one of each conjugate pair of the others as real and imaginary part in the following pairs, in an order that depends on the length only. -/
theorem C67_coefficients (e : Nat) (he : 1 ≤ e) : ∃ order : Nat → Nat,
    (∀ k, 1 ≤ k → 2 * k < 2 ^ e → 0 < order k ∧ order k < 2 ^ e ∧ 2 * order k ≠ 2 ^ e) ∧
    (∀ k l, 1 ≤ k → 2 * k < 2 ^ e → 1 ≤ l → 2 * l < 2 ^ e → (order k = order l → k = l) ∧ order k + order l ≠ 2 ^ e) ∧
    ∀ a : Nat → ℝ,
      (fftr e a 0 : ℂ) = coefficient (2 ^ e) (fun j => (dataOf (2 ^ e) a j : ℂ)) 0 ∧
      (fftr e a 1 : ℂ) = coefficient (2 ^ e) (fun j => (dataOf (2 ^ e) a j : ℂ)) (2 ^ e / 2) ∧
      (∀ k, 1 ≤ k → 2 * k < 2 ^ e → (⟨fftr e a (2 * k), fftr e a (2 * k + 1)⟩ : ℂ) = coefficient (2 ^ e) (fun j => (dataOf (2 ^ e) a j : ℂ)) (order k)) ∧
      ∀ q, 2 ^ e ≤ q → fftr e a q = a q := by
  refine ⟨rfreq e, (rfreq_facts e).1, (rfreq_facts e).2, fun a => ?_⟩
  obtain ⟨f0, f1, f2⟩ := fftr_dft e a he
  refine ⟨by rw [f0, coefficient_root], by rw [f1, coefficient_root], fun k h1 h2 => ?_, fun q hq => ?_⟩
  · rw [coefficient_root]; exact f2 k h1 h2
  · obtain ⟨m, hm, hm1⟩ := even_pow e he
    have := pr_ext (fftr_out e a (q / 2) (by omega) (by omega))
    rcases Nat.even_or_odd' q with ⟨k, hk | hk⟩
    · rw [show 2 * (q / 2) = q by omega] at this; exact this.1
    · rw [show 2 * (q / 2) + 1 = q by omega] at this; exact this.2

/-- C67: transforming, scaling and transforming back gives back the array. -/
theorem C67_roundtrip (e : Nat) (he : 1 ≤ e) (a : Nat → ℝ) : fftrUn e (fftrScale (2 ^ e) (fftr e a)) = a := by
  obtain ⟨m, hm, hm1⟩ := even_pow e he
  apply arr_ext
  intro k
  by_cases hk : 2 * k < 2 ^ e
  · exact un_scale e he a (fftr e a) rfl rfl (fun _ _ _ => rfl) k hk
  · obtain ⟨_, _, _, s3⟩ := fftrScale_at (2 ^ e) (by omega) (fftr e a)
    rw [fftrUn_out e _ k (by omega) (by omega), ← fftr_out e a k (by omega) (by omega)]
    unfold pr
    rw [s3 _ (by omega), s3 _ (by omega)]

/-- C67: multiplying two real transforms, scaling and transforming back gives the cyclic convolution of the data. -/
theorem C67_convolution (e : Nat) (he : 1 ≤ e) (a b : Nat → ℝ) (i : Nat) (hi : i < 2 ^ e) :
    (dataOf (2 ^ e) (fftrUn e (fftrScale (2 ^ e) (fftrMul (2 ^ e) (fftr e a) (fftr e b)))) i : ℂ) =
      cyclic (2 ^ e) (fun j => (dataOf (2 ^ e) a j : ℂ)) (fun j => (dataOf (2 ^ e) b j : ℂ)) i := by
  obtain ⟨m, hm, hm1⟩ := even_pow e he
  -- an array that holds the convolution
  let D : Nat → ℝ := fun i => ∑ j ∈ range (2 ^ e), dataOf (2 ^ e) a j * dataOf (2 ^ e) b ((i + (2 ^ e - j)) % 2 ^ e)
  let c : Nat → ℝ := fun q => if q % 2 = 0 then D (q / 2) else D (q / 2 + m)
  have hD : ∀ i, (D i : ℂ) = cyclic (2 ^ e) (fun j => (dataOf (2 ^ e) a j : ℂ)) (fun j => (dataOf (2 ^ e) b j : ℂ)) i := by
    intro i; simp only [D, cyclic]; push_cast; rfl
  have hc : ∀ i, i < 2 ^ e → dataOf (2 ^ e) c i = D i := by
    intro i hi
    unfold dataOf
    rw [show 2 ^ e / 2 = m by omega]
    simp only [c]
    by_cases h : i < m
    · rw [if_pos h, if_pos (by omega), show 2 * i / 2 = i by omega]
    · rw [if_neg h, if_neg (by omega), show (2 * (i - m) + 1) / 2 + m = i by omega]
  have hcoef : ∀ f, ∑ j ∈ range (2 ^ e), (dataOf (2 ^ e) c j : ℂ) * root (2 ^ e) ^ (j * f) =
      (∑ j ∈ range (2 ^ e), (dataOf (2 ^ e) a j : ℂ) * root (2 ^ e) ^ (j * f)) * ∑ j ∈ range (2 ^ e), (dataOf (2 ^ e) b j : ℂ) * root (2 ^ e) ^ (j * f) := by
    intro f
    rw [← coefficient_root _ (fun j => (dataOf (2 ^ e) a j : ℂ)), ← coefficient_root _ (fun j => (dataOf (2 ^ e) b j : ℂ)), ← coefficient_cyclic, coefficient_root]
    refine sum_congr rfl (fun j hj => ?_)
    rw [hc j (mem_range.1 hj), hD]
  obtain ⟨c0, c1, c2⟩ := fftr_dft e c he
  obtain ⟨a0, a1, a2⟩ := fftr_dft e a he
  obtain ⟨b0, b1, b2⟩ := fftr_dft e b he
  have mm := fftrMul_at m hm1 (fftr e a) (fftr e b)
  rw [← hm] at mm
  obtain ⟨m0, m1, m2, _⟩ := mm
  have key := un_scale e he c (fftrMul (2 ^ e) (fftr e a) (fftr e b)) (by
      rw [m0]; rw [hcoef, ← a0, ← b0] at c0; exact_mod_cast c0.symm) (by
      rw [m1]; rw [hcoef, ← a1, ← b1] at c1; exact_mod_cast c1.symm) (by
      intro k h1 h2
      rw [m2 k h1 (by omega), c2 k h1 h2, hcoef, ← a2 k h1 h2, ← b2 k h1 h2])
  generalize fftrUn e (fftrScale (2 ^ e) (fftrMul (2 ^ e) (fftr e a) (fftr e b))) = r at *
  rw [← hD, ← hc i hi]
  congr 1
  unfold dataOf
  rw [show 2 ^ e / 2 = m by omega]
  by_cases h : i < m
  · rw [if_pos h, if_pos h]; exact (pr_ext (key i (by omega))).1
  · rw [if_neg h, if_neg h]; exact (pr_ext (key (i - m) (by omega))).2

/-- The order of the data matters: the array 1,2,3,4 holds the data 1,3,2,4. -/
example : (List.range 4).map (dataOf 4 (fun q => (q : ℝ) + 1)) = [1, 3, 2, 4] := by
  simp [dataOf, List.range, List.range.loop]; norm_num

end OP.Fft
