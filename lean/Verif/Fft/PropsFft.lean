import Verif.Fft.FftLemmas
/-!
# Property C44: the complex transforms

Include/fft.h offers transforms of a length N = 2^e fixed when the program is compiled.
-/
namespace OP.Fft
open OP.Lin Finset

/-! ## Specification -/

/-- The Fourier coefficient of frequency `f` of N numbers. -/
noncomputable def coefficient (N : Nat) (a : Nat → ℂ) (f : Nat) : ℂ :=
  ∑ j ∈ range N, a j * Complex.exp (2 * Real.pi * Complex.I * (j * f : Nat) / N)

/-- Entry `m` of the cyclic convolution of two arrays of N numbers. -/
noncomputable def cyclic (N : Nat) (a b : Nat → ℂ) (m : Nat) : ℂ := ∑ j ∈ range N, a j * b ((m + (N - j)) % N)

/-! ## Helpers -/

theorem coefficient_root (N : Nat) (a : Nat → ℂ) (f : Nat) : coefficient N a f = ∑ j ∈ range N, a j * root N ^ (j * f) := by
  unfold coefficient root
  refine sum_congr rfl (fun j _ => ?_)
  rw [← Complex.exp_nat_mul]; congr 2; ring

theorem root_pow_mod (N : Nat) (hN : 0 < N) (k f : Nat) : root N ^ (k % N * f) = root N ^ (k * f) := by
  conv_rhs => rw [← Nat.div_add_mod k N]
  rw [Nat.add_mul, pow_add, Nat.mul_assoc, pow_mul _ N, root_pow_self hN, one_pow, one_mul]

theorem shift_sum (N : Nat) (g : Nat → ℂ) (j : Nat) (hj : j < N) :
    ∑ m ∈ range N, g m = ∑ l ∈ range N, g ((j + l) % N) := by
  symm
  refine sum_nbij' (fun l => (j + l) % N) (fun m => (m + (N - j)) % N) ?_ ?_ ?_ ?_ (fun _ _ => rfl)
  · intro l _; exact mem_range.2 (Nat.mod_lt _ (by omega))
  · intro l _; exact mem_range.2 (Nat.mod_lt _ (by omega))
  · intro l hl; rw [mem_range] at hl
    simp only [Nat.mod_add_mod]
    rw [show j + l + (N - j) = l + N by omega, Nat.add_mod_right, Nat.mod_eq_of_lt hl]
  · intro m hm; rw [mem_range] at hm
    simp only [Nat.add_mod_mod]
    rw [show j + (m + (N - j)) = m + N by omega, Nat.add_mod_right, Nat.mod_eq_of_lt hm]

theorem coefficient_cyclic (N : Nat) (a b : Nat → ℂ) (f : Nat) :
    coefficient N (cyclic N a b) f = coefficient N a f * coefficient N b f := by
  rcases Nat.eq_zero_or_pos N with rfl | hN
  · simp [coefficient]
  simp only [coefficient_root, cyclic, sum_mul]
  rw [sum_comm]
  refine sum_congr rfl (fun j hj => ?_)
  rw [mem_range] at hj
  rw [mul_sum]
  rw [shift_sum N _ j hj]
  refine sum_congr rfl (fun l hl => ?_)
  rw [mem_range] at hl
  rw [root_pow_mod N hN, Nat.mod_add_mod, show j + l + (N - j) = l + N by omega, Nat.add_mod_right, Nat.mod_eq_of_lt hl, Nat.add_mul, pow_add]
  ring

theorem fftcScale_at (N : Nat) (a : Nat → ℂ) : (∀ i, i < N → fftcScale N a i = a i / N) ∧ ∀ i, N ≤ i → fftcScale N a i = a i := by
  have key := loop_rule (f := fun i (a : Nat → ℂ) => set a i ⟨(a i).re * (1 / (N : ℝ)), (a i).im * (1 / (N : ℝ))⟩)
    (fun k (s : Nat → ℂ) => ∀ i, s i = if i < k then a i / N else a i) (Nat.zero_le N) (s := a) (by intro i; simp) (by
      intro k s _ hk h i
      by_cases hik : i = k
      · subst hik
        rw [set_same, h i, if_neg (by omega), if_pos (by omega)]
        apply Complex.ext
        · rw [Complex.div_natCast_re]; show (a i).re * (1 / (N : ℝ)) = _; ring
        · rw [Complex.div_natCast_im]; show (a i).im * (1 / (N : ℝ)) = _; ring
      · rw [set_ne _ _ hik, h i]
        by_cases h1 : i < k
        · rw [if_pos h1, if_pos (by omega)]
        · rw [if_neg h1, if_neg (by omega)])
  refine ⟨fun i hi => ?_, fun i hi => ?_⟩
  · unfold fftcScale; rw [key i, if_pos hi]
  · unfold fftcScale; rw [key i, if_neg (by omega)]

theorem fftcMul_at (N : Nat) (a b : Nat → ℂ) : (∀ i, i < N → fftcMul N a b i = a i * b i) ∧ ∀ i, N ≤ i → fftcMul N a b i = a i := by
  have key := loop_rule (f := fun i (a : Nat → ℂ) => set a i ⟨(a i).re * (b i).re - (a i).im * (b i).im, (a i).re * (b i).im + (a i).im * (b i).re⟩)
    (fun k (s : Nat → ℂ) => ∀ i, s i = if i < k then a i * b i else a i) (Nat.zero_le N) (s := a) (by intro i; simp) (by
      intro k s _ hk h i
      by_cases hik : i = k
      · subst hik
        rw [set_same, h i, if_neg (by omega), if_pos (by omega)]
        apply Complex.ext
        · simp
        · simp
      · rw [set_ne _ _ hik, h i]
        by_cases h1 : i < k
        · rw [if_pos h1, if_pos (by omega)]
        · rw [if_neg h1, if_neg (by omega)])
  refine ⟨fun i hi => ?_, fun i hi => ?_⟩
  · unfold fftcMul; simp only; rw [key i, if_pos hi]
  · unfold fftcMul; simp only; rw [key i, if_neg (by omega)]

/-! ## The property -/

/-- C44: the transform leaves the Fourier coefficients of the data in its array, each frequency below N once, in an order that depends on the length
only; it touches nothing outside the N entries. -/
theorem C44_coefficients (e : Nat) : ∃ order : Nat → Nat,
    (∀ p, p < 2 ^ e → order p < 2 ^ e) ∧ (∀ p q, p < 2 ^ e → q < 2 ^ e → order p = order q → p = q) ∧
    ∀ a : Nat → ℂ, (∀ p, p < 2 ^ e → fftc e 0 a p = coefficient (2 ^ e) a (order p)) ∧ ∀ p, 2 ^ e ≤ p → fftc e 0 a p = a p := by
  refine ⟨freq e, freq_lt e, freq_inj e, fun a => ⟨fun p hp => ?_, fun p hp => fftc_out e 0 a p (by omega)⟩⟩
  have := fftc_dft e 0 a p hp
  simp only [Nat.zero_add] at this
  rw [this, coefficient_root]

/-- C44: transforming, transforming back and scaling gives back the data, wherever the array lies, and nothing else changes. -/
theorem C44_roundtrip (e o : Nat) (a : Nat → ℂ) :
    (∀ i, i < 2 ^ e → fftcUn e o (fftc e o a) (o + i) = (2 ^ e : ℕ) * a (o + i)) ∧
    (∀ q, (q < o ∨ o + 2 ^ e ≤ q) → fftcUn e o (fftc e o a) q = a q) ∧
    (o = 0 → fftcScale (2 ^ e) (fftcUn e o (fftc e o a)) = a) := by
  have h1 : ∀ i, i < 2 ^ e → fftcUn e o (fftc e o a) (o + i) = (2 ^ e : ℕ) * a (o + i) := fun i hi => by
    rw [fftcUn_fftc e o a _ (fun _ _ => rfl) i hi]; push_cast; rfl
  have h2 : ∀ q, (q < o ∨ o + 2 ^ e ≤ q) → fftcUn e o (fftc e o a) q = a q := fun q hq => by
    rw [fftcUn_out e o _ q hq, fftc_out e o a q hq]
  refine ⟨h1, h2, fun ho => ?_⟩
  subst ho
  funext i
  obtain ⟨s1, s2⟩ := fftcScale_at (2 ^ e) (fftcUn e 0 (fftc e 0 a))
  by_cases hi : i < 2 ^ e
  · rw [s1 i hi]
    have := h1 i hi
    rw [Nat.zero_add] at this
    rw [this]
    have hp : ((2 ^ e : ℕ) : ℂ) ≠ 0 := by exact_mod_cast (Nat.two_pow_pos e).ne'
    field_simp
  · rw [s2 i (by omega), h2 i (by omega)]

/-- C44: multiplying two transforms entry by entry, transforming back and scaling gives the cyclic convolution. -/
theorem C44_convolution (e : Nat) (a b : Nat → ℂ) (i : Nat) (hi : i < 2 ^ e) :
    fftcScale (2 ^ e) (fftcUn e 0 (fftcMul (2 ^ e) (fftc e 0 a) (fftc e 0 b))) i = cyclic (2 ^ e) a b i := by
  obtain ⟨m1, _⟩ := fftcMul_at (2 ^ e) (fftc e 0 a) (fftc e 0 b)
  rw [(fftcScale_at (2 ^ e) _).1 i hi]
  have key := fftcUn_fftc e 0 (cyclic (2 ^ e) a b) (fftcMul (2 ^ e) (fftc e 0 a) (fftc e 0 b)) (by
    intro p hp
    have da := fftc_dft e 0 a p hp
    have db := fftc_dft e 0 b p hp
    rw [fftc_dft e 0 _ p hp, Nat.zero_add, m1 p hp]
    simp only [Nat.zero_add] at da db ⊢
    rw [da, db, ← coefficient_root, ← coefficient_root, ← coefficient_root, coefficient_cyclic]) i hi
  rw [Nat.zero_add] at key
  rw [key]
  have hp : ((2 ^ e : ℕ) : ℂ) ≠ 0 := by exact_mod_cast (Nat.two_pow_pos e).ne'
  push_cast at hp ⊢
  field_simp

/-- The convolution is not trivial: the convolution of (0,1,0,...) with itself is (0,0,1,0,...). -/
example : cyclic 8 (fun j => if j = 1 then 1 else 0) (fun j => if j = 1 then 1 else 0) 2 = 1 ∧
    cyclic 8 (fun j => if j = 1 then 1 else 0) (fun j => if j = 1 then 1 else 0) 1 = 0 := by
  simp [cyclic, sum_range_succ]

end OP.Fft
