import Verif.Num.Fzero
import Mathlib.Tactic.FieldSimp
import Mathlib.Tactic.LinearCombination
import Mathlib.Tactic.Linarith
import Mathlib.Tactic.NormNum
import Mathlib.Analysis.SpecialFunctions.Pow.Real
/-!
# C135: the fits of the root search

A fit gives `p` and `q`; the step is `-p/q` (src/numerics.cpp:288-291). Each fit is exact for the curves it is made of.
-/
namespace OP.Num
variable {K : Type} [Field K] [LinearOrder K] [IsStrictOrderedRing K]

omit [IsStrictOrderedRing K] in
/-- C135: inverse interpolation finds the root of a curve whose place is a parabola in its value, for any three of its points. -/
theorem C135_inverse (s : Hunt K) (b g ρ : K) (hx : s.x = ρ + b * s.X + g * s.X ^ 2) (hy : s.y = ρ + b * s.Y + g * s.Y ^ 2) (hz : s.z = ρ + b * s.Z + g * s.Z ^ 2)
    (h1 : s.X ≠ s.Y) (h2 : s.Y ≠ s.Z) (h3 : s.X ≠ s.Z) (hY : s.Y ≠ 0) (hZ : s.Z ≠ 0) (q : K) :
    s.x - (inverse s (0, q)).1 / (inverse s (0, q)).2 = ρ := by
  unfold inverse
  rw [if_pos rfl]
  dsimp only
  rw [hx, hy, hz]
  generalize s.X = X at *
  generalize s.Y = Y at *
  generalize s.Z = Z at *
  have a1 : X - Y ≠ 0 := sub_ne_zero.2 h1
  have a2 : Y - Z ≠ 0 := sub_ne_zero.2 h2
  have a3 : X - Z ≠ 0 := sub_ne_zero.2 h3
  have e : (Y / Z - 1) * (X / Z - 1) * (X / Y - 1) = (Y - Z) * (X - Z) * (X - Y) / (Z * Z * Y) := by field_simp
  have e2 : X / Y * ((ρ + b * Z + g * Z ^ 2 - (ρ + b * X + g * X ^ 2)) * (Y / Z) * (Y / Z - X / Z) - (ρ + b * X + g * X ^ 2 - (ρ + b * Y + g * Y ^ 2)) * (X / Z - 1)) =
      X * ((b * Z + g * Z ^ 2 - (b * X + g * X ^ 2)) * Y * (Y - X) - (b * X + g * X ^ 2 - (b * Y + g * Y ^ 2)) * (X - Z) * Z) / (Z * Z * Y) := by field_simp; ring
  rw [e, e2, div_div_div_cancel_right₀ (by simp [hY, hZ]), sub_eq_iff_eq_add, ← sub_eq_iff_eq_add', eq_div_iff (by simp [a1, a2, a3])]
  ring

/-- C135: Muller's method finds a root of every parabola that has one, for any three of its points. -/
theorem C135_muller (v : Env K) (hv : ∀ a, 0 ≤ a → v.sqrt a * v.sqrt a = a) (s : Hunt K) (a b c : K) (hX : s.X = a * s.x ^ 2 + b * s.x + c) (hY : s.Y = a * s.y ^ 2 + b * s.y + c)
    (hZ : s.Z = a * s.z ^ 2 + b * s.z + c) (h1 : s.x ≠ s.y) (h2 : s.y ≠ s.z) (h3 : s.x ≠ s.z) (hC : |s.X - s.C| > |s.c - s.x|) (hd : 0 ≤ b ^ 2 - 4 * a * c) (q : K)
    (hq : (muller v s (0, q)).2 ≠ 0) :
    a * (s.x - (muller v s (0, q)).1 / (muller v s (0, q)).2) ^ 2 + b * (s.x - (muller v s (0, q)).1 / (muller v s (0, q)).2) + c = 0 := by
  have a1 : s.y - s.x ≠ 0 := sub_ne_zero.2 h1.symm
  have a2 : s.z - s.y ≠ 0 := sub_ne_zero.2 h2.symm
  have a3 : s.z - s.x ≠ 0 := sub_ne_zero.2 h3.symm
  unfold muller at hq ⊢
  rw [if_pos ⟨rfl, hC⟩] at hq ⊢
  dsimp only at hq ⊢
  have e1 : (s.Z - s.Y) / (s.z - s.y) = a * (s.z + s.y) + b := by rw [div_eq_iff a2, hZ, hY]; ring
  have e2 : (s.Y - s.X) / (s.y - s.x) = a * (s.y + s.x) + b := by rw [div_eq_iff a1, hX, hY]; ring
  have e3 : (a * (s.z + s.y) + b - (a * (s.y + s.x) + b)) / (s.z - s.x) = a := by rw [div_eq_iff a3]; ring
  rw [e1, e2, e3] at hq ⊢
  obtain ⟨t, ht⟩ : ∃ t, t = 1 / 2 * (a * (s.y + s.x) + b + (s.x - s.y) * a) := ⟨_, rfl⟩
  rw [← ht] at hq ⊢
  have ht' : 2 * t = 2 * a * s.x + b := by rw [ht]; ring
  have hdis : 0 ≤ t * t - s.X * a := by
    have : 4 * (t * t - s.X * a) = b ^ 2 - 4 * a * c := by rw [hX]; linear_combination (2 * t + 2 * a * s.x + b) * ht'
    linarith
  rw [if_pos hdis] at hq ⊢
  dsimp only at hq ⊢
  have hr : copysign (v.sqrt (t * t - s.X * a)) t * copysign (v.sqrt (t * t - s.X * a)) t = t * t - s.X * a := by
    unfold copysign
    split
    · rw [neg_mul_neg, abs_mul_abs_self]; exact hv _ hdis
    · rw [abs_mul_abs_self]; exact hv _ hdis
  generalize copysign (v.sqrt (t * t - s.X * a)) t = w at hq hr ⊢
  obtain ⟨d, hd'⟩ : ∃ d, d = s.X / (t + w) := ⟨_, rfl⟩
  rw [← hd']
  have hd2 : d * (t + w) = s.X := by rw [hd', div_mul_cancel₀ _ hq]
  have : (t + w) * (a * (s.x - d) ^ 2 + b * (s.x - d) + c) = 0 := by
    have hX' : s.X = d * (t + w) := hd2.symm
    have : a * (s.x - d) ^ 2 + b * (s.x - d) + c = s.X - 2 * t * d + a * d ^ 2 := by rw [hX]; linear_combination d * ht'
    rw [this]
    rw [hX'] at hr ⊢
    linear_combination d * hr
  exact (mul_eq_zero.1 this).resolve_left hq

/-- The size that Ridder's method takes for a line times an exponential: `Y`, `X` and `Z` are the values at three places at the same distance. -/
theorem ridder_root (v : Env K) (hv : ∀ a, 0 ≤ a → 0 ≤ v.sqrt a ∧ v.sqrt a * v.sqrt a = a) {L M k r : K} (hk : 0 < k) (hr : 0 < r) :
    v.sqrt ((L + M) / 2 * (k * r) * ((L + M) / 2 * (k * r)) - M * (k * r ^ 2) * (L * k)) = |M - L| / 2 * (k * r) := by
  have e : (L + M) / 2 * (k * r) * ((L + M) / 2 * (k * r)) - M * (k * r ^ 2) * (L * k) = (|M - L| / 2 * (k * r)) * (|M - L| / 2 * (k * r)) := by
    have := abs_mul_abs_self (M - L)
    linear_combination (-(k * r) ^ 2 / 4) * this
  have h0 : 0 ≤ |M - L| / 2 * (k * r) := by positivity
  rw [e]
  obtain ⟨h1, h2⟩ := hv _ (mul_self_nonneg (|M - L| / 2 * (k * r)))
  exact (mul_self_inj h1 h0).1 h2

/-- The step of Ridder's method from the middle. -/
theorem ridder_step {L M k r : K} (hk : 0 < k) (hr : 0 < r) (hs : L * k * (M * (k * r ^ 2)) < 0) :
    copysign ((L + M) / 2 * (k * r)) (M * (k * r ^ 2) - L * k) / (|M - L| / 2 * (k * r)) = |L + M| / (M - L) ∧ M - L ≠ 0 := by
  have hLM : L * M < 0 := by
    by_contra h
    have : 0 ≤ L * M * (k * (k * r ^ 2)) := mul_nonneg (not_lt.1 h) (by positivity)
    linarith [show L * k * (M * (k * r ^ 2)) = L * M * (k * (k * r ^ 2)) by ring]
  have hab : |(L + M) / 2 * (k * r)| = |L + M| / 2 * (k * r) := by
    rw [abs_mul, abs_div, abs_of_pos (show (0 : K) < 2 by norm_num), abs_of_pos (show 0 < k * r by positivity)]
  have hkr : k * r ≠ 0 := (mul_pos hk hr).ne'
  unfold copysign
  rw [hab]
  rcases lt_or_ge L 0 with hL | hL
  · have hM : 0 < M := by by_contra h; nlinarith [mul_nonneg_of_nonpos_of_nonpos hL.le (not_lt.1 h)]
    have h1 : 0 < M - L := by linarith
    have h2 : ¬ M * (k * r ^ 2) - L * k < 0 := by
      have : 0 < M * (k * r ^ 2) := by positivity
      have : L * k < 0 := mul_neg_of_neg_of_pos hL hk
      linarith
    rw [if_neg h2, abs_of_pos h1]
    refine ⟨?_, h1.ne'⟩
    rw [div_eq_div_iff (by positivity) h1.ne']
    ring
  · have hL' : 0 < L := lt_of_le_of_ne hL fun h => by rw [← h, zero_mul] at hLM; exact lt_irrefl _ hLM
    have hM : M < 0 := by by_contra h; nlinarith [mul_nonneg hL (not_lt.1 h)]
    have h1 : M - L < 0 := by linarith
    have h2 : M * (k * r ^ 2) - L * k < 0 := by
      have : M * (k * r ^ 2) < 0 := mul_neg_of_neg_of_pos hM (by positivity)
      have : 0 < L * k := mul_pos hL' hk
      linarith
    rw [if_pos h2, abs_of_neg h1]
    refine ⟨?_, h1.ne⟩
    rw [div_eq_div_iff (mul_ne_zero (by linarith) hkr) h1.ne]
    ring

/-- The values of a line `m u + n` times an exponential at three places at the same distance, the outer ones on different sides of zero. -/
structure Exponential (m n k r l o h Lo Mi Hi : K) : Prop where
  kpos : 0 < k
  rpos : 0 < r
  mid : o = (l + h) / 2
  lo : Lo = (m * l + n) * k
  mi : Mi = (m * o + n) * (k * r)
  hi : Hi = (m * h + n) * (k * r ^ 2)
  sides : Lo * Hi < 0

theorem Exponential.key {m n k r l o h Lo Mi Hi : K} (H : Exponential m n k r l o h Lo Mi Hi) (v : Env K) (hv : ∀ a, 0 ≤ a → 0 ≤ v.sqrt a ∧ v.sqrt a * v.sqrt a = a) :
    Mi * Mi > Hi * Lo ∧ v.sqrt (Mi * Mi - Hi * Lo) ≠ 0 ∧ copysign Mi (Hi - Lo) / v.sqrt (Mi * Mi - Hi * Lo) = 2 * |m * o + n| / (m * (h - l)) ∧ m * (h - l) ≠ 0 ∧
    (0 < Mi ↔ 0 < m * o + n) ∧ (Mi < 0 ↔ m * o + n < 0) := by
  obtain ⟨L, eL⟩ : ∃ L, L = m * l + n := ⟨_, rfl⟩
  obtain ⟨M, eM⟩ : ∃ M, M = m * h + n := ⟨_, rfl⟩
  have e1 : m * o + n = (L + M) / 2 := by rw [eL, eM, H.mid]; ring
  have e2 : m * (h - l) = M - L := by rw [eL, eM]; ring
  have hkr : 0 < k * r := mul_pos H.kpos H.rpos
  have hs := H.sides
  rw [H.lo, H.hi, ← eL, ← eM] at hs
  obtain ⟨s1, s2⟩ := ridder_step H.kpos H.rpos hs
  have hne : |M - L| / 2 * (k * r) ≠ 0 := mul_ne_zero (div_ne_zero (abs_ne_zero.2 s2) two_ne_zero) hkr.ne'
  refine ⟨by nlinarith [mul_self_nonneg Mi, H.sides], ?_, ?_, by rw [e2]; exact s2, ?_, ?_⟩
  · rw [H.mi, H.hi, H.lo, e1, ← eL, ← eM, ridder_root v hv H.kpos H.rpos]; exact hne
  · rw [H.mi, H.hi, H.lo, e1, ← eL, ← eM, ridder_root v hv H.kpos H.rpos, s1, e2, abs_div, abs_of_pos (show (0 : K) < 2 by norm_num)]
    congr 1; ring
  · rw [H.mi]; exact mul_pos_iff_of_pos_right hkr
  · rw [H.mi, ← not_le, ← not_le, mul_nonneg_iff_of_pos_right hkr]

/-- C135, the part that holds for Ridder's method: if the value in the middle is positive, it finds the root of a line times an exponential, whether the middle is the last point or
the one before. (Missing: middle values that are negative; see `C135_ridder_wrong`.) -/
theorem C135_ridder_partial (v : Env K) (hv : ∀ a, 0 ≤ a → 0 ≤ v.sqrt a ∧ v.sqrt a * v.sqrt a = a) (s : Hunt K) (m n k r : K) :
    (Exponential m n k r s.y s.x s.z s.Y s.X s.Z → s.y ≠ s.x + 1 / 2 * (s.z - s.x) → 0 < s.X → m * (s.x - (ridder v s).1 / (ridder v s).2) + n = 0) ∧
    (Exponential m n k r s.x s.y s.z s.X s.Y s.Z → 0 < s.Y → m * (s.x - (ridder v s).1 / (ridder v s).2) + n = 0) := by
  constructor
  · intro H h2 hp
    obtain ⟨g1, g2, g3, g4, g5, -⟩ := H.key v hv
    obtain ⟨gm, gz⟩ := mul_ne_zero_iff.1 g4
    unfold ridder
    rw [if_neg fun h => h2 h.1, if_pos ⟨by rw [H.mid]; ring, g1⟩]
    dsimp only
    rw [mul_div_assoc, g3, abs_of_pos (g5.1 hp), H.mid]
    field_simp
    ring
  · intro H hp
    obtain ⟨g1, g2, g3, g4, g5, -⟩ := H.key v hv
    obtain ⟨gm, gz⟩ := mul_ne_zero_iff.1 g4
    unfold ridder
    rw [if_pos ⟨by rw [H.mid]; ring, g1⟩]
    dsimp only
    rw [mul_div_assoc, sub_div, g3, div_self g2, abs_of_pos (g5.1 hp), H.mid]
    field_simp
    ring

/-- C135, negation: if the value in the middle is negative, Ridder's method steps to the wrong side of the middle: it gives the mirror image of the root, since the sign of the value
is dropped. -/
theorem C135_ridder_wrong (v : Env K) (hv : ∀ a, 0 ≤ a → 0 ≤ v.sqrt a ∧ v.sqrt a * v.sqrt a = a) (s : Hunt K) (m n k r : K) :
    (Exponential m n k r s.y s.x s.z s.Y s.X s.Z → s.y ≠ s.x + 1 / 2 * (s.z - s.x) → s.X < 0 →
      m * (2 * s.x - (s.x - (ridder v s).1 / (ridder v s).2)) + n = 0 ∧ m * (s.x - (ridder v s).1 / (ridder v s).2) + n ≠ 0) ∧
    (Exponential m n k r s.x s.y s.z s.X s.Y s.Z → s.Y < 0 →
      m * (2 * s.y - (s.x - (ridder v s).1 / (ridder v s).2)) + n = 0 ∧ m * (s.x - (ridder v s).1 / (ridder v s).2) + n ≠ 0) := by
  constructor
  · intro H h2 hp
    obtain ⟨g1, g2, g3, g4, -, g5⟩ := H.key v hv
    obtain ⟨gm, gz⟩ := mul_ne_zero_iff.1 g4
    have hn := g5.1 hp
    have : m * (2 * s.x - (s.x - (ridder v s).1 / (ridder v s).2)) + n = 0 := by
      unfold ridder
      rw [if_neg fun h => h2 h.1, if_pos ⟨by rw [H.mid]; ring, g1⟩]
      dsimp only
      rw [mul_div_assoc, g3, abs_of_neg hn, H.mid]
      field_simp
      ring
    exact ⟨this, fun h => hn.ne (by linarith)⟩
  · intro H hp
    obtain ⟨g1, g2, g3, g4, -, g5⟩ := H.key v hv
    obtain ⟨gm, gz⟩ := mul_ne_zero_iff.1 g4
    have hn := g5.1 hp
    have : m * (2 * s.y - (s.x - (ridder v s).1 / (ridder v s).2)) + n = 0 := by
      unfold ridder
      rw [if_pos ⟨by rw [H.mid]; ring, g1⟩]
      dsimp only
      rw [mul_div_assoc, sub_div, g3, div_self g2, abs_of_neg hn, H.mid]
      field_simp
      ring
    exact ⟨this, fun h => hn.ne (by linarith)⟩

/-- The conditions can be met: the parabola `x = 1 + X + X²`, the parabola `u² - 2` and the function `(u - 3) 2^u` at 0, 2 and 4, and the same with `u - 1`. -/
example : ((3 : ℚ) = 1 + 1 * 1 + 1 * 1 ^ 2 ∧ (7 : ℚ) = 1 + 1 * 2 + 1 * 2 ^ 2 ∧ (1 : ℚ) = 1 + 1 * (-1) + 1 * (-1) ^ 2) ∧
    ((-2 : ℚ) = 1 * 0 ^ 2 + 0 * 0 + -2 ∧ (2 : ℚ) = 1 * 2 ^ 2 + 0 * 2 + -2 ∧ (7 : ℚ) = 1 * 3 ^ 2 + 0 * 3 + -2 ∧ |(-2 : ℚ) - 7| > |(3 : ℚ) - 0| ∧ (0 : ℚ) ≤ 0 ^ 2 - 4 * 1 * -2) ∧
    Exponential (1 : ℚ) (-3) 1 4 0 2 4 (-3) (-4) 16 ∧ Exponential (1 : ℚ) (-1) 1 4 0 2 4 (-1) 4 48 ∧
    ∀ a : ℝ, 0 ≤ a → 0 ≤ Real.sqrt a ∧ Real.sqrt a * Real.sqrt a = a :=
  ⟨by norm_num, by norm_num, by constructor <;> norm_num, by constructor <;> norm_num, fun a h => ⟨Real.sqrt_nonneg a, Real.mul_self_sqrt h⟩⟩

end OP.Num
