import Verif.Num.Small
import Mathlib.Data.Nat.Choose.Basic
import Mathlib.Tactic.Linarith
import Mathlib.Tactic.NormNum
import Mathlib.Tactic.Ring
import Mathlib.Tactic.FieldSimp
import Mathlib.Tactic.Positivity
/-!
# Properties of binomial coefficients, fixed-point numbers and constant strings
-/
namespace OP.Num

/-! ## Binomial coefficients -/

theorem int32_ok {v : Int} (h1 : -2 ^ 31 ≤ v) (h2 : v < 2 ^ 31) : int32 v = .ok v := by unfold int32; rw [if_pos ⟨h1, h2⟩]
theorem int32_ub {v : Int} (h : 2 ^ 31 ≤ v) : int32 v = .ub := by unfold int32; rw [if_neg (by omega)]

theorem prod_mono {d i K : Nat} (h : i ≤ K) : i * (d + i).choose i ≤ K * (d + K).choose K := by
  refine Nat.mul_le_mul h ?_
  rw [← Nat.choose_symm_add (a := d) (b := i), ← Nat.choose_symm_add (a := d) (b := K)]
  exact Nat.choose_le_choose _ (by omega)

theorem chooseLoop_ok (d : Nat) : ∀ (m i : Nat), 1 ≤ i → d + i + m ≤ 2 ^ 31 →
    chooseLoop m (i + 1 : Nat) (d + i : Nat) ((d + i).choose i : Nat) =
      if m = 0 ∨ (i + m) * (d + (i + m)).choose (i + m) < 2 ^ 31 then .ok ((d + (i + m)).choose (i + m) : Nat) else .ub
  | 0, i, _, _ => by simp [chooseLoop]
  | m + 1, i, hi, hb => by
    have key : ((d + i).choose i) * (d + i + 1) = (i + 1) * (d + (i + 1)).choose (i + 1) := by
      have := Nat.add_one_mul_choose_eq (d + i) i
      rw [show d + (i + 1) = d + i + 1 by omega, Nat.mul_comm, this, Nat.mul_comm]
    have hmono : (i + 1) * (d + (i + 1)).choose (i + 1) ≤ (i + (m + 1)) * (d + (i + (m + 1))).choose (i + (m + 1)) :=
      prod_mono (by omega)
    unfold chooseLoop
    by_cases hj : d + i + 1 < 2 ^ 31
    · rw [int32_ok (by omega) (by omega)]
      rw [Res.ok_bind]
      have e1 : (((d + i).choose i : Nat) : Int) * (((d + i : Nat) : Int) + 1) = (((i + 1) * (d + (i + 1)).choose (i + 1) : Nat) : Int) := by
        rw [← key]; push_cast; ring
      rw [e1]
      by_cases hp : (i + 1) * (d + (i + 1)).choose (i + 1) < 2 ^ 31
      · rw [int32_ok (by omega) (by omega), Res.ok_bind]
        have e2 : (((i + 1) * (d + (i + 1)).choose (i + 1) : Nat) : Int).tdiv ((i + 1 : Nat) : Int) = (((d + (i + 1)).choose (i + 1) : Nat) : Int) := by
          rw [← Int.ofNat_tdiv, Nat.mul_div_cancel_left _ (by omega)]
        rw [e2]
        have e3 : (((i + 1 : Nat) : Int) + 1) = ((i + 1 + 1 : Nat) : Int) := by push_cast; ring
        have e4 : (((d + i : Nat) : Int) + 1) = ((d + (i + 1) : Nat) : Int) := by push_cast; ring
        rw [e3, e4, chooseLoop_ok d m (i + 1) (by omega) (by omega)]
        rw [show i + 1 + m = i + (m + 1) by omega]
        by_cases hm : m = 0
        · subst hm; rw [if_pos (.inl rfl), if_pos (.inr hp)]
        · simp [hm]
      · rw [int32_ub (by omega), Res.ub_bind, if_neg (by simp; omega)]
    · have h1 : d + i + 1 = 2 ^ 31 := by omega
      have hle : (i + 1) * (d + (i + 1)).choose (i + 1) ≥ 2 ^ 31 := by
        rw [← key, h1]
        exact Nat.le_mul_of_pos_left _ (Nat.choose_pos (by omega))
      rw [int32_ub (by omega), Res.ub_bind, if_neg (by simp; omega)]

/-- **C33.**  `choose n k` returns the binomial coefficient exactly when `k` times the coefficient is an `int` (or `k` is 0 or `n`), and
overflows otherwise. -/
theorem C33_choose {n k : Nat} (hk : k ≤ n) (hn : n < 2 ^ 31) (hj : n - k + 1 < 2 ^ 31) :
    choose n k = if k = 0 ∨ k = n ∨ k * n.choose k < 2 ^ 31 then .ok (n.choose k : Nat) else .ub := by
  unfold choose
  have e0 : (n : Int) - k = ((n - k : Nat) : Int) := by omega
  rw [int32_ok (by omega) (by omega), Res.ok_bind, int32_ok (by omega) (by omega), Res.ok_bind, if_neg (by omega)]
  by_cases h0 : k = 0
  · subst h0; simp
  by_cases h1 : k = n
  · subst h1; simp
  rw [if_neg (by omega)]
  have e1 : ((n : Int) - k + 1) = ((n - k + 1 : Nat) : Int) := by omega
  have := chooseLoop_ok (n - k) (k - 1) 1 (Nat.le_refl 1) (by omega)
  rw [show 1 + (k - 1) = k by omega, show n - k + k = n by omega] at this
  have e2 : (k - 1 : Int).toNat = k - 1 := by omega
  rw [e2, e1]
  have e3 : ((n - k + 1 : Nat) : Int) = (((n - k + 1).choose 1 : Nat) : Int) := by simp
  conv_lhs => rw [show (2 : Int) = ((1 + 1 : Nat) : Int) by rfl]
  conv_lhs => arg 4; rw [e3]
  rw [this]
  by_cases hk1 : k = 1
  · subst hk1
    simp
    omega
  · simp [h0, h1, show k - 1 ≠ 0 by omega]

/-- **C33, outside the triangle.** -/
theorem C33_choose_zero {n k : Int} (hk : k < 0 ∨ n < k) (h1 : -2 ^ 31 ≤ n - k) (h2 : n - k + 1 < 2 ^ 31) : choose n k = .ok 0 := by
  unfold choose
  rw [int32_ok h1 (by omega), Res.ok_bind, int32_ok (by omega) h2, Res.ok_bind, if_pos (by omega)]

/-- The coefficient 155117520 is an `int`, but not 15 times it. -/
example : choose 30 15 = .ub := by decide +kernel
example : choose 20 7 = .ok 77520 ∧ choose 3 5 = .ok 0 := by decide +kernel

/-! ## Fixed-point numbers -/

theorem rne_bounds (q : ℚ) : ⌊q⌋ ≤ rne q ∧ rne q ≤ ⌈q⌉ := by
  have hc : ⌊q⌋ ≤ ⌈q⌉ := Int.floor_le_ceil q
  have hup : (0 : ℚ) < q - ⌊q⌋ → ⌊q⌋ + 1 ≤ ⌈q⌉ := by
    intro h
    rw [Int.add_one_le_iff, Int.lt_ceil]
    linarith
  unfold rne
  split
  · exact ⟨le_refl _, hc⟩
  · rename_i h1
    split
    · rename_i h2; exact ⟨by omega, hup (by linarith)⟩
    · rename_i h2
      split
      · exact ⟨le_refl _, hc⟩
      · exact ⟨by omega, hup (by linarith)⟩

theorem ulp_pos (q : ℚ) : 0 < ulp q := zpow_pos (by norm_num) _

/-- The rounding of a sum does not cross an integer. -/
theorem fl_ge {q : ℚ} (hq : 0 < q) {n : Int} (hn : n ≤ 2 ^ 53) (h : (n : ℚ) ≤ q) : (n : ℚ) ≤ fl q := by
  unfold fl
  rw [if_neg (ne_of_gt hq)]
  have hu := ulp_pos q
  have hlog : (2 : ℚ) ^ Int.log 2 q ≤ q := Int.zpow_log_le_self (by norm_num) hq
  obtain ⟨hr, -⟩ := rne_bounds (q / ulp q)
  by_cases hL : Int.log 2 q ≤ 52
  · -- the integers are multiples of the spacing
    obtain ⟨e, he⟩ : ∃ e : Nat, (52 - Int.log 2 q) = e := ⟨(52 - Int.log 2 q).toNat, by omega⟩
    have hul : ulp q = ((2 : ℚ) ^ e)⁻¹ := by
      unfold ulp
      rw [show Int.log 2 q - 52 = -(e : Int) by omega, zpow_neg, zpow_natCast]
    have h1 : ((n * 2 ^ e : Int) : ℚ) ≤ q / ulp q := by
      rw [hul]; push_cast; rw [div_inv_eq_mul]
      exact mul_le_mul_of_nonneg_right h (by positivity)
    have h2 : n * 2 ^ e ≤ rne (q / ulp q) := (Int.le_floor.2 h1).trans hr
    calc (n : ℚ) = ((n * 2 ^ e : Int) : ℚ) * ulp q := by
          rw [hul]; push_cast
          field_simp
      _ ≤ rne (q / ulp q) * ulp q := by
          refine mul_le_mul_of_nonneg_right ?_ hu.le
          exact_mod_cast h2
  · have h1 : ((2 ^ 52 : Int) : ℚ) ≤ q / ulp q := by
      rw [le_div_iff₀ hu]
      unfold ulp
      refine le_trans (le_of_eq ?_) hlog
      rw [show ((2 ^ 52 : Int) : ℚ) = (2 : ℚ) ^ (52 : Int) by norm_num, ← zpow_add₀ (by norm_num)]
      congr 1
      ring
    have h2 : 2 ^ 52 ≤ rne (q / ulp q) := (Int.le_floor.2 h1).trans hr
    have h3 : (2 : ℚ) ≤ ulp q := by
      unfold ulp
      calc (2 : ℚ) = 2 ^ (1 : Int) := by norm_num
        _ ≤ _ := zpow_le_zpow_right₀ (by norm_num) (by omega)
    calc (n : ℚ) ≤ 2 ^ 53 := by exact_mod_cast hn
      _ = 2 ^ 52 * 2 := by norm_num
      _ ≤ (rne (q / ulp q) : ℚ) * ulp q := by
          refine mul_le_mul ?_ h3 (by norm_num) ?_
          · exact_mod_cast h2
          · have : (0 : Int) ≤ rne (q / ulp q) := by omega
            exact_mod_cast this

theorem fl_le {q : ℚ} (hq : 0 < q) {n : Int} (hn : n ≤ 2 ^ 53) (h : q ≤ n) : fl q ≤ n := by
  unfold fl
  rw [if_neg (ne_of_gt hq)]
  have hu := ulp_pos q
  have hlog : (2 : ℚ) ^ Int.log 2 q ≤ q := Int.zpow_log_le_self (by norm_num) hq
  obtain ⟨-, hr⟩ := rne_bounds (q / ulp q)
  have hL : Int.log 2 q ≤ 53 := by
    by_contra hc
    have : (2 : ℚ) ^ (54 : Int) ≤ 2 ^ Int.log 2 q := zpow_le_zpow_right₀ (by norm_num) (by omega)
    have h2 : (n : ℚ) ≤ 2 ^ 53 := by exact_mod_cast hn
    norm_num at this h2
    linarith
  by_cases hL' : Int.log 2 q ≤ 52
  · obtain ⟨e, he⟩ : ∃ e : Nat, (52 - Int.log 2 q) = e := ⟨(52 - Int.log 2 q).toNat, by omega⟩
    have hul : ulp q = ((2 : ℚ) ^ e)⁻¹ := by
      unfold ulp
      rw [show Int.log 2 q - 52 = -(e : Int) by omega, zpow_neg, zpow_natCast]
    have h1 : q / ulp q ≤ ((n * 2 ^ e : Int) : ℚ) := by
      rw [hul]; push_cast; rw [div_inv_eq_mul]
      exact mul_le_mul_of_nonneg_right h (by positivity)
    have h2 : rne (q / ulp q) ≤ n * 2 ^ e := hr.trans (Int.ceil_le.2 h1)
    calc (rne (q / ulp q) : ℚ) * ulp q ≤ ((n * 2 ^ e : Int) : ℚ) * ulp q := by
          refine mul_le_mul_of_nonneg_right ?_ hu.le
          exact_mod_cast h2
      _ = n := by
          rw [hul]; push_cast
          field_simp
  · -- q is 2^53
    have hL3 : Int.log 2 q = 53 := by omega
    have h2 : (n : ℚ) ≤ 2 ^ 53 := by exact_mod_cast hn
    rw [hL3] at hlog
    have hq53 : q = 2 ^ 53 := by
      have : (2 : ℚ) ^ (53 : Int) = 2 ^ 53 := by norm_num
      rw [this] at hlog
      linarith
    have hul : ulp q = 2 := by unfold ulp; rw [hL3]; norm_num
    have hn53 : (n : ℚ) = 2 ^ 53 := by linarith
    rw [hul, hq53, hn53]
    have : rne ((2 : ℚ) ^ 53 / 2) = 2 ^ 52 := by
      have e : (2 : ℚ) ^ 53 / 2 = ((2 ^ 52 : Int) : ℚ) := by norm_num
      unfold rne
      rw [e, Int.floor_intCast]
      simp
    rw [this]; norm_num

/-- The nearest integer, ties away from zero. -/
def nearest (x : ℚ) : Int := if 0 ≤ x then ⌊x + 1 / 2⌋ else -⌊1 / 2 - x⌋

/-- No integer is nearer. -/
theorem nearest_spec (x : ℚ) (z : Int) : |x - nearest x| ≤ |x - z| := by
  have half : |x - nearest x| ≤ 1 / 2 := by
    unfold nearest
    split
    · have h1 := Int.floor_le (x + 1 / 2)
      have h2 := Int.lt_floor_add_one (x + 1 / 2)
      rw [abs_le]; constructor <;> linarith
    · have h1 := Int.floor_le (1 / 2 - x)
      have h2 := Int.lt_floor_add_one (1 / 2 - x)
      push_cast
      rw [abs_le]; constructor <;> linarith
  by_cases hz : z = nearest x
  · rw [hz]
  · have h1 : (1 : ℚ) ≤ |(z : ℚ) - nearest x| := by
      have : (1 : Int) ≤ |z - nearest x| := Int.one_le_abs (by omega)
      exact_mod_cast this
    have h2 : |(z : ℚ) - nearest x| ≤ |x - z| + |x - nearest x| := by
      rw [abs_sub_comm x (z : ℚ)]
      calc |(z : ℚ) - nearest x| = |((z : ℚ) - x) + (x - nearest x)| := by ring_nf
        _ ≤ _ := abs_add_le _ _
    linarith

theorem conv_bounds {y : ℚ} (hy : 0 ≤ y) (hb : y < 2 ^ 31 - 1) :
    ⌊y + 1 / 2⌋ ≤ ⌊fl (y + 1 / 2)⌋ ∧ ⌊fl (y + 1 / 2)⌋ ≤ ⌊y + 1 / 2⌋ + 1 ∧
      (⌊fl (y + 1 / 2)⌋ = ⌊y + 1 / 2⌋ + 1 → fl (y + 1 / 2) = ⌊y + 1 / 2⌋ + 1) ∧
      (0 ≤ ⌊y + 1 / 2⌋ ∧ ⌊y + 1 / 2⌋ + 1 < 2 ^ 31 + 1) := by
  have hpos : (0 : ℚ) < y + 1 / 2 := by linarith
  have h0 : 0 ≤ ⌊y + 1 / 2⌋ := Int.floor_nonneg.2 hpos.le
  have h1 : ⌊y + 1 / 2⌋ < 2 ^ 31 := by
    rw [Int.floor_lt]; push_cast; linarith
  have hle := fl_ge hpos (n := ⌊y + 1 / 2⌋) (by omega) (Int.floor_le _)
  have hge := fl_le hpos (n := ⌊y + 1 / 2⌋ + 1) (by omega) (by push_cast; exact (Int.lt_floor_add_one _).le)
  push_cast at hge
  refine ⟨Int.le_floor.2 hle, ?_, ?_, h0, by omega⟩
  · have := Int.floor_le (fl (y + 1 / 2))
    have h2 : ((⌊fl (y + 1 / 2)⌋ : Int) : ℚ) ≤ ((⌊y + 1 / 2⌋ + 1 : Int) : ℚ) := by push_cast; linarith
    exact_mod_cast h2
  · intro he
    have := Int.floor_le (fl (y + 1 / 2))
    rw [he] at this
    push_cast at this
    linarith

/-- **C31, the part that holds.**  For every precision and every double whose scaled value is below 2^31 - 2 in size: the conversion is
defined; it is the nearest representable number, ties away from zero, unless adding one half rounds up to the next integer, when it is that
next one.  Integers convert exactly and back; sums, differences, negation, absolute value, increment and decrement are exact whenever
they are in range (and undefined otherwise), and the comparisons are those of the values. -/
theorem C31_fixed_partial (P : Nat) :
    (∀ d : ℚ, |d * 2 ^ P| < 2 ^ 31 - 2 → ∃ v, fixOfDouble P d = .ok v ∧
      (fl (|d * 2 ^ P| + 1 / 2) < ⌊|d * 2 ^ P| + 1 / 2⌋ + 1 → v = nearest (d * 2 ^ P)) ∧
      (v ≠ nearest (d * 2 ^ P) → |v| = |nearest (d * 2 ^ P)| + 1 ∧ fl (|d * 2 ^ P| + 1 / 2) = |v|)) ∧
    (∀ i v, fixOfInt P i = .ok v → fixVal P v = i ∧ fixToInt P v = i) ∧
    (∀ i : Nat, i * 2 ^ P < 2 ^ 31 → fixVal P (fixOfUnsigned P i) = i) ∧
    (∀ v, (fixToInt P v : ℚ) ≤ fixVal P v ∧ fixVal P v < fixToInt P v + 1) ∧
    (∀ a b v, fixAdd a b = .ok v → fixVal P v = fixVal P a + fixVal P b) ∧
    (∀ a b v, fixSub a b = .ok v → fixVal P v = fixVal P a - fixVal P b) ∧
    (∀ a v, fixNeg a = .ok v → fixVal P v = -fixVal P a) ∧
    (∀ a v, fixInc P a = .ok v → fixVal P v = fixVal P a + 1) ∧
    (∀ a v, fixDec P a = .ok v → fixVal P v = fixVal P a - 1) ∧
    (∀ a v, fixAbs a = .ok v → fixVal P v = |fixVal P a|) ∧
    (∀ a b, (fixLt a b = true ↔ fixVal P a < fixVal P b) ∧ (fixEq a b = true ↔ fixVal P a = fixVal P b)) := by
  have h2P : (0 : ℚ) < 2 ^ P := by positivity
  have ok_of : ∀ {x v : Int}, int32 x = .ok v → v = x := by
    intro x v h; unfold int32 at h; split at h <;> cases h; rfl
  refine ⟨?_, ?_, ?_, ?_, ?_, ?_, ?_, ?_, ?_, ?_, ?_⟩
  · intro d hd
    unfold fixOfDouble nearest
    by_cases hpos : 0 ≤ d
    · have hx : 0 ≤ d * 2 ^ P := mul_nonneg hpos h2P.le
      rw [abs_of_nonneg hx] at hd ⊢
      rw [if_pos hpos, if_pos hx]
      obtain ⟨b1, b2, b3, b4, b5⟩ := conv_bounds hx (by linarith)
      have b6 : ⌊d * 2 ^ P + 1 / 2⌋ + 1 < 2 ^ 31 := by
        have : ⌊d * 2 ^ P + 1 / 2⌋ < 2 ^ 31 - 1 := by rw [Int.floor_lt]; push_cast; linarith
        omega
      refine ⟨_, int32_ok (by omega) (by omega), ?_, ?_⟩
      · intro h
        by_contra hne
        have := b3 (by omega)
        linarith
      · intro hne
        have he : ⌊fl (d * 2 ^ P + 1 / 2)⌋ = ⌊d * 2 ^ P + 1 / 2⌋ + 1 := by omega
        rw [he, abs_of_nonneg b4, abs_of_nonneg (by omega : (0 : Int) ≤ ⌊d * 2 ^ P + 1 / 2⌋ + 1)]
        exact ⟨rfl, by rw [b3 he]; push_cast; rfl⟩
    · have hx : d * 2 ^ P < 0 := mul_neg_of_neg_of_pos (by linarith) h2P
      rw [abs_of_neg hx] at hd ⊢
      rw [if_neg hpos, if_neg (by linarith)]
      obtain ⟨b1, b2, b3, b4, b5⟩ := conv_bounds (y := -(d * 2 ^ P)) (by linarith) (by linarith)
      have b6 : ⌊-(d * 2 ^ P) + 1 / 2⌋ + 1 < 2 ^ 31 := by
        have : ⌊-(d * 2 ^ P) + 1 / 2⌋ < 2 ^ 31 - 1 := by rw [Int.floor_lt]; push_cast; linarith
        omega
      have e : 1 / 2 - d * 2 ^ P = -(d * 2 ^ P) + 1 / 2 := by ring
      rw [e]
      refine ⟨-⌊fl (-(d * 2 ^ P) + 1 / 2)⌋, ?_, ?_, ?_⟩
      · rw [int32_ok (by omega) (by omega), Res.ok_bind, int32_ok (by omega) (by omega)]
      · intro h
        by_contra hne
        have := b3 (by omega)
        linarith
      · intro hne
        have he : ⌊fl (-(d * 2 ^ P) + 1 / 2)⌋ = ⌊-(d * 2 ^ P) + 1 / 2⌋ + 1 := by omega
        rw [he, abs_neg, abs_neg, abs_of_nonneg b4, abs_of_nonneg (by omega : (0 : Int) ≤ ⌊-(d * 2 ^ P) + 1 / 2⌋ + 1)]
        exact ⟨rfl, by rw [b3 he]; push_cast; rfl⟩
  · intro i v h
    rw [ok_of h]
    constructor
    · unfold fixVal; push_cast; field_simp
    · unfold fixToInt; exact Int.mul_ediv_cancel _ (by positivity)
  · intro i h
    have hm : (i * 2 ^ P) % 2 ^ 32 = i * 2 ^ P := Nat.mod_eq_of_lt (by omega)
    unfold fixOfUnsigned fixVal
    rw [hm, if_pos h]
    push_cast; field_simp
  · intro v
    unfold fixVal fixToInt
    have hp : (0 : Int) < 2 ^ P := by positivity
    have h1 := Int.ediv_mul_le v (b := 2 ^ P) (ne_of_gt hp)
    have h2 := Int.lt_ediv_add_one_mul_self v hp
    constructor
    · rw [le_div_iff₀ h2P]; exact_mod_cast h1
    · rw [div_lt_iff₀ h2P]; exact_mod_cast h2
  · intro a b v h; rw [ok_of h]; unfold fixVal; push_cast; ring
  · intro a b v h; rw [ok_of h]; unfold fixVal; push_cast; ring
  · intro a v h; rw [ok_of h]; unfold fixVal; push_cast; ring
  · intro a v h
    unfold fixInc at h
    rw [Res.bind_eq_ok] at h
    obtain ⟨u, h1, h2⟩ := h
    rw [ok_of h2, ok_of h1]; unfold fixVal; push_cast; field_simp
  · intro a v h
    unfold fixDec at h
    rw [Res.bind_eq_ok] at h
    obtain ⟨u, h1, h2⟩ := h
    rw [ok_of h2, ok_of h1]; unfold fixVal; push_cast; field_simp
  · intro a v h
    rw [ok_of h]; unfold fixVal; push_cast
    rw [abs_div, abs_of_pos h2P]
  · intro a b
    unfold fixLt fixEq fixVal
    rw [decide_eq_true_iff, decide_eq_true_iff, div_lt_div_iff_of_pos_right h2P, div_left_inj' (ne_of_gt h2P)]
    exact ⟨by norm_cast, by norm_cast⟩

example : |(1 / 3 : ℚ) * 2 ^ 10| < 2 ^ 31 - 2 := by norm_num [abs_of_pos]

/-- **C31, what is missing.**  The double just below half a unit is converted to one unit, in every precision. -/
theorem C31_just_below_half_wrong (P : Nat) :
    fixOfDouble P ((1 / 2 - 1 / 2 ^ 54) / 2 ^ P) = .ok 1 ∧
      |(1 / 2 - 1 / 2 ^ 54 : ℚ) / 2 ^ P - fixVal P 0| < |(1 / 2 - 1 / 2 ^ 54 : ℚ) / 2 ^ P - fixVal P 1| := by
  have h2P : (0 : ℚ) < 2 ^ P := by positivity
  constructor
  · unfold fixOfDouble
    rw [if_pos (by apply div_nonneg; · norm_num
                   · exact h2P.le), div_mul_cancel₀ _ (ne_of_gt h2P)]
    have hlog : Int.log 2 (1 / 2 - 1 / 2 ^ 54 + 1 / 2 : ℚ) = -1 := by
      have h1 : Int.log 2 (1 / 2 - 1 / 2 ^ 54 + 1 / 2 : ℚ) < 0 := by
        rw [← Int.lt_zpow_iff_log_lt (by norm_num) (by norm_num)]; norm_num
      have h2 : -1 ≤ Int.log 2 (1 / 2 - 1 / 2 ^ 54 + 1 / 2 : ℚ) := by
        rw [← Int.zpow_le_iff_le_log (by norm_num) (by norm_num)]; norm_num
      omega
    have hfl : fl (1 / 2 - 1 / 2 ^ 54 + 1 / 2 : ℚ) = 1 := by
      unfold fl ulp
      rw [hlog, if_neg (by norm_num)]
      have hr : rne ((1 / 2 - 1 / 2 ^ 54 + 1 / 2 : ℚ) / 2 ^ (-1 - 52 : Int)) = 2 ^ 53 := by
        have e : (1 / 2 - 1 / 2 ^ 54 + 1 / 2 : ℚ) / 2 ^ (-1 - 52 : Int) = 2 ^ 53 - 1 / 2 := by norm_num
        have f : ⌊(2 ^ 53 - 1 / 2 : ℚ)⌋ = 2 ^ 53 - 1 := by rw [Int.floor_eq_iff]; norm_num
        unfold rne
        rw [e, f]
        norm_num
      rw [hr]; norm_num
    rw [hfl, Int.floor_one]
    decide
  · have e0 : (1 / 2 - 1 / 2 ^ 54 : ℚ) / 2 ^ P - fixVal P 0 = (1 / 2 - 1 / 2 ^ 54) / 2 ^ P := by unfold fixVal; simp
    have e1 : (1 / 2 - 1 / 2 ^ 54 : ℚ) / 2 ^ P - fixVal P 1 = -((1 / 2 + 1 / 2 ^ 54) / 2 ^ P) := by unfold fixVal; push_cast; ring
    rw [e0, e1, abs_neg, abs_of_pos (by apply div_pos _ h2P; norm_num), abs_of_pos (by apply div_pos _ h2P; norm_num)]
    rw [div_lt_div_iff_of_pos_right h2P]
    norm_num

/-! ## Constant strings -/

/-- No null among the characters. -/
def NoNull (s : List Nat) : Prop := ∀ c ∈ s, c ≠ 0

theorem cmp_cons {x y : Nat} {a b : List Nat} : cmp (x :: a) (y :: b) =
    if x < y then -1 else if y < x then 1 else if x = 0 then (if a.length = b.length then 0 else if a.length < b.length then -1 else 1) else cmp a b := by
  unfold cmp
  simp only [List.length_cons, Nat.add_min_add_right, strncmp, Nat.add_right_cancel_iff, Nat.add_lt_add_iff_right]
  by_cases h1 : x < y
  · simp [h1]
  · by_cases h2 : y < x
    · simp [h1, h2]
    · by_cases h3 : x = 0
      · have : y = 0 := by omega
        simp [h3, this]
      · simp [h1, h2, h3]

theorem cmp_spec : ∀ {a b : List Nat}, NoNull a → NoNull b →
    (cmp a b < 0 ↔ a < b) ∧ (cmp a b = 0 ↔ a = b) ∧ (0 < cmp a b ↔ b < a)
  | [], [], _, _ => by simp [cmp, strncmp]
  | [], y :: b, _, _ => by simp [cmp, strncmp]
  | x :: a, [], _, _ => by simp [cmp, strncmp]
  | x :: a, y :: b, ha, hb => by
    have hx : x ≠ 0 := ha x (by simp)
    obtain ⟨i1, i2, i3⟩ := cmp_spec (a := a) (b := b) (fun c h => ha c (by simp [h])) (fun c h => hb c (by simp [h]))
    rw [cmp_cons]
    simp only [List.cons_lt_cons_iff, List.cons.injEq]
    by_cases h1 : x < y
    · have : ¬ y < x := by omega
      have h3 : ¬ x = y := by omega
      have h4 : ¬ y = x := by omega
      simp [h1, this, h3, h4]
    · by_cases h2 : y < x
      · have h3 : ¬ x = y := by omega
        have h4 : ¬ y = x := by omega
        simp [h1, h2, h3, h4]
      · have h3 : x = y := by omega
        subst h3
        simp [hx, i1, i2, i3]

/-- **C32, the part that holds.**  For strings without null characters the order is the lexicographic order of the characters (a total
order), equality is equality of the characters, and two strings reported different are different.  What is missing: two
different strings are reported different only if their hashes differ; see below. -/
theorem C32_conststr_partial {a b : List Nat} (ha : NoNull a) (hb : NoNull b) :
    (strLt a b = true ↔ a < b) ∧ (cmp a b = 0 ↔ a = b) ∧ (0 < cmp a b ↔ b < a) ∧
    (strEq a b = true ↔ a = b) ∧ (strNe a b = true ↔ a ≠ b ∧ fnv1a a ≠ fnv1a b) := by
  obtain ⟨h1, h2, h3⟩ := cmp_spec ha hb
  refine ⟨?_, h2, h3, ?_, ?_⟩
  · unfold strLt; rw [decide_eq_true_iff]; exact h1
  · unfold strEq
    rw [Bool.and_eq_true, beq_iff_eq, beq_iff_eq, h2]
    exact ⟨And.right, fun h => ⟨by rw [h], h⟩⟩
  · unfold strNe
    rw [Bool.and_eq_true, bne_iff_ne, bne_iff_ne, ne_eq, ne_eq, h2]
    exact and_comm

example : NoNull [97, 98] ∧ NoNull [97, 99] ∧ strNe [97, 98] [97, 99] = true ∧ strLt [97, 98] [97, 99] = true := by
  refine ⟨?_, ?_, ?_, ?_⟩ <;> first | decide +kernel | (intro c; simp; omega)

/-- **C32, what is missing.**  Two different strings without nulls that are neither equal nor different: "7mohtcOFVz" and "c1E51sSEyx". -/
theorem C32_collision_wrong : ∃ a b : List Nat, (∀ c ∈ a, 0 < c ∧ c < 128) ∧ (∀ c ∈ b, 0 < c ∧ c < 128) ∧ a ≠ b ∧
    strEq a b = false ∧ strNe a b = false :=
  ⟨[55, 109, 111, 104, 116, 99, 79, 70, 86, 122], [99, 49, 69, 53, 49, 115, 83, 69, 121, 120], by decide +kernel⟩

/-- **C32, what is missing.**  Characters after a null are not compared: "a\0b" and "a\0c" are neither less, equal, greater nor different. -/
theorem C32_null_wrong : ∃ a b : List Nat, a ≠ b ∧ cmp a b = 0 ∧ strEq a b = false ∧ strNe a b = false :=
  ⟨[97, 0, 98], [97, 0, 99], by decide +kernel⟩

end OP.Num
