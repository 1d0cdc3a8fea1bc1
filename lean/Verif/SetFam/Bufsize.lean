import Mathlib.Tactic.Ring
/-!
# `set::bufsize` (include/set.h:121-128)
-/
namespace OP.SetFam

/-- `DFLT_BLK` (include/set.h:57-59). -/
def dfltBlk : Nat := 64

/-- The loop of `set::bufsize` (include/set.h:123-124) in exact arithmetic:
`while (s > 8*block) block *= 8;`.  Total because every model set has `block ≥ 1`
(include/set.h:98-100); for `block = 0` the C++ loop does not terminate and the model is not used. -/
def growBlock (s b : Nat) : Nat :=
  if h : 0 < b ∧ 8 * b < s then growBlock s (8 * b) else b
termination_by s - b
decreasing_by omega

/-- The result expression of `set::bufsize` (include/set.h:127):
`block*(s/block+((s%block)?1:0))`. -/
def roundUp (s b : Nat) : Nat := b * (s / b + if s % b = 0 then 0 else 1)

/-- `set::bufsize` in exact arithmetic; returns (capacity, new block). -/
def bufsize (s b : Nat) : Nat × Nat := (roundUp s (growBlock s b), growBlock s b)

/-- `2^32`, the range of the C++ type `unsigned`. -/
def W : Nat := 2 ^ 32

/-- The loop of `set::bufsize` (include/set.h:123-124) in 32-bit arithmetic, as a run of at most
`fuel` iterations; `none` if the loop has not ended by then. -/
def growBlock32 (s : Nat) : Nat → Nat → Option Nat
  | 0, _ => none
  | fuel + 1, b => if 8 * b % W < s then growBlock32 s fuel (8 * b % W) else some b

/-- `set::bufsize` in 32-bit arithmetic. -/
def bufsize32 (fuel s b : Nat) : Option (Nat × Nat) :=
  (growBlock32 s fuel b).map fun b' =>
    (b' * ((s / b' + if s % b' = 0 then 0 else 1) % W) % W, b')

theorem growBlock_pos (s b : Nat) (hb : 0 < b) : 0 < growBlock s b := by
  fun_induction growBlock s b with
  | case1 b h ih => exact ih (by omega)
  | case2 b h => exact hb

theorem growBlock_pow (s b : Nat) : ∃ k, growBlock s b = b * 8 ^ k := by
  fun_induction growBlock s b with
  | case1 b h ih =>
    obtain ⟨k, hk⟩ := ih
    exact ⟨k + 1, by rw [hk]; ring⟩
  | case2 b h => exact ⟨0, by simp⟩

theorem growBlock_enough (s b : Nat) (hb : 0 < b) : s ≤ 8 * growBlock s b := by
  fun_induction growBlock s b with
  | case1 b h ih => exact ih (by omega)
  | case2 b h => omega

theorem growBlock_lt (s b : Nat) : growBlock s b = b ∨ growBlock s b < s := by
  fun_induction growBlock s b with
  | case1 b h ih => omega
  | case2 b h => simp

theorem roundUp_ge (s b : Nat) (hb : 0 < b) : s ≤ roundUp s b := by
  have h1 := Nat.div_add_mod s b
  have h2 := Nat.mod_lt s hb
  unfold roundUp; split
  · rw [Nat.add_zero]; omega
  · rw [Nat.mul_add, Nat.mul_one]; omega

theorem roundUp_lt (s b : Nat) (hb : 0 < b) : roundUp s b < s + b := by
  have h1 := Nat.div_add_mod s b
  have h2 := Nat.mod_lt s hb
  unfold roundUp; split
  · rw [Nat.add_zero]; omega
  · rw [Nat.mul_add, Nat.mul_one]; omega

theorem roundUp_zero_iff (s b : Nat) (hb : 0 < b) : roundUp s b = 0 ↔ s = 0 := by
  constructor
  · intro h; have := roundUp_ge s b hb; omega
  · rintro rfl; simp [roundUp]

/-- The exact loop and the 32-bit loop agree as long as nothing wraps. -/
theorem growBlock32_eq (s b fuel : Nat) (hb : 0 < b) (hb8 : 8 * b < W) (hs : 8 * s ≤ W)
    (hf : s ≤ fuel + b) (hf0 : 0 < fuel) : growBlock32 s fuel b = some (growBlock s b) := by
  induction fuel generalizing b with
  | zero => omega
  | succ fuel ih =>
    rw [growBlock32, growBlock, Nat.mod_eq_of_lt hb8]
    by_cases h : 8 * b < s
    · rw [if_pos h, dif_pos ⟨hb, h⟩]
      exact ih (8 * b) (by omega) (by omega) (by omega) (by omega)
    · rw [if_neg h, dif_neg (by omega)]

end OP.SetFam
