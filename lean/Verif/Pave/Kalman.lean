import Mathlib.Analysis.SpecialFunctions.Sqrt
import Mathlib.Analysis.SpecialFunctions.Pow.Real
import Mathlib.Algebra.BigOperators.Intervals
/-!
# Back-calculation steps

`src/pavement.cpp`: `LEbackcalc::kalman`, `gaussnewton` and the last loop of `backcalc`.  Real arithmetic without rounding,
except that `0/0` gives a value that is not a number, with the comparisons of the C++ library.  What the linear algebra
routines return (`inv_eig`, `equ_eig`) and what `calculate` stores are parameters.
-/
namespace OP.Pave.Back

open Finset

/-- A double that may be not a number (`none`). -/
abbrev XR := Option ℝ

/-- `a/b`; only used where `a = 0` whenever `b = 0`. -/
noncomputable def xdiv (a b : ℝ) : XR := if b = 0 then none else some (a / b)

/-- `p + a*w`. -/
def xadd (p : ℝ) (a : XR) (w : ℝ) : XR := a.map fun a => p + a * w

/-- `std::max(x, y)`, which is `(x < y) ? y : x`. -/
noncomputable def cmax (x : ℝ) : XR → ℝ
  | none => x
  | some y => if x < y then y else x

/-- `std::min(x, y)`, which is `(y < x) ? y : x`. -/
noncomputable def cmin (x y : ℝ) : ℝ := if y < x then y else x

/-- What a step reads: `defl g j` and `grad g j i` are the deflection and its gradients at the point of deflection `j` under
load group `g`, as `result(g,d)` returns them; `lg j` is the group deflection `j` was measured under and `clg` the default
group. -/
structure Bowl where
  nl : Nat
  dl : Nat
  defl : Nat → Nat → ℝ
  grad : Nat → Nat → Nat → ℝ
  lg : Nat → Nat
  measured : Nat → ℝ
  clg : Nat
  noise : ℝ
  precision : ℝ

/-- `Y[j]` (src/pavement.cpp:2207-2208). -/
def Bowl.Y (b : Bowl) (j : Nat) : ℝ := b.measured j - b.defl (b.lg j) j

/-- `H[j*nl+i]` (src/pavement.cpp:2209-2210): `result(d)` is the result of the default group
(src/pavement.h:522-524). -/
def Bowl.H (b : Bowl) (j i : Nat) : ℝ := b.grad b.clg j i

/-- `S` before it is inverted (src/pavement.cpp:2212-2220). -/
noncomputable def Bowl.S (b : Bowl) (wt : ℝ) (i j : Nat) : ℝ :=
  (∑ k ∈ range b.nl, b.H i k * b.H j k) * wt + if i = j then b.noise * b.noise + (b.precision * b.precision) / 3 else 0

/-- `W` (src/pavement.cpp:2222-2232), with `inv` the inverse of `S`. -/
noncomputable def Bowl.W (b : Bowl) (wt : ℝ) (inv : Nat → Nat → ℝ) (i : Nat) : ℝ :=
  ∑ j ∈ range b.dl, (∑ k ∈ range b.dl, b.H k i * inv k j * wt) * b.Y j

/-- `step` (src/pavement.cpp:2228-2234). -/
noncomputable def Bowl.step (b : Bowl) (wt : ℝ) (inv : Nat → Nat → ℝ) : ℝ := √(∑ i ∈ range b.nl, b.W wt inv i * b.W wt inv i)

/-- `P` after `kalman` (src/pavement.cpp:2234-2240). -/
noncomputable def Bowl.kalman (b : Bowl) (wt : ℝ) (inv : Nat → Nat → ℝ) (P : Nat → ℝ) : Nat → ℝ := fun i =>
  let step := b.step wt inv
  let a := xdiv (cmin step 1) step
  cmin (cmax 1 (xadd (P i) a (b.W wt inv i))) 9

/-- `Y` of `gaussnewton` (src/pavement.cpp:2160-2168). -/
noncomputable def Bowl.gY (b : Bowl) (i : Nat) : ℝ := ∑ j ∈ range b.dl, b.Y j * b.H j i

/-- `S` of `gaussnewton` (src/pavement.cpp:2169-2174). -/
noncomputable def Bowl.gS (b : Bowl) (i j : Nat) : ℝ := ∑ k ∈ range b.dl, b.H k i * b.H k j

/-- `P` after `gaussnewton` (src/pavement.cpp:2175-2177), `W` being the solution of `S W = Y`. -/
noncomputable def gaussnewton (W P : Nat → ℝ) : Nat → ℝ := fun i => cmin (cmax 1 (some (P i + W i))) 9

/-- The last loop of `backcalc` and what follows it (src/pavement.cpp:1911-1963): `bowl P` is what the calculation stores for
the moduli `10^P`, `inv` the inversion, `wt k` the weight of round `k`, `n` the number of rounds left.  The result is the
returned value and the final moduli. -/
noncomputable def finish (bowl : (Nat → ℝ) → Bowl) (inv : (Nat → Nat → ℝ) → Nat → Nat → ℝ) (wt : Nat → ℝ) (tol : ℝ) :
    Nat → Nat → ℝ → (Nat → ℝ) → Prop × (Nat → ℝ)
  | 0, _, step, P => (step ≤ tol, fun i => 10 ^ P i)
  | n + 1, k, _, P =>
    let b := bowl P
    let s := inv (b.S (wt k))
    let step := b.step (wt k) s
    let P' := b.kalman (wt k) s P
    if step < tol then (step ≤ tol, fun i => 10 ^ P' i)
    else finish bowl inv wt tol n (k + 1) step P'

end OP.Pave.Back
