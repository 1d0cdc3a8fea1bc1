import Verif.Lin.Loop
import Mathlib.Analysis.SpecialFunctions.Trigonometric.Basic
/-!
# The points and weights of the integration

`src/pavement.cpp`: the first loop of `initarrays`.  Real numbers for doubles.
-/
namespace OP.Pave.Gauss

open OP.Lin

/-- `p1` and `p2` after the inner loop (src/pavement.cpp:610-612). -/
noncomputable def legendre (n : Nat) (z : ℝ) : ℝ × ℝ :=
  loop 0 n (fun j p => (z * p.1 + j * (z * p.1 - p.2) / (j + 1), p.1)) (1, 0)

/-- `pp` (src/pavement.cpp:613). -/
noncomputable def slope (n : Nat) (z : ℝ) : ℝ := n * (z * (legendre n z).1 - (legendre n z).2) / (z * z - 1)

/-- The do-while loop (src/pavement.cpp:609-614): `z` and `pp` when it ends; `none` if the fuel is used up. -/
noncomputable def newton (eps : ℝ) (n : Nat) : Nat → ℝ → Option (ℝ × ℝ)
  | 0, _ => none
  | m + 1, z =>
    let p1 := (legendre n z).1
    let pp := slope n z
    let z := z - p1 / pp
    if eps < |p1 / pp| then newton eps n m z else some (z, pp)

/-- The first guess (src/pavement.cpp:608). -/
noncomputable def guess (n i : Nat) : ℝ := Real.cos (Real.pi * (i + 0.75) / (n + 0.5))

/-- One row of the tables (src/pavement.cpp:607-617), from the points and slopes that the inner loop ends with. -/
noncomputable def row (n : Nat) (z pp : Nat → ℝ) : (Nat → ℝ) × (Nat → ℝ) :=
  loop 0 ((n + 1) / 2) (fun i t =>
    let w := 2 / (1 - z i * z i) / pp i / pp i
    (set (set t.1 i (-z i)) (n - 1 - i) (z i), set (set t.2 (n - 1 - i) w) i w)) (fun _ => 0, fun _ => 0)

end OP.Pave.Gauss
