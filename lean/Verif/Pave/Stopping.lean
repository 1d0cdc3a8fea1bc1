import Mathlib.Analysis.SpecialFunctions.Trigonometric.Basic
import Mathlib.Topology.UniformSpace.HeineCantor
import Mathlib.Topology.Order.Compact
/-!
# Where the integrals of a layered system stop (src/pavement.cpp:685-777)

Real arithmetic.  The tables `j0r`, `j1r`, `j0m` and `j0p` of roots (src/pavement.cpp:579-678) are functions of the index, as
arrays are elsewhere; that nothing past their end is used is a theorem.
-/
namespace OP.Pave.Stopping

/-- `j1j0(m,a,r)` (src/pavement.cpp:686) -/
noncomputable def j1j0 (a r m : ℝ) : ℝ := Real.sin ((a + r) * m) / (a + r) + Real.cos ((a - r) * m) / (a - r)

/-- `j1j1(m,a,r)` (src/pavement.cpp:687) -/
noncomputable def j1j1 (a r m : ℝ) : ℝ := Real.sin ((a - r) * m) / (a - r) + Real.cos ((a + r) * m) / (a + r)

open Classical in
/-- The loop of `refine_m0` and `refine_m1` (src/pavement.cpp:692-699, 705-712), which differ in the order of a product.
`none`: it has not ended; `some none`: the two values are the same, and the division gives no number; `eps` is
`DBL_EPSILON`. -/
noncomputable def refineLoop (f : ℝ → ℝ) (eps : ℝ) : Nat → ℝ → ℝ → ℝ → ℝ → Option (Option ℝ)
  | 0, _, _, _, _ => none
  | fuel + 1, ma, mb, ya, yb =>
    if ya - yb = 0 then some none
    else
      let m0 := ma - (ma - mb) * ya / (ya - yb)
      let y0 := f m0
      if ma = m0 ∨ mb = m0 then some (some m0)
      else
        let ma' := if yb * y0 < 0 then m0 else ma
        let mb' := if yb * y0 < 0 then mb else m0
        let ya' := if ma' = m0 then y0 else ya
        let yb' := if ma' = m0 then yb else y0
        if |y0| > eps then refineLoop f eps fuel ma' mb' ya' yb' else some (some m0)

/-- `refine_m0`, `refine_m1` (src/pavement.cpp:689-713) for the function `f` -/
noncomputable def refine (f : ℝ → ℝ) (eps : ℝ) (fuel : Nat) (ma mb : ℝ) : Option (Option ℝ) :=
  refineLoop f eps fuel ma mb (f ma) (f mb)

/-- `for (ib = nbz; ib > 0 && c(ib); ib--)` -/
def back (c : Nat → Prop) [DecidablePred c] : Nat → Nat
  | 0 => 0
  | ib + 1 => if c (ib + 1) then back c ib else ib + 1

/-- The tables. -/
structure Tables where
  j0r : Nat → ℝ
  j1r : Nat → ℝ
  j0m : Nat → ℝ
  j0p : Nat → ℝ

open Classical in
/-- The first estimates of `*m0` and `*m1` (src/pavement.cpp:727-756), as products with the smaller of radius and distance. -/
noncomputable def guess (T : Tables) (nbz : Nat) (a r : ℝ) : ℝ × ℝ :=
  let ra := r / a
  let r1 := |ra - 1|
  if ra > 0 ∧ ra ≤ 1 / 2 then
    (T.j1r (back (fun ib => T.j1r ib > T.j1r nbz * ra) nbz) / ra,
      T.j0r (back (fun ib => T.j0r ib > T.j1r nbz * ra) nbz) / ra)
  else if ra > 1 / 2 ∧ ra ≠ 1 ∧ ra < 2 then
    (T.j0m (back (fun ib => T.j0m ib > r1 * (if ra < 1 then T.j1r nbz else T.j0r nbz / ra)) nbz) / r1,
      T.j0p (back (fun ib => T.j0p ib > r1 * (if ra < 1 then T.j1r nbz else T.j1r nbz / ra)) nbz) / r1)
  else if ra ≥ 2 then
    (T.j0r (back (fun ib => T.j0r ib > T.j0r nbz / ra) nbz), T.j0r (back (fun ib => T.j0r ib > T.j1r nbz / ra) nbz))
  else (T.j0r nbz / a, if ra = 0 then 0 else T.j0r nbz / a)

open Classical in
/-- `stoppingpoints` (src/pavement.cpp:720-777): `*m0` and `*m1`. -/
noncomputable def stoppingpoints (eps : ℝ) (fuel : Nat) (T : Tables) (nbz : Nat) (a r : ℝ) :
    Option (Option ℝ) × Option (Option ℝ) :=
  let ra := r / a
  let m := guess T nbz a r
  if ra > 0 ∧ ra < 1 then
    let ib := back (fun ib => T.j1r ib ≥ m.1) nbz
    let ic := back (fun ib => T.j1r ib ≥ m.2) nbz
    (if ib = nbz then some (some (T.j0r nbz / a)) else refine (j1j0 a r) eps fuel (T.j1r ib / a) (T.j1r (ib + 1) / a),
      if ic = nbz then some (some (T.j0r nbz / a)) else refine (j1j1 a r) eps fuel (T.j1r ic / a) (T.j1r (ic + 1) / a))
  else if ra > 1 then
    let ib := back (fun ib => T.j0r ib / ra ≥ m.1) nbz
    let ic := back (fun ib => T.j1r ib / ra ≥ m.2) nbz
    (if ib = nbz then some (some (T.j1r nbz / r)) else refine (j1j0 a r) eps fuel (T.j0r ib / r) (T.j0r (ib + 1) / r),
      if ic = nbz then some (some (T.j0r nbz / r)) else refine (j1j1 a r) eps fuel (T.j1r ic / r) (T.j1r (ic + 1) / r))
  else (some (some m.1), some (some m.2))

end OP.Pave.Stopping
