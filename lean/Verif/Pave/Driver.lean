import Verif.Pave.Kalman
import Verif.Pave.Simplex
import Verif.Pave.DeflGrad
import Mathlib.Analysis.SpecialFunctions.Log.Base
/-!
# The driver of the back-calculation

`src/pavement.cpp`: `LEbackcalc::backcalc`, `seed` and `bowlerror`.  Real arithmetic without rounding.  What the state of the system
(points, cached results) does is C50; here, what `calculate` finds for given moduli is a parameter, so that only the moduli and the
steps matter.
-/
namespace OP.Pave.Back

open Finset

/-- What a back-calculation needs: the settings, what `calculate` stores for the moduli `10^P` (`bowl`), the inversion of matrices, and
the steps.  `dg` is `deflgrad` with the matrix of directions as its state, `dsm` is `none` if it does not end, `seed` is what `seed` gives. -/
structure Env (S : Type) where
  nl : Nat
  maxsteps : Nat
  tol : ℝ
  bowl : (Nat → ℝ) → Bowl
  inv : (Nat → Nat → ℝ) → Nat → Nat → ℝ
  dg : (Nat → ℝ) → S → (Nat → ℝ) × S × ℝ
  dsm : (Nat → ℝ) → Option (Nat → ℝ)
  seed : Nat → ℝ
  Q0 : S

/-- `std::exp(-(5.0+ksteps++))` (src/pavement.cpp:1920). -/
noncomputable def kwt (k : Nat) : ℝ := Real.exp (-(5 + k))

/-- `step_len` (src/pavement.cpp:1778-1786). -/
noncomputable def away (nl : Nat) (O P : Nat → ℝ) : ℝ := √(∑ i ∈ range nl, (O i - P i) * (O i - P i))

/-- The first loop (src/pavement.cpp:1855-1901), with the number of rounds left: the logarithms, the length of the last step and the
number of rounds that are left then. -/
noncomputable def grads {S : Type} (e : Env S) (O : Nat → ℝ) : Nat → (Nat → ℝ) → S → ℝ → ℝ → (Nat → ℝ) × ℝ × Nat
  | 0, P, _, step, _ => (P, step, 0)
  | m + 1, P, Q, astep, tstep =>
    let r := e.dg P Q
    let step := r.2.2
    let tstep := tstep + step
    if astep < 0.1 ∧ astep < step ∧ e.tol ≤ step then (P, step, m)
    else
      let ostep := away e.nl O r.1
      if step < 1e2 * e.tol ∨ 60 < tstep / step ∨ ostep = 0 ∨ 6 < tstep / ostep then (r.1, step, m)
      else grads e O m r.1 r.2.1 step tstep

/-- `backcalc` from the moduli at the start on (src/pavement.cpp:1828-1964): the value returned and the moduli; `none` if `dsm` does not
end. -/
noncomputable def backcalc {S : Type} (e : Env S) (E : Nat → ℝ) : Option (Prop × (Nat → ℝ)) :=
  open Classical in
  let seeded := ∀ i < e.nl, ¬E i ≤ 0
  let P := fun i => Real.logb 10 (E i)
  let s := e.inv ((e.bowl P).S 1)
  let step := if seeded then (e.bowl P).step 1 s else 1
  if seeded ∧ step < e.tol then some (True, E)
  else
    let P1 := if ¬seeded ∨ 0.5 < step then e.seed else (e.bowl P).kalman 1 s P
    let O := if ¬seeded ∨ 0.5 < step then e.seed else P
    let g := grads e O (e.maxsteps * e.nl) P1 e.Q0 step 0
    (if 0.1 ≤ g.2.1 then e.dsm g.1 else some g.1).map fun P => finish e.bowl e.inv kwt e.tol g.2.2 0 g.2.1 P

/-- `seed` (src/pavement.cpp:1970-1995), with the pressure and the integral `quad8_vdp` of each load of the group of each deflection. -/
noncomputable def seed (dl : Nat) (measured : Nat → ℝ) (loads : Nat → List (ℝ × ℝ)) : ℝ :=
  open Classical in
  let E := ∑ j ∈ range dl, if measured j ≤ 0 then 0 else ((loads j).map fun l => l.1 * l.2 / max (measured j) 1e-4).sum
  if ∃ j < dl, measured j ≤ 0 then 2 else Real.logb 10 (min (max 1e3 (E / dl)) 1e6)

/-- `bowlerror` (src/pavement.cpp:2003-2020), for the deflections as calculated. -/
noncomputable def bowlerror (dl : Nat) (measured calculated : Nat → ℝ) : ℝ :=
  √((∑ j ∈ range dl, (measured j - calculated j) ^ 2) / dl)

/-- What a calculation gives a back-calculation besides the bowl: the gradients along the directions `Q` (src/pavement.cpp:2064,2074), and the
loads of the group of each deflection; `D0` and `G0` are uninitialised memory and `rounds` bounds the rounds of `dsm`. -/
structure Extra where
  pg : (Nat → ℝ) → (Nat → ℝ) → Nat → ℝ
  loads : Nat → List (ℝ × ℝ)
  D0 : Nat → ℝ
  G0 : Nat → ℝ
  rounds : Nat

/-- The back-calculation with the steps of the code: `deflgrad` (C96), `dsm` (C95) and `seed` (src/pavement.cpp:1846,1857,1903). -/
noncomputable def Env.real (nl dl maxsteps : Nat) (tol precision : ℝ) (measured : Nat → ℝ) (bowl : (Nat → ℝ) → Bowl)
    (inv : (Nat → Nat → ℝ) → Nat → Nat → ℝ) (x : Extra) : Env (Nat → ℝ) where
  nl := nl
  maxsteps := maxsteps
  tol := tol
  bowl := bowl
  inv := inv
  dg P Q := Grad.deflgrad Real.sqrt ⟨nl, dl, x.pg P Q, fun j => (bowl P).defl ((bowl P).lg j) j, measured, precision⟩ P Q x.D0 x.G0
  dsm P := (Simplex.dsm Real.sqrt (fun P => some (bowlerror dl measured fun j => (bowl P).defl ((bowl P).lg j) j)) tol nl x.rounds P).map
    fun r => r.1
  seed := fun _ => Back.seed dl measured x.loads
  Q0 := fun k => if k / nl = k % nl then 1 else 0

end OP.Pave.Back
