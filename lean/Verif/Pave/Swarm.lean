import Verif.Lin.Loop
import Mathlib.Algebra.Order.Field.Basic
/-!
# The particle swarm of the back-calculation

`src/pavement.cpp`: `LEbackcalc::swarm`.  The call of it is commented out in the code.  Exact arithmetic; `rt` is the square root, `lg`
the logarithm, `f` the error of the deflections as a function of the logarithms of the moduli.  A division by zero is `ub` here.  The
masses `m1` and `m2`, and the worst error, are printed only and left out.
-/
namespace OP.Pave.Swarm

open OP.Lin

variable {K : Type} [Field K] [LinearOrder K]

/-- The arrays (src/pavement.cpp:2539-2542) by particle and layer, `E[2p]` and `E[2p+1]`, the best particle and its error, and the points
at which the error was calculated so far (not in the code). -/
structure Sw (K : Type) where
  X : Nat → Nat → K
  V : Nat → Nat → K
  B : Nat → Nat → K
  E0 : Nat → K
  E1 : Nat → K
  best : Nat
  derr : K
  seen : List (Nat → K)

/-- The particles at the start (src/pavement.cpp:2545-2551): `u` are the random numbers of `RAND` (include/mathplus.h:165), `big` is
`DBL_MAX`, and `g` stands for what was in the memory. -/
def scatter (big : K) (P : Nat → K) (u : Nat → Nat → K) (g : Nat → Nat → K) : Sw K :=
  ⟨fun p i => max 2 (P i - 6) + (min (P i + 4) 8 - max 2 (P i - 6)) * u p i, fun _ _ => 0, g, fun _ => big, fun p => g p 0, 0, big, []⟩

/-- A particle is looked at (src/pavement.cpp:2554-2579). -/
def lookAt (f : (Nat → K) → K) (lg : K → K) (p : Nat) (s : Sw K) : Sw K :=
  let err := f (s.X p)
  let s := { s with E1 := set s.E1 p (lg err), seen := s.X p :: s.seen }
  let s := if lg err < s.E0 p then { s with E0 := set s.E0 p (lg err), B := set s.B p (s.X p) } else s
  if err < s.derr then { s with best := p, derr := err } else s

/-- All particles (src/pavement.cpp:2553-2580). -/
def sweep (f : (Nat → K) → K) (lg : K → K) (N : Nat) (s : Sw K) : Sw K := loop 0 N (lookAt f lg) s

/-- The pull of particle `q` on particle `p` (src/pavement.cpp:2620-2633). -/
def pull (rt : K → K) (nl p : Nat) (s : Sw K) (q : Nat) (v : Nat → K) : Res (Nat → K) :=
  if s.E0 q ≥ s.E1 p then .ok v
  else
    let gg := loop 0 nl (fun i a => a + (s.B q i - s.X p i) * (s.B q i - s.X p i)) 0
    let r2 := rt gg
    let m := max (1 / 10) r2
    if r2 = 0 then .ub
    else .ok (fun i => v i + 1 / 10 * (s.E1 p - s.E0 q) / (m * m) * (s.B q i - s.X p i) / r2)

/-- A particle moves (src/pavement.cpp:2616-2643): the state and the sum `dgg`.  The factor `w` is zero. -/
def moveOne (rt : K → K) (N nl p : Nat) (t : Sw K × K) : Res (Sw K × K) :=
  loopM 0 N (pull rt nl p t.1) (fun i => t.1.V p i * 0) >>= fun v =>
    let r := max 1 (rt (loop 0 nl (fun i a => a + v i * v i) 0))
    let x := fun i => if i < nl then min (max 1 (t.1.X p i + v i / r)) 9 else t.1.X p i
    let d := fun i => x i - t.1.X p i
    .ok ({ t.1 with X := set t.1.X p x, V := set t.1.V p d }, t.2 + rt (loop 0 nl (fun i a => a + d i * d i) 0) / N)

/-- The main loop (src/pavement.cpp:2552-2648), `k` rounds left; `lim` is `max(1e-6,sderr)`, `tol` is `max(1e-8,tolerance)`. -/
def swarmLoop (rt : K → K) (f : (Nat → K) → K) (lg : K → K) (lim tol : K) (N nl : Nat) : Nat → Sw K → Res (Sw K)
  | 0, s => .ok s
  | k + 1, s =>
    let s := sweep f lg N s
    if s.derr < lim then .ok s
    else loopM 0 N (moveOne rt N nl) (s, 0) >>= fun t =>
      if t.2 < tol then .ok t.1 else swarmLoop rt f lg lim tol N nl k t.1

/-- `swarm` (src/pavement.cpp:2521-2655) with `N` particles: the new logarithms, the returned length, and the last state. -/
def swarm (rt : K → K) (f : (Nat → K) → K) (lg : K → K) (big lim tol : K) (N nl : Nat) (u g : Nat → Nat → K) (P : Nat → K) :
    Res ((Nat → K) × K × Sw K) :=
  swarmLoop rt f lg lim tol N nl 10000 (scatter big P u g) >>= fun s =>
    .ok (fun i => if i < nl then min (max 1 (s.B s.best i)) 9 else P i,
      rt (loop 0 nl (fun i a => a + (P i - s.B s.best i) * (P i - s.B s.best i)) 0), s)

end OP.Pave.Swarm
