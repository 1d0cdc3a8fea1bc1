import Verif.Num.Fmin
import Verif.Lin.Loop
/-!
# The line search and the conjugate gradients of the back-calculation

`src/pavement.cpp`: `LEbackcalc::brent` and `LEbackcalc::conjgrad`.  The calls of both are commented out in the code.  Exact
arithmetic; the error of the deflections (`bowlerror`) is a function `f` of the logarithms of the moduli.  The loops of the line
search have no bound in the code: `none` is a loop that has not ended after `n` rounds.
-/
namespace OP.Pave.LineSearch

open OP.Num OP.Lin

variable {K : Type} [Field K] [LinearOrder K]

/-- `bowlerror(nl,P,s,D)` (src/pavement.cpp:2003-2020): the error at a place on the line. -/
def along (f : (Nat → K) → K) (P D : Nat → K) (s : K) : K := f (fun i => P i + s * D i)

/-- The three points of the start (src/pavement.cpp:2267-2281) and the direction, which is turned if the error is smaller behind. -/
def open3 (f : (Nat → K) → K) (gr : K) (P D : Nat → K) : (Nat → K) × Tri K :=
  let a := -(1 / 20)
  let A := along f P D a
  let B := along f P D 0
  if B > A then
    let D' := fun i => -D i
    let c := -a
    (D', ⟨-c / gr, 0, c, along f P D' (-c / gr), B, A⟩)
  else (D, ⟨a, 0, -a * gr, A, B, along f P D (-a * gr)⟩)

/-- The turning point of the parabola (src/pavement.cpp:2285-2286). -/
def turn (t : Tri K) : K :=
  let r := (t.b - t.a) * (t.B - t.C)
  let q := (t.b - t.c) * (t.B - t.A)
  if r ≠ q then t.b - ((t.b - t.a) * r - (t.b - t.c) * q) / (2 * (q - r)) else 1

/-- One round of the first loop (src/pavement.cpp:2285-2313). -/
def widen (g : K → K) (gr : K) (t : Tri K) : Tri K :=
  let x := turn t
  if x > t.b ∧ x < t.c then
    if g x < t.C then ⟨t.b, x, t.c, t.B, g x, t.C⟩
    else if g x > t.B then ⟨t.a, t.b, x, t.A, t.B, g x⟩
    else ⟨t.b, t.c, x, t.B, t.C, g x⟩
  else if x > t.c then
    if g x < t.C then
      let y := x + (x - t.c) * gr
      ⟨t.c, x, y, t.C, g x, g y⟩
    else ⟨t.b, t.c, x, t.B, t.C, g x⟩
  else
    let y := t.c + (t.c - t.b) * gr
    ⟨t.b, t.c, y, t.B, t.C, g y⟩

/-- The first loop (src/pavement.cpp:2284-2314). -/
def bracket (g : K → K) (gr : K) : Nat → Tri K → Option (Tri K)
  | 0, _ => none
  | n + 1, t => if t.A ≥ t.B ∧ t.B ≥ t.C then bracket g gr n (widen g gr t) else some t

/-- The start of the second loop (src/pavement.cpp:2318-2321). -/
def arrange3 (t : Tri K) : Ref K :=
  if t.C < t.A then ⟨t.a, t.b, t.c, t.c, t.a, t.B, t.C, t.A⟩ else ⟨t.a, t.b, t.c, t.a, t.c, t.B, t.A, t.C⟩

/-- The next point of the second loop (src/pavement.cpp:2325-2330). -/
def nextPoint (gc : K) (s : Ref K) : K :=
  let r := (s.b - s.z) * (s.B - s.Y)
  let q := (s.b - s.y) * (s.B - s.Z)
  let x := if r ≠ q then s.b - ((s.b - s.z) * r - (s.b - s.y) * q) / (2 * (r - q)) else 0
  if x = 0 ∨ x < (s.a + s.b) / 2 ∨ x > (s.b + s.c) / 2 then
    s.b + gc * (if s.c - s.b < s.b - s.a then s.a - s.b else s.c - s.b)
  else x

/-- What is done with it (src/pavement.cpp:2332-2343).  In the last branch the code stores the place as the value. -/
def tighten (g : K → K) (s : Ref K) (x : K) : Ref K :=
  if g x ≤ s.B then
    let s' := if x < s.b then { s with c := s.b } else { s with a := s.b }
    { s' with z := s.y, y := s.b, b := x, Z := s.Y, Y := s.B, B := g x }
  else
    let s' := if x < s.b then { s with a := x } else { s with c := x }
    if g x ≤ s.Y ∨ x = s.y then { s' with z := s.y, y := x, Z := s.Y, Y := g x }
    else if g x ≤ s.Z ∨ x = s.z ∨ s.y = s.z then { s' with z := x, Z := x }
    else s'

/-- The second loop (src/pavement.cpp:2323-2344): the last state, and the points looked at. -/
def hunt (g : K → K) (gc tol : K) : Nat → Ref K → Option (Ref K × List K)
  | 0, _ => none
  | n + 1, s =>
    if s.c - s.a > tol * (1 + s.b) then
      (hunt g gc tol n (tighten g s (nextPoint gc s))).map fun r => (r.1, nextPoint gc s :: r.2)
    else some (s, [])

/-- What the line search leaves: the new logarithms, the direction, the place returned, the bracket of the first loop, the last
state, and the points looked at by the second loop. -/
structure Found (K : Type) where
  P : Nat → K
  D : Nat → K
  b : K
  tri : Tri K
  last : Ref K
  looked : List K

/-- `brent` (src/pavement.cpp:2257-2348). -/
def brent (f : (Nat → K) → K) (gc tol : K) (n : Nat) (P D : Nat → K) : Option (Found K) :=
  let o := open3 f (1 / (1 - gc)) P D
  (bracket (along f P o.1) (1 / (1 - gc)) n o.2).bind fun t =>
  (hunt (along f P o.1) gc tol n (arrange3 t)).map fun s =>
    ⟨fun i => P i + s.1.b * o.1 i, o.1, s.1.b, t, s.1, s.2⟩

/-- The variables of the conjugate gradients: `W`, `D`, `dgg`, `derr` and `step`. -/
structure Cg (K : Type) where
  W : Nat → K
  D : Nat → K
  dgg : K
  derr : K
  step : K

/-- The loop of `conjgrad` (src/pavement.cpp:2374-2395), `k` rounds left of `maxsteps*nl+1`.  `grad` is minus the gradient as the loop
:2383-2389 adds it up, `stop` the test :2391 (the logarithms and the tolerance); `n` bounds the line searches. -/
def cgLoop (f : (Nat → K) → K) (gc tol : K) (n : Nat) (grad : (Nat → K) → Nat → K) (stop : K → K → K → K → Bool) (nl : Nat) :
    Nat → Cg K → Option (Cg K)
  | 0, s => some s
  | k + 1, s =>
    (if s.dgg ≠ 0 then (brent f gc tol n s.W s.D).map fun r => { s with W := r.P, D := r.D, step := s.dgg * r.b } else some s).bind fun s =>
    let D := grad s.W
    let dgg := loop 0 nl (fun i a => a + D i * D i) 0
    let derr := f s.W
    if stop dgg s.derr derr s.step then some { s with D := D, dgg := dgg, derr := derr }
    else
      let D' := if s.dgg ≠ 0 then fun i => D i + dgg * s.D i / s.dgg else D
      cgLoop f gc tol n grad stop nl k { s with D := D', dgg := dgg, derr := derr }

/-- `conjgrad` (src/pavement.cpp:2355-2400): the new logarithms, the sum of squares whose root is returned, and the last state. -/
def conjgrad (f : (Nat → K) → K) (gc tol : K) (n : Nat) (grad : (Nat → K) → Nat → K) (stop : K → K → K → K → Bool) (big : K)
    (nl maxsteps : Nat) (P : Nat → K) : Option ((Nat → K) × K × Cg K) :=
  (cgLoop f gc tol n grad stop nl (maxsteps * nl + 1) ⟨P, fun _ => 0, 0, big, 1⟩).map fun s =>
    (fun i => if i < nl then min (max 1 (s.W i)) 9 else P i, loop 0 nl (fun i a => a + (P i - s.W i) * (P i - s.W i)) 0, s)

end OP.Pave.LineSearch
