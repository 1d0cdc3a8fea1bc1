import Verif.Basic
import Mathlib.Algebra.Order.Field.Basic
import Mathlib.Algebra.Order.Group.Abs
/-!
# Root finding (include/numerics.h:66-104, src/numerics.cpp:164-313)

Doubles are elements of an ordered field, so that nothing overflows and every value is finite; `sqrt`, `eps` and
`nextafter` are parameters.  A division by 0, which is an infinity or not a number in the source, gives some value here; the
theorems do not depend on which.  A missing limit is an infinite one, and a missing start is not a number.
-/
namespace OP.Num

variable {K : Type} [Field K] [LinearOrder K]

/-- Library functions: `eps` (include/numerics.h:49-58), `std::sqrt` and `std::nextafter`. -/
structure Env (K : Type) where
  eps : K → K
  sqrt : K → K
  next : K → K → K

/-- How a search ends: a root, or one of the exceptions "Failed to bracket", "Unable to automatically bracket", "failed to
converge", "oops" and "Invalid bracket"; `infinite` if the function is to be evaluated at an infinity. -/
inductive Out (K : Type)
  | root (x : K)
  | noBracket
  | left
  | noConvergence
  | oops
  | invalid
  | infinite
deriving DecidableEq

/-- `std::copysign` -/
def copysign (a b : K) : K := if b < 0 then -|a| else |a|

/-- The variables of the second loop (src/numerics.cpp:187-188). -/
structure Hunt (K : Type) where
  x : K
  y : K
  z : K
  c : K
  X : K
  Y : K
  Z : K
  C : K
  e : K
  d : K
  fp : Bool

/-- The weight for false position (src/numerics.cpp:224-229) -/
def weight (s : Hunt K) : K :=
  if s.fp then (if 1 - s.X / s.Y ≤ 1 / 10 then 1 / 2 else 1 - s.X / s.Y) else 1

/-- Ridder's method, with `(0,0)` if it does not apply (src/numerics.cpp:254-261) -/
def ridder (v : Env K) (s : Hunt K) : K × K :=
  if s.y = s.x + 1 / 2 * (s.z - s.x) ∧ s.Y * s.Y > s.Z * s.X then
    ((s.y - s.x) * (copysign s.Y (s.Z - s.X) - v.sqrt (s.Y * s.Y - s.Z * s.X)), v.sqrt (s.Y * s.Y - s.Z * s.X))
  else if s.x = s.y + 1 / 2 * (s.z - s.y) ∧ s.X * s.X > s.Z * s.Y then
    ((s.x - s.y) * copysign s.X (s.Z - s.Y), v.sqrt (s.X * s.X - s.Z * s.Y))
  else (0, 0)

/-- Muller's method, if nothing was found so far (src/numerics.cpp:265-273) -/
def muller (v : Env K) (s : Hunt K) (pq : K × K) : K × K :=
  if pq.1 = 0 ∧ |s.X - s.C| > |s.c - s.x| then
    let p := (s.Z - s.Y) / (s.z - s.y)
    let q := (s.Y - s.X) / (s.y - s.x)
    let r := (p - q) / (s.z - s.x)
    let t := 1 / 2 * (q + (s.x - s.y) * r)
    if t * t - s.X * r ≥ 0 then (s.X, t + copysign (v.sqrt (t * t - s.X * r)) t) else (0, q)
  else pq

/-- Inverse parabolic interpolation, if nothing was found so far (src/numerics.cpp:276-280) -/
def inverse (s : Hunt K) (pq : K × K) : K × K :=
  if pq.1 = 0 then
    let t := s.X / s.Y
    let q := s.Y / s.Z
    let r := s.X / s.Z
    (t * ((s.z - s.x) * q * (q - r) - (s.x - s.y) * (r - 1)), (q - 1) * (r - 1) * (t - 1))
  else pq

/-- The fit (src/numerics.cpp:247-287): numerator, denominator, and whether it is false position. -/
def fit (v : Env K) (s : Hunt K) : (K × K) × Bool :=
  if s.y ≠ s.z ∧ s.y ≠ s.x ∧ s.x ≠ s.z then (inverse s (muller v s (ridder v s)), false)
  else
    let t := s.X / s.Y
    if (s.y - s.x) * t = 0 ∨ 2 * |(s.y - s.x) * t| > |s.e * (1 - t)| then
      (((s.c - s.x) * (s.X / (weight s * s.C)), 1 - s.X / (weight s * s.C)), true)
    else (((s.y - s.x) * t, 1 - t), false)

/-- `tol` (src/numerics.cpp:237) -/
def tol (v : Env K) (x : K) : K := 2 * v.eps (max |x| (1 / 1000000))

/-- The step, with what becomes of `e` and `fp` (src/numerics.cpp:288-293) -/
def propose (v : Env K) (s : Hunt K) : K × K × Bool :=
  let r := fit v s
  let p := if r.1.1 > 0 then r.1.1 else -r.1.1
  let q := if r.1.1 > 0 then -r.1.2 else r.1.2
  if p ≠ 0 ∧ q ≠ 0 ∧ 2 * p < 3 / 2 * (s.c - s.x) * q - |tol v s.x * q| ∧ 2 * p < |s.e * q| then (p / q, s.d, r.2)
  else (1 / 2 * (s.c - s.x), 1 / 2 * (s.c - s.x), false)

/-- The new point, and bisection after a very small step (src/numerics.cpp:294-299) -/
def move (f : K → K) (v : Env K) (s : Hunt K) : Hunt K :=
  let r := propose v s
  if |r.1| < tol v s.x ∧ |f (s.x + r.1)| > v.eps s.C then
    { s with z := s.y, Z := s.Y, y := s.x, Y := s.X, x := s.x + 1 / 2 * (s.c - s.x)
             X := f (s.x + 1 / 2 * (s.c - s.x)), e := 1 / 2 * (s.c - s.x), d := 1 / 2 * (s.c - s.x), fp := false }
  else { s with z := s.y, Z := s.Y, y := s.x, Y := s.X, x := s.x + r.1, X := f (s.x + r.1), e := r.2.1, d := r.1
                fp := r.2.2 }

/-- `X > 0 == C > 0` -/
def sameSide (X C : K) : Bool := decide (X > 0) == decide (C > 0)

/-- Keeping the other end of the bracket on the other side (src/numerics.cpp:301-308) -/
def other (s : Hunt K) : Hunt K :=
  if sameSide s.X s.C then
    if |s.Y| < |s.X| then
      { s with x := s.y, y := s.x, c := s.x, X := s.Y, Y := s.X, C := s.X, e := s.x - s.y, d := s.x - s.y, fp := false }
    else { s with c := s.y, C := s.Y, e := s.y - s.x, d := s.y - s.x, fp := false }
  else s

/-- The second loop (src/numerics.cpp:222-312), with `n` iterations left before it throws. -/
def hunt (f : K → K) (v : Env K) : Nat → Hunt K → Out K
  | n, s =>
    if s.X = 0 ∨ s.d = 0 then .root s.x
    else match n with
      | 0 => .noConvergence
      | n + 1 =>
        if |s.c - s.x| ≤ 2 * tol v s.x then .root s.x
        else
          let t := other (move f v s)
          if sameSide t.X t.C then .oops else hunt f v n t

/-- `a < l` for a lower limit, and `a > r` for an upper limit; a missing limit is infinite. -/
def below (a : K) : Option K → Bool
  | none => false
  | some l => decide (a < l)
@[inherit_doc below]
def above (a : K) : Option K → Bool
  | none => false
  | some r => decide (a > r)

/-- The interval to be extended, kept inside the limits (src/numerics.cpp:203-207) -/
def extent (x y : K) (ll lr : Option K) : K :=
  let e := x - y
  let e := match ll with
    | some l => if x + 2 * e < l then (l - x) / 2 else e
    | none => e
  match lr with
    | some r => if x + 2 * e > r then (r - x) / 2 else e
    | none => e

/-- The next point of the first loop (src/numerics.cpp:209-214) -/
def further (v : Env K) (x y X Y : K) (ll lr : Option K) : K :=
  let e := extent x y ll lr
  let d := 105 / 100 * (if Y ≠ X then -X * e / (X - Y) else e)
  if |d| > v.eps e ∧ |d| < 8 * |e| ∧ (∀ l ∈ ll, x + d > l) ∧ (∀ r ∈ lr, x + d < r) then x + d else x + 2 * e

/-- The first loop (src/numerics.cpp:196-221), with `n` iterations left before it throws, and then the second. -/
def search (f : K → K) (v : Env K) (ll lr : Option K) : Nat → K → K → K → K → K → K → Out K
  | n, x, y, z, X, Y, Z =>
    let s := if |Y| < |X| then (y, x, Y, X) else (x, y, X, Y)
    let x := s.1; let y := s.2.1; let X := s.2.2.1; let Y := s.2.2.2
    if !sameSide Y X then hunt f v (90 + n) ⟨x, y, z, y, X, Y, Z, Y, x - y, x - y, false⟩
    else match n with
      | 0 => .noBracket
      | n + 1 =>
        let x' := further v x y X Y ll lr
        if below x' ll || above x' lr then .left else search f v ll lr n x' x y (f x') X Y

/-- `fzero_core` (src/numerics.cpp:183-313) -/
def core (f : K → K) (v : Env K) (x y : K) (ll lr : Option K) : Out K := search f v ll lr 10 x y y (f x) (f y) (f y)

/-- The order of the arguments (include/numerics.h:76-81) -/
def arrange (b ll lr : Option K) : Option K × Option K × Option K :=
  match b, ll with
  | some b, some l => if l > b then (match lr with
      | some r => (some l, some b, some r)
      | none => (some b, some b, some l)) else (some b, some l, lr)
  | b, ll => (b, ll, lr)

/-- Leaving out the limits (include/numerics.h:85-89) -/
def tighten (v : Env K) (b ll lr : Option K) : Option K × Option K :=
  match b, ll, lr with
  | some b, some l, some r => if l < b ∧ r > b then (some (v.next l b), some (v.next r b)) else (some l, some r)
  | _, ll, lr => (ll, lr)

/-- The start (include/numerics.h:93-103) -/
def start (f : K → K) (v : Env K) (b ll lr : Option K) : Out K :=
  if (match ll, lr with | some l, some r => decide (r ≤ l) | _, _ => false) then .invalid
  else
    let x := b.getD (ll.getD 0)
    match lr with
    | none => core f v x (x + if |x| < 1 then 5 / 100 else x / 20) ll lr
    | some r => if x = r then (match ll with
        | some l => core f v x l ll lr
        | none => .infinite) else core f v x r ll lr

/-- `fzero` (include/numerics.h:69-104); limits are numbers or the infinity of their side. -/
def fzero (f : K → K) (v : Env K) (b ll lr : Option K) : Out K :=
  let a := arrange b ll lr
  let t := tighten v a.1 a.2.1 a.2.2
  start f v a.1 t.1 t.2

end OP.Num
