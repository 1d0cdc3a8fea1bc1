import Verif.Basic
import Mathlib.Algebra.Order.Field.Basic
import Mathlib.Algebra.Order.Group.Abs
/-!
# Minimisation (src/numerics.cpp:34-162)

Doubles are elements of an ordered field; `GC` and `eps` are parameters.  A missing argument is one that is not a number.
Next to its result the model returns the points at which the second loop looked, which the source does not.
-/
namespace OP.Num

variable {K : Type} [Field K] [LinearOrder K]

/-- The constant `GC` (src/numerics.cpp:47) and `eps` (include/numerics.h:49-58). -/
structure MinEnv (K : Type) where
  gc : K
  eps : K → K

/-- The constant `GR` (src/numerics.cpp:48) -/
def MinEnv.gr (v : MinEnv K) : K := 1 / (1 - v.gc)

/-- Three points with their values (src/numerics.cpp:50). -/
structure Tri (K : Type) where
  a : K
  b : K
  c : K
  A : K
  B : K
  C : K
deriving DecidableEq

/-- The start from at most two points (src/numerics.cpp:71-83) -/
def dream (f : K → K) (v : MinEnv K) (a b : Option K) : Tri K :=
  let s := match b with
    | none => (b, a)
    | some _ => (a, b)
  let b := s.2.getD 0
  let a := s.1.getD (if b = 0 then -5 / 100 else b - b / 20)
  if f b > f a then ⟨b + (b - a) * v.gr, b, a, f (b + (b - a) * v.gr), f b, f a⟩
  else ⟨a, b, b + (b - a) * v.gr, f a, f b, f (b + (b - a) * v.gr)⟩

/-- The start (src/numerics.cpp:54-84) -/
def begin (f : K → K) (v : MinEnv K) (a b : Option K) : Tri K :=
  match a, b with
  | some a, some b =>
    if a = b then dream f v none (some b)
    else
      let m := b + v.gc * (a - b)
      if f a ≤ f m ∧ f m ≤ f b then dream f v (some b) (some a) else ⟨a, m, b, f a, f m, f b⟩
  | a, b => dream f v a b

/-- The point `x` of the first loop (src/numerics.cpp:89-90) -/
def turning (t : Tri K) : K :=
  let r := (t.b - t.a) * (t.B - t.C)
  let q := (t.b - t.c) * (t.B - t.A)
  if r ≠ q then t.b - ((t.b - t.a) * r - (t.b - t.c) * q) / |2 * (q - r)| else t.a

/-- One iteration of the first loop (src/numerics.cpp:89-123) -/
def extend (f : K → K) (v : MinEnv K) (t : Tri K) : Tri K :=
  let x := turning t
  let y := t.c + (t.c - t.b) * v.gr
  if x > min t.b t.c ∧ x < max t.b t.c then
    if f x < t.C then ⟨t.b, x, t.c, t.B, f x, t.C⟩
    else if f x > t.B then ⟨t.a, t.b, x, t.A, t.B, f x⟩
    else ⟨t.b, x, t.c, t.B, f x, t.C⟩
  else if x > min t.c y ∧ x < max t.c y then
    if f x < t.C then ⟨t.c, x, y, t.C, f x, f y⟩ else ⟨t.b, t.c, x, t.B, t.C, f x⟩
  else ⟨t.b, t.c, y, t.B, t.C, f y⟩

/-- The first loop (src/numerics.cpp:86-124), with `n` iterations left before it throws; returns how many are left. -/
def settle (f : K → K) (v : MinEnv K) : Nat → Tri K → Res (Nat × Tri K)
  | n, t =>
    if t.A ≥ t.B ∧ t.B ≥ t.C then
      match n with
      | 0 => .throw
      | n + 1 => settle f v n (extend f v t)
    else .ok (n, t)

/-- The variables of the second loop. -/
structure Ref (K : Type) where
  a : K
  b : K
  c : K
  y : K
  z : K
  B : K
  Y : K
  Z : K

/-- The start of the second loop (src/numerics.cpp:130-135) -/
def arrangeTri (t : Tri K) : Ref K :=
  let s := if t.a > t.c then (t.c, t.a, t.C, t.A) else (t.a, t.c, t.A, t.C)
  let a := s.1; let c := s.2.1; let A := s.2.2.1; let C := s.2.2.2
  if C < A then ⟨a, t.b, c, c, a, t.B, C, A⟩ else ⟨a, t.b, c, a, c, t.B, A, C⟩

/-- The parabolic approximation (src/numerics.cpp:141-142) -/
def vertex (s : Ref K) : K :=
  let r := (s.b - s.z) * (s.B - s.Y)
  let q := (s.b - s.y) * (s.B - s.Z)
  if r ≠ q then s.b - ((s.b - s.z) * r - (s.b - s.y) * q) / (2 * (r - q)) else s.b

/-- The next point (src/numerics.cpp:141-146) -/
def point (v : MinEnv K) (s : Ref K) : K :=
  if (s.b - s.z) * (s.B - s.Y) = (s.b - s.y) * (s.B - s.Z) ∨ 2 * vertex s < s.a + s.b ∨ 2 * vertex s > s.b + s.c then
    s.b + v.gc * (if s.c - s.b < s.b - s.a then s.a - s.b else s.c - s.b)
  else vertex s

/-- What is done with the next point (src/numerics.cpp:147-159) -/
def close (f : K → K) (s : Ref K) (x : K) : Ref K :=
  if f x ≤ s.B then
    let s' := if x < s.b then { s with c := s.b } else { s with a := s.b }
    { s' with z := s.y, y := s.b, b := x, Z := s.Y, Y := s.B, B := f x }
  else
    let s' := if x < s.b then { s with a := x } else { s with c := x }
    if f x ≤ s.Y ∨ x = s.y then { s' with z := s.y, y := x, Z := s.Y, Y := f x }
    else if f x ≤ s.Z ∨ x = s.z ∨ s.y = s.z then { s' with z := x, Z := f x }
    else s'

/-- The second loop (src/numerics.cpp:137-161), with `n` iterations left before it throws. -/
def refine (f : K → K) (v : MinEnv K) : Nat → Ref K → Res (K × List K)
  | n, s =>
    if s.c - s.a > 4 * v.eps s.b ∧ (s.Y > s.B ∨ s.Z > s.B) then
      match n with
      | 0 => .throw
      | n + 1 => refine f v n (close f s (point v s)) >>= fun r => .ok (r.1, point v s :: r.2)
    else .ok (s.b, [])

/-- `fmin_brent` (src/numerics.cpp:44-162): the result, the three points the second loop starts from, and the points at
which it looks. -/
def fmin (f : K → K) (v : MinEnv K) (a b : Option K) : Res (K × Tri K × List K) :=
  settle f v 10 (begin f v a b) >>= fun t => refine f v (90 + t.1) (arrangeTri t.2) >>= fun r => .ok (r.1, t.2, r.2)

end OP.Num
