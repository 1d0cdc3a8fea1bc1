import Verif.Lin.Loop
import Mathlib.Algebra.Order.Field.Basic
/-!
# The downhill simplex search of the back-calculation

`src/pavement.cpp`: `LEbackcalc::dsm`.  Exact arithmetic, `rt` is the square root.  The error of the deflections for given
logarithms of the moduli (`bowlerror`) is a parameter `f`, because it depends on nothing else while the search runs; `none` is a
value that is not a number.
-/
namespace OP.Pave.Simplex

open OP.Lin

variable {K : Type} [Field K] [LinearOrder K]

/-- `a < b` on doubles. -/
def xlt : Option K → Option K → Bool
  | some a, some b => decide (a < b)
  | _, _ => false

/-- `a >= b` on doubles. -/
def xge : Option K → Option K → Bool
  | some a, some b => decide (b ≤ a)
  | _, _ => false

/-- A row of `V`: the logarithms of the moduli, and the error in the last column. -/
structure Vtx (K : Type) where
  x : Nat → K
  e : Option K

/-- The simplex, and the points at which the error was calculated so far (not in the code). -/
structure Sx (K : Type) where
  V : Nat → Vtx K
  seen : List (Nat → K)

/-- `step_len` (src/pavement.cpp:1778-1786). -/
def stepLen (rt : K → K) (nl : Nat) (O P : Nat → K) : K :=
  rt (loop 0 nl (fun i s => s + (O i - P i) * (O i - P i)) 0)

/-- A row with its error (src/pavement.cpp:2416,2422). -/
def eval (f : (Nat → K) → Option K) (x : Nat → K) : Vtx K := ⟨x, f x⟩

/-- `reflect` (src/pavement.cpp:2418-2423), without the error. -/
def reflect (A P : Nat → K) (c : K) : Nat → K := fun i => P i + c * (P i - A i)

/-- `midpoint` (src/pavement.cpp:2412-2417), without the error. -/
def midpoint (A B : Nat → K) : Nat → K := fun i => (A i + B i) / 2

/-- The simplex at the start (src/pavement.cpp:2436-2442). -/
def start (f : (Nat → K) → Option K) (nl : Nat) (P : Nat → K) : Sx K :=
  loop 1 (nl + 1) (fun i s =>
    let x := set (s.V 0).x (i - 1) ((s.V 0).x (i - 1) + (if i < nl / 2 then 1 / 10 else -(1 / 10)))
    ⟨set s.V i (eval f x), x :: s.seen⟩) ⟨fun _ => eval f P, [P]⟩

/-- Sorting the rows (src/pavement.cpp:2445-2453). -/
def order (nl : Nat) (V : Nat → Vtx K) : Nat → Vtx K :=
  loop 0 (nl + 1) (fun i V =>
    loop (i + 1) (nl + 1) (fun j V => bif xlt (V j).e (V i).e then swp V i j else V) V) V

/-- The largest distance (src/pavement.cpp:2454-2457). -/
def diam (rt : K → K) (nl : Nat) (V : Nat → Vtx K) : K :=
  loop 0 (nl + 1) (fun i a =>
    loop (i + 1) (nl + 1) (fun j a => max a (stepLen rt nl (V i).x (V j).x)) a) 0

/-- The centre of all rows but the last (src/pavement.cpp:2472-2476). -/
def centre (nl : Nat) (V : Nat → Vtx K) : Nat → K := fun i =>
  loop 0 nl (fun j s => s + (V j).x i) 0 / nl

/-- Moving all rows towards the first (src/pavement.cpp:2495-2496). -/
def shrink (f : (Nat → K) → Option K) (nl : Nat) (s : Sx K) : Sx K :=
  loop 1 (nl + 1) (fun i s =>
    let x := midpoint (s.V 0).x (s.V i).x
    ⟨set s.V i (eval f x), x :: s.seen⟩) s

/-- One round, after sorting (src/pavement.cpp:2463-2499). -/
def round (f : (Nat → K) → Option K) (nl : Nat) (s : Sx K) : Sx K :=
  let D := centre nl s.V
  let R := eval f (reflect (s.V nl).x D 1)
  let V := bif xlt R.e (s.V nl).e then set s.V nl R else s.V
  let seen := R.x :: s.seen
  bif xlt R.e (V 0).e then
    let E := eval f (reflect R.x D (-2))
    ⟨bif xlt E.e R.e then set V nl E else V, E.x :: seen⟩
  else bif xge R.e (V (nl - 1)).e then
    let C := eval f (reflect (V nl).x D (-(1 / 2)))
    bif xlt C.e (V nl).e then ⟨set V nl C, C.x :: seen⟩
    else shrink f nl ⟨V, C.x :: seen⟩
  else ⟨V, seen⟩

/-- The loop (src/pavement.cpp:2443-2513): `first` is `c == 0`.  It has no bound in the code; `none` is a loop that has not
ended after `n` rounds. -/
def search (rt : K → K) (f : (Nat → K) → Option K) (tol : K) (nl : Nat) : Nat → Bool → Sx K → Option (Sx K)
  | 0, _, _ => none
  | n + 1, first, s =>
    let V := order nl s.V
    if first = false ∧ diam rt nl V < 100 * tol then some ⟨V, s.seen⟩
    else search rt f tol nl n false (round f nl ⟨V, s.seen⟩)

/-- `std::min(std::max(1.0,v),9.0)` -/
def clamp (v : K) : K := min (max 1 v) 9

/-- `dsm` (src/pavement.cpp:2403-2517): the new logarithms, the returned length, and the points visited. -/
def dsm (rt : K → K) (f : (Nat → K) → Option K) (tol : K) (nl n : Nat) (P : Nat → K) :
    Option ((Nat → K) × K × Sx K) :=
  (search rt f tol nl n true (start f nl P)).map fun s =>
    (fun i => if i < nl then clamp ((s.V 0).x i) else P i, stepLen rt nl P (s.V 0).x, s)

end OP.Pave.Simplex
