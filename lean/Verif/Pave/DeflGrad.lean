import Verif.Lin.Orth
import Mathlib.Algebra.Order.Field.Basic
/-!
# The gradient step of the back-calculation

`src/pavement.cpp`: `LEbackcalc::deflgrad`.  Exact arithmetic, `rt` is the square root.  What `calculate` stored is a parameter:
`PG`, `CD` and `MD` are the arrays as they are filled at lines 2067-2076.  (The gradients come from `result(d)`, those of the
default load group, whatever group a deflection was measured under; see C70.)  `Q` is never null: the only caller is `backcalc`.
-/
namespace OP.Pave.Grad

open OP.Lin

variable {K : Type} [Field K] [LinearOrder K]

/-- What a step reads. -/
structure In (K : Type) where
  nl : Nat
  dl : Nat
  PG : Nat → K
  CD : Nat → K
  MD : Nat → K
  precision : K

/-- `DG` as first filled (src/pavement.cpp:2072-2075): the squared length of each gradient. -/
def In.len2 (b : In K) (j : Nat) : K := loop 0 b.nl (fun i s => s + b.PG (j * b.nl + i) * b.PG (j * b.nl + i)) 0

/-- `gg` after the first loop (src/pavement.cpp:2057,2076). -/
def In.inv (rt : K → K) (b : In K) : K := loop 0 b.dl (fun j s => s + 1 / rt (b.len2 j)) 0

/-- `DG` (src/pavement.cpp:2078-2079). -/
def In.DG (rt : K → K) (b : In K) (j : Nat) : K := b.len2 j * ((b.dl * b.dl) / (b.inv rt * b.inv rt))

/-- The variables of the loop; `cut` marks the exit at line 2107 and is not in the code. -/
structure Vars (K : Type) where
  CD : Nat → K
  D : Nat → K
  G : Nat → K
  W : Nat → K
  Q : Nat → K
  dgg : K
  gg : K
  dd : K
  cut : Bool

/-- The component of the deflection gradient `j` along `D` (src/pavement.cpp:2090-2091). -/
def In.along (b : In K) (D : Nat → K) (j : Nat) : K := loop 0 b.nl (fun i r => r + b.PG (j * b.nl + i) * D i) 0

/-- The step along the direction (src/pavement.cpp:2082-2111), in round `k`. -/
def stepAlong (rt : K → K) (b : In K) (k : Nat) (s : Vars K) : Vars K :=
  let G := s.D
  let r := rt (loop 0 b.nl (fun i r => r + s.D i * s.D i) 0)
  let U := fun i => s.D i / r
  let q := loop 0 b.dl (fun j q => q + (s.CD j - b.MD j) * b.along U j / b.DG rt j) 0
  let p := loop 0 b.dl (fun j p => p + b.along U j * b.along U j / b.DG rt j) 0
  let Q := loop 0 b.nl (fun i Q => set Q (i * b.nl + (k - 1)) (U i)) s.Q
  let D := fun i => U i * (-q / p)
  let r := loop 0 b.nl (fun i r => r + (s.W i + D i) ^ 2) 0
  let CD := fun j => loop 0 b.nl (fun i c => c + b.PG (j * b.nl + i) * D i) (s.CD j)
  if 1 < r then
    ⟨CD, D, G, fun i => s.W i + rt ((1 - s.dd) / r) * D i, Q, s.dgg, s.gg, s.dd, true⟩
  else ⟨CD, D, G, fun i => s.W i + D i, Q, s.dgg, s.gg, r, false⟩

/-- The new gradient (src/pavement.cpp:2113-2117). -/
def slope (rt : K → K) (b : In K) (s : Vars K) : Vars K :=
  let D := fun i => loop 0 b.dl (fun j d => d - 2 * (s.CD j - b.MD j) * b.PG (j * b.nl + i) / b.DG rt j) 0
  { s with D := D, gg := s.dgg, dgg := loop 0 b.nl (fun i r => r + D i * D i) 0 }

/-- The new direction (src/pavement.cpp:2121-2122). -/
def direct (s : Vars K) : Vars K :=
  if s.gg = 0 then s else { s with D := fun i => s.D i + s.dgg * s.G i / s.gg }

/-- The loop (src/pavement.cpp:2080-2123), with `m` rounds left from round `k` on. -/
def rounds (rt : K → K) (b : In K) : Nat → Nat → Vars K → Vars K
  | 0, _, s => s
  | m + 1, k, s =>
    let s := if s.dgg = 0 then s else stepAlong rt b k s
    if s.cut then s
    else
      let s := slope rt b s
      if s.dgg ≤ b.precision then s else rounds rt b m (k + 1) (direct s)

/-- The end of the loop, for the variables as they are at the start (src/pavement.cpp:2043,2061,2080): `D0` and `G0` are
uninitialised memory. -/
def solve (rt : K → K) (b : In K) (Q D0 G0 : Nat → K) : Vars K :=
  rounds rt b (b.nl + 1) 0 ⟨b.CD, D0, G0, fun _ => 0, Q, 0, b.inv rt, 0, false⟩

/-- `deflgrad` (src/pavement.cpp:2039-2131): the new logarithms, the directions and the returned length. -/
def deflgrad (rt : K → K) (b : In K) (P Q D0 G0 : Nat → K) : (Nat → K) × (Nat → K) × K :=
  let s := solve rt b Q D0 G0
  (fun i => if i < b.nl then min (max 1 (P i + s.W i)) 9 else P i, orthGs rt b.nl s.Q,
    rt (loop 0 b.nl (fun i r => r + s.W i * s.W i) 0))

end OP.Pave.Grad
