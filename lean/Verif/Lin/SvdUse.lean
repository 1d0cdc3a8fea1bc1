import Verif.Lin.SvdAcc
/-!
# What the routines for equations, inverses and orthonormalisation do with singular values (src/linalg.cpp:865-940)
-/
namespace OP.Lin
variable {K : Type} [Field K] [LinearOrder K]

/-- Small singular values are put to zero (src/linalg.cpp:880-886, 912-918); `tol` is `EIG_TOL`. -/
def svdCut (tol : K) (n : Nat) (W : Nat → K) : Nat → K :=
  let max := loop 0 n (fun i max => if max < W i then W i else max) 0
  let max := max * tol
  loop 0 n (fun i W => if W i < max then set W i 0 else W) W

/-- `equ_svd` after `decmp_svd` (src/linalg.cpp:880-894); `x` is what the caller has there, `b` is copied to it before (line 878); `g1`, `g2` and `r` are what `new` gives. -/
def equRest (tol : K) (n : Nat) (A b x U W V g1 g2 r : Nat → K) : Nat → K :=
  let x := fun i => if i < n then b i else x i
  let W := svdCut tol n W
  let x := bksubSvd n n U W V x 1 0 g1
  let r := loop 0 n (fun i r => loop 0 n (fun j r => set r i (r i + A (i * n + j) * x j)) (set r i (-b i))) r
  let r := bksubSvd n n U W V r 1 0 g2
  loop 0 n (fun i x => set x i (x i - r i)) x

/-- `inv_svd` after `decmp_svd` (src/linalg.cpp:912-926). -/
def invRest (tol : K) (n : Nat) (A U W V : Nat → K) : Nat → K :=
  let W := svdCut tol n W
  loop 0 n (fun i A => loop 0 n (fun j A => loop 0 n (fun k A =>
    if W k ≠ 0 then set A (i * n + j) (A (i * n + j) + V (i * n + k) * U (j * n + k) / W k) else A) (set A (i * n + j) 0)) A) A

/-- `equ_svd` (src/linalg.cpp:865-895), if `out` is what is found at `rv1[n]` and the memory for the singular values holds zeros. -/
def equSvdAt (rt : K → K) (neg : K → K → Bool) (tol : K) (n : Nat) (A b x g1 g2 g3 g4 g5 r : Nat → K) (out : K) : Res ((Nat → K) × Bool) :=
  if n = 0 then .ok (x, true)
  else (svdWhole rt neg n n (fun p => if p < n * n then A p else g3 p) (fun _ => 0) g4 g5 out).bind fun t => .ok (equRest tol n A b x t.A t.W t.V g1 g2 r, t.good)

/-- `inv_svd` (src/linalg.cpp:900-927), likewise. -/
def invSvdAt (rt : K → K) (neg : K → K → Bool) (tol : K) (n : Nat) (A g3 g4 g5 : Nat → K) (out : K) : Res ((Nat → K) × Bool) :=
  if n = 0 then .ok (A, true)
  else (svdWhole rt neg n n (fun p => if p < n * n then A p else g3 p) (fun _ => 0) g4 g5 out).bind fun t => .ok (invRest tol n A t.A t.W t.V, t.good)

/-- `orth_svd` (src/linalg.cpp:932-940), likewise. -/
def orthSvdAt (rt : K → K) (neg : K → K → Bool) (n : Nat) (Q g4 g5 : Nat → K) (out : K) : Res ((Nat → K) × Bool) :=
  if n = 0 then .ok (Q, true) else (svdWhole rt neg n n Q (fun _ => 0) g4 g5 out).bind fun t => .ok (t.A, t.good)

end OP.Lin
