import Verif.Lin.Chol
import Verif.Lin.Pack
import Mathlib.Algebra.Order.Field.Basic
/-!
# One dimensional heat flow

`src/thermal.cpp`, `src/thermal.h`.  Arithmetic is that of an ordered field, without rounding; `rt` is the square root.  Arrays are
functions from their addresses; reading past the layers, or past the nodes, is undefined, as is a band width of zero.
-/
namespace OP.Thermal

open Lin

variable {K : Type} [Field K] [LinearOrder K]

/-- `Ke1`, `Ke2`, `Ke4` (src/thermal.cpp:43-46, 52-56, 63-69). -/
def ke (w i k : Nat) : K :=
  match w with
  | 1 => (([[1/2, -1/2], [-1/2, 1/2]] : List (List K)).getD i []).getD k 0
  | 2 => (([[7/6, -4/3, 1/6], [-4/3, 8/3, -4/3], [1/6, -4/3, 7/6]] : List (List K)).getD i []).getD k 0
  | _ => (([[985/378, -3424/945, 508/315, -736/945, 347/1890], [-3424/945, 1664/189, -2368/315, 2944/945, -736/945],
      [508/315, -2368/315, 248/21, -2368/315, 508/315], [-736/945, 2944/945, -2368/315, 1664/189, -3424/945],
      [347/1890, -736/945, 508/315, -3424/945, 985/378]] : List (List K)).getD i []).getD k 0

/-- `Fe1`, `Fe2`, `Fe4` (src/thermal.cpp:47-50, 57-61, 70-76). -/
def fe (w i k : Nat) : K :=
  match w with
  | 1 => (([[2/3, 1/3], [1/3, 2/3]] : List (List K)).getD i []).getD k 0
  | 2 => (([[4/15, 2/15, -1/15], [2/15, 16/15, 2/15], [-1/15, 2/15, 4/15]] : List (List K)).getD i []).getD k 0
  | _ => (([[292/2835, 296/2835, -58/945, 8/405, -29/2835], [296/2835, 256/405, -128/945, 256/2835, 8/405],
      [-58/945, -128/945, 208/315, -128/945, -58/945], [8/405, 256/2835, -128/945, 256/405, 296/2835],
      [-29/2835, 8/405, -58/945, 296/2835, 292/2835]] : List (List K)).getD i []).getD k 0

/-- The arguments of the constructor. -/
structure Args (K : Type) where
  nl : Nat
  lh : Nat → K
  ld : Nat → K
  n : Nat
  nd : Nat → K
  nt : Nat → K
  dt : K
  w : Nat

/-- `lb[i]` (src/thermal.cpp:100-104). -/
def Args.lb (a : Args K) : Nat → K
  | 0 => a.nd 0 + a.lh 0
  | i + 1 => a.lb i + a.lh (i + 1)

/-- `while (lb[il] <= nd[j]) il++` (src/thermal.cpp:114-115) with `k` layers left. -/
def Args.seek (a : Args K) (j : Nat) : Nat → Nat → Res Nat
  | 0, _ => .ub
  | k + 1, il => if a.lb il ≤ a.nd j then a.seek j k (il + 1) else .ok il

/-- Adding `c` times an element matrix (src/thermal.cpp:121-144). -/
def addElem (n w j : Nat) (c : K) (m : Nat → Nat → K) (A : Nat → K) : Nat → K :=
  loop 0 (w + 1) (fun i A => loop i (w + 1) (fun k A =>
    let p := bIdx n w (j + i) (j + k)
    set A p (A p + c * m i k)) A) A

/-- The state of the assembly. -/
structure Asm (K : Type) where
  il : Nat
  KK : Nat → K
  FF : Nat → K

/-- One element (src/thermal.cpp:114-147). -/
def Args.elem (a : Args K) (j : Nat) (s : Asm K) : Res (Asm K) :=
  a.seek j (a.nl - s.il) s.il >>= fun il =>
  if a.lb il - a.lh il > a.nd j ∨ a.lb il < a.nd (j + a.w) then .throw else
  let d := a.ld il * 2 / (a.nd (j + a.w) - a.nd j)
  let f := (a.nd (j + a.w) - a.nd j) / 2
  if a.w = 1 ∨ a.w = 2 ∨ a.w = 4 then
    .ok { il := il, KK := addElem a.n a.w j d (ke a.w) s.KK, FF := addElem a.n a.w j f (fe a.w) s.FF }
  else .throw

/-- The constructed object. -/
structure FEM (K : Type) where
  n : Nat
  w : Nat
  dt : K
  nd : Nat → K
  nt : Nat → K
  ng : Nat → K
  KK : Nat → K
  FF : Nat → K
  Kt : Nat → K
  Kb : Nat → K

/-- Stripping the columns of the boundary nodes (src/thermal.cpp:155-162): the matrix left, `Kt` and `Kb`. -/
def strip (n w : Nat) (A : Nat → K) : (Nat → K) × (Nat → K) × (Nat → K) :=
  let s := loop 0 (w + 1) (fun i (s : (Nat → K) × (Nat → K)) =>
    (set s.1 (bIdx n w 0 i) (if i = 0 then 1 else 0), set s.2 i (s.1 (bIdx n w 0 i)))) (A, fun _ => 0)
  let t := loop (n - w - 1) n (fun i (t : (Nat → K) × (Nat → K)) =>
    (set t.1 (bIdx n w i (n - 1)) (if i = n - 1 then 1 else 0), set t.2 i (t.1 (bIdx n w i (n - 1))))) (s.1, fun _ => 0)
  (t.1, s.2, t.2)

/-- The constructor (src/thermal.cpp:78-168).  As `(n-1) % w = 0`, the element loop `j < n-w` has `(n-1)/w` rounds. -/
def Args.make (rt : K → K) (a : Args K) : Res (FEM K) :=
  if a.n < a.w + 1 then .throw
  else if a.w = 0 then .ub
  else if (a.n - 1) % a.w > 0 then .throw
  else if ∃ i ∈ List.range a.nl, a.lh i ≤ 0 then .throw
  else
  loopM 0 ((a.n - 1) / a.w) (fun e s => a.elem (e * a.w) s) { il := 0, KK := fun _ => 0, FF := fun _ => 0 } >>= fun s =>
  let A := loop 0 (bSize a.n a.w) (fun i A => set A i (A i + 2 * s.FF i / a.dt)) s.KK
  let t := strip a.n a.w A
  decmpCholBand rt a.n a.w t.1 >>= fun KK =>
  .ok { n := a.n, w := a.w, dt := a.dt, nd := a.nd, nt := a.nt, ng := fun i => 2 * a.nt i / a.dt, KK := KK, FF := s.FF
        Kt := t.2.1, Kb := t.2.2 }

/-- The right hand side of a step (src/thermal.cpp:176-190). -/
def FEM.rhs (s : FEM K) (tt tb : K) : Nat → K :=
  let nt := set (fun _ => 0) 0 tt
  let nt := loop 1 (s.w + 1) (fun i nt => set nt i (nt i - tt * s.Kt i)) nt
  let nt := loop 1 (s.n - 1) (fun i nt =>
    let nt := loop (i - s.w) i (fun j nt => set nt i (nt i + s.FF (bIdx s.n s.w j i) * s.ng j)) nt
    loop i (min (i + s.w + 1) s.n) (fun j nt => set nt i (nt i + s.FF (bIdx s.n s.w i j) * s.ng j)) nt) nt
  let nt := loop (s.n - s.w - 1) (s.n - 1) (fun i nt => set nt i (nt i - tb * s.Kb i)) nt
  set nt (s.n - 1) tb

/-- `step` (src/thermal.cpp:170-196). -/
def FEM.step (s : FEM K) (tt tb : K) : FEM K :=
  let nt := bksubCholBand s.n s.w s.KK (s.rhs tt tb) 1 0
  { s with nt := nt, ng := fun i => -s.ng i + 4 * nt i / s.dt }

/-- `while (pd[i] > nd[j]) j += w` (src/thermal.cpp:214-215). -/
def FEM.find (s : FEM K) (x : K) : Nat → Nat → Res Nat
  | 0, _ => .ub
  | k + 1, j => if s.n ≤ j then .ub else if x > s.nd j then s.find x k (j + s.w) else .ok j

/-- The shape functions (src/thermal.cpp:222-240). -/
def shape (w : Nat) (z : K) (t : Nat → K) : Res K :=
  match w with
  | 1 => .ok (((z + 1) * t 1 - (z - 1) * t 0) / 2)
  | 2 => .ok ((z - 1) * z * t 0 / 2 + (1 - z * z) * t 1 + (z + 1) * z * t 2 / 2)
  | 4 => .ok (z * (z - 1) * (4 * z * z - 1) * t 0 / 6 - z * (2 * z - 1) * (4 * z * z - 4) * t 1 / 3 +
      (z * z - 1) * (4 * z * z - 1) * t 2 - z * (2 * z + 1) * (4 * z * z - 4) * t 3 / 3 + z * (z + 1) * (4 * z * z - 1) * t 4 / 6)
  | _ => .throw

/-- `interpolate` (src/thermal.cpp:198-242): the temperatures at the depths given, with the search starting at node `j`.  An element
starts at node `j-w`; before the first node is undefined. -/
def FEM.interp (s : FEM K) : Nat → List K → Res (List K)
  | _, [] => .ok []
  | j, x :: xs =>
    if x ≤ s.nd 0 then s.interp j xs >>= fun r => .ok (s.nt 0 :: r)
    else if x ≥ s.nd (s.n - 1) then s.interp j xs >>= fun r => .ok (s.nt (s.n - 1) :: r)
    else s.find x (s.n + 1) j >>= fun j =>
      if x = s.nd j then s.interp j xs >>= fun r => .ok (s.nt j :: r)
      else if j < s.w then .ub
      else shape s.w (2 * (x - s.nd (j - s.w)) / (s.nd j - s.nd (j - s.w)) - 1) (fun k => s.nt (j - s.w + k)) >>= fun v =>
        s.interp j xs >>= fun r => .ok (v :: r)

end OP.Thermal
