import Verif.Fem.PropsNodes
import Verif.Fem.Shape
import Mathlib.Data.Rat.Floor
/-!
# The elements of a mesh (fem3d/fem3d.cpp:752-764, 1258-1341, 1490-1660, 2317-2345)

Doubles are exact rationals, and whole numbers of type `int` are exact.
-/
namespace OP.Fem.Nodes

open OP.Fem (Shape getn)

/-- The eight corners of an element -/
abbrev Corners := Fin 8 → C3

/-- `fixed<8>(double)` (include/fixed.h:73-76); see C39 for the range. -/
def toFixed (d : Rat) : Int := if 0 ≤ d then ⌊d * 256 + 1 / 2⌋ else -⌊1 / 2 - d * 256⌋

/-- `swap(cc[i],cc[j])` -/
def Corners.swap (c : Corners) (i j : Fin 8) : Corners := fun l => if l = i then c j else if l = j then c i else c l

/-- `coord_sort` (fem3d/fem3d.cpp:1259-1287), at most `f` rounds -/
def coordSort : Nat → Corners → Res Corners
  | 0, _ => .ub
  | f + 1, c =>
    let mx := (c 0).x + (c 1).x + (c 4).x + (c 5).x
    let px := (c 2).x + (c 3).x + (c 6).x + (c 7).x
    let my := (c 0).y + (c 2).y + (c 4).y + (c 6).y
    let py := (c 1).y + (c 3).y + (c 5).y + (c 7).y
    let mz := (c 0).z + (c 1).z + (c 2).z + (c 3).z
    let pz := (c 4).z + (c 5).z + (c 6).z + (c 7).z
    if px > mx ∧ py > my ∧ pz > mz then .ok c
    else if px < mx then coordSort f ((((c.swap 0 2).swap 4 6).swap 1 3).swap 5 7)
    else if py < my then coordSort f ((((c.swap 0 1).swap 4 5).swap 2 3).swap 6 7)
    else if pz < mz then coordSort f ((((c.swap 0 4).swap 2 6).swap 1 5).swap 3 7)
    else .throw

/-- The indices of the three loops (fem3d/fem3d.cpp:1297-1299, 1323-1325), in order -/
def triples (nz nx ny : Nat) : List (Nat × Nat × Nat) :=
  (List.range nz).flatMap fun i => (List.range nx).flatMap fun j => (List.range ny).map fun k => (i, j, k)

/-- `s` (fem3d/fem3d.cpp:1302-1304) -/
def weight (mz mx my i j k : Nat) (l : Nat) : Rat :=
  (if l < 4 then (mz : Rat) - i else i) * (if l % 4 < 2 then (mx : Rat) - j else j) * (if l % 2 < 1 then (my : Rat) - k else k) /
    (mz * mx * my)

/-- One coordinate of a node (fem3d/fem3d.cpp:1300-1310) from those of the corners -/
def mix (mz mx my i j k : Nat) (c : Fin 8 → Int) : Int :=
  toFixed ((List.finRange 8).map fun l : Fin 8 => weight mz mx my i j k l.val * ((c l : Rat) / 256)).sum

/-- The place of a node (fem3d/fem3d.cpp:1300-1310) -/
def placeOf (nz nx ny : Nat) (c : Corners) (i j k : Nat) : C3 :=
  ⟨mix (nz - 1) (nx - 1) (ny - 1) i j k fun l => (c l).x, mix (nz - 1) (nx - 1) (ny - 1) i j k fun l => (c l).y,
    mix (nz - 1) (nx - 1) (ny - 1) i j k fun l => (c l).z⟩

/-- `inel[nnd++] = addnode(..)` for places in order (fem3d/fem3d.cpp:1311) -/
def addAll (l : NL) : List C3 → Res (NL × List Nat)
  | [] => .ok (l, [])
  | c :: cs => do
    let (l, k) ← addnode l c
    let (l, ks) ← addAll l cs
    return (l, k :: ks)

/-- `coord_add` (fem3d/fem3d.cpp:1289-1313) -/
def coordAdd (nz nx ny : Nat) (c : Corners) (l : NL) : Res (NL × List Nat) :=
  addAll l ((triples nz nx ny).map fun t => placeOf nz nx ny c t.1 t.2.1 t.2.2)

/-- `(b ? inel[n] : UINT_MAX)` -/
def entry (b : Bool) (inel : List Nat) (n : Nat) : Res (Option Nat) :=
  if b then (match inel[n]? with | none => .ub | some k => .ok (some k)) else .ok none

/-- The neighbours of a node within its element (fem3d/fem3d.cpp:1327-1333) -/
def nbrAt (inel : List Nat) (nz nx ny i j k : Nat) : Res Nbr := do
  let my := 1
  let mx := my * ny
  let mz := mx * nx
  let n := mz * i + mx * j + my * k
  let xp ← entry (j < nx - 1) inel (n + mx)
  let xm ← entry (j > 0) inel (n - mx)
  let yp ← entry (k < ny - 1) inel (n + my)
  let ym ← entry (k > 0) inel (n - my)
  let zp ← entry (i < nz - 1) inel (n + mz)
  let zm ← entry (i > 0) inel (n - mz)
  return ⟨xm, xp, ym, yp, zm, zp⟩

/-- The loops of `coord_neighbours` (fem3d/fem3d.cpp:1323-1338) -/
def nbrAll (inel : List Nat) (nz nx ny : Nat) : NL → List (Nat × Nat × Nat) → Res NL
  | l, [] => .ok l
  | l, (i, j, k) :: ts => do
    match inel[ny * nx * i + ny * j + k]? with
    | none => .ub
    | some a =>
      let g ← nbrAt inel nz nx ny i j k
      let l ← setnbr l a g
      nbrAll inel nz nx ny l ts

/-- `setup_block` (fem3d/fem3d.cpp:754-764) and `coord_neighbours` (fem3d/fem3d.cpp:1316-1341) -/
def setupBlock (nz nx ny : Nat) (c : Corners) (l : NL) : Res (NL × List Nat) := do
  let c ← coordSort 4 c
  let (l, inel) ← coordAdd nz nx ny c l
  if inel.length = nz * (ny * nx) then
    let l ← nbrAll inel nz nx ny l (triples nz nx ny)
    return (l, inel)
  else .ub

/-- `element_base` (fem3d/fem3d.cpp:738-750): the shape functions and the nodes -/
structure Elem where
  sx : Shape
  sy : Shape
  sz : Shape
  inel : List Nat
deriving DecidableEq

/-- The nodes and elements of `mesh` -/
structure Grid where
  node : NL := {}
  elems : List Elem := []

/-- What `mesh::add` is asked for: blocks (`block8` to `block36`) and infinite elements from a line or a face -/
inductive Req where
  | block (sz : Shape) (c : Corners)
  | quad (sz : Shape) (c : Corners)
  | line (sz : Shape) (c0 c1 : C3)
  | face (sz : Shape) (c0 c1 c2 c3 : C3)

/-- `(x > 0 ? inf_pos : inf_neg)` -/
def infShape (x : Int) : Shape := if x > 0 then .infPos else .infNeg

/-- `x *= ((x > 0) == b ? 1 : 2)` (fem3d/fem3d.cpp:1614-1615) -/
def outer (x : Int) (b : Bool) : Int := if decide (x > 0) = b then x else x * 2

/-- The corners of an infinite element at a vertical line (fem3d/fem3d.cpp:1608-1624) -/
def lineCorners (c0 c1 : C3) : Corners := fun l =>
  ⟨outer c0.x (l.val % 4 < 2), outer c0.y (l.val % 2 < 1), if l.val < 4 then c0.z else c1.z⟩

/-- The corners of an infinite element at a face across x (fem3d/fem3d.cpp:1628-1641) -/
def faceXCorners (c0 c1 c2 c3 : C3) : Corners := fun l =>
  let c := if l.val < 4 then (if l.val % 2 = 0 then c0 else c1) else (if l.val % 2 = 0 then c2 else c3)
  { c with x := outer c0.x (l.val % 4 < 2) }

/-- The corners of an infinite element at a face across y (fem3d/fem3d.cpp:1642-1654) -/
def faceYCorners (c0 c1 c2 c3 : C3) : Corners := fun l =>
  let c := if l.val < 4 then (if l.val % 4 < 2 then c0 else c1) else (if l.val % 4 < 2 then c2 else c3)
  { c with y := outer c0.y (l.val % 2 < 1) }

/-- The shape functions and corners that the constructor passes on (fem3d/fem3d.cpp:1494-1497, 1519-1522, 1604-1656) -/
def Req.setup : Req → Res (Shape × Shape × Shape × Corners)
  | .block sz c => .ok (.linear, .linear, sz, c)
  | .quad sz c => .ok (.quadratic, .quadratic, sz, c)
  | .line sz c0 c1 =>
    if c0.x = c1.x ∧ c0.y = c1.y then .ok (infShape c0.x, infShape c0.y, sz, lineCorners c0 c1) else .ub
  | .face sz c0 c1 c2 c3 =>
    if c0.x = c3.x then
      if c0.x = c1.x ∧ c1.x = c2.x ∧ c2.x = c3.x then .ok (infShape c0.x, .linear, sz, faceXCorners c0 c1 c2 c3) else .ub
    else
      if c0.y = c1.y ∧ c1.y = c2.y ∧ c2.y = c3.y then .ok (.linear, infShape c0.y, sz, faceYCorners c0 c1 c2 c3) else .ub

/-- `mesh::add` (fem3d/fem3d.cpp:2318-2347, 2394) for these elements -/
def Grid.add (g : Grid) (r : Req) : Res Grid := do
  let (sx, sy, sz, c) ← r.setup
  let (l, inel) ← setupBlock (getn sz) (getn sx) (getn sy) c g.node
  return { node := l, elems := g.elems ++ [⟨sx, sy, sz, inel⟩] }

/-- A sequence of calls -/
def Grid.build : Grid → List Req → Res Grid
  | g, [] => .ok g
  | g, r :: rs => g.add r >>= fun g => g.build rs

end OP.Fem.Nodes
