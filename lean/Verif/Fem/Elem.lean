import Verif.Fem.Shape
import Mathlib.Data.Fin.VecNotation
import Mathlib.Algebra.Module.Pi
/-!
# Shape functions of the three-dimensional elements (fem3d/fem3d.cpp:764-841, 887-1039, 1288-1313)

An array entry holds the value of a shape function and its three derivatives.
-/
namespace OP.Fem

variable {K : Type} [Field K] [LinearOrder K]

/-- `N[l]` and `dNdr[l][0..2]`. -/
abbrev SF (K : Type) := Fin 4 → K

/-- The four products of one entry (fem3d/fem3d.cpp:907-910); each factor is a value and its derivative. -/
def prod (x y z : K × K) : SF K := ![x.1 * y.1 * z.1, x.2 * y.1 * z.1, x.1 * y.2 * z.1, x.1 * y.1 * z.2]

/-- A function of one coordinate and its derivative. -/
def shp (s : Shape) (n : Nat) (r : K) (map : Bool) : K × K := (getN s n r map, getdN s n r map)

/-- `buildSF_block` (fem3d/fem3d.cpp:887-914): the entries in the order of `l = mz*i+mx*j+my*k`, which is the order in which
the loops write them. -/
def blockSF (sx sy sz : Shape) (map : Bool) (gx gy gz : K) : List (SF K) :=
  (List.range (getn sz)).flatMap fun i => (List.range (getn sx)).flatMap fun j => (List.range (getn sy)).map fun k =>
    prod (shp sx j gx map) (shp sy k gy map) (shp sz i gz map)

/-- The numbers of the extra nodes, from a flag for each place (fem3d/fem3d.cpp:832-840): places below `4*nz` are the
middles of the sides, four to a level, and `4*nz+i` is the centre of level `i`.  0 where there is none.
Which places have a node is given here; see C109 for how they are found (fem3d/fem3d.cpp:777-831). -/
def number (nz : Nat) (p : Nat → Bool) (m : Nat) : Nat :=
  if p m then 4 * nz + ((List.range m).filter p).length else 0

/-- `nnd` after the extra nodes are added (fem3d/fem3d.cpp:832-840) -/
def nnd (nz : Nat) (p : Nat → Bool) : Nat := 4 * nz + ((List.range (5 * nz)).filter p).length

/-- Writes to the arrays, in order. -/
def store (a : Nat → SF K) (w : List (Nat × SF K)) : Nat → SF K :=
  w.foldl (fun a p => fun l => if l = p.1 then p.2 else a l) a

/-- Corrections `N[t] += c*N[s]`, in order, given as `(t, s, c)`. -/
def adjust (a : Nat → SF K) (ops : List (Nat × Nat × K)) : Nat → SF K :=
  ops.foldl (fun a o => fun l => if l = o.1 then a l + o.2.2 • a o.2.1 else a l) a

/-- The factors of a corner in plan (fem3d/fem3d.cpp:931-932) -/
def cornerX (l : Nat) (gx : K) : K × K := (N2 (l / 2) gx, dN2 (l / 2) gx)
/-- The factors of a corner in plan (fem3d/fem3d.cpp:931-932) -/
def cornerY (l : Nat) (gy : K) : K × K := (N2 (l % 2) gy, dN2 (l % 2) gy)

/-- The first loop of `buildSF_variable` (fem3d/fem3d.cpp:926-959) -/
def variableWrites (sz : Shape) (mask : Nat → Nat) (gx gy gz : K) : List (Nat × SF K) :=
  let nz := getn sz
  (List.range nz).flatMap fun i =>
    let z := shp sz i gz true
    ((List.range 4).flatMap fun l =>
      (i * 4 + l, prod (cornerX l gx) (cornerY l gy) z) ::
        if mask (i * 4 + l) = 0 then []
        else if l = 0 ∨ l = 3 then [(mask (i * 4 + l), prod (cornerX l gx) (NA 1 gy, dNA 1 gy) z)]
        else [(mask (i * 4 + l), prod (NA 1 gx, dNA 1 gx) (cornerY l gy) z)]) ++
    if mask (4 * nz + i) = 0 then [] else [(mask (4 * nz + i), prod (NA 1 gx, dNA 1 gx) (NA 1 gy, dNA 1 gy) z)]

/-- `int(l)+Jxy[l%4]` (fem3d/fem3d.cpp:969-970) -/
def besideXY (l : Nat) : Nat :=
  if l % 4 = 0 then l + 2 else if l % 4 = 1 then l - 1 else if l % 4 = 2 then l + 1 else l - 2

/-- The second loop of `buildSF_variable` (fem3d/fem3d.cpp:960-982) -/
def cornerOps (nz : Nat) (mask : Nat → Nat) : List (Nat × Nat × K) :=
  (List.range (4 * nz)).flatMap fun l =>
    (if mask l ≠ 0 then [(l, mask l, -(1 / 2))] else []) ++
    (if mask (besideXY l) ≠ 0 then [(l, mask (besideXY l), -(1 / 2))] else []) ++
    if mask (4 * nz + l / 4) ≠ 0 then [(l, mask (4 * nz + l / 4), 1 / 4)] else []

/-- The third loop of `buildSF_variable` (fem3d/fem3d.cpp:983-990) -/
def sideOps (nz : Nat) (mask : Nat → Nat) : List (Nat × Nat × K) :=
  (List.range (4 * nz)).flatMap fun l =>
    if mask (4 * nz + l / 4) ≠ 0 then [(mask l, mask (4 * nz + l / 4), -(1 / 2))] else []

/-- `buildSF_variable` (fem3d/fem3d.cpp:915-991), from whatever was in the array. -/
def variableSF (sz : Shape) (mask : Nat → Nat) (gx gy gz : K) (a : Nat → SF K) : Nat → SF K :=
  adjust (adjust (store a (variableWrites sz mask gx gy gz)) (cornerOps (getn sz) mask)) (sideOps (getn sz) mask)

/-- `int(i*4+l)+Jx[l]` for a corner of the first level (fem3d/fem3d.cpp:1005, 1009) -/
def besideX (l : Nat) : Nat := if l = 0 then 2 else if l = 3 then 1 else l
/-- `int(i*4+l)+Jy[l]` for a corner of the first level (fem3d/fem3d.cpp:1006, 1014) -/
def besideY (l : Nat) : Nat := if l = 1 then 0 else if l = 2 then 3 else l

/-- The factors of a corner (fem3d/fem3d.cpp:1009-1018): quadratic along sides with a node in the middle. -/
def adaptX (mask : Nat → Nat) (i l : Nat) (gx : K) : K × K :=
  if mask (i * 4 + besideX l) ≠ 0 then (N3 (2 * (l / 2)) gx, dN3 (2 * (l / 2)) gx) else cornerX l gx
/-- The factors of a corner (fem3d/fem3d.cpp:1009-1018) -/
def adaptY (mask : Nat → Nat) (i l : Nat) (gy : K) : K × K :=
  if mask (i * 4 + besideY l) ≠ 0 then (N3 (2 * (l % 2)) gy, dN3 (2 * (l % 2)) gy) else cornerY l gy

/-- `buildSF_adaptor` (fem3d/fem3d.cpp:992-1043) -/
def adaptorWrites (sz : Shape) (mask : Nat → Nat) (gx gy gz : K) : List (Nat × SF K) :=
  let nz := getn sz
  (List.range nz).flatMap fun i =>
    let z := shp sz i gz true
    ((List.range 4).flatMap fun l =>
      (i * 4 + l, prod (adaptX mask i l gx) (adaptY mask i l gy) z) ::
        if mask (i * 4 + l) = 0 then []
        else if l = 0 ∨ l = 3 then [(mask (i * 4 + l), prod (adaptX mask i l gx) (N3 1 gy, dN3 1 gy) z)]
        else [(mask (i * 4 + l), prod (N3 1 gx, dN3 1 gx) (adaptY mask i l gy) z)]) ++
    if mask (4 * nz + i) = 0 then [] else [(mask (4 * nz + i), prod (N3 1 gx, dN3 1 gx) (N3 1 gy, dN3 1 gy) z)]

/-- `buildSF_adaptor` (fem3d/fem3d.cpp:992-1043), from whatever was in the array. -/
def adaptorSF (sz : Shape) (mask : Nat → Nat) (gx gy gz : K) (a : Nat → SF K) : Nat → SF K :=
  store a (adaptorWrites sz mask gx gy gz)

end OP.Fem
