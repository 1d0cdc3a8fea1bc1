import Verif.Basic
import Mathlib.Algebra.Order.Field.Basic
import Mathlib.Algebra.Order.Group.Abs
/-!
# One-dimensional shape functions of the finite elements (fem3d/fem3d.cpp:1353-1484)

Doubles are elements of an ordered field.  A node number out of range gives 0, as where assertions are off.
-/
namespace OP.Fem

/-- `element::shape_t` (fem3d/fem3d.cpp:696-703) -/
inductive Shape
  | linear
  | quadratic
  | cubic
  | absolute
  | infPos
  | infNeg
deriving DecidableEq

variable {K : Type} [Field K] [LinearOrder K]

/-- `N_2` (fem3d/fem3d.cpp:1353-1358) -/
def N2 (n : Nat) (r : K) : K :=
  match n with
  | 0 => 1 / 2 * (1 - r)
  | 1 => 1 / 2 * (1 + r)
  | _ => 0

/-- `dN_2` (fem3d/fem3d.cpp:1359-1364) -/
def dN2 (n : Nat) (_ : K) : K :=
  match n with
  | 0 => -1 / 2
  | 1 => 1 / 2
  | _ => 0

/-- `N_A` (fem3d/fem3d.cpp:1366-1372) -/
def NA (n : Nat) (r : K) : K :=
  match n with
  | 0 => if r < 0 then -r else 0
  | 1 => 1 - |r|
  | 2 => if r > 0 then r else 0
  | _ => 0

/-- `dN_A` (fem3d/fem3d.cpp:1373-1379) -/
def dNA (n : Nat) (r : K) : K :=
  match n with
  | 0 => if r < 0 then -1 else if r > 0 then 0 else -1 / 2
  | 1 => if r < 0 then 1 else if r > 0 then -1 else 0
  | 2 => if r < 0 then 0 else if r > 0 then 1 else 1 / 2
  | _ => 0

/-- `N_3` (fem3d/fem3d.cpp:1381-1387) -/
def N3 (n : Nat) (r : K) : K :=
  match n with
  | 0 => 1 / 2 * r * (r - 1)
  | 1 => 1 - r * r
  | 2 => 1 / 2 * r * (r + 1)
  | _ => 0

/-- `dN_3` (fem3d/fem3d.cpp:1388-1394) -/
def dN3 (n : Nat) (r : K) : K :=
  match n with
  | 0 => r - 1 / 2
  | 1 => -2 * r
  | 2 => r + 1 / 2
  | _ => 0

/-- `N_4` (fem3d/fem3d.cpp:1396-1403) -/
def N4 (n : Nat) (r : K) : K :=
  match n with
  | 0 => 1 / 16 * (-1 + 9 * r * r) * (1 - 1 * r)
  | 1 => 1 / 16 * (9 - 9 * r * r) * (1 - 3 * r)
  | 2 => 1 / 16 * (9 - 9 * r * r) * (1 + 3 * r)
  | 3 => 1 / 16 * (-1 + 9 * r * r) * (1 + 1 * r)
  | _ => 0

/-- `dN_4` (fem3d/fem3d.cpp:1404-1411) -/
def dN4 (n : Nat) (r : K) : K :=
  match n with
  | 0 => 1 / 16 * (18 * r * (1 - 1 * r) - 1 * (-1 + 9 * r * r))
  | 1 => 1 / 16 * (-18 * r * (1 - 3 * r) - 3 * (9 - 9 * r * r))
  | 2 => 1 / 16 * (-18 * r * (1 + 3 * r) + 3 * (9 - 9 * r * r))
  | 3 => 1 / 16 * (18 * r * (1 + 1 * r) + 1 * (-1 + 9 * r * r))
  | _ => 0

/-- `Mpi` (fem3d/fem3d.cpp:1413-1418) -/
def Mpi (n : Nat) (r : K) : K :=
  match n with
  | 0 => -2 * r / (1 - r)
  | 1 => (1 + r) / (1 - r)
  | _ => 0

/-- `dMpi` (fem3d/fem3d.cpp:1419-1424) -/
def dMpi (n : Nat) (r : K) : K :=
  match n with
  | 0 => -2 / ((1 - r) * (1 - r))
  | 1 => 2 / ((1 - r) * (1 - r))
  | _ => 0

/-- `Mni` (fem3d/fem3d.cpp:1425-1430) -/
def Mni (n : Nat) (r : K) : K :=
  match n with
  | 0 => (1 - r) / (1 + r)
  | 1 => 2 * r / (1 + r)
  | _ => 0

/-- `dMni` (fem3d/fem3d.cpp:1431-1436) -/
def dMni (n : Nat) (r : K) : K :=
  match n with
  | 0 => -2 / ((1 + r) * (1 + r))
  | 1 => 2 / ((1 + r) * (1 + r))
  | _ => 0

/-- `getn` (fem3d/fem3d.cpp:1452-1461) -/
def getn : Shape → Nat
  | .linear => 2
  | .absolute => 3
  | .quadratic => 3
  | .cubic => 4
  | .infPos => 2
  | .infNeg => 2

/-- `getN` with `Npi` and `Nni` (fem3d/fem3d.cpp:1438-1450, 1463-1473): the mapping function if `map`, else the shape
function. -/
def getN (s : Shape) (n : Nat) (r : K) (map : Bool) : K :=
  match s with
  | .linear => N2 n r
  | .absolute => NA n r
  | .quadratic => N3 n r
  | .cubic => N4 n r
  | .infPos => if map then Mpi n r else N3 n r
  | .infNeg => if map then Mni n r else N3 (n + 1) r

/-- `getdN` with `dNpi` and `dNni` (fem3d/fem3d.cpp:1438-1450, 1474-1484) -/
def getdN (s : Shape) (n : Nat) (r : K) (map : Bool) : K :=
  match s with
  | .linear => dN2 n r
  | .absolute => dNA n r
  | .quadratic => dN3 n r
  | .cubic => dN4 n r
  | .infPos => if map then dMpi n r else dN3 n r
  | .infNeg => if map then dMni n r else dN3 (n + 1) r

end OP.Fem
