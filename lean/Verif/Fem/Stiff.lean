import Verif.Basic
import Mathlib.Algebra.BigOperators.Fin
import Mathlib.Algebra.Order.Field.Basic
/-!
# Element stiffness (fem3d/fem3d.cpp:96-191, 253-284, 590-665, 1046-1248)

Doubles are elements of an ordered field.  A block `smatrix_dof` or a tensor is a function of two indices below 3.
-/
namespace OP.Fem

variable {K : Type} [Field K] [LinearOrder K]

/-- A 3×3 block. -/
abbrev Blk (K : Type) := Fin 3 → Fin 3 → K

/-! ## Material -/

/-- `delta<I,J>` (fem3d/fem3d.cpp:97-103) -/
def delta (i j : Fin 3) : K := if i = j then 1 else 0

/-- The factor in `meta_stiffness` (fem3d/fem3d.cpp:116-118, 138-140) -/
def tens (la mu : K) (i j k l : Fin 3) : K :=
  la * delta i j * delta k l + mu * (delta i k * delta j l + delta i l * delta j k)

/-- `lambda` (fem3d/fem3d.cpp:268, 274) -/
def lame (emod v : K) : K := v * emod / (1 + v) / (1 - 2 * v)
/-- `mu` (fem3d/fem3d.cpp:269, 275) -/
def shear (emod v : K) : K := emod / 2 / (1 + v)

/-- `pointstiffness` (fem3d/fem3d.cpp:267-271): `E[i][k](j,l)`. -/
def pointstiffness (emod v : K) (i k : Fin 3) : Blk K := fun j l => tens (lame emod v) (shear emod v) i j k l

/-- `pointstress` (fem3d/fem3d.cpp:273-280): the template recursion adds every product to `s(i,j)`. -/
def pointstress (emod v : K) (e : Blk K) : Blk K := fun i j =>
  (List.finRange 3).foldl (fun s k => (List.finRange 3).foldl (fun s l =>
    s + tens (lame emod v) (shear emod v) i j k l * e k l) s) 0

/-! ## Elimination -/

/-- The state of `inv_mul_gauss`: the matrix, the right hand sides (transposed) and the determinant. -/
structure Elim (K : Type) where
  J : Blk K
  B : Nat → Fin 3 → K
  det : K

/-- The body of the loop over `k` (fem3d/fem3d.cpp:649-655).  The row `i` is only read.  Simplified: `B` has a row for every
number. -/
def elimRow (i : Fin 3) (s : Elim K) (k : Fin 3) : Elim K :=
  let tmp := s.J k i / s.J i i
  { s with
    J := fun a b => if a = k ∧ i < b then s.J a b - tmp * s.J i b else s.J a b
    B := fun n a => if a = k then s.B n k - tmp * s.B n i else s.B n a }

/-- The loop over `i` (fem3d/fem3d.cpp:644-656); `eps` is `DBL_EPSILON`. -/
def elimStep (eps : K) (s : Elim K) (i : Fin 3) : Res (Elim K) :=
  if |s.J i i| < eps then .throw
  else .ok (((List.finRange 3).filter (i < ·)).foldl (elimRow i) { s with det := s.det * s.J i i })

/-- The second loop (fem3d/fem3d.cpp:657-663) for the row `i` (`i-1` in the code). -/
def backRow (J : Blk K) (B : Nat → Fin 3 → K) (i : Fin 3) : Nat → Fin 3 → K :=
  let B := ((List.finRange 3).filter (i < ·)).foldl (fun B j => fun n a => if a = i then B n i - J i j * B n j else B n a) B
  fun n a => if a = i then B n i / J i i else B n a

/-- `inv_mul_gauss` (fem3d/fem3d.cpp:638-665): the determinant and the changed right hand sides. -/
def invMulGauss (eps : K) (J : Blk K) (B : Nat → Fin 3 → K) : Res (K × (Nat → Fin 3 → K)) :=
  elimStep eps ⟨J, B, 1⟩ 0 >>= fun s => elimStep eps s 1 >>= fun s => elimStep eps s 2 >>= fun s =>
    .ok (s.det, [2, 1, 0].foldl (backRow s.J) s.B)

/-! ## Stiffness -/

/-- What the shape functions give at a Gauss point: the product of the weights, the derivatives of the mapping and of the shape
functions (the same for elements that are not infinite), and `pow(10,emod)` (fem3d/fem3d.cpp:1080-1096). -/
structure Gp (K : Type) where
  w : K
  dM : Nat → Fin 3 → K
  dN : Nat → Fin 3 → K
  fac : K

/-- `J` (fem3d/fem3d.cpp:1082-1088) -/
def jacobian (nnd : Nat) (dM xe : Nat → Fin 3 → K) : Blk K := fun i j =>
  (List.range nnd).foldl (fun s k => s + dM k i * xe k j) 0

/-- The contribution of a Gauss point (fem3d/fem3d.cpp:1080-1151): the blocks for `i ≤ j` are stored. -/
def addGp (eps : K) (nnd : Nat) (emod v : K) (xe : Nat → Fin 3 → K) (A : Nat → Nat → Blk K) (g : Gp K) :
    Res (Nat → Nat → Blk K) :=
  invMulGauss eps (jacobian nnd g.dM xe) g.dN >>= fun r =>
    let gw := g.w * (r.1 * g.fac)
    if gw ≤ 0 then .throw
    else .ok fun i j => if i ≤ j ∧ j < nnd then
        (List.finRange 3).foldl (fun A k => (List.finRange 3).foldl (fun A l => fun a b =>
          A a b + pointstiffness emod v k l a b * (r.2 i k * r.2 j l * gw)) A) (A i j)
      else A i j

/-- `buildKe` (fem3d/fem3d.cpp:1047-1154) for the Gauss points in order. -/
def buildKe (eps : K) (nnd : Nat) (emod v : K) (xe : Nat → Fin 3 → K) (gps : List (Gp K)) : Res (Nat → Nat → Blk K) :=
  gps.foldl (fun A g => A >>= fun A => addGp eps nnd emod v xe A g) (.ok fun _ _ _ _ => 0)

/-- The strains and stresses of `builddata` at a point (fem3d/fem3d.cpp:1192-1220), from the deflections of the nodes. -/
def pointData (eps : K) (nnd : Nat) (emod v : K) (xe ue : Nat → Fin 3 → K) (g : Gp K) : Res (Blk K × Blk K) :=
  invMulGauss eps (jacobian nnd g.dM xe) g.dN >>= fun r =>
    let e : Blk K := fun i j => (List.range nnd).foldl (fun s k => s + r.2 k i * ue k j) 0
    let e : Blk K := fun i j => (e i j + e j i) * (1 / 2)
    .ok (e, fun i j => pointstress emod v e i j * g.fac)

/-! ## Storage -/

/-- `smatrix_elem::index` (fem3d/fem3d.cpp:627-629) -/
def elemIndex (i j : Nat) : Nat := j * (j + 1) / 2 + i

/-- `smatrix_elem::size` (fem3d/fem3d.cpp:623-625) -/
def elemSize (nnd : Nat) : Nat := nnd * (nnd + 1) / 2

end OP.Fem
