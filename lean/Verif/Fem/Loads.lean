import Verif.Fem.PropsNodes
import Verif.SetFam.Indexed
import Mathlib.Data.Prod.Lex
/-!
# Boundary conditions and forces of a mesh (fem3d/fem3d.cpp:2060-2082, 2426-2514)

Doubles are elements of an additive group.  The place of a plane is the whole number that `fixed<8>` makes of it.
-/
namespace OP.Fem.Nodes

open OP.SetFam.Keyed

/-- `mesh_bc` (fem3d/fem3d.cpp:2074-2082) -/
structure Bc (K : Type) where
  n : Nat
  i : Nat
  d : K
deriving DecidableEq

/-- `mesh_bc_key` (fem3d/fem3d.cpp:2055-2073): sorted by node, then by direction -/
def Bc.key {K : Type} (b : Bc K) : Nat ×ₗ Nat := toLex (b.n, b.i)

/-- `dof` (fem3d/fem3d.cpp:2427-2431): the bits of a set of directions -/
structure Dof where
  x : Bool := false
  y : Bool := false
  z : Bool := false
deriving DecidableEq

/-- `bcplane` (fem3d/fem3d.cpp:2433-2437) -/
structure Side where
  eq : Bool := false
  below : Bool := false
  above : Bool := false
deriving DecidableEq

/-- The nodes, prescribed displacements and forces of `mesh` (fem3d/fem3d.cpp:2786-2788) -/
structure Mesh (K : Type) where
  node : NL := {}
  disp : KI (Bc K) := ⟨[], []⟩
  fext : KI (Bc K) := ⟨[], []⟩

variable {K : Type}

/-- `if (f & ..) disp_bc.add(mesh_bc(k,i,d))` -/
def putIf (b : Bool) (s : KI (Bc K)) (v : Bc K) : Res (KI (Bc K)) :=
  if b then s.copyOne Bc.key v else .ok s

/-- `add_bc` (fem3d/fem3d.cpp:2439-2450) -/
def Mesh.add_bc (m : Mesh K) (p : C3) (f : Dof) (d : K) : Res (Mesh K × Bool) := do
  match ← m.node.haskey (depth m.node.size) p with
  | none => return (m, false)
  | some k =>
    let s ← putIf f.x m.disp ⟨k, 0, d⟩
    let s ← putIf f.y s ⟨k, 1, d⟩
    let s ← putIf f.z s ⟨k, 2, d⟩
    return ({ m with disp := s }, true)

/-- One case of the switch (fem3d/fem3d.cpp:2462-2467): `x` is the coordinate of the node. -/
def planeAt (m : Mesh K) (n : C3) (x : Int) (p : Side) (c : Int) (f : Dof) (d : K) : Res (Mesh K) := do
  let m ← if p.eq && decide (x = c) then (do return (← m.add_bc n f d).1) else .ok m
  let m ← if p.below && decide (x < c) then (do return (← m.add_bc n f d).1) else .ok m
  if p.above && decide (x > c) then (do return (← m.add_bc n f d).1) else .ok m

/-- The switch (fem3d/fem3d.cpp:2460-2484) -/
def planeOne (o : Dof) (p : Side) (c : Int) (f : Dof) (d : K) (m : Mesh K) (n : C3) : Res (Mesh K) :=
  if o = ⟨true, false, false⟩ then planeAt m n n.x p c f d
  else if o = ⟨false, true, false⟩ then planeAt m n n.y p c f d
  else if o = ⟨false, false, true⟩ then planeAt m n n.z p c f d
  else .ok m

/-- The loop of `add_bc_plane` (fem3d/fem3d.cpp:2458-2485), `k` nodes from node `i` -/
def planeLoop (o : Dof) (p : Side) (c : Int) (f : Dof) (d : K) : Nat → Nat → Mesh K → Res (Mesh K)
  | 0, _, m => .ok m
  | k + 1, i, m => planeOne o p c f d m (m.node.val i).key >>= fun m => planeLoop o p c f d k (i + 1) m

/-- `add_bc_plane` (fem3d/fem3d.cpp:2452-2487) -/
def Mesh.add_bc_plane (m : Mesh K) (o : Dof) (p : Side) (c : Int) (f : Dof) (d : K) : Res (Mesh K × Bool) :=
  if (o.x && o.y) || (o.x && o.z) || (o.y && o.z) then .ub
  else do return (← planeLoop o p c f d m.node.size 0 m, true)

/-- One direction of `add_fext` (fem3d/fem3d.cpp:2495-2500) -/
def sumIf [Add K] (b : Bool) (s : KI (Bc K)) (v : Bc K) : Res (KI (Bc K)) :=
  if b then do
    match ← s.haskey Bc.key v.key with
    | none => s.copyOne Bc.key v
    | some j =>
      match s.vals[j]? with
      | none => .ub
      | some w => s.copyOne Bc.key { v with d := v.d + w.d }
  else .ok s

/-- `add_fext` (fem3d/fem3d.cpp:2489-2514) -/
def Mesh.add_fext [Add K] (m : Mesh K) (p : C3) (f : Dof) (d : K) : Res (Mesh K × Bool) := do
  match ← m.node.haskey (depth m.node.size) p with
  | none => return (m, false)
  | some k =>
    let s ← sumIf f.x m.fext ⟨k, 0, d⟩
    let s ← sumIf f.y s ⟨k, 1, d⟩
    let s ← sumIf f.z s ⟨k, 2, d⟩
    return ({ m with fext := s }, true)

end OP.Fem.Nodes
