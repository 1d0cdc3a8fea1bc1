import Verif.Fem.Chol
/-!
# The finite element solver (`mesh::solve`, fem3d/fem3d.cpp:2517-2782)

Doubles are elements of an ordered field; `eps` is `DBL_EPSILON` and `sqrt` the square root of the preconditioner.  The order of
the nodes (`node.getorder`) is a parameter, as are the element matrices (C86).  Not modelled: output to the screen.
-/
namespace OP.Fem

variable {K : Type} [Field K]

/-- A prescribed displacement or force (`mesh_bc`, fem3d/fem3d.cpp:2074-2082). -/
structure MeshBc (K : Type) where
  n : Nat
  i : Fin 3
  d : K

/-- An element with its stiffness matrix, of which the blocks with `i ≤ j` are stored (`element::nnd`, `l2g`, `smatrix_elem`). -/
structure SElem (K : Type) where
  nnd : Nat
  l2g : Nat → Nat
  ke : Nat → Nat → Blk K

/-- The bits of `node3d::fixed` (fem3d/fem3d.cpp:422): a bit for each direction and a bit that some displacement is not zero. -/
structure Flags where
  fixed : Nat → Fin 3 → Bool
  nonzero : Nat → Bool

/-- A write to a vector. -/
def SVec.set (F : SVec K) (n : Nat) (i : Fin 3) (x : K) : SVec K := Function.update F n (Function.update (F n) i x)

/-- The external forces (fem3d/fem3d.cpp:2563-2567) -/
def extForces (n2o : Nat → Nat) (fext : List (MeshBc K)) : SVec K :=
  fext.foldl (fun F f => SVec.set F (n2o f.n) f.i f.d) 0

/-- The bits and the prescribed displacements (fem3d/fem3d.cpp:2575-2586), from the bits that an earlier call left. -/
def setFixed [DecidableEq K] (n2o : Nat → Nat) (disp : List (MeshBc K)) (fl : Flags) : Flags × SVec K :=
  disp.foldl (fun s u =>
    let fl : Flags := ⟨Function.update s.1.fixed u.n (Function.update (s.1.fixed u.n) u.i true), s.1.nonzero⟩
    if u.d ≠ 0 then (⟨fl.fixed, Function.update fl.nonzero u.n true⟩, SVec.set s.2 (n2o u.n) u.i u.d) else (fl, s.2)) (fl, 0)

/-- The loads of the prescribed displacements (fem3d/fem3d.cpp:2596-2610) -/
def bcForces (n2o : Nat → Nat) (nonzero : Nat → Bool) (P : SVec K) (e : SElem K) (F : SVec K) : SVec K :=
  (List.range e.nnd).foldl (fun F i =>
    if nonzero (e.l2g i) then
      (List.range e.nnd).foldl (fun F j =>
        Function.update F (n2o (e.l2g j)) (F (n2o (e.l2g j)) - mv (if i > j then e.ke j i else tr (e.ke i j)) (P (n2o (e.l2g i))))) F
    else F) F

/-- No direction is fixed. -/
def noneFixed (f : Fin 3 → Bool) : Bool := !f 0 && !f 1 && !f 2

/-- All directions are fixed. -/
def allFixed (f : Fin 3 → Bool) : Bool := f 0 && f 1 && f 2

/-- A write to an element matrix. -/
def putKe (ke : Nat → Nat → Blk K) (i j : Nat) (a b : Fin 3) (x : K) : Nat → Nat → Blk K :=
  fun i' j' => if i' = i ∧ j' = j then put (ke i' j') a b x else ke i' j'

/-- The writes for two nodes and a fixed direction `k` of the first (fem3d/fem3d.cpp:2622-2627). -/
def zeroDir (ke : Nat → Nat → Blk K) (i j : Nat) (k : Fin 3) : Nat → Nat → Blk K :=
  (List.finRange 3).foldl (fun ke l =>
    let ke := if i ≥ j then putKe ke j i l k 0 else ke
    if i ≤ j then putKe ke i j k l 0 else ke) ke

/-- The writes for two nodes (fem3d/fem3d.cpp:2619-2628). -/
def zeroPair (f : Fin 3 → Bool) (ke : Nat → Nat → Blk K) (i j : Nat) : Nat → Nat → Blk K :=
  (List.finRange 3).foldl (fun ke k => if f k then zeroDir ke i j k else ke) ke

/-- The rows and columns of partly fixed nodes (fem3d/fem3d.cpp:2611-2630) -/
def zeroFixed (fixed : Nat → Fin 3 → Bool) (e : SElem K) : Nat → Nat → Blk K :=
  (List.range e.nnd).foldl (fun ke i =>
    if noneFixed (fixed (e.l2g i)) || allFixed (fixed (e.l2g i)) then ke
    else (List.range e.nnd).foldl (fun ke j => zeroPair (fixed (e.l2g i)) ke i j) ke) e.ke

/-- The blocks of an element that are added, in the order of the loops (fem3d/fem3d.cpp:2632-2644). -/
def elemOps (n2o : Nat → Nat) (fixed : Nat → Fin 3 → Bool) (e : SElem K) (ke : Nat → Nat → Blk K) : List (Nat × Nat × Blk K) :=
  ((List.range e.nnd).filter fun i => !allFixed (fixed (e.l2g i))).flatMap fun i =>
    ((List.range' i (e.nnd - i)).filter fun j => !allFixed (fixed (e.l2g j))).map fun j => (n2o (e.l2g i), n2o (e.l2g j), ke i j)

/-- The loop over the elements (fem3d/fem3d.cpp:2588-2647) -/
def assemble (n2o : Nat → Nat) (fl : Flags) (P : SVec K) (els : List (SElem K)) (A : SMat K) (F : SVec K) : Res (SMat K × SVec K) :=
  els.foldl (fun (R : Res (SMat K × SVec K)) e => R >>= fun s =>
    (elemOps n2o fl.fixed e (zeroFixed fl.fixed e)).foldl (fun (R : Res (SMat K)) op => R >>= fun A => A.append op.1 op.2.1 op.2.2) (.ok s.1)
      >>= fun A => .ok (A, bcForces n2o fl.nonzero P e s.2)) (.ok (A, F))

/-- The prescribed displacements in the system (fem3d/fem3d.cpp:2649-2655) -/
def finalise (n2o : Nat → Nat) (disp : List (MeshBc K)) (A : SMat K) (F U : SVec K) : SMat K × SVec K × SVec K :=
  disp.foldl (fun s u =>
    let n := n2o u.n
    (Function.update s.1 n { s.1 n with val := put (s.1 n).val u.i u.i 1 }, SVec.set s.2.1 n u.i u.d, SVec.set s.2.2 n u.i u.d)) (A, F, U)

/-- The sum over the nodes of the products of two vectors. -/
def dot (nnd : Nat) (X Y : SVec K) : K := ∑ n ∈ Finset.range nnd, ∑ i, X n i * Y n i

/-- A loop that sets every node of a vector. -/
def setAll (nnd : Nat) (X : SVec K) (f : Nat → Fin 3 → K) : SVec K := fun n => if n < nnd then f n else X n

/-- The vectors of the loop. -/
structure Cg (K : Type) where
  (U R P V W : SVec K)
  ro : K

variable [LinearOrder K]

/-- The loop of the conjugate gradients (fem3d/fem3d.cpp:2675-2766) from the step `it`, with `k` steps left until the limit.
Where the assertion fails the outcome is undefined, as the numbers are not numbers afterwards. -/
def cgLoop (A : SMat K) (G : Fac K) (nnd : Nat) (tol ri : K) : Nat → Nat → Cg K → Res (SVec K)
  | 0, _, s => .ok s.U
  | k + 1, it, s =>
    if dot nnd s.R s.R < tol * ri then .ok s.U
    else
      let V := backward G nnd (forward G nnd s.R s.V)
      let r := dot nnd V s.R
      let P := if it = 0 then setAll nnd s.P V else setAll nnd s.P fun n => V n + (r / s.ro) • s.P n
      A.mul nnd P s.W >>= fun W =>
        let a := dot nnd W P
        if a > 0 then
          cgLoop A G nnd tol ri k (it + 1) ⟨setAll nnd s.U fun n => s.U n + (r / a) • P n, setAll nnd s.R fun n => s.R n - (r / a) • W n, P, V, W, r⟩
        else .ub

/-- The loop of the conjugate gradients (fem3d/fem3d.cpp:2665-2766), with whatever is in the vectors. -/
def cg (A : SMat K) (G : Fac K) (nnd : Nat) (tol : K) (F U P W V R : SVec K) : Res (SVec K) :=
  A.residual nnd F U R >>= fun R => cgLoop A G nnd tol (dot nnd F F) (3 * nnd) 0 ⟨U, R, P, V, W, 0⟩

/-- `solve` (fem3d/fem3d.cpp:2517-2782): the displacements of the nodes, or nothing if an element has no stiffness matrix. -/
def solve (eps : K) (sqrt : K → K) (nnd : Nat) (n2o : Nat → Nat) (fext disp : List (MeshBc K)) (fl : Flags) (els : List (Option (SElem K)))
    (u : Nat → Fin 3 → K) (tol : K) : Res (Option (Nat → Fin 3 → K)) :=
  let F := extForces n2o fext
  let U : SVec K := (List.range nnd).foldl (fun U i => Function.update U (n2o i) (u i)) 0
  let s := setFixed n2o disp fl
  if els.any Option.isNone then .ok none
  else
    assemble n2o s.1 s.2 (els.filterMap id) (SMat.new 0) F >>= fun t =>
      let z := finalise n2o disp t.1 t.2 U
      z.1.tidy nnd >>= fun A =>
        A.copy nnd >>= fun M =>
          M.precond eps sqrt nnd >>= fun G =>
            cg A G nnd tol z.2.1 z.2.2 s.2 0 0 0 >>= fun U => .ok (some fun i => if i < nnd then U (n2o i) else u i)

end OP.Fem
