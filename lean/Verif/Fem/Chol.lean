import Verif.Fem.Sparse
/-!
# Incomplete Cholesky decomposition (fem3d/fem3d.cpp:1919-1974, 2695-2726)

Doubles are elements of an ordered field; `eps` is `DBL_EPSILON`, and `sqrt` is a parameter.  Simplified: a column is its
diagonal block and the rows and blocks of its nodes, in the order in which the pointers give them; after tidying this is the
order of the array (C88).
-/
namespace OP.Fem

variable {K : Type} [Field K]

/-- The columns, by the pointers. -/
abbrev Fac (K : Type) := Nat → Blk K × List (Nat × Blk K)

/-- What the pointers of a matrix give. -/
def SMat.cols (A : SMat K) (n : Nat) : Res (Blk K × List (Nat × Blk K)) :=
  (A n).chain >>= fun l => .ok ((A n).val, l.map fun p => (p.i, p.val))

/-- What the pointers of the first `nnd` columns give. -/
def SMat.allCols (A : SMat K) (nnd : Nat) : Res (Fac K) :=
  (List.range nnd).foldl (fun (R : Res (Fac K)) n => R >>= fun F => A.cols n >>= fun c => .ok (Function.update F n c)) (.ok fun _ => (0, []))

/-- `~s*t` -/
def tmul (s t : Blk K) : Blk K := fun a b => ∑ c, s c a * t c b

/-- A write to a block. -/
def put (t : Blk K) (i j : Fin 3) (x : K) : Blk K := fun a b => if a = i ∧ b = j then x else t a b

/-- The loop over the blocks of two columns (fem3d/fem3d.cpp:1928-1942). -/
def merge : List (Nat × Blk K) → List (Nat × Blk K) → Blk K → Blk K
  | [], _, acc => acc
  | _ :: _, [], acc => acc
  | a :: pi, b :: pj, acc =>
    if a.1 > b.1 then merge (a :: pi) pj acc
    else if a.1 < b.1 then merge pi (b :: pj) acc
    else merge pi pj (acc - tmul a.2 b.2)
termination_by pi pj _ => pi.length + pj.length

/-- The loops for an off diagonal block `p` and the diagonal block `D` of its row (fem3d/fem3d.cpp:1943-1951). -/
def offDiag (D p : Blk K) : Blk K :=
  (List.finRange 3).foldl (fun p i => (List.finRange 3).foldl (fun p j =>
    let p := ((List.finRange 3).filter (· < i)).foldl (fun p k => put p i j (p i j - D k i * p k j)) p
    put p i j (p i j * D i i)) p) p

/-- The loop over the nodes of a column (fem3d/fem3d.cpp:1926-1954): the diagonal block, and the nodes done and to be done. -/
def offLoop (F : Fac K) : Blk K → List (Nat × Blk K) → List (Nat × Blk K) → Blk K × List (Nat × Blk K)
  | D, done, [] => (D, done)
  | D, done, p :: rest =>
    let v := offDiag (F p.1).1 (merge (F p.1).2 (done ++ p :: rest) p.2)
    offLoop F (D - tmul v v) (done ++ [(p.1, v)]) rest

variable [LinearOrder K]

/-- The loop over `i` for a diagonal block (fem3d/fem3d.cpp:1956-1972). -/
def diagStep (eps : K) (sqrt : K → K) (D : Blk K) (i : Fin 3) : Res (Blk K) :=
  let D := ((List.finRange 3).filter (· < i)).foldl (fun D k => put D i i (D i i - D k i * D k i)) D
  if D i i < eps then .throw
  else
    let D := put D i i (1 / sqrt (D i i))
    .ok (((List.finRange 3).filter (i < ·)).foldl (fun D j =>
      let D := ((List.finRange 3).filter (· < i)).foldl (fun D k => put D i j (D i j - D k i * D k j)) D
      let D := put D i j (D i j * D i i)
      put D j i 0) D)

/-- The loop over `i` for a diagonal block (fem3d/fem3d.cpp:1956-1972). -/
def diagChol (eps : K) (sqrt : K → K) (D : Blk K) : Res (Blk K) :=
  (List.finRange 3).foldl (fun R i => R >>= fun D => diagStep eps sqrt D i) (.ok D)

/-- The body of the loop over the columns (fem3d/fem3d.cpp:1924-1973). -/
def cholCol (eps : K) (sqrt : K → K) (F : Fac K) (n : Nat) : Res (Fac K) :=
  let r := offLoop F (F n).1 [] (F n).2
  diagChol eps sqrt r.1 >>= fun D => .ok (Function.update F n (D, r.2))

/-- `incchol` (fem3d/fem3d.cpp:1919-1974) -/
def incchol (eps : K) (sqrt : K → K) (F : Fac K) (nnd : Nat) : Res (Fac K) :=
  (List.range nnd).foldl (fun R n => R >>= fun F => cholCol eps sqrt F n) (.ok F)

/-- The preconditioner of a matrix (fem3d/fem3d.cpp:2662-2664). -/
def SMat.precond (eps : K) (sqrt : K → K) (A : SMat K) (nnd : Nat) : Res (Fac K) :=
  A.fillin nnd >>= fun B => B.allCols nnd >>= fun F => incchol eps sqrt F nnd

omit [LinearOrder K]

/-! ## Substitution -/

/-- The loops over the entries of a diagonal block (fem3d/fem3d.cpp:2704-2708). -/
def fwdDiag (D : Blk K) (t : Fin 3 → K) : Fin 3 → K :=
  (List.finRange 3).foldl (fun t i =>
    let t := ((List.finRange 3).filter (· < i)).foldl (fun t j => Function.update t i (t i - t j * D j i)) t
    Function.update t i (t i * D i i)) t

/-- Forward substitution (fem3d/fem3d.cpp:2696-2710) -/
def forward (F : Fac K) (nnd : Nat) (R V : SVec K) : SVec K :=
  (List.range nnd).foldl (fun V n =>
    let t := (F n).2.foldl (fun t p => t - mv (tr p.2) (V p.1)) (R n)
    Function.update V n (fwdDiag (F n).1 t)) V

/-- The loops over the entries of a diagonal block (fem3d/fem3d.cpp:2715-2719). -/
def backDiag (D : Blk K) (t : Fin 3 → K) : Fin 3 → K :=
  (List.finRange 3).reverse.foldl (fun t i =>
    let t := ((List.finRange 3).filter (i < ·)).foldl (fun t j => Function.update t i (t i - t j * D i j)) t
    Function.update t i (t i * D i i)) t

/-- Backward substitution (fem3d/fem3d.cpp:2712-2726) -/
def backward (F : Fac K) (nnd : Nat) (V : SVec K) : SVec K :=
  (List.range nnd).reverse.foldl (fun V n =>
    let t := backDiag (F n).1 (V n)
    (F n).2.foldl (fun V p => Function.update V p.1 (V p.1 - mv p.2 t)) (Function.update V n t)) V

end OP.Fem
