import Verif.Fem.Stiff
/-!
# The sparse matrix of the finite elements (fem3d/fem3d.cpp:1675-1915, 1977-2022)

Doubles are elements of a field.  A pointer into the array of nodes of a column is its index, so that `expand`, which moves
the array and its pointers, changes nothing (fem3d/fem3d.cpp:1694-1717).  There is a column for every number; those from `nnd`
on are not used.
-/
namespace OP.Fem

variable {K : Type} [Field K]

/-- `smatrix_node` (fem3d/fem3d.cpp:1680-1688) -/
structure SNode (K : Type) where
  val : Blk K
  i : Nat
  next : Option Nat

/-- `smatrix_diag` (fem3d/fem3d.cpp:1693-1725); `nnz` is the number of nodes. -/
structure SCol (K : Type) where
  val : Blk K
  head : Option Nat
  nodes : List (SNode K)

/-- `smatrix` (fem3d/fem3d.cpp:1739-2022) -/
abbrev SMat (K : Type) := Nat → SCol K

/-- `smatrix(n,d)` (fem3d/fem3d.cpp:1742-1752) -/
def SMat.new (d : K) : SMat K := fun _ => ⟨fun a b => if a = b then d else 0, none, []⟩

/-- `~t` -/
def tr (t : Blk K) : Blk K := fun a b => t b a

/-- The loops that look for a row in a column (fem3d/fem3d.cpp:1793-1794, 1816-1818): the node before and the first node not
before row `r`.  A pointer that leads nowhere or round in a circle is undefined. -/
def walk (nodes : List (SNode K)) (r : Nat) : Nat → Option Nat → Option Nat → Res (Option Nat × Option Nat)
  | _, o, none => .ok (o, none)
  | 0, _, some _ => .ub
  | f + 1, o, some p =>
    match nodes[p]? with
    | none => .ub
    | some n => if n.i < r then walk nodes r f (some p) n.next else .ok (o, some p)

/-- The end of `append` (fem3d/fem3d.cpp:1805-1823): a new node between `o` and `p`. -/
def SCol.insert (d : SCol K) (o p : Option Nat) (r : Nat) (t : Blk K) : SCol K :=
  match o with
  | none => { d with head := some d.nodes.length, nodes := d.nodes ++ [⟨t, r, p⟩] }
  | some o => { d with nodes := d.nodes.modify o (fun n => { n with next := some d.nodes.length }) ++ [⟨t, r, p⟩] }

/-- The body of `append` (fem3d/fem3d.cpp:1792-1823) for the column, with the block turned the right way. -/
def SCol.append (d : SCol K) (r : Nat) (t : Blk K) : Res (SCol K) :=
  walk d.nodes r (d.nodes.length + 1) none d.head >>= fun w =>
    match w.2 with
    | none => .ok (d.insert w.1 w.2 r t)
    | some p =>
      match d.nodes[p]? with
      | none => .ub
      | some n => if n.i = r then .ok { d with nodes := d.nodes.set p { n with val := n.val + t } }
        else .ok (d.insert w.1 w.2 r t)

/-- `append` (fem3d/fem3d.cpp:1782-1824) -/
def SMat.append (A : SMat K) (i j : Nat) (t : Blk K) : Res (SMat K) :=
  if i = j then .ok (Function.update A i { A i with val := (A i).val + t })
  else (A (max i j)).append (min i j) (if j < i then tr t else t) >>= fun d => .ok (Function.update A (max i j) d)

/-- The inner loop of the insertion sort (fem3d/fem3d.cpp:1834-1840): the node at `k` moves down. -/
def sink : Nat → List (SNode K) → List (SNode K)
  | 0, l => l
  | k + 1, l =>
    match l[k]?, l[k + 1]? with
    | some a, some b => if a.i > b.i then sink k ((l.set k b).set (k + 1) a) else l
    | _, _ => l

/-- The outer loop (fem3d/fem3d.cpp:1833-1841) -/
def insertionSort (l : List (SNode K)) : List (SNode K) := (List.range' 1 (l.length - 1)).foldl (fun l j => sink j l) l

/-- The new pointers (fem3d/fem3d.cpp:1843-1846): each node points to the one behind it. -/
def relink (l : List (SNode K)) : List (SNode K) :=
  l.mapIdx fun j n => { n with next := if j = l.length - 1 then none else some (j + 1) }

/-- `tidy` for a column (fem3d/fem3d.cpp:1831-1847).  The counter of the second loop has 16 bits, so the loop does not end if
there are more than 65535 nodes; this is undefined in C++. -/
def SCol.tidy (d : SCol K) : Res (SCol K) :=
  if d.nodes.length > 65535 then .ub
  else .ok { d with nodes := relink (insertionSort d.nodes), head := d.head.map fun _ => 0 }

/-- `tidy` (fem3d/fem3d.cpp:1827-1848) -/
def SMat.tidy (A : SMat K) (nnd : Nat) : Res (SMat K) :=
  (List.range nnd).foldl (fun R i => R >>= fun A => (A i).tidy >>= fun d => .ok (Function.update A i d)) (.ok A)

/-- The nodes of a column as met by following the pointers (fem3d/fem3d.cpp:1765-1769). -/
def follow (nodes : List (SNode K)) : Nat → Option Nat → Res (List (SNode K))
  | _, none => .ok []
  | 0, some _ => .ub
  | f + 1, some p =>
    match nodes[p]? with
    | none => .ub
    | some n => follow nodes f n.next >>= fun l => .ok (n :: l)

/-- The nodes of a column in the order of the pointers. -/
def SCol.chain (d : SCol K) : Res (List (SNode K)) := follow d.nodes (d.nodes.length + 1) d.head

/-- The copy constructor (fem3d/fem3d.cpp:1754-1771) for the column `i`. -/
def SMat.copyCol (A B : SMat K) (i : Nat) : Res (SMat K) :=
  B.append i i (A i).val >>= fun B => (A i).chain >>= fun l =>
    l.foldl (fun B n => B >>= fun B => B.append n.i i n.val) (.ok B)

/-- The copy constructor (fem3d/fem3d.cpp:1754-1771) -/
def SMat.copy (A : SMat K) (nnd : Nat) : Res (SMat K) :=
  (List.range nnd).foldl (fun B i => B >>= fun B => A.copyCol B i) (.ok (SMat.new 0))

/-! ## Fill in -/

/-- The row lists (fem3d/fem3d.cpp:1864-1878): the columns that have a node in each row, the last first. -/
def rowLists (A : SMat K) (nnd : Nat) : Res (Nat → List Nat) :=
  (List.range nnd).foldl (fun R n => R >>= fun rows => (A n).chain >>= fun l =>
    .ok (l.foldl (fun rows p => Function.update rows p.i (n :: rows p.i)) rows)) (.ok fun _ => [])

/-- The state of the second loop of `fillin`: the row lists and the marks, which share an array. -/
structure Fill where
  rows : Nat → List Nat
  mark : Nat → Int

/-- The inner loop for the node `p` of the column `n` (fem3d/fem3d.cpp:1892-1899).  The row list begins with this column. -/
def fillNode (n : Nat) (s : Fill) (p : Nat) : Res Fill :=
  match s.rows p with
  | [] => .ub
  | _ :: r => .ok ⟨Function.update s.rows p r,
      r.foldl (fun m c => Function.update m (n - c - 1) (-1)) (Function.update s.mark (n - p - 1) 1)⟩

/-- The body of the loop over the columns (fem3d/fem3d.cpp:1883-1913).  Simplified: the rows to be added are listed from the
marks at once. -/
def fillCol (A : SMat K) (s : Fill) (n : Nat) : Res (SMat K × Fill) :=
  (A n).chain >>= fun l =>
    match l with
    | [] => .ok (A, s)
    | p :: _ =>
      l.foldl (fun R p => R >>= fun s => fillNode n s p.i) (.ok s) >>= fun s =>
        let new := ((List.range (n - p.i)).filter fun i => s.mark i = -1).reverse.map fun i => (⟨0, n - 1 - i, none⟩ : SNode K)
        .ok (Function.update A n { A n with nodes := (A n).nodes ++ new },
          { s with mark := fun i => if i < n - p.i then 0 else s.mark i })

/-- `fillin` (fem3d/fem3d.cpp:1856-1916) -/
def SMat.fillin (A : SMat K) (nnd : Nat) : Res (SMat K) :=
  rowLists A nnd >>= fun rows =>
    (List.range nnd).reverse.foldl (fun R n => R >>= fun s => fillCol s.1 s.2 n) (.ok (A, (⟨rows, fun _ => 0⟩ : Fill))) >>= fun s =>
      s.1.tidy nnd

/-! ## Use -/

/-- The nodes as met by `p++` from `col_head` (fem3d/fem3d.cpp:2681-2682). -/
def SCol.array (d : SCol K) : Res (List (SNode K)) :=
  match d.head with
  | none => if d.nodes.length = 0 then .ok [] else .ub
  | some h => if h + d.nodes.length ≤ d.nodes.length then .ok ((d.nodes.drop h).take d.nodes.length) else .ub

/-- A vector of blocks (`svector`, fem3d/fem3d.cpp:2027-2049). -/
abbrev SVec (K : Type) := Nat → Fin 3 → K

/-- A block times a vector. -/
def mv (t : Blk K) (v : Fin 3 → K) : Fin 3 → K := fun a => ∑ b, t a b * v b

/-- The product with the matrix (fem3d/fem3d.cpp:2738-2747) for the column `i`. -/
def mulCol (A : SMat K) (P W : SVec K) (i : Nat) : Res (SVec K) :=
  (A i).array >>= fun l =>
    .ok (l.foldl (fun W p =>
      let W := Function.update W i (W i + mv (tr p.val) (P p.i))
      Function.update W p.i (W p.i + mv p.val (P i))) (Function.update W i (mv (A i).val (P i))))

/-- The product with the matrix (fem3d/fem3d.cpp:2738-2747), from whatever was in the vector. -/
def SMat.mul (A : SMat K) (nnd : Nat) (P W : SVec K) : Res (SVec K) :=
  (List.range nnd).foldl (fun R i => R >>= fun W => mulCol A P W i) (.ok W)

/-- The first residual (fem3d/fem3d.cpp:2678-2687) for the column `i`. -/
def resCol (A : SMat K) (F U R : SVec K) (i : Nat) : Res (SVec K) :=
  (A i).array >>= fun l =>
    .ok (l.foldl (fun R p =>
      let R := Function.update R i (R i - mv (tr p.val) (U p.i))
      Function.update R p.i (R p.i - mv p.val (U i))) (Function.update R i (F i - mv (A i).val (U i))))

/-- The first residual (fem3d/fem3d.cpp:2678-2687) -/
def SMat.residual (A : SMat K) (nnd : Nat) (F U R : SVec K) : Res (SVec K) :=
  (List.range nnd).foldl (fun X i => X >>= fun R => resCol A F U R i) (.ok R)

/-! ## Unused functions -/

/-- The number of nodes that `chol` asks for (fem3d/fem3d.cpp:1987), for a column `n` whose first row is `r`. -/
def cholSpace (r n nnz : Nat) : BitVec 32 := BitVec.ofNat 32 r - BitVec.ofNat 32 n - BitVec.ofNat 32 nnz

/-- The body of the loop of `nonzero` (fem3d/fem3d.cpp:2008-2012) for the column `n` whose first row is `r`, if it has one. -/
def nonzeroCol (s : BitVec 32) (n : Nat) : Option Nat → BitVec 32
  | none => s
  | some r => s + (BitVec.ofNat 32 r - BitVec.ofNat 32 n)

/-- `nonzero` (fem3d/fem3d.cpp:2002-2015), from the first row of each column. -/
def nonzero (nnd : Nat) (first : Nat → Option Nat) : BitVec 32 :=
  (List.range nnd).foldl (fun s n => nonzeroCol s n (first n)) (BitVec.ofNat 32 nnd)

end OP.Fem
