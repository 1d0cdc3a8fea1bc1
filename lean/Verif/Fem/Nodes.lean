import Verif.Basic
import Verif.SetFam.Bufsize
import Mathlib.Data.Nat.Log
/-!
# The nodes of a mesh (fem3d/fem3d.cpp:290-590, 2395-2424)

A coordinate is the whole number that `fixed<8>` stores.  `UINT_MAX` as a node number is `none`.  Numbers of type `unsigned` are
exact.  A failed assertion and a read or write outside the array are the outcome `ub`.  The displacements that a node carries
are left out.
-/
namespace OP.Fem.Nodes

open OP.SetFam (bufsize)

/-- `coord3d` (fem3d/fem3d.cpp:295-312) -/
structure C3 where
  x : Int
  y : Int
  z : Int
deriving DecidableEq, Repr

/-- `coord3d::compare` (fem3d/fem3d.cpp:313-321) -/
def C3.compare (a p : C3) : Int :=
  if a.x = p.x ∧ a.y = p.y ∧ a.z = p.z then 0
  else if a.z > p.z then -1
  else if a.z < p.z then 1
  else if a.x < p.x then -1
  else if a.x > p.x then 1
  else if a.y < p.y then -1 else 1

/-- The neighbours of a node (fem3d/fem3d.cpp:371-373) -/
structure Nbr where
  xm : Option Nat := none
  xp : Option Nat := none
  ym : Option Nat := none
  yp : Option Nat := none
  zm : Option Nat := none
  zp : Option Nat := none
deriving DecidableEq, Repr

/-- `node3d` (fem3d/fem3d.cpp:368-440) -/
structure Nd where
  key : C3
  nbr : Nbr := {}
  order : Nat := 0
  left : Option Nat := none
  right : Option Nat := none
  red : Bool := true
deriving DecidableEq, Repr

/-- One direction of `setneighbours` (fem3d/fem3d.cpp:389-392) -/
def setN (old new : Option Nat) : Res (Option Nat) :=
  match new with
  | none => .ok old
  | some n => if old = none ∨ old = some n then .ok (some n) else .ub

/-- `setneighbours` (fem3d/fem3d.cpp:386-413) -/
def Nd.setneighbours (n : Nd) (g : Nbr) : Res Nd := do
  let xm ← setN n.nbr.xm g.xm
  let xp ← setN n.nbr.xp g.xp
  let ym ← setN n.nbr.ym g.ym
  let yp ← setN n.nbr.yp g.yp
  let zm ← setN n.nbr.zm g.zm
  let zp ← setN n.nbr.zp g.zp
  return { n with nbr := ⟨xm, xp, ym, yp, zm, zp⟩ }

/-- The array of nodes -/
abbrev Mem := Nat → Nd

/-- A write to the array -/
def Mem.set (v : Mem) (i : Nat) (d : Nd) : Mem := fun j => if j = i then d else v j

/-- Splitting of a double red on the way down (fem3d/fem3d.cpp:556-567); the second result is the new `r`. -/
def split (v : Mem) (i : Nat) : Mem × Nat :=
  match (v i).left with
  | none => (v, i)
  | some x =>
    if (v x).red then
      match (v x).left with
      | none => (v, i)
      | some y =>
        if (v y).red then
          let v := v.set i { v i with left := (v x).right }
          let v := v.set x { v x with right := some i }
          let v := v.set i { v i with order := (v i).order - ((v x).order + 1) }
          let v := v.set y { v y with red := false }
          (v, x)
        else (v, i)
    else (v, i)

/-- Turning of a right red to the left on the way back (fem3d/fem3d.cpp:580-588) -/
def lean (v : Mem) (i : Nat) : Mem × Nat :=
  match (v i).right with
  | none => (v, i)
  | some x =>
    if (v x).red then
      let v := v.set i { v i with right := (v x).left }
      let v := v.set x { v x with left := some i }
      let v := v.set x { v x with order := (v x).order + ((v i).order + 1) }
      let v := v.set x { v x with red := (v i).red }
      let v := v.set i { v i with red := true }
      (v, x)
    else (v, i)

/-- `append` (fem3d/fem3d.cpp:549-589).  The results are the array, the number of nodes and the new value of the link `r`, which
the caller stores.  `dbg` says whether assertions are compiled in.  The number bounds the depth of the recursion; more is an
overflow of the stack. -/
def append (dbg : Bool) (c : C3) : Nat → Mem → Nat → Option Nat → Res (Mem × Nat × Option Nat)
  | 0, _, _, _ => .ub
  | _ + 1, v, size, none => .ok (v.set size { key := c }, size + 1, some size)
  | f + 1, v, size, some i =>
    let s := split v i
    let v := s.1
    let i := s.2
    let cmp := c.compare (v i).key
    if cmp = 0 then (if dbg then .ub else .ok (v, size, some i))
    else if cmp < 0 then do
      let (v, size, l) ← append dbg c f v size (v i).left
      let v := v.set i { v i with left := l }
      let v := v.set i { v i with order := (v i).order + 1 }
      let t := lean v i
      return (t.1, size, some t.2)
    else do
      let (v, size, r) ← append dbg c f v size (v i).right
      let v := v.set i { v i with right := r }
      let t := lean v i
      return (t.1, size, some t.2)

/-- `node_list` (fem3d/fem3d.cpp:453-590) -/
structure NL where
  size : Nat := 0
  buffer : Nat := 0
  block : Nat := 64
  root : Option Nat := none
  val : Mem := fun _ => { key := ⟨0, 0, 0⟩ }

/-- `allocate` (fem3d/fem3d.cpp:534-548); the loop and the formula are those of `set::bufsize`. -/
def NL.allocate (l : NL) (s : Nat) : NL :=
  { l with buffer := (bufsize s l.block).1, block := (bufsize s l.block).2 }

/-- `add` (fem3d/fem3d.cpp:520-524) with room for a recursion of depth `f`.  A node outside the buffer cannot be made. -/
def NL.add (dbg : Bool) (f : Nat) (l : NL) (c : C3) : Res NL := do
  let l := l.allocate (l.size + 1)
  if l.size < l.buffer then
    let (v, size, root) ← append dbg c f l.val l.size l.root
    match root with
    | none => .ub
    | some r => return { l with val := v.set r { v r with red := false }, size := size, root := some r }
  else .ub

/-- The loop of `haskey` (fem3d/fem3d.cpp:470-480), at most `f` comparisons -/
def find (v : Mem) (k : C3) : Nat → Option Nat → Res (Option Nat)
  | _, none => .ok none
  | 0, some _ => .ub
  | f + 1, some x =>
    let cmp := k.compare (v x).key
    if cmp = 0 then .ok (some x)
    else if cmp < 0 then find v k f (v x).left
    else find v k f (v x).right

/-- `haskey` (fem3d/fem3d.cpp:468-481) -/
def NL.haskey (f : Nat) (l : NL) (k : C3) : Res (Option Nat) := find l.val k f l.root

/-- The loop of `getindex` (fem3d/fem3d.cpp:489-499); reading `value[UINT_MAX]` is undefined. -/
def nth (v : Mem) (i : Nat) : Nat → Nat → Option Nat → Res Nat
  | _, _, none => .ub
  | 0, _, some _ => .ub
  | f + 1, order, some x =>
    if i = order + (v x).order then .ok x
    else if i < order + (v x).order then nth v i f order (v x).left
    else nth v i f (order + ((v x).order + 1)) (v x).right

/-- `getindex` (fem3d/fem3d.cpp:487-500): the number of the node -/
def NL.getindex (f : Nat) (l : NL) (i : Nat) : Res Nat := nth l.val i f 0 l.root

/-- The loop of `getorder` (fem3d/fem3d.cpp:505-516) -/
def rank (v : Mem) (k : C3) : Nat → Nat → Option Nat → Res Nat
  | _, order, none => .ok order
  | 0, _, some _ => .ub
  | f + 1, order, some x =>
    let cmp := k.compare (v x).key
    if cmp = 0 then .ok (order + (v x).order)
    else if cmp < 0 then rank v k f order (v x).left
    else rank v k f (order + ((v x).order + 1)) (v x).right

/-- `getorder` (fem3d/fem3d.cpp:502-518) -/
def NL.getorder (f : Nat) (l : NL) (i : Nat) : Res Nat :=
  if i < l.size then rank l.val (l.val i).key f 0 l.root else .ub

/-- The depth that is enough for every loop and every recursion over the tree of `n` nodes; see `C106_nodes`. -/
def depth (n : Nat) : Nat := 3 * Nat.log 2 (n + 1) + 2

/-- `mesh::addnode` (fem3d/fem3d.cpp:2395-2402); assertions are compiled in. -/
def addnode (l : NL) (c : C3) : Res (NL × Nat) := do
  match ← l.haskey (depth l.size) c with
  | some k => return (l, k)
  | none => return (← l.add true (depth l.size) c, l.size)

/-- `mesh::updatenode` (fem3d/fem3d.cpp:2403-2409): the whole node is stored, the links of the tree included. -/
def updatenode (l : NL) (n : Nd) : Res (NL × Bool) := do
  match ← l.haskey (depth l.size) n.key with
  | none => return (l, false)
  | some k => return ({ l with val := l.val.set k n }, true)

/-- `mesh::getorderednode` (fem3d/fem3d.cpp:2416-2418) -/
def getorderednode (l : NL) (i : Nat) : Res Nd := do
  return l.val (← l.getindex (depth l.size) i)

/-- `mesh::hasnode` (fem3d/fem3d.cpp:2419-2421) -/
def hasnode (l : NL) (p : C3) : Res (Option Nat) := l.haskey (depth l.size) p

/-- `mesh::getorderofnode` (fem3d/fem3d.cpp:2422-2424) -/
def getorderofnode (l : NL) (p : C3) : Res Nat := do
  match ← l.haskey (depth l.size) p with
  | none => .ub
  | some k => l.getorder (depth l.size) k

/-- How a caller changes the neighbours of node `i` (fem3d/fem3d.cpp:785-830, 1324-1335, 3376-3395): copy, change, store. -/
def setnbr (l : NL) (i : Nat) (g : Nbr) : Res NL := do
  if i < l.size then
    let n ← (l.val i).setneighbours g
    return (← updatenode l n).1
  else .ub

end OP.Fem.Nodes
