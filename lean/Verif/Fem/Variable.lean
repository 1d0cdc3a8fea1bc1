import Verif.Fem.PropsBox
/-!
# Variable and adaptor elements of a mesh (fem3d/fem3d.cpp:766-841, 1541-1596, 2350-2393)
-/
namespace OP.Fem.Nodes

open OP.Fem (Shape getn)

/-- `inel[n]` -/
def readAt (inel : List Nat) (n : Nat) : Res Nat := match inel[n]? with
  | none => .ub
  | some k => .ok k

/-- `(n != UINT_MAX && n != own)`: the known neighbour `n` is not the other corner `own`. -/
def between (n : Option Nat) (own : Nat) : Option Nat := if n ≠ none ∧ n ≠ some own then n else none

/-- A write to the mask; nothing is written if there is no node. -/
def put (m : Nat → Option Nat) (t : Nat) (v : Option Nat) : Nat → Option Nat := match v with
  | none => m
  | some a => fun u => if u = t then some a else m u

/-- One round of the loop over the corners (fem3d/fem3d.cpp:781-831) -/
def maskStep (inel : List Nat) (nz i : Nat) (l : NL) (m : Nat → Option Nat) : Res (NL × (Nat → Option Nat)) := do
  let a ← readAt inel i
  if a < l.size then
    let n := (l.val a).nbr
    let x ← readAt inel (4 * (i / 4) + (i % 4 + 2) % 4)
    let y ← readAt inel (2 * (i / 2) + (i % 2 + 1) % 2)
    let zp ← entry (i < 4 * (nz - 1)) inel (i + 4)
    let zm ← entry (i ≥ 4) inel (i - 4)
    match i % 4 with
    | 0 => do
      let m := put m (i + 2) (between n.xp x)
      let m := put m i (between n.yp y)
      let m ← match between n.yp y with
        | none => .ok m
        | some b =>
          if i = 0 ∨ i = 4 * (nz - 1) then
            if b < l.size then .ok (put m (4 * nz + i / 4) (l.val b).nbr.xp) else .ub
          else .ok m
      let l ← setnbr l a { xp := (between n.xp x).or (some x), yp := (between n.yp y).or (some y), zm := zm, zp := zp }
      return (l, m)
    | 1 => do
      let l ← setnbr l a { xp := (between n.xp x).or (some x), ym := (between n.ym y).or (some y), zm := zm, zp := zp }
      return (l, m)
    | 2 => do
      let l ← setnbr l a { xm := (between n.xm x).or (some x), yp := (between n.yp y).or (some y), zm := zm, zp := zp }
      return (l, m)
    | _ => do
      let m := put m (i - 2) (between n.xm x)
      let m := put m i (between n.ym y)
      let l ← setnbr l a { xm := (between n.xm x).or (some x), ym := (between n.ym y).or (some y), zm := zm, zp := zp }
      return (l, m)
  else .ub

/-- The loop over the corners, `k` rounds from corner `i` -/
def maskLoop (inel : List Nat) (nz : Nat) : Nat → Nat → NL → (Nat → Option Nat) → Res (NL × (Nat → Option Nat))
  | 0, _, l, m => .ok (l, m)
  | k + 1, i, l, m => do
    let (l, m) ← maskStep inel nz i l m
    maskLoop inel nz k (i + 1) l m

/-- The last loop (fem3d/fem3d.cpp:834-840), `k` entries from entry `i`: the nodes of the element and the item numbers -/
def maskNumbers (m : Nat → Option Nat) : Nat → Nat → List Nat → (Nat → Nat) → List Nat × (Nat → Nat)
  | 0, _, inel, r => (inel, r)
  | k + 1, i, inel, r =>
    match m i with
    | some a => maskNumbers m k (i + 1) (inel ++ [a]) fun u => if u = i then inel.length else r u
    | none => maskNumbers m k (i + 1) inel fun u => if u = i then 0 else r u

/-- `setup_mask` (fem3d/fem3d.cpp:766-841): the nodes of the element and the mask.  The mask has `5*nz` entries; what is outside is 0. -/
def setupMask (nz : Nat) (c : Corners) (l : NL) : Res (NL × List Nat × (Nat → Nat)) := do
  let c ← coordSort 4 c
  let (l, inel) ← coordAdd nz 2 2 c l
  let (l, m) ← maskLoop inel nz (4 * nz) 0 l fun _ => none
  let r := maskNumbers m (5 * nz) 0 inel fun _ => 0
  return (l, r.1, r.2)

/-- `mesh::add` for variable and adaptor elements (fem3d/fem3d.cpp:2350-2393): an element without extra nodes is made again as a
block.  The mask of the element is the second result. -/
def Grid.addVar (g : Grid) (adaptor : Bool) (sz : Shape) (c : Corners) : Res (Grid × (Nat → Nat)) := do
  let (l, inel, mask) ← setupMask (getn sz) c g.node
  if inel.length = 4 * getn sz then
    let (l, inel) ← setupBlock (getn sz) 2 2 c l
    return ({ node := l, elems := g.elems ++ [⟨.linear, .linear, sz, inel⟩] }, mask)
  else
    let s : Shape := if adaptor then .quadratic else .absolute
    return ({ node := l, elems := g.elems ++ [⟨s, s, sz, inel⟩] }, mask)

end OP.Fem.Nodes
