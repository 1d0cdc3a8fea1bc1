import Verif.Basic
import Verif.Fem.Region
/-!
# Adding the elements of a mesh outwards (fem3d/fem3d.cpp:3578-3761)

Positions and depths are whole numbers of units (`fixed<8>`, 256 to a millimetre), and so is `delta`.  A failed assertion
is `throw`.  Not modelled: the output, the sets of elements for the output (`along`, `sf`, ...), and the types of the
elements, which depend on their thickness alone.  Built without `QUAD`, as the code is.
-/
namespace OP.Fem.Outward
open OP.Fem.Region

/-- A stop `stop[j]` that the loop reaches, with `stop[j-1]`, `level[j]` and the number of its layer. -/
structure Slab where
  j : Nat
  level : Nat
  top : Int
  bot : Int
  mat : Nat
  deriving DecidableEq

/-- An element `FEM.add(var,layer[i].mat,coord)` with eight coordinates: `x1`, `x2`, `y1`, `y2`, and the depths of its top and
its bottom. -/
structure Block where
  x1 : Int
  x2 : Int
  y1 : Int
  y2 : Int
  slab : Slab
  deriving DecidableEq

/-- The loop over the stops in a round (fem3d/fem3d.cpp:3581-3586) from stop `j` on, with the stop above it: `bots` are the
bottoms of the layers, `i` is the layer so far. -/
def slabs (bots : List Int) (zi : Nat) : Nat → Nat → Int → List (Int × Nat) → Res (List Slab)
  | _, _, _, [] => .ok []
  | i, j, top, (z, l) :: rest =>
    if l ≤ zi then
      let i := i + ((bots.drop i).takeWhile (fun b => z > b)).length
      if i < bots.length then do
        let s ← slabs bots zi i (j + 1) z rest
        .ok (⟨j, l, top, z, i⟩ :: s)
      else .throw
    else .ok []

/-- The intervals `(stop[i-1],stop[i])` of a list of stops. -/
def pairs (l : List Int) : List (Int × Int) := l.zip l.tail

/-- The elements added over the regions `filling` for one stop in round `zi` (fem3d/fem3d.cpp:3605-3625). -/
def over (filled filling : List Region) (zi : Nat) (s : Slab) : List Block :=
  filling.flatMap fun r => (pairs r.xs).flatMap fun x => (pairs r.ys).flatMap fun y =>
    if listMeets filled x.1 y.1 x.2 y.2 && decide (s.level < zi) then [] else [⟨x.1, x.2, y.1, y.2, s⟩]

/-- `rx = 2*dx*(rx < 0 ? floor(rx/dx/2) : ceil(rx/dx/2))` for `rx = (xm+xp)/2` (fem3d/fem3d.cpp:3732-3735) -/
def centre (dx xm xp : Int) : Int :=
  let s := xm + xp
  2 * dx * (if s < 0 then s.fdiv (4 * dx) else -((-s).fdiv (4 * dx)))

/-- The loop that adds stops below (fem3d/fem3d.cpp:3740-3741); `lim` is `MAX(rx-step*dx,-edge)`.  The first number bounds
the rounds. -/
def lower (dx edge lim : Int) : Nat → Int → List Int
  | 0, _ => []
  | n + 1, x => if x > lim then max (x - dx) (-edge) :: lower dx edge lim n (x - dx) else []

/-- The loop that adds stops above (fem3d/fem3d.cpp:3743-3744); `lim` is `MIN(rx+step*dx,edge)`. -/
def upper (dx edge lim : Int) : Nat → Int → List Int
  | 0, _ => []
  | n + 1, x => if x < lim then min (x + dx) edge :: upper dx edge lim n (x + dx) else []

/-- The stops of a region in one direction (fem3d/fem3d.cpp:3732-3745).  For a step of at least one unit the loops end
within as many rounds as there are units to go. -/
def grow (step dx edge : Int) (l : List Int) : Res (List Int) :=
  let c := centre dx (first l) (last l)
  if ¬ (first l = -edge ∨ first l > c - step * dx) then .throw
  else if ¬ (last l = edge ∨ last l < c + step * dx) then .throw
  else
    let lo := max (c - step * dx) (-edge)
    let l := stops (l ++ lower dx edge lo (first l - lo).toNat (first l))
    let hi := min (c + step * dx) edge
    .ok (stops (l ++ upper dx edge hi (hi - last l).toNat (last l)))

/-- The loop over the regions (fem3d/fem3d.cpp:3730-3752). -/
def growAll (step dx edge : Int) : List Region → Res (List Region)
  | [] => .ok []
  | r :: rest => do
    let xs ← grow step dx edge r.xs
    let ys ← grow step dx edge r.ys
    let rest ← growAll step dx edge rest
    .ok (⟨xs, ys⟩ :: rest)

/-- What changes from round to round. -/
structure State where
  filled : List Region
  filling : List Region
  delta : Int
  zi : Nat
  /-- The elements added so far. -/
  mesh : List Block
  deriving DecidableEq

/-- What does not change: the stops and their levels, the first apart, and the bottoms of the layers. -/
structure Setup where
  step : Int
  edge : Int
  top : Int
  below : List (Int × Nat)
  bots : List Int

/-- The region is still inside the edge (fem3d/fem3d.cpp:3702-3703). -/
def isInside (edge : Int) (l : List Region) : Bool :=
  listXm l > -edge && listXp l < edge && listYm l > -edge && listYp l < edge

/-- `delta *= 2`, and every second stop of every region is removed (fem3d/fem3d.cpp:3709-3718). -/
def thinOut (edge delta : Int) (l : List Region) : Res (List Region × Int) :=
  if isInside edge l then
    if l.all (fun r => r.xs.length % 2 == 1 && r.ys.length % 2 == 1) then
      .ok (l.map (fun r => ⟨coarsen r.xs, coarsen r.ys⟩), 2 * delta)
    else .throw
  else .ok (l, delta)

/-- One round (fem3d/fem3d.cpp:3581-3760). -/
def round (c : Setup) (s : State) : Res State := do
  let sl ← slabs c.bots s.zi 0 1 c.top c.below
  let (filling, delta) ← thinOut c.edge s.delta s.filling
  let grown ← growAll c.step delta c.edge filling
  .ok ⟨filling, merge grown, delta, s.zi + 1, s.mesh ++ sl.flatMap (over s.filled s.filling s.zi)⟩

/-- `zi <= level[level.length()-1] || filled.xp() < edge` (fem3d/fem3d.cpp:3580); `level[0]` is zero. -/
def goesOn (c : Setup) (s : State) : Bool :=
  s.zi ≤ (c.below.getLastD (0, 0)).2 || listXp s.filled < c.edge

/-- The loop (fem3d/fem3d.cpp:3579-3761); `none` if it has not ended. -/
def run (c : Setup) : Nat → State → Option (Res State)
  | 0, _ => none
  | fuel + 1, s =>
    if goesOn c s then
      match round c s with
      | .ok s => run c fuel s
      | .throw => some .throw
      | .ub => some .ub
    else some (.ok s)

/-- The infinite elements added with an element at the edge (fem3d/fem3d.cpp:3640-3691): `(x1,x2,y1,y2)` of the line or the
face they are added to, over the depth of the element. -/
def infinite (edge : Int) (b : Block) : List (Int × Int × Int × Int) :=
  (if b.x1 = -edge then
    (if b.y1 = -edge then [(b.x1, b.x1, b.y1, b.y1)] else []) ++
    (if b.y2 = edge then [(b.x1, b.x1, b.y2, b.y2)] else []) ++
    [(b.x1, b.x1, b.y1, b.y2)]
  else if b.x2 = edge then
    (if b.y1 = -edge then [(b.x2, b.x2, b.y1, b.y1)] else []) ++
    (if b.y2 = edge then [(b.x2, b.x2, b.y2, b.y2)] else []) ++
    [(b.x2, b.x2, b.y1, b.y2)]
  else []) ++
  (if b.y1 = -edge then [(b.x1, b.x2, b.y1, b.y1)] else []) ++
  (if b.y2 = edge then [(b.x1, b.x2, b.y2, b.y2)] else [])

/-- The regions of the loads (fem3d/fem3d.cpp:3462-3469): `step` steps of `2*dx` around `lx` and `ly`, and the merge. -/
def square (step dx lx ly : Int) : Region :=
  let l (c : Int) := (List.range (step.toNat + 1)).map fun k => c - step * dx + 2 * dx * (k : Int)
  ⟨stops (l lx), stops (l ly)⟩

/-- The state before the loop for loads at the given places, with the first `step` and `delta`
(fem3d/fem3d.cpp:3462-3483, 3579). -/
def start (step delta : Int) (loads : List (Int × Int)) : State :=
  ⟨[], merge (loads.map fun p => square step delta p.1 p.2), 2 * delta, 0, []⟩

end OP.Fem.Outward
