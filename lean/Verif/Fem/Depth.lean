import Verif.Basic
import Mathlib.Algebra.Order.Field.Basic
import Mathlib.Tactic.Linarith
import Mathlib.Tactic.Ring
import Mathlib.Tactic.FieldSimp
import Mathlib.Algebra.Order.Field.Rat
/-!
# Depths of nodes below a surface that varies (fem3d/fem3d.cpp:842-874, 2870-2916)

Exact arithmetic.  A material is its address; a layer has a top, a bottom and the address of its material.
-/
namespace OP.Fem.Depth

variable {K : Type} [Field K] [LinearOrder K] [IsStrictOrderedRing K]

/-- The part of `femlayer` used here (fem3d/fem3d.cpp:2854-2859). -/
structure Layer (K : Type) where
  top : K
  bot : K
  /-- `&mat` -/
  mat : Nat

/-- `NUM_VAR` (fem3d/fem3d.cpp:2870) -/
def numVar : Nat := 3

/-- The variations `L[v][n]`: `np` numbers for each of the `NUM_VAR` variations; the rest is outside the arrays. -/
def variation (L : Nat → Nat → K) (np v : Nat) (n : Option Nat) : Res K := match n with
  | none => .ub
  | some n => if v < numVar ∧ n < np then .ok (L v n) else .ub

/-- `while (&(layer[i].mat) != mat) i++`: the layer with the material, and its number; nothing ends the search if there is
none. -/
def search (layers : List (Layer K)) (mat : Nat) : Res (Nat × Layer K) :=
  match layers.findIdx? (fun l => l.mat = mat) with
  | none => .ub
  | some i => match layers[i]? with
    | none => .ub
    | some l => .ok (i, l)

/-- `node_depth_callback` (fem3d/fem3d.cpp:2874-2901) for a node at height `z`; `n` is what `getorderofnode` gives for
the node on the surface above it. -/
def depthAt (layers : List (Layer K)) (L : Nat → Nat → K) (np : Nat) (n : Option Nat) (mat : Nat) (z : K) : Res K := do
  let (i, l) ← search layers mat
  let z := -z - l.top
  let t := l.top
  let b := l.bot
  let h := b - t
  if i = 0 then
    let a ← variation L np 0 n
    let c ← variation L np 1 n
    let t := t + a
    let b := b + c
    .ok (-t + (t - b) * z / h)
  else if i = 1 then
    let a ← variation L np 1 n
    let c ← variation L np 2 n
    let t := t + a
    let b := b + (a + c) / 2
    .ok (-t + (t - b) * z / h)
  else if i = 2 then
    let a ← variation L np 1 n
    let c ← variation L np 2 n
    let t := t + (a + c) / 2
    let b := b + c
    .ok (-t + (t - b) * z / h)
  else if i = 3 then
    let c ← variation L np 2 n
    let t := t + c
    .ok (-t + (t - b) * z / h)
  else .ok (-t + (t - b) * z / h)

/-- `node_emod_callback` (fem3d/fem3d.cpp:2903-2916), which nothing calls. -/
def emodAt (layers : List (Layer K)) (L : Nat → Nat → K) (np : Nat) (n : Option Nat) (mat : Nat) : Res K := do
  let (i, _) ← search layers mat
  variation L np ((if i > 1 then i - 1 else i) + 3) n

/-- One of the four loops that copy heights for an infinite element (fem3d/fem3d.cpp:850-857): in each group of four,
`to1 = from1, to2 = from2`. -/
def copyFour (nnd : Nat) (t1 f1 t2 f2 : Nat) (z : Nat → K) : Nat → K := fun k =>
  if k / 4 < nnd / 4 then
    if k % 4 = t1 then z (4 * (k / 4) + f1) else if k % 4 = t2 then z (4 * (k / 4) + f2) else z k
  else z k

/-- How a side of an element reaches to infinity. -/
inductive Inf where
  | no
  | pos
  | neg
  deriving DecidableEq

/-- The heights of `buildxe` (fem3d/fem3d.cpp:843-858) from those of the nodes. -/
def heights (nnd : Nat) (sx sy : Inf) (z : Nat → K) : Nat → K :=
  let z := if sx = .pos then copyFour nnd 2 0 3 1 z else z
  let z := if sx = .neg then copyFour nnd 0 2 1 3 z else z
  let z := if sy = .pos then copyFour nnd 1 0 3 2 z else z
  if sy = .neg then copyFour nnd 0 1 2 3 z else z

end OP.Fem.Depth
