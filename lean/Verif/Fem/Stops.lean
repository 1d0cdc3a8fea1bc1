import Verif.Basic
import Verif.Lin.Loop
import Mathlib.Algebra.Order.Field.Basic
import Mathlib.Algebra.Order.Archimedean.Basic
import Mathlib.Algebra.Order.Ring.Archimedean
import Mathlib.Data.List.InsertIdx
import Mathlib.Tactic.Linarith
import Mathlib.Tactic.Ring
import Mathlib.Tactic.FieldSimp
import Mathlib.Tactic.Positivity
import Mathlib.Algebra.Order.Field.Rat
/-!
# The stops in depth of a mesh (fem3d/fem3d.cpp:3484-3576)

Exact arithmetic (the stops of the code are rounded to multiples of 1/256, `fixed<8>`).  A failed assertion is `throw`.
Built without `QUAD`, as the code is.
-/
namespace OP.Fem.Stops
open OP.Lin

variable {K : Type} [Field K] [LinearOrder K] [IsStrictOrderedRing K]

/-- `femlayer` (fem3d/fem3d.cpp:2854-2868) -/
structure Layer (K : Type) where
  top : K
  bot : K
  etop : K
  ebot : K

/-- The properties of a layer that is given: its thickness, modulus and Poisson's ratio. -/
structure Given (K : Type) where
  h : K
  emod : K
  v : K

/-- The loop over `j` at fem3d/fem3d.cpp:3488-3494: `he *= pow(E/E1*(1+v1*v1)/(1+v*v),1.0/3.0)` for the layers below, `cbrt`
being the power. -/
def equivalent (cbrt : K → K) (g : Given K) : List (Given K) → K → K
  | [], he => he
  | g1 :: rest, he => equivalent cbrt g1 rest (he * cbrt (g.emod / g1.emod * (1 + g1.v * g1.v) / (1 + g.v * g.v)))

/-- `addlayer` for every layer (fem3d/fem3d.cpp:3303-3306) and the equivalent tops and bottoms (3485-3496). -/
def layersFrom (cbrt : K → K) : List (Given K) → K → K → List (Layer K)
  | [], _, _ => []
  | g :: rest, top, etop =>
    let he := equivalent cbrt g rest g.h
    ⟨top, top + g.h, etop, etop + he⟩ :: layersFrom cbrt rest (top + g.h) (etop + he)

/-- The inner loop (fem3d/fem3d.cpp:3509-3512), with `zscale*zstep = 3`; `none` if it has not ended. -/
def inner (dz : K) (zi : Nat) : Nat → K → List (K × Nat) → Option (K × List (K × Nat))
  | 0, _, _ => none
  | fuel + 1, z, acc => if z < 3 * dz then inner dz zi fuel (z + dz) (acc ++ [(z + dz, zi)]) else some (z, acc)

/-- The outer loop (fem3d/fem3d.cpp:3507-3514); `none` if it has not ended. -/
def outer (rmax zmax : K) : Nat → K → K → Nat → List (K × Nat) → Option (K × List (K × Nat))
  | 0, _, _, _, _ => none
  | fuel + 1, z, dz, zi, acc =>
    if z < zmax then
      match inner dz zi 4 z acc with
      | none => none
      | some (z, acc) => outer rmax zmax fuel z (dz + rmax) (zi + 1) acc
    else some (z, acc)

/-- The stops and their levels (fem3d/fem3d.cpp:3504-3514). -/
def generate (rmax zmax : K) (fuel : Nat) : Option (K × List (K × Nat)) := outer rmax zmax fuel 0 rmax 0 [(0, 0)]

/-- `if (j > 0 && level[j] > level[j-1]+1) level[j] = level[j-1]+1` in order (fem3d/fem3d.cpp:3517-3518). -/
def limitFrom (prev : Nat) : List Nat → List Nat
  | [] => []
  | l :: rest => let l := if l > prev + 1 then prev + 1 else l; l :: limitFrom l rest

@[inherit_doc limitFrom] def limit : List Nat → List Nat
  | [] => []
  | l :: rest => l :: limitFrom l rest

/-- `while (b < stop.length() && stop[b] < l.ebot) b++` (fem3d/fem3d.cpp:3526-3527) from `b`, with `m` stops to go. -/
def search (stop : Nat → K) (e : K) : Nat → Nat → Nat
  | 0, b => b
  | m + 1, b => if stop b < e then search stop e m (b + 1) else b

/-- `stop[j] = e - (stop[b]-stop[j])*hl/hs` for the stops from `t` to before `b` (fem3d/fem3d.cpp:3550-3552, 3555-3557). -/
def rescale (e hl hs : K) (t b : Nat) (stop : Nat → K) : Nat → K :=
  loop t b (fun j stop => Lin.set stop j (e - (stop b - stop j) * hl / hs)) stop

/-- One layer (fem3d/fem3d.cpp:3522-3558).  `s` is one, so that the loop that moves `b` to a multiple and the one that
removes stops do nothing; where `b` is past the end, `t` is the last stop, and nothing is removed either. -/
def fit (n : Nat) (zmax : K) (l : Layer K) (t : Nat) (stop : Nat → K) : Res (Nat × (Nat → K)) :=
  if ¬ t < n then .throw
  else if stop t ≠ l.etop then .throw
  else
    let b := search stop l.ebot (n - t) t
    if ¬ b < n then .throw
    else if b = 0 then .ub
    else
      let b := if |stop (b - 1) - l.ebot| < |l.ebot - stop b| then b - 1 else b
      let b := if b = t then t + 1 else b
      let b := if b = n then n - 1 else b
      let stop := rescale l.bot (l.bot - l.top) (stop b - stop t) t b stop
      if stop (n - 1) ≠ zmax then .throw
      else .ok (b, rescale zmax (zmax - l.ebot) (stop (n - 1) - stop b) b (n - 1) stop)

/-- The loop over the layers (fem3d/fem3d.cpp:3521-3559). -/
def fitAll (n : Nat) (zmax : K) : List (Layer K) → Nat → (Nat → K) → Res (Nat × (Nat → K))
  | [], t, stop => .ok (t, stop)
  | l :: rest, t, stop => do
    let (t, stop) ← fit n zmax l t stop
    fitAll n zmax rest t stop

/-- The stops scaled to the layers (fem3d/fem3d.cpp:3485-3560): `none` as long as the loops have not ended. -/
def stops (cbrt : K → K) (layers : List (Given K)) (rmax : K) (fuel : Nat) : Option (Res (List K × List Nat)) :=
  let ls := layersFrom cbrt layers 0 0
  match ls.getLast? with
  | none => some .ub
  | some last =>
    let zmax := last.ebot
    match generate rmax zmax fuel with
    | none => none
    | some (z, acc) =>
      let n := acc.length
      let stop : Nat → K := fun j => (acc.map Prod.fst).getD j 0 * zmax / z
      some do
        let (_, stop) ← fitAll n zmax ls 0 stop
        .ok ((List.range n).map (Lin.set stop (n - 1) last.bot), limit (acc.map Prod.snd))

/-- `while (b < stop.length() && stop[b] < l.bot) b++` (fem3d/fem3d.cpp:3566-3567) -/
def find (stop : List K) (z : K) (b : Nat) : Nat := b + ((stop.drop b).takeWhile (fun x => x < z)).length

/-- The thin elements at the interfaces (fem3d/fem3d.cpp:3564-3575): layer `i` with the bottom `z`. -/
def thin (z : K) (i b : Nat) (stop : List K) (level : List Nat) : Res (Nat × List K × List Nat) :=
  let b := find stop z b
  if i = 0 ∨ i = 1 then
    match stop[b]?, level[b + 1]? with
    | some x, some v => .ok (b, stop.insertIdx b (x - 3), (level.set b v).insertIdx b v)
    | _, _ => .ub
  else if i = 2 then
    match b, stop[b]? with
    | b' + 1, some x => match level[b']? with
      | some v => .ok (b, stop.insertIdx (b + 1) (x + 3), level.insertIdx (b + 1) v)
      | none => .ub
    | _, _ => .ub
  else .ok (b, stop, level)

/-- The loop over all layers but the last (fem3d/fem3d.cpp:3564-3575). -/
def thinAll : List K → Nat → Nat → List K → List Nat → Res (List K × List Nat)
  | [], _, _, stop, level => .ok (stop, level)
  | z :: rest, i, b, stop, level => do
    let (b, stop, level) ← thin z i b stop level
    thinAll rest (i + 1) b stop level

end OP.Fem.Stops
