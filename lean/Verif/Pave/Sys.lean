import Verif.Pave.Point
import Mathlib.Data.Rat.Defs
/-!
# The layered elastic system as a state machine

`src/pavement.h`, `src/pavement.cpp`: `LEsystem` and the parts of `LEbackcalc::backcalc` that touch the state.  The
numbers computed for one point are an uninterpreted function `num` of everything the calculation reads; what is
modelled is which inputs it reads (the cached geometry or the present one), when it runs, and when the stored results
may be read.  Lists stand for the linked list of layers (properties of `list.h` are C19 to C24) and for the set classes
(C01 to C10).  Messages to the event log are not modelled.
-/
namespace OP.Pave

/-- `LElayer` (src/pavement.h:145-207): thickness, modulus, Poisson's ratio, slip. -/
structure Layer (K : Type) where
  h : K
  E : K
  v : K
  s : K
deriving DecidableEq

/-- `LEsystem_cachestate` (src/pavement.h:421-424). -/
inductive St
  | empty
  | emod
  | all
deriving DecidableEq

/-- `MIN(cache_state, s)` (src/pavement.h:413-415). -/
def St.min : St → St → St
  | .empty, _ => .empty
  | .emod, .empty => .empty
  | .emod, _ => .emod
  | .all, s => s

/-- The part of the system that `calculate` keeps in its cache for a later call (src/pavement.cpp:1073-1236): the
depths of the layers, the table of depths of the points, the load radii and the distances of the points. -/
structure Geo (K L : Type) where
  thick : List K
  points : List (PP K)
  groups : List (List L)
deriving DecidableEq

/-- The state of an `LEsystem` (src/pavement.h:383-418, 560-566).  `res` is `cache_res`; `cache` is what a call of
`calculate` left in the slab cache, `none` if the slabs are free or were filled by another routine. -/
structure Sys (K L R : Type) where
  layers : List (Layer K)
  groups : List (List L)
  points : List (PP K)
  data : List (List (PP K × R))
  clg : Nat
  state : St
  res : Nat
  cache : Option (Geo K L)
deriving DecidableEq

/-- `LEsystem::failure` (src/pavement.h:549) -/
def failure : Nat := 0xFFFF

/-- `LEsystem::LEsystem` (src/pavement.h:434-438) -/
def Sys.init (K L R : Type) : Sys K L R := ⟨[], [], [], [], 0, .empty, failure, none⟩

/-- What a call returned: nothing, a truth value, or an exception. -/
inductive Ret
  | done
  | bool (b : Bool)
  | threw
deriving DecidableEq

section
variable {K L R Q : Type} [Field K] [LinearOrder K]

/-! ## Editing -/

/-- `cached_state` (src/pavement.h:413-415) -/
def Sys.touch (s : Sys K L R) (c : St) : Sys K L R := { s with state := s.state.min c }

/-- `LEsystem::layer(l)` (src/pavement.cpp:219-228): the index of the layer found, walking at most to the last one;
undefined without layers (`pl->next` of a null pointer, for `l == 0` a null reference). -/
def Sys.layerIx (s : Sys K L R) (l : Nat) : Res Nat :=
  if s.layers = [] then .ub else .ok (min l (s.layers.length - 1))

/-- Write one layer. -/
def Sys.setLayer (s : Sys K L R) (i : Nat) (f : Layer K → Layer K) : Sys K L R :=
  { s with layers := s.layers.modify i f }

/-- `LElayer::thickness(th)` (src/pavement.cpp:154-159) on `layer(l)`. -/
def Sys.thickness (s : Sys K L R) (l : Nat) (x : K) : Res (Sys K L R × Ret) :=
  s.layerIx l >>= fun i => .ok ((s.touch .empty).setLayer i fun y => { y with h := x }, .done)

/-- `LElayer::emod`, `poissons`, `slip` (src/pavement.cpp:161-183) on `layer(l)`: the member read by `get`, written by
`put`; the cache is lowered to `emod` if the value differs. -/
def Sys.soft (s : Sys K L R) (l : Nat) (x : K) (get : Layer K → K) (put : Layer K → Layer K) : Res (Sys K L R × Ret) :=
  s.layerIx l >>= fun i =>
    let t := if (s.layers[i]?).map get = some x then s else s.touch .emod
    .ok (t.setLayer i put, .done)

/-- `LEsystem::addlayer` (src/pavement.cpp:185-198): append, or insert before the layer found by walking at most `p`
steps and at most to the last layer. -/
def Sys.addlayer (s : Sys K L R) (y : Layer K) (p : Option Nat) : Sys K L R :=
  let t := s.touch .empty
  match p with
  | none => { t with layers := t.layers ++ [y] }
  | some p =>
    if t.layers = [] then { t with layers := [y] }
    else
      let i := min p (t.layers.length - 1)
      { t with layers := t.layers.take i ++ y :: t.layers.drop i }

/-- `LEsystem::removelayer` (src/pavement.cpp:200-210); deleting the null pointer does nothing. -/
def Sys.removelayer (s : Sys K L R) (l : Nat) : Sys K L R :=
  let t := s.touch .empty
  { t with layers := t.layers.eraseIdx l }

/-- `LEsystem::removelayers` (src/pavement.cpp:212-217) -/
def Sys.removelayers (s : Sys K L R) : Sys K L R := { s.touch .empty with layers := [] }

/-- `LEsystem::addload` (src/pavement.cpp:230-237).  Adding behind a gap leaves unconstructed groups in the set
(include/set.h:342-346, see C01): undefined. -/
def Sys.addload (s : Sys K L R) (g : Nat) (x : L) : Res (Sys K L R × Ret) :=
  let t := s.touch .empty
  if g < t.groups.length then .ok ({ t with groups := t.groups.modify g (· ++ [x]) }, .done)
  else if g = t.groups.length then .ok ({ t with groups := t.groups ++ [[x]] }, .done)
  else .ub

/-- `LEsystem::removeload` (src/pavement.cpp:239-250); an exception leaves the system with an emptied cache. -/
def Sys.removeload (s : Sys K L R) (g i : Nat) : Sys K L R × Ret :=
  let t := s.touch .empty
  match t.groups[g]? with
  | none => (t, .threw)
  | some gr =>
    if i < gr.length then
      let gr' := gr.eraseIdx i
      ({ t with groups := if gr' = [] then t.groups.eraseIdx g else t.groups.set g gr' }, .done)
    else (t, .threw)

/-- `LEsystem::removeloads` (src/pavement.cpp:252-261) -/
def Sys.removeloads (s : Sys K L R) (g : Nat) : Sys K L R × Ret :=
  let t := s.touch .empty
  if t.groups = [] ∧ g = t.clg then (t, .done)
  else if g < t.groups.length then ({ t with groups := t.groups.eraseIdx g }, .done)
  else (t, .threw)

/-- `kfset::haskey` (include/set.h:818-824) with `pavepoint::operator ==`; `none` is `UINT_MAX`. -/
def hasPoint (k : PP K) : List (PP K) → Option Nat
  | [] => none
  | p :: ps => if eqP p k then some 0 else (hasPoint k ps).map (· + 1)

/-- `ksset::add` of one point (include/set.h:962-975, 899-906), with `pavepoint::operator =`. -/
def addPoint (ps : List (PP K)) (p : PP K) : List (PP K) :=
  match hasPoint p ps with
  | some i => ps.modify i fun t => asgP t p
  | none => ps ++ [p]

/-- `LEsystem::addpoint` (src/pavement.cpp:263-268) -/
def Sys.addpoint (s : Sys K L R) (p : PP K) : Sys K L R :=
  let t := s.touch .empty
  { t with points := addPoint t.points p }

/-- `LEsystem::addgrid` (src/pavement.cpp:270-283) -/
def Sys.addgrid (s : Sys K L R) (xs ys zs : List K) : Sys K L R :=
  let t := s.touch .empty
  { t with points := xs.foldl (fun a x => ys.foldl (fun a y => zs.foldl
      (fun a z => addPoint a ⟨⟨⟨x, y⟩, z⟩, none⟩) a) a) t.points }

/-- `LEsystem::removepoint` (src/pavement.cpp:285-290, include/set.h:977-986) -/
def Sys.removepoint (s : Sys K L R) (p : PP K) : Sys K L R × Ret :=
  let t := s.touch .empty
  match hasPoint p t.points with
  | some i => ({ t with points := t.points.eraseIdx i }, .done)
  | none => (t, .threw)

/-- `LEsystem::removepoints` (src/pavement.cpp:292-297) -/
def Sys.removepoints (s : Sys K L R) : Sys K L R := { s.touch .empty with points := [] }

/-! ## Checking -/

/-- The tests of one layer in `check` (src/pavement.cpp:337-374); `fresh` is `cache_state == empty`, `isLast` is
`pl->next == nullptr`. -/
def layerOk (fresh isLast : Bool) (y : Layer K) : Bool :=
  ¬ y.E ≤ 0 ∧ ¬ (y.s < 0 ∨ y.s > 1) ∧ ¬ (y.h = 0 ∧ isLast ∧ y.s ≠ 1) ∧ ¬ (y.v ≤ 0 ∨ y.v > 1 / 2) ∧
    (fresh → ¬ y.h < 0 ∧ ¬ (y.h = 0 ∧ ¬ isLast))

/-- The layer loop of `check` (src/pavement.cpp:337-375). -/
def layersOk (fresh : Bool) : List (Layer K) → Bool
  | [] => true
  | y :: ys => layerOk fresh ys.isEmpty y && layersOk fresh ys

/-- The inner loop of `check` (src/pavement.cpp:393-404) for the point `d`, from layer number `il` with top `z` on: the
layer at which it stops, its top and its thickness, or `none` when it runs off the list. -/
def locate (d : PP K) : Nat → K → List (Layer K) → Option (Nat × K × K)
  | _, _, [] => none
  | il, z, y :: ys =>
    if d.il = some il then some (il, z, y.h)
    else if d.il = none ∧ d.z ≥ z ∧ (y.h = 0 ∨ d.z < z + y.h) then some (il, z, y.h)
    else locate d (il + 1) (z + y.h) ys

/-- One round of the point loop of `check` (src/pavement.cpp:382-411): whether the point is accepted, and the point with
its layer. -/
def placePoint (ls : List (Layer K)) (d : PP K) : Bool × PP K :=
  if d.z < 0 then (false, d)
  else match locate d 0 0 ls with
    | none => (false, d)
    | some (il, z, h) => (¬ d.z < z ∧ ¬ (h > 0 ∧ d.z > z + h), { d with il := some il })

/-- `LEsystem::check` (src/pavement.cpp:302-419).  `zero` is a default `pavedata`'s content.  The test of line 376-380
needs a Poisson's ratio of 0.75 that line 355 has rejected already. -/
def Sys.check (zero : R) (s : Sys K L R) : Bool × Sys K L R :=
  if s.state = .all then (true, s)
  else
    let fresh : Bool := s.state = .empty
    let ok1 : Bool := fresh →
      (s.layers ≠ [] ∧ s.groups ≠ [] ∧ (∀ g ∈ s.groups, g.isEmpty = false) ∧ s.points ≠ [])
    let ok := ok1 && layersOk fresh s.layers
    if fresh = false ∨ ok = false ∨ s.layers = [] then (ok, s)
    else
      let pts := s.points.map fun d => (placePoint s.layers d).2
      (s.points.all fun d => (placePoint s.layers d).1,
        { s with points := pts, data := s.groups.map fun _ => pts.map fun p => (p, zero) })

/-! ## Calculating -/

/-- Modulus, Poisson's ratio and slip of the layers: read again by every calculation (src/pavement.cpp:1108-1115). -/
def mech (ls : List (Layer K)) : List (K × K × K) := ls.map fun y => (y.E, y.v, y.s)

/-- The geometry a calculation starting from an empty cache collects. -/
def Sys.geo (s : Sys K L R) : Geo K L := ⟨s.layers.map (·.h), s.points, s.groups⟩

/-- The numbers computed for one point: a function of the kind of calculation, the direction matrix, the geometry, the
mechanical parameters, the loads of the group and the point. -/
abbrev Num (K L R Q : Type) := Nat → Q → Geo K L → List (K × K × K) → List L → PP K → R

/-- The loops over groups and points filling `data` (src/pavement.cpp:1128-1403); undefined if there are fewer rows than
load groups. -/
def fill (f : List L → PP K → R) : List (List L) → List (List (PP K × R)) → Res (List (List (PP K × R)))
  | [], rows => .ok rows
  | _ :: _, [] => .ub
  | g :: gs, row :: rows => fill f gs rows >>= fun r => .ok (row.map (fun d => (d.1, f g d.1)) :: r)

variable (num : Num K L R Q) (zero : R)

/-- `LEsystem::calculate` (src/pavement.cpp:1056-1404).  With the cache of an earlier call of the same kind only the
mechanical parameters are read again; if the slabs were filled by another routine the counts read from them are
indeterminate: undefined. -/
def Sys.calculate (s : Sys K L R) (code : Nat) (q : Q) : Res (Sys K L R × Ret) :=
  if s.res = code ∧ s.state = .all then .ok (s, .bool true)
  else
    let s1 : Sys K L R := if s.res = code ∧ s.state ≠ .empty then s else { s with state := .empty, cache := none }
    let c := Sys.check zero { s1 with res := failure }
    if c.1 = false then .ok (c.2, .bool false)
    else
      let s2 := c.2
      let go := fun (g : Geo K L) => fill (fun gr p => num code q g (mech s2.layers) gr p) s2.groups s2.data >>=
        fun d => Res.ok ({ s2 with data := d, cache := some g, res := code, state := .all }, Ret.bool true)
      if s2.state = .empty then go s2.geo
      else match s2.cache with
        | none => .ub
        | some g => go g

/-- `LEsystem::calc_accurate`, `calc_odemark`, `calc_fastnum` (src/pavement.cpp:928-1051, 1472-1558, 1700-1773): never
use the cache, and leave something else in it. -/
def Sys.special (s : Sys K L R) (code : Nat) (q : Q) : Res (Sys K L R × Ret) :=
  if s.res = code ∧ s.state = .all then .ok (s, .bool true)
  else
    let c := Sys.check zero { s with state := .empty, cache := none, res := failure }
    if c.1 = false then .ok (c.2, .bool false)
    else
      let s2 := c.2
      fill (fun gr p => num code q s2.geo (mech s2.layers) gr p) s2.groups s2.data >>= fun d =>
        .ok ({ s2 with data := d, res := code, state := .all }, .bool true)

/-! ## Reading -/

/-- `LEsystem::results` (src/pavement.h:508-512) -/
def Sys.results (s : Sys K L R) : Nat := if s.state = .all then s.points.length else 0

/-- `LEsystem::result(g,i)` (src/pavement.h:529-533), release build: outside the table undefined. -/
def Sys.result (s : Sys K L R) (g i : Nat) : Res (PP K × R) :=
  if s.state ≠ .all then .throw
  else match s.data[g]? with
    | none => .ub
    | some row => match row[i]? with
      | none => .ub
      | some d => .ok d

/-- `LEsystem::resultpoint` and `result(g,p,l)` (src/pavement.h:513-528) -/
def Sys.resultAt (s : Sys K L R) (g : Nat) (p : PP K) : Res (PP K × R) :=
  match hasPoint p s.points with
  | none => .throw
  | some i => s.result g i

/-! ## Histories -/

/-- The public calls that change an `LEsystem`; those on a layer name it by its index. -/
inductive Op (K L Q : Type)
  | thickness (l : Nat) (x : K)
  | emod (l : Nat) (x : K)
  | poissons (l : Nat) (x : K)
  | slip (l : Nat) (x : K)
  | addlayer (y : Layer K) (p : Option Nat)
  | removelayer (l : Nat)
  | removelayers
  | defaultgroup (g : Nat)
  | addload (g : Nat) (x : L)
  | removeload (g i : Nat)
  | removeloads (g : Nat)
  | addpoint (p : PP K)
  | addgrid (xs ys zs : List K)
  | removepoint (p : PP K)
  | removepoints
  | calculate (code : Nat) (q : Q)
  | special (code : Nat) (q : Q)

/-- One call. -/
def step (s : Sys K L R) : Op K L Q → Res (Sys K L R × Ret)
  | .thickness l x => s.thickness l x
  | .emod l x => s.soft l x (·.E) fun y => { y with E := x }
  | .poissons l x => s.soft l x (·.v) fun y => { y with v := x }
  | .slip l x => s.soft l x (·.s) fun y => { y with s := x }
  | .addlayer y p => .ok (s.addlayer y p, .done)
  | .removelayer l => .ok (s.removelayer l, .done)
  | .removelayers => .ok (s.removelayers, .done)
  | .defaultgroup g => .ok ({ s with clg := g }, .done)
  | .addload g x => s.addload g x
  | .removeload g i => .ok (s.removeload g i)
  | .removeloads g => .ok (s.removeloads g)
  | .addpoint p => .ok (s.addpoint p, .done)
  | .addgrid xs ys zs => .ok (s.addgrid xs ys zs, .done)
  | .removepoint p => .ok (s.removepoint p)
  | .removepoints => .ok (s.removepoints, .done)
  | .calculate code q => s.calculate num zero code q
  | .special code q => s.special num zero code q

/-- A history; the caller survives exceptions. -/
def run (s : Sys K L R) : List (Op K L Q) → Res (Sys K L R)
  | [] => .ok s
  | o :: os => step num zero s o >>= fun r => run r.1 os

/-! ## Back-calculation -/

/-- Setting all moduli (`for (i = 0; i < nl; i++) layer(i).emod(...)`, src/pavement.cpp:1906-1907, 1945-1946). -/
def setE (s : Sys K L R) : Nat → List K → Res (Sys K L R)
  | _, [] => .ok s
  | i, e :: es => s.soft i e (·.E) (fun y => { y with E := e }) >>= fun r => setE r.1 (i + 1) es

/-- A stretch of the optimisation (src/pavement.cpp:1835-1943): moduli are set and the system is calculated, again and
again.  What the optimiser chooses is an arbitrary script. -/
def trajectory (s : Sys K L R) : List (List K × Nat × Q) → Res (Sys K L R)
  | [] => .ok s
  | (es, code, q) :: t => setE s 0 es >>= fun s1 => s1.calculate num zero code q >>= fun r => trajectory r.1 t

/-- The loop adding the deflection points (src/pavement.cpp:1818-1823): `false` if it throws. -/
def addDefl (s : Sys K L R) : List (P3 K × Nat) → Sys K L R × Bool
  | [] => (s, true)
  | (p, g) :: ds => if g < s.groups.length then addDefl (s.addpoint ⟨p, none⟩) ds else (s, false)

/-- Reading the deflection of every deflection point (src/pavement.cpp:1948-1951); only whether it can be read. -/
def readDefl (s : Sys K L R) : List (P3 K × Nat) → Res Unit
  | [] => .ok ()
  | (p, g) :: ds => s.resultAt g ⟨p, none⟩ >>= fun _ => readDefl s ds

/-- What the optimiser of one back-calculation does: the script up to the first convergence test, whether it returns
there (`step < tolerance`, src/pavement.cpp:1843-1844), the rest of the script, the final moduli and whether it converged. -/
structure Script (K Q : Type) where
  first : List (List K × Nat × Q)
  early : Bool
  rest : List (List K × Nat × Q)
  final : List K
  q : Q
  conv : Bool

/-- `LEsystem::disp` (src/pavement.h:541) -/
def dispCode : Nat := 0x0100

/-- `LEbackcalc::backcalc` (src/pavement.cpp:1791-1964) with the deflections `ds` and what its optimiser does. -/
def Sys.backcalc (s : Sys K L R) (ds : List (P3 K × Nat)) (o : Script K Q) : Res (Sys K L R × Ret) :=
  let orig := s.points
  if s.layers = [] ∨ ds = [] then .ok (s, .bool false)
  else
    let a := addDefl s.removepoints ds
    if a.2 = false then .ok (a.1, .threw)
    else trajectory num zero a.1 o.first >>= fun s1 =>
      if o.early then .ok (s1, .bool true)
      else trajectory num zero s1 o.rest >>= fun s2 =>
        setE s2 0 o.final >>= fun s3 => s3.calculate num zero dispCode o.q >>= fun r =>
          match readDefl r.1 ds with
          | .ok () => .ok ({ r.1 with points := orig }, .bool o.conv)
          | .throw => .ok (r.1, .threw)
          | .ub => .ub

end
end OP.Pave
