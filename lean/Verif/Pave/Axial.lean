import Verif.Pave.Abcd
import Verif.Pave.Princ
import Mathlib.Analysis.SpecialFunctions.Log.Base
import Mathlib.Analysis.SpecialFunctions.Pow.Real
import Mathlib.Data.List.Sort
/-!
# Axisymmetric results of one load and their sum in Cartesian axes

`src/pavement.cpp`: `axialdata` (accumulate, finalize, addtodata), the integration loop of `calculate` without the
interpolation of the dirty procedure, and the gradient loop.  Real arithmetic without rounding; the Bessel functions of the
C library, the integration points and the stopping points are parameters.  `findvalue` always finds the value looked
for, since the sorted arrays are made of exactly those values; the arrays `ax`, `as` are therefore functions of the point
and the distance.
-/
namespace OP.Pave

/-- `axialdata`, one half of it (src/pavement.cpp:424-437): the sums, or the pending `…2` values. -/
@[ext] structure Ax where
  vse : ℝ
  rse : ℝ
  tse : ℝ
  sse : ℝ
  rdp : ℝ
  vdp : ℝ

namespace Ax
instance : Zero Ax := ⟨⟨0, 0, 0, 0, 0, 0⟩⟩
instance : Add Ax := ⟨fun a b => ⟨a.vse + b.vse, a.rse + b.rse, a.tse + b.tse, a.sse + b.sse, a.rdp + b.rdp, a.vdp + b.vdp⟩⟩
end Ax

/-- One entry of the arrays `ax` and `as`. -/
structure Cell where
  sum : Ax
  pend : Ax
  active : Bool

/-- `accumulate` (src/pavement.cpp:442-467). -/
noncomputable def accumulate (disp : Bool) (eps : ℝ) (c : Cell) : Cell :=
  if c.active then
    let s := c.sum
    let q := c.pend
    if disp then
      let vdp := s.vdp + q.vdp
      let isactive : Prop := |q.vdp| > eps * |vdp|
      { sum := { s with vdp := vdp }, pend := { q with vdp := 0 }
        active := @decide (isactive ∨ ¬ eps > 0) (Classical.dec _) }
    else
      let vse := s.vse + q.vse
      let rse := s.rse + q.rse
      let tse := s.tse + q.tse
      let sse := s.sse + q.sse
      let rdp := s.rdp + q.rdp
      let vdp := s.vdp + q.vdp
      let isactive : Prop := |q.vse| > eps * |vse| ∨ |q.rse| > eps * |rse| ∨ |q.tse| > eps * |tse| ∨
        |q.sse| > eps * |sse| ∨ |q.rdp| > eps * |rdp| ∨ |q.vdp| > eps * |vdp|
      { sum := ⟨vse, rse, tse, sse, rdp, vdp⟩, pend := 0
        active := @decide (isactive ∨ ¬ eps > 0) (Classical.dec _) }
  else c

/-- `finalize` (src/pavement.cpp:471-485). -/
noncomputable def finalize (disp : Bool) (r a v E : ℝ) (c : Cell) : Ax :=
  let t1 := a * (v + 1) / E
  let s := (accumulate disp 0 { c with active := true }).sum
  let s := { s with vdp := s.vdp * t1 }
  if disp then s
  else
    let t2 := s.rdp / r
    let rse := if r > 0 then s.rse - t2 else s.rse
    let tse := if r > 0 then s.tse + t2 else s.tse
    ⟨s.vse * a, rse * a, tse * a, s.sse * a, s.rdp * t1, s.vdp⟩

/-- The Bessel functions `j0` and `j1` of the C library. -/
structure Bessel where
  j0 : ℝ → ℝ
  j1 : ℝ → ℝ

/-- What one entry of the arrays stands for: a depth (with its layer) and a distance (with its stopping points). -/
structure Spot where
  z : ℝ
  il : Nat
  r : ℝ
  m0 : ℝ
  m1 : ℝ

/-- One interval of integration: the Gauss points `m` with their weights `gf*dm`, and whether the sums are accumulated
after it (src/pavement.cpp:1329-1331). -/
structure Panel where
  nodes : List (ℝ × ℝ)
  full : Bool

/-- The values one Gauss point adds (src/pavement.cpp:1286-1325), for load radius `a`. -/
noncomputable def contrib (bs : Bessel) (l : Lim) (p : Pav) (disp : Bool) (a : ℝ) (x : Spot) (n : ℝ × ℝ) : Ax :=
  let m := n.1
  let w := n.2 * (m * bs.j1 (m * a))
  let tv := 2 * p.v x.il
  let T := buildT l m x.z (abcd l p m x.il)
  let t0 := w * bs.j0 (m * x.r)
  let t1 := T 1 + T 3
  let t2 := T 0 - T 2
  let tj := w * bs.j1 (m * x.r)
  { vdp := if m < x.m0 then t0 * (2 * (1 - tv) * (T 3 - T 1) - (T 0 + T 2)) else 0
    vse := if m < x.m0 ∧ ¬ disp then t0 * m * ((1 - tv) * t1 + t2) else 0
    rse := if m < x.m0 ∧ ¬ disp then t0 * m * ((1 + tv) * t1 - t2) else 0
    tse := if m < x.m0 ∧ ¬ disp then t0 * m * tv * t1 else 0
    sse := if m < x.m1 ∧ ¬ disp then tj * m * (tv * (T 3 - T 1) + (T 0 + T 2)) else 0
    rdp := if m < x.m1 ∧ ¬ disp then tj * ((T 1 + T 3) - (T 0 - T 2)) else 0 }

/-- What one interval does to an entry (src/pavement.cpp:1281-1336): nothing is added to an inactive entry. -/
noncomputable def panelStep (f : ℝ × ℝ → Ax) (disp : Bool) (eps : ℝ) (q : Panel) (c : Cell) : Cell :=
  let c := if c.active then { c with pend := q.nodes.foldl (fun s n => s + f n) c.pend } else c
  if q.full then accumulate disp eps c else c

/-- The loop over the intervals (src/pavement.cpp:1266-1337) for all entries together: it ends early (`alldone`) when no
entry is active. -/
noncomputable def panels (f : Spot → ℝ × ℝ → Ax) (disp : Bool) (eps : ℝ) : List Panel → List (Spot × Cell) → List (Spot × Cell)
  | [], g => g
  | q :: qs, g =>
    if q.nodes = [] ∨ g.all (fun e => !e.2.active) then g
    else panels f disp eps qs (g.map fun e => (e.1, panelStep (f e.1) disp eps q e.2))

/-- A circular load (src/pavement.h:215-247). -/
structure Load where
  x : ℝ
  y : ℝ
  force : ℝ
  radius : ℝ

/-- `pressure` (src/pavement.h:234-236). -/
noncomputable def Load.pressure (l : Load) : ℝ := if l.radius = 0 then 0 else l.force / (Real.pi * l.radius * l.radius)

/-- `distance` (src/pavement.h:81-83), of the point `(x, y)`. -/
noncomputable def Load.distance (l : Load) (x y : ℝ) : ℝ := hyp2 (l.x - x) (l.y - y)

/-- A point with its results: rows 0 (`xx yy zz`), 1 (`xy xz yz`) and 4 (displacements) of `data`. -/
@[ext] structure PD where
  x : ℝ
  y : ℝ
  sxx : ℝ
  syy : ℝ
  szz : ℝ
  sxy : ℝ
  sxz : ℝ
  syz : ℝ
  ux : ℝ
  uy : ℝ
  uz : ℝ

/-- `std::copysign(1.0, t)`; a negative zero does not occur in the model. -/
noncomputable def sgn (t : ℝ) : ℝ := if t < 0 then -1 else 1

/-- `addtodata` without a gradient (src/pavement.cpp:488-529). -/
noncomputable def addtodata (disp : Bool) (s : Ax) (d : PD) (l : Load) (r : ℝ) : PD :=
  let p := l.pressure
  let d := { d with uz := d.uz + p * s.vdp }
  if disp then d
  else
    let d := { d with szz := d.szz + p * s.vse }
    if r = 0 then
      { d with sxx := d.sxx + p * (s.rse + s.tse) / 2, syy := d.syy + p * (s.rse + s.tse) / 2, sxz := d.sxz + p * s.sse }
    else
      let sint := (d.y - l.y) / r
      let cost := (d.x - l.x) / r
      if cost = 0 then
        { d with sxx := d.sxx + p * s.tse, syy := d.syy + p * s.rse, syz := d.syz + p * sgn sint * s.sse
                 uy := d.uy + p * sgn sint * s.rdp }
      else if sint = 0 then
        { d with sxx := d.sxx + p * s.rse, syy := d.syy + p * s.tse, sxz := d.sxz + p * sgn cost * s.sse
                 ux := d.ux + p * sgn cost * s.rdp }
      else
        { d with
          sxx := d.sxx + p * (cost * cost * s.rse + sint * sint * s.tse)
          syy := d.syy + p * (cost * cost * s.tse + sint * sint * s.rse)
          sxy := d.sxy + p * cost * sint * (s.rse - s.tse)
          sxz := d.sxz + p * cost * s.sse
          syz := d.syz + p * sint * s.sse
          ux := d.ux + p * cost * s.rdp
          uy := d.uy + p * sint * s.rdp }

/-- The sum over the loads of one group with one radius, for one point (src/pavement.cpp:1345-1357); `ax` gives the
finalised results for a distance. -/
noncomputable def translate (dmin : ℝ) (disp : Bool) (ax : ℝ → Ax) (a : ℝ) (ls : List Load) (d : PD) : PD :=
  ls.foldl (fun d l => if |l.radius - a| > dmin then d else addtodata disp (ax (l.distance d.x d.y)) d l (l.distance d.x d.y)) d

/-- The same for a gradient: `deflgrad[gl]` (src/pavement.cpp:1345-1357, 495-498). -/
noncomputable def translateGrad (dmin : ℝ) (ax : ℝ → Ax) (a : ℝ) (ls : List Load) (d : PD) (g : ℝ) : ℝ :=
  ls.foldl (fun g l => if |l.radius - a| > dmin then g else g + l.pressure * (ax (l.distance d.x d.y)).vdp) g

/-- The sorted list of the load radii of all groups (src/pavement.cpp:1145-1158). -/
noncomputable def radii (groups : List (List Load)) : List ℝ := (groups.flatten.map Load.radius).dedup.insertionSort (· ≤ ·)

/-- `GRADSTEP` (src/pavement.cpp:576). -/
noncomputable def gradStep : ℝ := 1e-8

/-- The moduli of gradient `gl` (src/pavement.cpp:1363-1373). -/
noncomputable def perturb (E : Nat → ℝ) (Q : Option (Nat → ℝ)) (nl gl : Nat) : Nat → ℝ := fun il =>
  match Q with
  | some Q => (10 : ℝ) ^ (Real.logb 10 (E il) + Q (il * nl + gl) * gradStep)
  | none => if il = gl then (10 : ℝ) ^ (Real.logb 10 (E il) + gradStep) else E il

/-- What the loop over the radii changes: the array `E`, the results and the gradients of the point. -/
structure GSt where
  E : Nat → ℝ
  d : PD
  g : Nat → ℝ

/-- The gradients of one radius (src/pavement.cpp:1359-1376), `k` of the `nl` still to be done.  `ax disp E a r` is the
outcome of the integration. -/
noncomputable def gradLoop (dmin : ℝ) (ax : Bool → (Nat → ℝ) → ℝ → ℝ → Ax) (E : Nat → ℝ) (Q : Option (Nat → ℝ)) (nl : Nat)
    (a : ℝ) (ls : List Load) : Nat → GSt → GSt
  | 0, s => s
  | k + 1, s =>
    let gl := nl - (k + 1)
    let e := perturb E Q nl gl
    gradLoop dmin ax E Q nl a ls k
      { s with E := e, g := fun i => if i = gl then translateGrad dmin (ax true e a) a ls s.d (s.g gl) else s.g i }

/-- The loop over the radii (src/pavement.cpp:1162-1377) for one point of one group. -/
noncomputable def radLoop (dmin : ℝ) (disp grad : Bool) (ax : Bool → (Nat → ℝ) → ℝ → ℝ → Ax) (E : Nat → ℝ)
    (Q : Option (Nat → ℝ)) (nl : Nat) (ls : List Load) : List ℝ → GSt → GSt
  | [], s => s
  | a :: as, s =>
    let s := { s with d := translate dmin disp (ax disp s.E a) a ls s.d }
    let s := if grad then gradLoop dmin ax E Q nl a ls nl s else s
    radLoop dmin disp grad ax E Q nl ls as s

/-- The results of one point of group `ls`. -/
structure Out where
  d : PD
  /-- `deflgrad`, when asked for. -/
  g : Nat → ℝ
  /-- The modulus handed to `principle` (src/pavement.cpp:1384). -/
  E : ℝ

/-- `calculate` for one point of one group (src/pavement.cpp:1130-1400): all results start from zero. -/
noncomputable def calculate (dmin : ℝ) (disp grad : Bool) (ax : Bool → (Nat → ℝ) → ℝ → ℝ → Ax) (E : Nat → ℝ)
    (Q : Option (Nat → ℝ)) (nl : Nat) (groups : List (List Load)) (ls : List Load) (x y : ℝ) (il : Nat) : Out :=
  let s := radLoop dmin disp grad ax E Q nl ls (radii groups) ⟨E, ⟨x, y, 0, 0, 0, 0, 0, 0, 0, 0, 0⟩, fun _ => 0⟩
  let g := fun i => (s.g i - s.d.uz) / gradStep
  { d := s.d, E := s.E il
    g := match Q with
      | none => g
      | some Q => fun gl => ((List.range nl).map fun i => g i * Q (gl * nl + i)).sum }

/-- The integration for one entry: start from zero, go through the intervals and finalise
(src/pavement.cpp:1246-1345).  `qs a` are the intervals for radius `a`, `stop a r` the stopping points. -/
noncomputable def integrate (bs : Bessel) (l : Lim) (p : Pav) (qs : ℝ → List Panel) (stop : ℝ → ℝ → ℝ × ℝ) (eps : ℝ)
    (z : ℝ) (il : Nat) (disp : Bool) (E : Nat → ℝ) (a r : ℝ) : Ax :=
  let x : Spot := ⟨z, il, r, (stop a r).1, (stop a r).2⟩
  let p := { p with E := E }
  finalize disp r a (p.v il) (E il) ((qs a).foldl (fun c q => panelStep (contrib bs l p disp a x) disp eps q c) ⟨0, 0, true⟩)

end OP.Pave
