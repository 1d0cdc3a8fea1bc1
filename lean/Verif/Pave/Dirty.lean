import Verif.Pave.Axial
/-!
# The interpolation of the dirty procedure (src/pavement.cpp:1264-1337)

As in `Axial.lean`.  The array `iT` holds two rows for each depth; entries with the same depth have the same rows, and each
entry has its own copy here.
-/
namespace OP.Pave.Dirty

/-- An interval of integration (src/pavement.cpp:1266-1288): its ends `bm[im-1]` and `bm[im]`, the Gauss points with their weights
`gf*dm`, `firstpanel`, and whether the sums are accumulated after it. -/
structure Part where
  lo : ℝ
  hi : ℝ
  nodes : List (ℝ × ℝ)
  early : Bool
  full : Bool

/-- The values one Gauss point adds (src/pavement.cpp:1286-1325) for the values `T`. -/
noncomputable def contribT (bs : Bessel) (v : ℝ) (disp : Bool) (a : ℝ) (x : Spot) (T : V4) (n : ℝ × ℝ) : Ax :=
  let m := n.1
  let w := n.2 * (m * bs.j1 (m * a))
  let tv := 2 * v
  let t0 := w * bs.j0 (m * x.r)
  let t1 := T 1 + T 3
  let t2 := T 0 - T 2
  let tj := w * bs.j1 (m * x.r)
  { vdp := if m < x.m0 then t0 * (2 * (1 - tv) * (T 3 - T 1) - (T 0 + T 2)) else 0
    vse := if m < x.m0 ∧ ¬ disp then t0 * m * ((1 - tv) * t1 + t2) else 0
    rse := if m < x.m0 ∧ ¬ disp then t0 * m * ((1 + tv) * t1 - t2) else 0
    tse := if m < x.m0 ∧ ¬ disp then t0 * m * tv * t1 else 0
    sse := if m < x.m1 ∧ ¬ disp then tj * m * (tv * (T 3 - T 1) + (T 0 + T 2)) else 0
    rdp := if m < x.m1 ∧ ¬ disp then tj * ((T 1 + T 3) - (T 0 - T 2)) else 0 }

/-- An entry of the arrays, with `iT[iz][0]` and `iT[iz][1]`. -/
structure Entry where
  spot : Spot
  cell : Cell
  old : V4
  new : V4

/-- One interval for one entry (src/pavement.cpp:1266-1336): `T m` is what `buildabcd` and `buildT` give. -/
noncomputable def partStep (bs : Bessel) (v : ℝ) (disp : Bool) (eps a : ℝ) (T : ℝ → V4) (q : Part) (e : Entry) : Entry :=
  let old := if q.early then e.old else e.new
  let new := T q.hi
  let dm := (q.hi - q.lo) / 2
  let use (m : ℝ) : V4 := if q.early then T m else fun i => new i - (new i - old i) * (q.hi - m) / (2 * dm)
  ⟨e.spot, panelStep (fun n => contribT bs v disp a e.spot (use n.1) n) disp eps ⟨q.nodes, q.full⟩ e.cell, old, new⟩

/-- The loop over the intervals (src/pavement.cpp:1266-1337) for all entries together. -/
noncomputable def parts (bs : Bessel) (v : Nat → ℝ) (disp : Bool) (eps a : ℝ) (T : ℝ → Nat → ℝ → V4) :
    List Part → List Entry → List Entry
  | [], g => g
  | q :: qs, g =>
    if q.nodes = [] ∨ g.all (fun e => !e.cell.active) then g
    else parts bs v disp eps a T qs
      (g.map fun e => partStep bs (v e.spot.il) disp eps a (T e.spot.z e.spot.il) q e)

/-- The intervals between the points `bm` (src/pavement.cpp:1264-1288, 1329-1331): `rule` are the points and weights of the rule
(`gu` and `gf`), `first` is `j1r[1]` and `full` the test of the end of an interval. -/
noncomputable def cut (rule : List (ℝ × ℝ)) (a first : ℝ) (full : ℝ → Bool) : List ℝ → List Part
  | lo :: hi :: rest =>
    { lo, hi, early := @decide (hi * a ≤ first) (Classical.dec _), full := full hi
      nodes := rule.map fun g => ((hi + lo) / 2 + g.1 * ((hi - lo) / 2), g.2 * ((hi - lo) / 2)) } :: cut rule a first full (hi :: rest)
  | _ => []

end OP.Pave.Dirty
