import Mathlib.Analysis.SpecialFunctions.Sqrt
/-!
# Principal stresses

`src/pavement.cpp:46-131` (`pavedata::principle`) and `fem3d/fem3d.cpp:195-248` (`principle`), which runs the same rotations
on the upper triangle of a matrix.  Real arithmetic without rounding.
-/
namespace OP.Pave

/-- Three values, indexed. -/
def v3 {α : Type} (a b c : α) : Fin 3 → α
  | 0 => a
  | 1 => b
  | 2 => c

@[simp] theorem v3_0 {α : Type} (a b c : α) : v3 a b c 0 = a := rfl
@[simp] theorem v3_1 {α : Type} (a b c : α) : v3 a b c 1 = b := rfl
@[simp] theorem v3_2 {α : Type} (a b c : α) : v3 a b c 2 = c := rfl

@[inherit_doc] scoped notation "t![" a ", " b ", " c "]" => v3 a b c

/-- The working rows `data[2]` (xx, yy, zz) and `data[3]` (xy, xz, yz). -/
structure T6 where
  xx : ℝ
  yy : ℝ
  zz : ℝ
  xy : ℝ
  xz : ℝ
  yz : ℝ

/-- `hypot`. -/
noncomputable def hyp2 (a b : ℝ) : ℝ := √(a ^ 2 + b ^ 2)

/-- The tangent of the rotation (src/pavement.cpp:63-65): `d` is the difference of the diagonal entries, `p` the entry to
be annihilated. -/
noncomputable def tanOf (d p : ℝ) : ℝ :=
  let t2 := (if d < 0 then -2 else 2) * p
  t2 / (|d| + hyp2 d t2)

/-- First rotation (src/pavement.cpp:62-74). -/
noncomputable def rotXZ (s : T6) : T6 :=
  if s.xz ≠ 0 then
    let t1 := tanOf (s.zz - s.xx) s.xz
    let t2 := 1 / hyp2 t1 1
    let yz := s.yz * t2
    let xy := s.xy * t2
    ⟨s.xx - t1 * s.xz, s.yy, s.zz + t1 * s.xz, xy - t1 * yz, 0, yz + t1 * xy⟩
  else s

/-- Second rotation (src/pavement.cpp:75-84). -/
noncomputable def rotXY (s : T6) : T6 :=
  if s.xy ≠ 0 then
    let t1 := tanOf (s.yy - s.xx) s.xy
    let yz := s.yz / hyp2 t1 1
    ⟨s.xx - t1 * s.xy, s.yy + t1 * s.xy, s.zz, 0, -t1 * yz, yz⟩
  else s

/-- Third rotation (src/pavement.cpp:85-94). -/
noncomputable def rotYZ (s : T6) : T6 :=
  if s.yz ≠ 0 then
    let t1 := tanOf (s.zz - s.yy) s.yz
    let xz := s.xz / hyp2 t1 1
    ⟨s.xx, s.yy - t1 * s.yz, s.zz + t1 * s.yz, -t1 * xz, xz, 0⟩
  else s

/-- The body of the loop. -/
noncomputable def sweep (s : T6) : T6 := rotYZ (rotXY (rotXZ s))

/-- The loop (src/pavement.cpp:61-96) with `t1` the remaining off-diagonal norm; `none` when the fuel is used up. -/
noncomputable def jacobi : Nat → ℝ → T6 → Option T6
  | 0, _, _ => none
  | n + 1, t1, s =>
    if t1 > 1e-30 then
      let s' := sweep s
      jacobi n (s'.xy * s'.xy + s'.xz * s'.xz) s'
    else some s

/-- The exchange sort of three values (src/pavement.cpp:100-107, 123-130): `(i,j) = (0,1), (0,2), (1,2)`. -/
noncomputable def sort3 (a b c : ℝ) : ℝ × ℝ × ℝ :=
  let (a, b) := if a > b then (b, a) else (a, b)
  let (a, c) := if a > c then (c, a) else (a, c)
  let (b, c) := if b > c then (c, b) else (b, c)
  (a, b, c)

/-- The rows of results of a point: each is `(x, y, z)`. -/
structure PData where
  /-- `data[2]`: principal stresses. -/
  ps : ℝ × ℝ × ℝ
  /-- `data[3]`: principal shear stresses. -/
  pss : ℝ × ℝ × ℝ
  /-- `data[5]`: strains. -/
  e : ℝ × ℝ × ℝ
  /-- `data[6]`: shear strains. -/
  g : ℝ × ℝ × ℝ
  /-- `data[7]`: principal strains. -/
  pe : ℝ × ℝ × ℝ
  /-- `data[8]`: principal shear strains. -/
  pg : ℝ × ℝ × ℝ

/-- `principle(v, E)` (src/pavement.cpp:46-131) for the stresses `s` (rows 0 and 1). -/
noncomputable def principle (fuel : Nat) (v E : ℝ) (s : T6) : Option PData :=
  (jacobi fuel (s.xy * s.xy + s.xz * s.xz + s.yz * s.yz) s).map fun r =>
    let pss := sort3 (|r.xx - r.zz| * 0.5) (|r.xx - r.yy| * 0.5) (|r.yy - r.zz| * 0.5)
    let ps := sort3 r.xx r.yy r.zz
    let t1 := 2 * (v + 1) / E
    let t2 := 1 / E
    let p0 := ps.1
    let p1 := ps.2.1
    let p2 := ps.2.2
    { ps := ps, pss := pss
      e := ((s.xx - v * (s.yy + s.zz)) * t2, (s.yy - v * (s.zz + s.xx)) * t2, (s.zz - v * (s.xx + s.yy)) * t2)
      g := (t1 * s.xy, t1 * s.xz, t1 * s.yz)
      pe := sort3 ((p0 - v * (p1 + p2)) * t2) ((p1 - v * (p2 + p0)) * t2) ((p2 - v * (p0 + p1)) * t2)
      pg := sort3 (t1 * pss.1) (t1 * pss.2.1) (t1 * pss.2.2) }

/-- `principle(s)` of the finite element code (fem3d/fem3d.cpp:195-248): the sorted diagonal. -/
noncomputable def femPrinciple (fuel : Nat) (s : T6) : Option (ℝ × ℝ × ℝ) :=
  (jacobi fuel (s.xy * s.xy + s.xz * s.xz + s.yz * s.yz) s).map fun r => sort3 r.xx r.yy r.zz

end OP.Pave
