import Verif.Pave.PropsPrinc
import Mathlib.Tactic.IntervalCases
/-!
# The numbers returned for a point (src/pavement.h:310-351, libop/libop.cpp:91-119)
-/
namespace OP.Libop

/-- `pavedata::type` (src/pavement.h:312). -/
inductive Kind
  | deflct | stress | strain
  deriving DecidableEq

/-- `pavedata::direction` (src/pavement.h:313). -/
inductive Dir
  | xx | yy | zz | xy | xz | yz | p1 | p2 | p3 | s1 | s2 | s3
  deriving DecidableEq

/-- The value of the enumerator (src/pavement.h:313). -/
def Dir.val : Dir → Nat
  | .xx => 0 | .yy => 1 | .zz => 2 | .xy => 3 | .xz => 4 | .yz => 5 | .p1 => 6 | .p2 => 7 | .p3 => 8 | .s1 => 9 | .s2 => 10 | .s3 => 11

variable {K : Type} [Zero K]

/-- `pavedata::result` (src/pavement.h:314-351); `data` is the array `data[9][3]`. -/
def result (data : Nat → Nat → K) : Kind → Dir → K
  | .stress, d@.xx | .stress, d@.yy | .stress, d@.zz => data 0 (d.val - Dir.xx.val)
  | .stress, d@.xy | .stress, d@.xz | .stress, d@.yz => data 1 (d.val - Dir.xy.val)
  | .stress, d@.p1 | .stress, d@.p2 | .stress, d@.p3 => data 2 (d.val - Dir.p1.val)
  | .stress, d@.s1 | .stress, d@.s2 | .stress, d@.s3 => data 3 (d.val - Dir.s1.val)
  | .deflct, d@.xx | .deflct, d@.yy | .deflct, d@.zz => data 4 (d.val - Dir.xx.val)
  | .deflct, _ => 0
  | .strain, d@.xx | .strain, d@.yy | .strain, d@.zz => data 5 (d.val - Dir.xx.val)
  | .strain, d@.xy | .strain, d@.xz | .strain, d@.yz => data 6 (d.val - Dir.xy.val)
  | .strain, d@.p1 | .strain, d@.p2 | .strain, d@.p3 => data 7 (d.val - Dir.p1.val)
  | .strain, d@.s1 | .strain, d@.s2 | .strain, d@.s3 => data 8 (d.val - Dir.s1.val)

/-- `copy_res` (libop/libop.cpp:91-119): `res[0]` to `res[26]`. -/
def copyRes (data : Nat → Nat → K) : List K :=
  [result data .stress .xx, result data .stress .yy, result data .stress .zz,
   result data .stress .xy, result data .stress .xz, result data .stress .yz,
   result data .stress .p1, result data .stress .p2, result data .stress .p3,
   result data .stress .s1, result data .stress .s2, result data .stress .s3,
   result data .deflct .xx, result data .deflct .yy, result data .deflct .zz,
   result data .strain .xx, result data .strain .yy, result data .strain .zz,
   result data .strain .xy, result data .strain .xz, result data .strain .yz,
   result data .strain .p1, result data .strain .p2, result data .strain .p3,
   result data .strain .s1, result data .strain .s2, result data .strain .s3]

/-- A row of the array from three numbers. -/
def row (a b c : K) : Nat → K
  | 0 => a | 1 => b | _ => c

open OP.Pave in
/-- The array after `principle` (src/pavement.cpp:46-131) for the stresses `s` and the displacement `(ux, uy, uz)`. -/
def table (s : T6) (ux uy uz : ℝ) (d : PData) : Nat → Nat → ℝ
  | 0 => row s.xx s.yy s.zz
  | 1 => row s.xy s.xz s.yz
  | 2 => row d.ps.1 d.ps.2.1 d.ps.2.2
  | 3 => row d.pss.1 d.pss.2.1 d.pss.2.2
  | 4 => row ux uy uz
  | 5 => row d.e.1 d.e.2.1 d.e.2.2
  | 6 => row d.g.1 d.g.2.1 d.g.2.2
  | 7 => row d.pe.1 d.pe.2.1 d.pe.2.2
  | _ => row d.pg.1 d.pg.2.1 d.pg.2.2

/-! ## C126 -/

/-- **C126** The numbers are the array, row after row: each entry is returned exactly once, for all contents. -/
theorem C126_layout (data : Nat → Nat → K) : (copyRes data).length = 27 ∧
    ∀ i < 9, ∀ j < 3, (copyRes data)[3 * i + j]? = some (data i j) := by
  refine ⟨rfl, fun i hi j hj => ?_⟩
  interval_cases i <;> interval_cases j <;> rfl

/-- Where a result is among the numbers. -/
def place : Kind → Dir → Option Nat
  | .stress, d => some d.val
  | .strain, d => some (15 + d.val)
  | .deflct, d => if d.val < 3 then some (12 + d.val) else none

/-- **C126** A result asked for by its kind and direction is the number at its place; other displacements are zero. -/
theorem C126_query (data : Nat → Nat → K) (k : Kind) (d : Dir) :
    match place k d with
    | some n => (copyRes data)[n]? = some (result data k d)
    | none => result data k d = 0 := by
  cases k <;> cases d <;> rfl

/-- Different results are at different places, and every place is that of a result. -/
theorem C126_places : (∀ k d k' d' n, place k d = some n → place k' d' = some n → k = k' ∧ d = d') ∧
    ∀ n < 27, ∃ k d, place k d = some n := by
  constructor
  · intro k d k' d' n
    cases k <;> cases d <;> cases k' <;> cases d' <;> simp [place, Dir.val] <;> omega
  · intro n hn
    interval_cases n
    exacts [⟨.stress, .xx, rfl⟩, ⟨.stress, .yy, rfl⟩, ⟨.stress, .zz, rfl⟩, ⟨.stress, .xy, rfl⟩, ⟨.stress, .xz, rfl⟩,
      ⟨.stress, .yz, rfl⟩, ⟨.stress, .p1, rfl⟩, ⟨.stress, .p2, rfl⟩, ⟨.stress, .p3, rfl⟩, ⟨.stress, .s1, rfl⟩,
      ⟨.stress, .s2, rfl⟩, ⟨.stress, .s3, rfl⟩, ⟨.deflct, .xx, rfl⟩, ⟨.deflct, .yy, rfl⟩, ⟨.deflct, .zz, rfl⟩,
      ⟨.strain, .xx, rfl⟩, ⟨.strain, .yy, rfl⟩, ⟨.strain, .zz, rfl⟩, ⟨.strain, .xy, rfl⟩, ⟨.strain, .xz, rfl⟩,
      ⟨.strain, .yz, rfl⟩, ⟨.strain, .p1, rfl⟩, ⟨.strain, .p2, rfl⟩, ⟨.strain, .p3, rfl⟩, ⟨.strain, .s1, rfl⟩,
      ⟨.strain, .s2, rfl⟩, ⟨.strain, .s3, rfl⟩]

open OP.Pave in
/-- **C126** The numbers returned belong together, for all stresses: the strains follow by Hooke's law from the stresses, the
principal values are ordered, the principal strains follow from the principal stresses, and the greatest principal shear stress
is half the difference of the extreme principal stresses.  The shear strains are the changes of the angles. -/
theorem C126_together (fuel : Nat) (v E : ℝ) (hE : 0 < E) (hv : -1 < v) (s : T6) (ux uy uz : ℝ) (d : PData)
    (h : principle fuel v E s = some d) :
    let res (n : Nat) : ℝ := ((copyRes (table s ux uy uz d))[n]?).getD 0
    (res 0 = s.xx ∧ res 1 = s.yy ∧ res 2 = s.zz ∧ res 3 = s.xy ∧ res 4 = s.xz ∧ res 5 = s.yz) ∧
    (res 12 = ux ∧ res 13 = uy ∧ res 14 = uz) ∧
    (E * res 15 = res 0 - v * (res 1 + res 2) ∧ E * res 16 = res 1 - v * (res 2 + res 0) ∧ E * res 17 = res 2 - v * (res 0 + res 1)) ∧
    (∀ i < 3, E * res (18 + i) = 2 * (1 + v) * res (3 + i)) ∧
    (res 6 ≤ res 7 ∧ res 7 ≤ res 8) ∧ res 11 = (res 8 - res 6) / 2 ∧
    (E * res 21 = res 6 - v * (res 7 + res 8) ∧ E * res 22 = res 7 - v * (res 8 + res 6) ∧ E * res 23 = res 8 - v * (res 6 + res 7)) ∧
    ∀ i < 3, E * res (24 + i) = 2 * (1 + v) * res (9 + i) := by
  intro res
  obtain ⟨a, b, c, -, e, -⟩ := C47_hooke fuel v E hE hv s d h
  have hp := (C47_principal fuel v E s d h).1
  have hs := (C47_shear fuel v E s d h).1
  refine ⟨⟨rfl, rfl, rfl, rfl, rfl, rfl⟩, ⟨rfl, rfl, rfl⟩, a, fun i hi => ?_, hp, hs, c, fun i hi => ?_⟩
  · interval_cases i
    exacts [b.1, b.2.1, b.2.2]
  · interval_cases i
    exacts [e.1, e.2.1, e.2.2]

open OP.Pave in
/-- The hypotheses hold for every state of stress. -/
example : ∃ fuel d, principle fuel 0.35 100 ⟨1, 1, 5, 2, 0, 0⟩ = some d ∧ (0 : ℝ) < 100 ∧ (-1 : ℝ) < 0.35 := by
  obtain ⟨n, d, h⟩ := C47_terminates 0.35 100 ⟨1, 1, 5, 2, 0, 0⟩
  exact ⟨n, d, h n le_rfl, by norm_num, by norm_num⟩

end OP.Libop
