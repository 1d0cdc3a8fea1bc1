import Verif.Basic
import Mathlib.Analysis.SpecialFunctions.Complex.Arg
/-!
# Evaluation points

`src/pavement.h`: `point2d`, `point3d`, `pavepoint`; `src/pavement.cpp`: `zpoint`.  Coordinates are elements of
a linearly ordered field (real numbers in the properties); not-a-number is not modelled, and the rounding of
`hypot` and `atan2` and the two zeros of the floating point numbers appear where a property is about them.
-/
namespace OP.Pave

/-- `point2d` (src/pavement.h:65-66) -/
@[ext] structure P2 (K : Type) where
  x : K
  y : K
deriving DecidableEq

/-- `point3d` (src/pavement.h:118-120) -/
@[ext] structure P3 (K : Type) extends P2 K where
  z : K
deriving DecidableEq

/-- `pavepoint` (src/pavement.h:252-253); `none` is `il == UINT_MAX`. -/
@[ext] structure PP (K : Type) extends P3 K where
  il : Option Nat
deriving DecidableEq

/-- `zpoint` (src/pavement.cpp:535-537) -/
@[ext] structure Z (K : Type) where
  z : K
  il : Nat
deriving DecidableEq

/-- `point2d::compare` (src/pavement.h:84-95) for the functions `r()` and `theta()` given. -/
def cmp2 {K R : Type} [DecidableEq K] [LinearOrder R] (r th : P2 K → R) (p q : P2 K) : Int :=
  if p.x = q.x ∧ p.y = q.y then 0
  else if r p < r q then -1
  else if r p > r q then 1
  else if th p < th q then -1
  else 1

section
variable {K R : Type} [Field K] [LinearOrder K] [LinearOrder R]

/-- `point3d::compare` (src/pavement.h:131-139) -/
def cmp3 (r th : P2 K → R) (p q : P3 K) : Int :=
  if p.x = q.x ∧ p.y = q.y ∧ p.z = q.z then 0
  else if p.x * p.x + p.y * p.y < q.x * q.x + q.y * q.y then -1
  else if p.x * p.x + p.y * p.y + p.z * p.z > q.x * q.x + q.y * q.y + q.z * q.z then 1
  else cmp2 r th p.toP2 q.toP2

/-- `pavepoint::operator ==` (src/pavement.h:286-290) -/
def eqP (p q : PP K) : Bool :=
  p.x = q.x ∧ p.y = q.y ∧ p.z = q.z ∧ (p.il = q.il ∨ p.il = none ∨ q.il = none)

/-- `pavepoint::operator =` (src/pavement.h:269-274): the object assigned to, the value. -/
def asgP (t p : PP K) : PP K :=
  if t.il = none ∨ p.il ≠ none then p else { p with il := t.il }

/-- `pavepoint::compare` (src/pavement.h:275-285); the two tests on the layers (lines 279-282). -/
def cmpP (r th : P2 K → R) (p q : PP K) : Int :=
  if eqP p q then 0
  else match p.il, q.il with
    | some a, some b =>
      if a < b then -1 else if a > b then 1 else cmp3 r th p.toP3 q.toP3
    | _, _ => cmp3 r th p.toP3 q.toP3

/-- `zpoint::compare` (src/pavement.cpp:544-555) -/
def cmpZ (p q : Z K) : Int :=
  if p.z = q.z ∧ p.il = q.il then 0
  else if p.z < q.z then -1
  else if p.z > q.z then 1
  else if p.il < q.il then -1
  else 1

end

/-- `point2d::r` (src/pavement.h:75-77): `hypot(x,y)` without rounding. -/
noncomputable def hyp (p : P2 ℝ) : ℝ := Real.sqrt (p.x * p.x + p.y * p.y)

/-- `point2d::theta` (src/pavement.h:78-80): `atan2(x,y)` without rounding, the angle of `y + x i` in (-π, π]. -/
noncomputable def ang (p : P2 ℝ) : ℝ := Complex.arg ⟨p.y, p.x⟩

/-- A floating point number with the sign of a zero: `neg` distinguishes `-0.0` from `0.0` and means nothing
for other numbers. -/
structure SZ where
  val : ℝ
  neg : Bool

/-- `point2d::compare` (src/pavement.h:84-95) on coordinates with signed zeros.  `==`, `<` and `hypot` do not see
the sign of a zero; `atan2(-0.0, y)` is -π for negative `y` (C11 F.10.1.4), where `atan2(0.0, y)` is π. -/
noncomputable def cmpS (p q : P2 SZ) : Int :=
  let v := fun (a : P2 SZ) => (⟨a.x.val, a.y.val⟩ : P2 ℝ)
  let th := fun (a : P2 SZ) => if a.x.val = 0 ∧ a.x.neg ∧ a.y.val < 0 then -Real.pi else ang (v a)
  if p.x.val = q.x.val ∧ p.y.val = q.y.val then 0
  else if hyp (v p) < hyp (v q) then -1
  else if hyp (v p) > hyp (v q) then 1
  else if th p < th q then -1
  else 1

end OP.Pave
