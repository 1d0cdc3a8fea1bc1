import Verif.Lin.Loop
import Verif.Pave.Bouss
/-!
# The adaptive integration of circular loads

`src/pavement.cpp`: `quad8_vdp` and `quad8_vse`.  Real numbers for doubles.
-/
namespace OP.Pave.Bouss

open OP.Lin

/-- `w` (src/pavement.cpp:1576-1577 and 1643-1644). -/
def wNc : List ℝ := [3956, 23552, -3712, 41984, -18160, 41984, -3712, 23552, 3956]

/-- The integrand of `quad8_vdp` at an angle (src/pavement.cpp:1592-1606). -/
noncomputable def angVdp (r z a v θ : ℝ) : ℝ :=
  let t := Real.cos θ * r
  if z = 0 then
    if t = r then 2 * (v * v - 1) * (r - Real.sqrt (a * a - 2 * a * t + r * r))
    else 2 * (v * v - 1) * (t * (Real.log (r - t) - Real.log (a - t + Real.sqrt (a * a - 2 * a * t + r * r)))
      - Real.sqrt (a * a - 2 * a * t + r * r) + r)
  else if t * t = r * r + z * z then 2 * (v * v - 1) * a
  else 2 * (v * v - 1) * (t * (Real.log (hypot z r - t) - Real.log (a - t + Real.sqrt (z * z - 2 * a * t + a * a + r * r)))
      - Real.sqrt (z * z - 2 * a * t + a * a + r * r) + hypot z r)
    + (v + 1) * z * z * ((z * z + r * r - t * a) / Real.sqrt (z * z - 2 * a * t + a * a + r * r) - hypot z r) / (t * t - z * z - r * r)

/-- The integrand of `quad8_vse` at an angle (src/pavement.cpp:1661-1666). -/
noncomputable def angVse (r z a θ : ℝ) : ℝ :=
  let t := Real.cos θ
  let t1 := t * t * r * r + r * r + z * z
  z * z * z * (((r * r + z * z - 3 * r * a * t) * t1 - 2 * t * r * a * (a * a - 3 * a * t * r)) /
    Real.sqrt (a * a - 2 * r * a * t + r * r + z * z) ^ 3 - t1 / hypot r z) / ((1 - t * t) * r * r + z * z) ^ 2

/-- The two static variables (src/pavement.cpp:1579-1580 and 1646-1647). -/
structure QSt where
  level : Nat
  tol : ℝ

/-- What they are at the start of the program. -/
noncomputable def QSt.init : QSt := ⟨0, 1 / 1000000⟩

/-- `Q1` for `k = 0` and `Q2` for `k = 8` (src/pavement.cpp:1591-1622 and 1660-1673). -/
noncomputable def rule8 (g : ℝ → ℝ) (A h : ℝ) (k : Nat) : ℝ :=
  loop 0 9 (fun i q => q + h * wNc.getD i 0 / 14175 * g (A + ((i + k : Nat) : ℝ) * h)) 0

/-- The recursion (src/pavement.cpp:1589-1635 and 1658-1686), for the integrand `g`; `none` if the fuel is used up. -/
noncomputable def quad8 (g : ℝ → ℝ) : Nat → ℝ → ℝ → ℝ → QSt → Option (ℝ × QSt)
  | 0, _, _, _, _ => none
  | m + 1, A, B, Q, t =>
    let level := t.level + 1
    let h := (B - A) / 16
    let Q1 := rule8 g A h 0
    let Q2 := rule8 g A h 8
    let fin : ℝ → ℝ → QSt → Option (ℝ × QSt) := fun Q1 Q2 t =>
      some (if t.level - 1 = 0 then (Q1 + Q2) / Real.pi else Q1 + Q2, ⟨t.level - 1, t.tol⟩)
    if t.tol * |Q1 + Q2| < |Q1 + Q2 - Q| ∧ level ≤ 12 then
      (quad8 g m A ((A + B) / 2) Q1 ⟨level, t.tol / 2⟩).bind fun u =>
        (quad8 g m ((A + B) / 2) B Q2 u.2).bind fun w => fin u.1 w.1 ⟨w.2.level, w.2.tol * 2⟩
    else fin Q1 Q2 ⟨level, t.tol⟩

/-- `quad8_vdp` as it is called (src/pavement.cpp:1571-1636). -/
noncomputable def quadVdp (fuel : Nat) (r z a v : ℝ) (t : QSt) : Option (ℝ × QSt) :=
  if a = 0 then some (0, t)
  else if r = 0 then some (2 * (v * v - 1) * (z - hypot z a) + (v + 1) * (z - z * z / hypot z a), t)
  else quad8 (angVdp r z a v) fuel 0 Real.pi 10 t

/-- `quad8_vse` as it is called (src/pavement.cpp:1638-1687). -/
noncomputable def quadVse (fuel : Nat) (r z a : ℝ) (t : QSt) : Option (ℝ × QSt) :=
  if a = 0 then some (0, t)
  else if z = 0 then some (if r = a then -0.5 else if r < a then -1 else 0, t)
  else if r = 0 then some ((z / hypot z a) ^ 3 - 1, t)
  else quad8 (angVse r z a) fuel 0 Real.pi 10 t

end OP.Pave.Bouss
