import Mathlib.Analysis.SpecialFunctions.Sqrt
import Mathlib.Analysis.SpecialFunctions.Pow.Real
import Mathlib.Analysis.SpecialFunctions.Log.Basic
import Mathlib.Analysis.SpecialFunctions.Trigonometric.Basic
/-!
# Boussinesq's equations and Odemark's transformation

`src/pavement.cpp`: `boussinesq_*`, `calc_odemark`, `calc_fastnum`, `quad8_vdp` and `quad8_vse`.  Real numbers for doubles.  One
load and one point at a time: the loops over groups, points and loads add the results (see C49, C50).
-/
namespace OP.Pave.Bouss

/-- `hypot`. -/
noncomputable def hypot (x y : ℝ) : ℝ := Real.sqrt (x ^ 2 + y ^ 2)

/-- `boussinesq_vse` (src/pavement.cpp:1409-1416). -/
noncomputable def vse (z r a R A : ℝ) : ℝ := if 0 < r then -3 * a * a * z ^ 3 / (2 * R ^ 5) else z ^ 3 / A ^ 3 - 1

/-- `boussinesq_rse` (src/pavement.cpp:1418-1427). -/
noncomputable def rse (z r a v R A : ℝ) : ℝ :=
  if 0 < r then -a * a * (3 * z * r * r / R ^ 4 - (1 - 2 * v) / (R + z)) / (2 * R)
  else 2 * (1 + v) * z / A - z ^ 3 / A ^ 3 - 1 - 2 * v

/-- `boussinesq_tse` (src/pavement.cpp:1429-1436). -/
noncomputable def tse (z r a v R : ℝ) : ℝ :=
  if 0 < r then -a * a * (1 - 2 * v) * (-z / (R * R) + 1 / (R + z)) / (2 * R) else 0

/-- `boussinesq_sse` (src/pavement.cpp:1438-1445). -/
noncomputable def sse (z r a R : ℝ) : ℝ := if 0 < r then -3 * a * a * z * z * r / (2 * R ^ 5) else 0

/-- `boussinesq_rdp` (src/pavement.cpp:1447-1455). -/
noncomputable def rdp (z r a v E R : ℝ) : ℝ :=
  if 0 < r then a * a * ((1 + v) / (2 * R * E)) * (z * r / (R * R) - (1 - 2 * v) * r / (R + z)) else 0

/-- `boussinesq_vdp` (src/pavement.cpp:1457-1465). -/
noncomputable def vdp (z r a v E R A : ℝ) : ℝ :=
  if 0 < r then a * a * ((1 + v) / (2 * R * E)) * (2 * (1 - v) + z * z / (R * R))
  else (1 + v) / E * (a * a / A + (1 - 2 * v) * (A - z))

end OP.Pave.Bouss
