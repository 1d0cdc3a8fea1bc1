import Verif.Fem.Shape
import Mathlib.Analysis.SpecialFunctions.Sqrt
/-!
# Gauss points (fem3d/fem3d.cpp:340-361, 1341-1351)
-/
namespace OP.Fem
noncomputable section

/-- `gp_2`: points and weights (fem3d/fem3d.cpp:343-344) -/
def gp2 : List (ℝ × ℝ) := [(-1 / √3, 1), (1 / √3, 1)]

/-- `gp_3` (fem3d/fem3d.cpp:345-347) -/
def gp3 : List (ℝ × ℝ) := [(-√(3 / 5), 5 / 9), (0, 8 / 9), (√(3 / 5), 5 / 9)]

/-- `gp_4` (fem3d/fem3d.cpp:348-351) -/
def gp4 : List (ℝ × ℝ) :=
  [(-√(525 + 70 * √30) / 35, (18 - √30) / 36), (-√(525 - 70 * √30) / 35, (18 + √30) / 36),
   (√(525 - 70 * √30) / 35, (18 + √30) / 36), (√(525 + 70 * √30) / 35, (18 - √30) / 36)]

/-- `gp_A` (fem3d/fem3d.cpp:352-355) -/
def gpA : List (ℝ × ℝ) :=
  [(-(1 + 1 / √3) / 2, 1 / 2), (-(1 - 1 / √3) / 2, 1 / 2), ((1 - 1 / √3) / 2, 1 / 2), ((1 + 1 / √3) / 2, 1 / 2)]

/-- `gl_4` (fem3d/fem3d.cpp:356-359) -/
def gl4 : List (ℝ × ℝ) := [(-1, 1 / 6), (-√5 / 5, 5 / 6), (√5 / 5, 5 / 6), (1, 1 / 6)]

/-- `getgauss` (fem3d/fem3d.cpp:1341-1351) -/
def getgauss : Shape → List (ℝ × ℝ)
  | .linear => gp2
  | .quadratic => gp3
  | .cubic => gp4
  | .absolute => gpA
  | .infPos => gp4
  | .infNeg => gp4

end
end OP.Fem
