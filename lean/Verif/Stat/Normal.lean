import Mathlib.Analysis.SpecialFunctions.Exp
import Mathlib.Analysis.SpecialFunctions.Log.Basic
import Mathlib.Analysis.SpecialFunctions.Trigonometric.Basic
import Mathlib.Analysis.SpecialFunctions.Sqrt
import Mathlib.Algebra.Order.Floor.Ring

/-!
Model of src/statistics.cpp: the standard normal distribution.

Doubles are exact reals together with the two infinities and the not-a-number, which the code tests for.
-/

namespace OP.Stat

/-- A `double` without rounding. -/
inductive Dbl where
  | nan
  | ninf
  | pinf
  | fin (x : ℝ)

/-- `((a₀ y + a₁) y + …) y + aₙ`, as the code writes its polynomials. -/
noncomputable def hor (l : List ℚ) (y : ℝ) : ℝ := l.foldl (fun s (a : ℚ) => s * y + (a : ℝ)) 0

/-- src/statistics.cpp:85-88 -/
def ca : List ℚ := [1.161110663653770e-2, 3.951404679838207e-1, 2.846603853776254e1,
  1.887426188426510e2, 3.209377589138469e3]
/-- src/statistics.cpp:89-92 -/
def cb : List ℚ := [1.767766952966369e-1, 8.344316438579620, 1.725514762600375e2,
  1.813893686502485e3, 8.044716608901563e3]
/-- src/statistics.cpp:93-97 -/
def cc : List ℚ := [1.07655767737201917e-8, 3.98941512088134664e-1, 8.88314979438837682,
  9.35066561321778664e1, 5.97270276394800248e2, 2.49453758529037214e3,
  6.84819045053628270e3, 1.16026514376473497e4, 9.84271483838397762e3]
/-- src/statistics.cpp:98-102 -/
def cd : List ℚ := [1.00000000000000000, 2.22666880443281165e1, 2.35387901782624994e2,
  1.51937759940755473e3, 6.48555829826676108e3, 1.86155716408850967e4,
  3.49009527211459790e4, 3.89120032860932697e4, 1.96854296768599925e4]
/-- src/statistics.cpp:103-106 -/
def cp : List ℚ := [2.30734417649401738e-2, 2.15898534057957003e-1, 1.27401161160247384e-1,
  2.22352778706498104e-2, 1.42161919322789337e-3, 2.91128749511687932e-5]
/-- src/statistics.cpp:107-110 -/
def cq : List ℚ := [1.00000000000000000, 1.28426009614491110, 4.68238212480865112e-1,
  6.59881378689285564e-2, 3.78239633202758245e-3, 7.29751555083966178e-5]

/-- The bounds of the three regions, src/statistics.cpp:118, 125. -/
noncomputable def u0 : ℝ := 0.662912607362388
noncomputable def u1 : ℝ := 5.65685424949238

/-- `M_1_SQRT2PI` and `M_SQRT2PI`, include/mathplus.h:117-127. -/
noncomputable def rootK : ℝ := 0.398942280401432677940
noncomputable def rootL : ℝ := 2.50662827463100050242

/-- The value near the middle less one half, src/statistics.cpp:120-122. -/
noncomputable def central (u : ℝ) : ℝ := u * hor ca (u * u) / hor cb (u * u)

/-- The factor before the exponential, src/statistics.cpp:127-128. -/
noncomputable def middle (y : ℝ) : ℝ := hor cc y / hor cd y

/-- The factor before the exponential far from the middle, src/statistics.cpp:131-135. -/
noncomputable def tail (v : ℝ) : ℝ :=
  let z := 1 / v
  let y := z * z
  let y := y * (hor cp y / hor cq y)
  z * (rootK - y)

/-- `stdnormal_cdf` of a finite number, src/statistics.cpp:117-139. -/
noncomputable def cdfR (u : ℝ) : ℝ :=
  let y := |u|
  if y ≤ u0 then 0.5 + central u
  else
    let y := if y ≤ u1 then middle y else tail y
    let z : ℝ := ⌊u * 16⌋ / 16
    let y := y * (Real.exp (-0.5 * z * z) * Real.exp (-0.5 * (u - z) * (u + z)))
    if u < 0 then y else 1 - y

/-- `stdnormal_cdf`, src/statistics.cpp:82-140. -/
noncomputable def cdf : Dbl → Dbl
  | .nan => .nan
  | .ninf => .fin 0
  | .pinf => .fin 1
  | .fin u => .fin (cdfR u)

/-- `stdnormal_pdf`, src/statistics.cpp:67-71. -/
noncomputable def pdf (u : ℝ) : ℝ := Real.exp (-u * u / 2) / rootL

/-- src/statistics.cpp:154-158 -/
def sa : List ℚ := [-3.969683028665376e1, 2.209460984245205e2, -2.759285104469687e2, 1.383577518672690e2,
  -3.066479806614716e1, 2.506628277459239]
/-- src/statistics.cpp:159-163, with the constant written in line 187. -/
def sb : List ℚ := [-5.447609879822406e1, 1.615858368580409e2, -1.556989798598866e2, 6.680131188771972e1,
  -1.328068155288572e1, 1]
/-- src/statistics.cpp:164-168 -/
def sc : List ℚ := [-7.784894002430293e-3, -3.223964580411365e-1, -2.400758277161838, -2.549732539343734,
  4.374664141464968, 2.938163982698783]
/-- src/statistics.cpp:169-172, with the constant written in line 192. -/
def sd : List ℚ := [7.784695709041462e-3, 3.224671290700398e-1, 2.445134137142996, 3.754408661907416, 1]

/-- The first value, src/statistics.cpp:182-193. -/
noncomputable def invStart (q : ℝ) : ℝ :=
  if q > 0.02425 then
    let u := q - 0.5
    let t := u * u
    u * hor sa t / hor sb t
  else
    let t := √(-2 * Real.log q)
    hor sc t / hor sd t

/-- The step of Halley's method, src/statistics.cpp:197-199. -/
noncomputable def halley (u q : ℝ) : ℝ :=
  let t := cdfR u - q
  let t := t * (rootL * Real.exp (u * u / 2))
  u - t / (1 + u * t / 2)

/-- `stdnormal_inv` between 0 and 1, src/statistics.cpp:181-200. -/
noncomputable def invR (p : ℝ) : ℝ :=
  let q := min p (1 - p)
  let u := halley (invStart q) q
  if p > 0.5 then -u else u

/-- `stdnormal_inv`, src/statistics.cpp:151-201. -/
noncomputable def inv : Dbl → Dbl
  | .nan => .nan
  | .ninf => .nan
  | .pinf => .nan
  | .fin p =>
    if p > 1 ∨ p < 0 then .nan
    else if p = 0 then .ninf
    else if p = 1 then .pinf
    else .fin (invR p)

/-- The state of `stdnormal_rnd` between calls, src/statistics.cpp:48-49: which value was returned last, and the
two values. -/
structure Rnd where
  i : Bool
  u : Bool → ℝ

def Rnd.init : Rnd := ⟨true, fun _ => 0⟩

/-- One call of `stdnormal_rnd`, src/statistics.cpp:46-62.  `m` is `RAND_MAX`, `r` is what the next two calls of
`std::rand` return; the last component tells how many of them were made.  `M_2PI` is taken as 2π. -/
noncomputable def rnd (m : ℕ) (s : Rnd) (r : ℕ × ℕ) : Rnd × ℝ × ℕ :=
  if s.i = true then
    let r0 := √(-2 * Real.log ((r.1 + 1) / (m + 1)))
    let r1 := 2 * Real.pi * (r.2 + 1) / (m + 1)
    let u : Bool → ℝ := fun b => if b then r0 * Real.cos r1 else r0 * Real.sin r1
    (⟨false, u⟩, u false, 2)
  else (⟨true, s.u⟩, s.u true, 0)

end OP.Stat
