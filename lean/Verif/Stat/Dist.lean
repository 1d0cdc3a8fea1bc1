import Verif.Basic
import Verif.Stat.Normal

/-!
Model of the distributions, include/randomvar.h:357-525 and `random::make_rv`, src/statistics.cpp:203-242.

`float` and `double` are both the numbers of `Dbl`: exact, with infinities and not-a-number.
-/

namespace OP.Stat

namespace Dbl

def isinf : Dbl → Bool
  | .pinf | .ninf => true
  | _ => false

def isnan : Dbl → Bool
  | .nan => true
  | _ => false

def isfinite : Dbl → Bool
  | .fin _ => true
  | _ => false

open Classical in
/-- `x <= 0` -/
noncomputable def le0 : Dbl → Bool
  | .fin x => decide (x ≤ 0)
  | .ninf => true
  | _ => false

open Classical in
/-- `x < 0` -/
noncomputable def lt0 : Dbl → Bool
  | .fin x => decide (x < 0)
  | .ninf => true
  | _ => false

open Classical in
/-- `x != y` -/
noncomputable def ne : Dbl → Dbl → Bool
  | .fin x, .fin y => decide (x ≠ y)
  | .pinf, .pinf => false
  | .ninf, .ninf => false
  | _, _ => true

noncomputable def add : Dbl → Dbl → Dbl
  | .fin x, .fin y => .fin (x + y)
  | .nan, _ => .nan
  | _, .nan => .nan
  | .pinf, .ninf => .nan
  | .ninf, .pinf => .nan
  | .pinf, _ => .pinf
  | _, .pinf => .pinf
  | .ninf, _ => .ninf
  | _, .ninf => .ninf

def neg : Dbl → Dbl
  | .fin x => .fin (-x)
  | .nan => .nan
  | .pinf => .ninf
  | .ninf => .pinf

noncomputable def sub (x y : Dbl) : Dbl := add x (neg y)

/-- `x` times positive infinity. -/
noncomputable def big (x : ℝ) : Dbl := if x = 0 then .nan else if x < 0 then .ninf else .pinf

noncomputable def mul : Dbl → Dbl → Dbl
  | .fin x, .fin y => .fin (x * y)
  | .nan, _ => .nan
  | _, .nan => .nan
  | .fin x, .pinf => big x
  | .fin x, .ninf => neg (big x)
  | .pinf, .fin x => big x
  | .ninf, .fin x => neg (big x)
  | .pinf, .pinf => .pinf
  | .ninf, .ninf => .pinf
  | .pinf, .ninf => .ninf
  | .ninf, .pinf => .ninf

/-- Division by a number that is not 0, which is all the code does here. -/
noncomputable def divBy (x : Dbl) (y : ℝ) : Dbl := mul x (.fin y⁻¹)

noncomputable def sqrt : Dbl → Dbl
  | .fin x => if x < 0 then .nan else .fin (√x)
  | .pinf => .pinf
  | _ => .nan

noncomputable def exp : Dbl → Dbl
  | .fin x => .fin (Real.exp x)
  | .pinf => .pinf
  | .ninf => .fin 0
  | .nan => .nan

noncomputable def log : Dbl → Dbl
  | .fin x => if x < 0 then .nan else if x = 0 then .ninf else .fin (Real.log x)
  | .pinf => .pinf
  | _ => .nan

noncomputable def ceil : Dbl → Dbl
  | .fin x => .fin (⌈x⌉ : ℤ)
  | x => x

end Dbl

open Dbl

/-- `enum class distribution`, include/randomvar.h:68-74. -/
inductive Kind where
  | normal | lognormal | uniform | dirac | discrete
  deriving DecidableEq

/-- A random variable: its type and the two parameters that are used, include/randomvar.h:283. -/
structure Rv where
  kind : Kind
  d0 : Dbl
  d1 : Dbl

/-- The parameters are refused by `rv_lognormal`, include/randomvar.h:408, 411. -/
noncomputable def bad (m s : Dbl) : Bool := isnan m || isnan s || le0 m || lt0 s

/-- `s*s/m/m` and so on for a mean that is a finite number above 0, include/randomvar.h:409. -/
noncomputable def logSd (m s : Dbl) : Dbl :=
  match m with
  | .fin x => sqrt (log (add (.fin 1) (divBy (divBy (mul s s) x) x)))
  | _ => .nan

/-- `random::make_rv`, src/statistics.cpp:203-221, with the constructors of include/randomvar.h:378-382, 405-413, 441-445,
471-474 and 499-505. -/
noncomputable def make (k : Kind) (m s : Dbl) : Res Rv :=
  match k with
  | .normal => .ok ⟨.normal, m, s⟩
  | .lognormal =>
    let d1 := if isinf m then .nan else if bad m s then .nan else logSd m s
    let d0 := if isinf m then .pinf else if bad m s then .nan else sub (log m) (divBy (mul d1 d1) 2)
    .ok ⟨.lognormal, d0, d1⟩
  | .uniform => .ok ⟨.uniform, m, s⟩
  | .dirac => .ok ⟨.dirac, m, .nan⟩
  | .discrete => if ne (ceil m) m || ne (ceil s) s then .throw else .ok ⟨.discrete, m, s⟩

/-- `2*sqrt(3.0f)` -/
noncomputable def root12 : ℝ := 2 * √3

/-- `mean`, include/randomvar.h:383, 414-417, 446, 475, 506. -/
noncomputable def Rv.mean (v : Rv) : Dbl :=
  match v.kind with
  | .normal => v.d0
  | .lognormal => if isinf v.d0 then .pinf else if isnan v.d0 then .nan else exp (add v.d0 (divBy (mul v.d1 v.d1) 2))
  | .uniform => divBy (add v.d0 v.d1) 2
  | .dirac => v.d0
  | .discrete => divBy (add v.d0 v.d1) 2

/-- `stddev`, include/randomvar.h:386, 418-421, 449, 478, 509. -/
noncomputable def Rv.stddev (v : Rv) : Dbl :=
  match v.kind with
  | .normal => v.d1
  | .lognormal => if isinf v.d0 || isnan v.d0 then .nan else if isnan v.d1 then .nan else
      mul v.mean (sqrt (sub (exp (mul v.d1 v.d1)) (.fin 1)))
  | .uniform => divBy (sub v.d1 v.d0) root12
  | .dirac => .fin 0
  | .discrete => divBy (sub (sqrt (add (sub v.d1 v.d0) (.fin 1))) (.fin 1)) root12

/-- `randomizable`, include/randomvar.h:389, 422, 452, 481, 512. -/
noncomputable def Rv.randomizable (v : Rv) : Bool :=
  match v.kind with
  | .normal => isfinite v.d0 && isfinite v.d1
  | .lognormal => isfinite v.d0 && isfinite v.d1
  | .uniform => isfinite v.d0 && isfinite v.d1 && ne v.d1 v.d0
  | .dirac => false
  | .discrete => isfinite v.d0 && isfinite v.d1 && ne v.d1 v.d0

/-- `scale_stdnormal`, include/randomvar.h:392, 425-429, 456, 484, 516. -/
noncomputable def Rv.scale (v : Rv) (z : Dbl) : Dbl :=
  match v.kind with
  | .normal => add v.d0 (mul v.d1 z)
  | .lognormal => if isinf v.d0 then .pinf else if isnan v.d0 || isnan v.d1 then .nan else exp (add v.d0 (mul v.d1 z))
  | .uniform => add v.d0 (mul (sub v.d1 v.d0) (cdf z))
  | .dirac => v.d0
  | .discrete => add (sub v.d0 (.fin 1)) (ceil (mul (add (sub v.d1 v.d0) (.fin 1)) (cdf z)))

end OP.Stat
