import Verif.Lin.Chol
import Mathlib.Analysis.SpecialFunctions.Pow.Real
import Mathlib.Analysis.SpecialFunctions.Complex.Arg
/-!
# Random fields over the surface of a mesh (fem3d/fem3d.cpp:3035-3096, 3793-3874)

Real arithmetic.  The polynomials for the modified Bessel functions of order zero and one are parameters.  The files in
which the decompositions are kept between runs are not modelled: each layer uses the decomposition of its own matrix.
-/
namespace OP.Fem.Field

open OP.Lin Real

/-- The loop of `bessk` (fem3d/fem3d.cpp:3047-3050), on `(bkm,bk)`, after `swap` -/
noncomputable def besskLoop (x : ℝ) (k : Nat) (s : ℝ × ℝ) : ℝ × ℝ :=
  loop 1 k (fun j s => (s.2, s.1 + 2 * (j : ℝ) * s.2 / x)) s

/-- `bessk(k,x)` (fem3d/fem3d.cpp:3036-3052) with the functions for orders 0 and 1 -/
noncomputable def bessk (b0 b1 : ℝ → ℝ) (k : Int) (x : ℝ) : ℝ :=
  let k := k.natAbs
  if k = 0 then b0 x
  else if k = 1 then b1 x
  else (besskLoop x k (b0 x, b1 x)).2

/-- `gamma(n)` (fem3d/fem3d.cpp:3055-3063) -/
noncomputable def gamma (n : Nat) : ℝ := loop 1 n (fun c g => g * (c : ℝ)) 1

/-- `fn_matern(k,h,r)` (fem3d/fem3d.cpp:3065-3076), for orders that are not negative -/
noncomputable def matern (b0 b1 : ℝ → ℝ) (k : Nat) (h r : ℝ) : ℝ :=
  if h = 0 then 1
  else if h > 600 * r then 0
  else
    let hr := h / r
    (2 : ℝ) ^ (1 - (k : ℝ)) / gamma k * hr ^ (k : ℝ) * bessk b0 b1 k hr

/-- `fn_whittle(h,r)` (fem3d/fem3d.cpp:3078-3089) -/
noncomputable def whittle (b1 : ℝ → ℝ) (h r : ℝ) : ℝ :=
  if h = 0 then 1
  else if h > 600 * r then 0
  else
    let hr := h / r
    hr * b1 hr

/-- `fn_ellipse(t,a,b)` (fem3d/fem3d.cpp:3091-3095) -/
noncomputable def ellipse (t a b : ℝ) : ℝ := a * b / √((a * cos t) ^ 2 + (b * sin t) ^ 2)

/-- `hypot(x,y)` of a difference of positions -/
noncomputable def dist (x y : ℝ) : ℝ := |√(x ^ 2 + y ^ 2)|

/-- `atan2(y,x)` -/
noncomputable def angle (x y : ℝ) : ℝ := Complex.arg ⟨x, y⟩

/-- The correlation of the first layer for the difference of two positions (fem3d/fem3d.cpp:3802-3805), with the two
standard deviations and the two ranges as parameters. -/
noncomputable def rho0 (s1 s2 a b : ℝ) (x y : ℝ) : ℝ :=
  let r := dist x y
  (s1 ^ 2 * exp (-((r / a) ^ 2)) + s2 ^ 2 * cos (2 * π * r / b) * exp (-((2 * π * r / b) ^ 2))) / (s1 ^ 2 + s2 ^ 2)

/-- The correlation of the second layer (fem3d/fem3d.cpp:3807) -/
noncomputable def rho1 (b0 b1 : ℝ → ℝ) (a b : ℝ) (x y : ℝ) : ℝ := matern b0 b1 2 (dist x y) (ellipse (angle x y) a b)

/-- The correlation of the third layer (fem3d/fem3d.cpp:3810) -/
noncomputable def rho2 (b1 : ℝ → ℝ) (a b : ℝ) (x y : ℝ) : ℝ := whittle b1 (dist x y) (ellipse (angle x y) a b)

/-- The loops that fill the matrix (fem3d/fem3d.cpp:3794-3818); `rho i j` is the correlation of the nodes `i` and `j`, `g`
is what was in the memory. -/
noncomputable def fill (rho : Nat → Nat → ℝ) (n : Nat) (g : Nat → ℝ) : Nat → ℝ :=
  loop 0 n (fun i C => loop i n (fun j C =>
    let C := set C (tIdx i j) (rho i j)
    if i ≠ j then set C (tIdx i j) (C (tIdx i j) * 0.999) else C) C) g

/-- One value of a field before it is scaled (fem3d/fem3d.cpp:3852-3855): `A` are the normal numbers. -/
noncomputable def fieldAt (C A : Nat → ℝ) (i : Nat) : ℝ :=
  loop 0 i (fun j s => s + C (tIdx j i) * A j) (C (tIdx i i) * A i)

/-- The values of layer `l` (fem3d/fem3d.cpp:3837-3874): each layer adds its field to the one above; `C l` is the
decomposition, `A l` the numbers and `s l` the standard deviation of the layer. -/
noncomputable def layerAt (C A : Nat → Nat → ℝ) (s : Nat → ℝ) : Nat → Nat → ℝ
  | 0, i => fieldAt (C 0) (A 0) i * s 0
  | l + 1, i => layerAt C A s l i + s (l + 1) * fieldAt (C (l + 1)) (A (l + 1)) i

end OP.Fem.Field
