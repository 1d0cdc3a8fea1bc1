import Verif.Pave.Point
import Mathlib.Analysis.SpecialFunctions.Exp
import Mathlib.Algebra.BigOperators.Fin
/-!
# The layer coefficients

`src/pavement.cpp`: `buildabcd`, `buildT` and the integrands of `calc_accurate`.  Real arithmetic without rounding;
`exp` is the exponential function, with the code's cut-off (`MAX_EXP`, `DBL_MAX`) kept as parameters.  The arrays `h`
(depth of the lower boundary, zero for an infinite layer), `v`, `E`, `f` are functions of the layer number.  The 4x2
matrices `R[il]` are kept as their two columns; every column is treated alike by the code.
-/
namespace OP.Pave

/-- Coefficients `A B C D` of one layer, or one column of `R[il]`. -/
abbrev V4 := Fin 4 → ℝ

/-- Four values, indexed. -/
def v4 {α : Type} (a b c d : α) : Fin 4 → α
  | 0 => a
  | 1 => b
  | 2 => c
  | 3 => d

@[simp] theorem v4_0 {α : Type} (a b c d : α) : v4 a b c d 0 = a := rfl
@[simp] theorem v4_1 {α : Type} (a b c d : α) : v4 a b c d 1 = b := rfl
@[simp] theorem v4_2 {α : Type} (a b c d : α) : v4 a b c d 2 = c := rfl
@[simp] theorem v4_3 {α : Type} (a b c d : α) : v4 a b c d 3 = d := rfl

@[inherit_doc] scoped notation "q![" a ", " b ", " c ", " d "]" => v4 a b c d

/-- Two values, indexed. -/
def v2 {α : Type} (a b : α) : Fin 2 → α
  | 0 => a
  | 1 => b

@[simp] theorem v2_0 {α : Type} (a b : α) : v2 a b 0 = a := rfl
@[simp] theorem v2_1 {α : Type} (a b : α) : v2 a b 1 = b := rfl

/-- The limits of the exponential function (`MAX_EXP`, `DBL_MAX`). -/
structure Lim where
  maxExp : ℝ
  dblMax : ℝ

/-- The guarded exponential (src/pavement.cpp:857, 917). -/
noncomputable def gexp (l : Lim) (x : ℝ) : ℝ := if x < l.maxExp then Real.exp x else l.dblMax

/-- The matrix `X` (src/pavement.cpp:820-837), with `z` the depth of the interface. -/
noncomputable def Xm (m z v1 v2 K : ℝ) : Fin 4 → Fin 4 → ℝ :=
  let t1 := m * z
  let t2 := 2 * t1
  let mi := 1 / m
  q![q![4 * v1 - 3 - K,
      ((1 + 8 * v1 * v2 - t2) * (1 - K) + (4 * t1 * v1 - 6 * v2) - K * (4 * t1 * v2 - 6 * v1)) * mi,
      (t2 + 4 * v1 - 1) * (1 - K),
      ((1 + 2 * (t1 + 2 * v1) * (t1 - 2 * v2)) * (1 - K) + 2 * v2 - 2 * K * v1) * mi],
    q![0, K * (4 * v2 - 3) - 1, 2 * m * (K - 1), (-t2 + 4 * v2 - 1) * (1 - K)],
    q![(-t2 + 4 * v1 - 1) * (1 - K),
      ((1 + 2 * (t1 - 2 * v1) * (t1 + 2 * v2)) * (K - 1) - 2 * v2 + 2 * K * v1) * mi,
      4 * v1 - 3 - K,
      ((1 + 8 * v1 * v2 + t2) * (K - 1) + (4 * t1 * v1 + 6 * v2) - K * (4 * t1 * v2 + 6 * v1)) * mi],
    q![2 * m * (1 - K), (t2 + 4 * v2 - 1) * (1 - K), 0, K * (4 * v2 - 3) - 1]]

/-- The matrix `F` of a partially bonded interface (src/pavement.cpp:838-852). -/
noncomputable def Fm (m z v1 E1 f : ℝ) : Fin 4 → Fin 4 → ℝ :=
  let t1 := m * z
  let mi := 1 / m
  let s := E1 * (1 - f) / (1 + v1)
  let r1 := (t1 + 2 * v1 - 1) * s
  let r2 := (t1 - 2 * v1 + 1) * s
  let r3 := t1 + 2 * v1
  let r4 := t1 - 2 * v1
  q![q![r1, r1 * r3 * mi, r1, r1 * r4 * mi],
    q![-s * m, -s * r3, -s * m, -s * r4],
    q![r2, r2 * r3 * mi, r2, r2 * r4 * mi],
    q![-s * m, -s * r3, -s * m, -s * r4]]

/-- The matrix `D` (src/pavement.cpp:853-859). -/
noncomputable def Dm (l : Lim) (m z : ℝ) : Fin 4 → Fin 4 → ℝ :=
  let t2 := 2 * (m * z)
  let a := Real.exp (-t2)
  let b := gexp l t2
  q![q![1, 1, a, a], q![1, 1, a, a], q![b, b, 1, 1], q![b, b, 1, 1]]

/-- One column of `R[il-1]` from that of `R[il]` (src/pavement.cpp:815-881): `z = h[il-1]`, `v1 = v[il-1]`, `v2 = v[il]`,
`E1 = E[il-1]`, `E2 = E[il]`, `f = f[il-1]`. -/
noncomputable def up (l : Lim) (m z v1 v2 E1 E2 f : ℝ) (c : V4) : V4 := fun i =>
  let K := ((1 + v2) * E1) / ((1 + v1) * E2)
  if f = 1 then
    let t3 := 1 / (4 * v1 - 4)
    ∑ j, Dm l m z i j * (Xm m z v1 v2 K i j * c j) * t3
  else
    let t3 := 1 / (4 * v1 - 4) / f
    ∑ j, Dm l m z i j * (f * Xm m z v1 v2 K i j * c j + Fm m z v1 E1 f i j * c j) * t3

/-- The two columns of `R[nl-1]` (src/pavement.cpp:797-813): `z = h[nl-1]`, `s = f[nl-1]`. -/
noncomputable def last (m z v1 E s : ℝ) : V4 × V4 :=
  if z > 0 then
    let mi := 1 / m
    let t1 := 2 * m * E * (1 - s) * (v1 - 1) / (v1 + 1)
    let q := Real.exp (-2 * m * z) * (1 / (t1 + s * (3 - 4 * v1)))
    (q![(s * (1 - 4 * v1 - 2 * m * z) - t1) * q, 2 * s * m * q, 1, 0],
     q![(4 * s * (2 * v1 - 1) * mi - 2 * s * m * z * z - 2 * z * t1) * q, (s * (1 - 4 * v1 + 2 * m * z) + t1) * q, 0, 1])
  else (q![0, 0, 1, 0], q![0, 0, 0, 1])

/-- A pavement as `buildabcd` gets it. -/
structure Pav where
  nl : Nat
  h : Nat → ℝ
  v : Nat → ℝ
  E : Nat → ℝ
  f : Nat → ℝ

/-- The columns of `R[nl-1-k]` (src/pavement.cpp:797-881). -/
noncomputable def cols (l : Lim) (p : Pav) (m : ℝ) : Nat → V4 × V4
  | 0 => last m (p.h (p.nl - 1)) (p.v (p.nl - 1)) (p.E (p.nl - 1)) (p.f (p.nl - 1))
  | k + 1 =>
    let il := p.nl - 1 - k
    let u := up l m (p.h (il - 1)) (p.v (il - 1)) (p.v il) (p.E (il - 1)) (p.E il) (p.f (il - 1))
    (u (cols l p m k).1, u (cols l p m k).2)

/-- The matrix `B1` (src/pavement.cpp:883-885). -/
noncomputable def B1 (m v0 : ℝ) : Fin 2 → Fin 4 → ℝ :=
  v2 q![m, 2 * v0, m, -(2 * v0)] q![m, 2 * v0 - 1, -m, 2 * v0 - 1]

/-- The determinant `CDi[0]*CDi[3]-CDi[1]*CDi[2]` the code divides by (src/pavement.cpp:888-894). -/
noncomputable def det0 (l : Lim) (p : Pav) (m : ℝ) : ℝ :=
  let r := cols l p m (p.nl - 1)
  let b := B1 m (p.v 0)
  (∑ i, b 0 i * r.1 i) * (∑ i, b 1 i * r.2 i) - (∑ i, b 0 i * r.2 i) * (∑ i, b 1 i * r.1 i)

/-- `Cinf` and `Dinf` (src/pavement.cpp:888-896). -/
noncomputable def CD (l : Lim) (p : Pav) (m : ℝ) : ℝ × ℝ :=
  let r := cols l p m (p.nl - 1)
  let b := B1 m (p.v 0)
  (-((∑ i, b 0 i * r.2 i) / (m * m)) / det0 l p m, ((∑ i, b 0 i * r.1 i) / (m * m)) / det0 l p m)

/-- `buildabcd` (src/pavement.cpp:782-905): the coefficients of layer `il`; zero for `m <= 0`. -/
noncomputable def abcd (l : Lim) (p : Pav) (m : ℝ) (il : Nat) : V4 := fun i =>
  if m ≤ 0 then 0
  else (cols l p m (p.nl - 1 - il)).1 i * (CD l p m).1 + (cols l p m (p.nl - 1 - il)).2 i * (CD l p m).2

/-- `buildT` (src/pavement.cpp:910-920). -/
noncomputable def buildT (l : Lim) (m z : ℝ) (c : V4) : V4 :=
  q![m * (c 2 + c 3 * z) * Real.exp (-(m * z)), Real.exp (-(m * z)) * c 3,
    m * (c 0 + c 1 * z) * gexp l (m * z), gexp l (m * z) * c 1]

/-- Integrand of the vertical stress, without the Bessel functions and weights (src/pavement.cpp:1017, one factor `m`
stays outside). -/
noncomputable def kvse (l : Lim) (m v z : ℝ) (c : V4) : ℝ :=
  let T := buildT l m z c
  (1 - 2 * v) * (T 1 + T 3) + (T 0 - T 2)

/-- Integrand of the shear stress (src/pavement.cpp:1035). -/
noncomputable def ksse (l : Lim) (m v z : ℝ) (c : V4) : ℝ :=
  let T := buildT l m z c
  2 * v * (T 3 - T 1) + (T 0 + T 2)

/-- Integrand of the vertical displacement (src/pavement.cpp:1020), with the factor `(v+1)/E` of `finalize`
(src/pavement.cpp:473). -/
noncomputable def kvdp (l : Lim) (m v E z : ℝ) (c : V4) : ℝ :=
  let T := buildT l m z c
  ((2 - 4 * v) * (T 3 - T 1) - (T 0 + T 2)) * ((v + 1) / E)

/-- Integrand of the radial displacement (src/pavement.cpp:1036), with the factor `(v+1)/E`. -/
noncomputable def krdp (l : Lim) (m v E z : ℝ) (c : V4) : ℝ :=
  let T := buildT l m z c
  ((T 1 + T 3) - (T 0 - T 2)) * ((v + 1) / E)

/-- Everything `buildabcd` divides by for a positive wave number (src/pavement.cpp:791, 803, 808, 819, 839, 861, 870,
895-896). -/
noncomputable def divisors (l : Lim) (p : Pav) (m : ℝ) : List ℝ :=
  let n := p.nl - 1
  [m] ++
  (if p.h n > 0 then
    [p.v n + 1, 2 * m * p.E n * (1 - p.f n) * (p.v n - 1) / (p.v n + 1) + p.f n * (3 - 4 * p.v n)] else []) ++
  (List.range n).flatMap (fun i => [(1 + p.v i) * p.E (i + 1), 4 * p.v i - 4] ++
    (if p.f i = 1 then [] else [1 + p.v i, p.f i])) ++
  [m * m, det0 l p m]

end OP.Pave
