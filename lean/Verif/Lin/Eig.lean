import Verif.Lin.Loop
import Mathlib.Algebra.Order.Field.Basic
import Mathlib.Algebra.Order.AbsoluteValue.Basic
/-!
# Eigenvalues of symmetric matrices (src/linalg.cpp:1014-1253)

Arrays are functions of the address, arithmetic is exact, `rt` stands for `sqrt`.  The comparison `fabs(x)+g == g`, by which the QL
iteration recognises numbers that vanish in rounding, is a parameter `neg x g`.  The iteration has no bound on its steps; the model
has one and gives `none` when it is used up.
-/
namespace OP.Lin
variable {K : Type} [Field K] [LinearOrder K] [IsStrictOrderedRing K]

/-- The matrix, the diagonal and the numbers next to it. -/
structure Tri (K : Type) where
  A : Nat → K
  d : Nat → K
  e : Nat → K

/-! ## `tridiag_hh` (src/linalg.cpp:1014-1070) -/

/-- The row divided by its scale, with the sum of squares (lines 1033-1036) -/
def hhDiv (n i : Nat) (scale : K) (A d : Nat → K) : (Nat → K) × (Nat → K) :=
  loop 0 i (fun j (s : (Nat → K) × (Nat → K)) =>
    let A := set s.1 (i * n + j) (s.1 (i * n + j) / scale)
    (A, set s.2 i (s.2 i + A (i * n + j) * A (i * n + j)))) (A, d)

/-- Lines 1043-1046: the product of the row `j` with the vector, in `e[j]`. -/
def hhMul (n i j : Nat) (A e : Nat → K) : Nat → K :=
  let e := loop 0 (j + 1) (fun k e => set e j (e j + A (j * n + k) * A (i * n + k))) (set e j 0)
  loop (j + 1) i (fun k e => set e j (e j + A (k * n + j) * A (i * n + k))) e

/-- The product of the block with the vector, over `H` (lines 1041-1049) -/
def hhP (n i : Nat) (H : K) (A e : Nat → K) : (Nat → K) × (Nat → K) × K :=
  loop 0 i (fun j (s : (Nat → K) × (Nat → K) × K) =>
    let A := set s.1 (j * n + i) (s.1 (i * n + j) / H)
    let e := hhMul n i j A s.2.1
    let e := set e j (e j / H)
    (A, e, s.2.2 + e j * A (i * n + j))) (A, e, 0)

/-- The block is changed (lines 1050-1054). -/
def hhQ (n i : Nat) (H f : K) (A e : Nat → K) : (Nat → K) × (Nat → K) :=
  loop 0 i (fun j (s : (Nat → K) × (Nat → K)) =>
    let e := set s.2 j (s.2 j - f / (2 * H) * s.1 (i * n + j))
    (loop 0 (j + 1) (fun k A => set A (j * n + k) (A (j * n + k) - (A (i * n + j) * e k + e j * A (i * n + k)))) s.1, e)) (A, e)

/-- The row `i` (lines 1026-1054) -/
def hhRow (rt : K → K) (n i : Nat) (s : Tri K) : Tri K :=
  let d := set s.d i 0
  let scale := loop 0 (i - 1) (fun j v => v + |s.A (i * n + j)|) 0
  if scale = 0 then ⟨s.A, d, set s.e i (s.A (i * n + (i - 1)))⟩
  else
    let scale := scale + |s.A (i * n + (i - 1))|
    let v := hhDiv n i scale s.A d
    let f := (if 0 ≤ v.1 (i * n + (i - 1)) then -1 else 1) * rt (v.2 i)
    let e := set s.e i (scale * f)
    let H := v.2 i - v.1 (i * n + (i - 1)) * f
    let A := set v.1 (i * n + (i - 1)) (v.1 (i * n + (i - 1)) - f)
    let p := hhP n i H A e
    let q := hhQ n i H p.2.2 p.1 p.2.1
    ⟨q.1, set v.2 i H, q.2⟩

/-- Lines 1060-1063: the column `j` of the product. -/
def hhAcc (n i j : Nat) (A : Nat → K) : Nat → K :=
  let f := loop 0 i (fun k f => f + A (i * n + k) * A (k * n + j)) 0
  loop 0 i (fun k A => set A (k * n + j) (A (k * n + j) - f * A (k * n + i))) A

/-- The second loop over `i` (lines 1058-1068) -/
def hhBack (n i : Nat) (s : (Nat → K) × (Nat → K)) : (Nat → K) × (Nat → K) :=
  let A := if s.2 i ≠ 0 then loop 0 i (fun j A => hhAcc n i j A) s.1 else s.1
  let d := set s.2 i (A (i * n + i))
  let A := set A (i * n + i) 1
  (loop 0 i (fun j A => set (set A (i * n + j) 0) (j * n + i) 0) A, d)

/-- `tridiag_hh` (src/linalg.cpp:1017-1070) -/
def tridiag (rt : K → K) (n : Nat) (s : Tri K) : Tri K :=
  if n = 0 then s
  else
    let s := down (n - 1) (fun i s => hhRow rt n (i + 1) s) s
    let e := set s.e 0 0
    let t := loop 0 n (fun i t => hhBack n i t) (s.A, set s.d 0 0)
    ⟨t.1, t.2, e⟩

/-! ## `eig_tri_ql` (src/linalg.cpp:1072-1120) -/

/-- The search for `m` (lines 1087-1091), with `c` places left. -/
def qlFind (neg : K → K → Bool) (d e : Nat → K) : Nat → Nat → Nat
  | 0, m => m
  | c + 1, m => if neg |e (m + 1)| (|d m| + |d (m + 1)|) then m else qlFind neg d e c (m + 1)

/-- The numbers of the inner loop. -/
structure Ql (K : Type) where
  A : Nat → K
  d : Nat → K
  e : Nat → K
  g : K
  s : K
  c : K
  p : K

/-- Two columns are rotated (lines 1109-1113). -/
def qlRot (n j : Nat) (s c : K) (A : Nat → K) : Nat → K :=
  loop 0 n (fun k A =>
    let r := A (k * n + j)
    let A := set A (k * n + j) (s * A (k * n + (j - 1)) + c * r)
    set A (k * n + (j - 1)) (c * A (k * n + (j - 1)) - s * r)) A

/-- The loop over `j` (lines 1098-1114), with `q` steps left from `j`; the flag tells that the loop was left early. -/
def qlSweep (rt : K → K) (n : Nat) : Nat → Nat → Ql K → Ql K × Bool
  | 0, _, t => (t, false)
  | q + 1, j, t =>
    let f := t.s * t.e j
    let b := t.c * t.e j
    let r := rt (f * f + t.g * t.g)
    let e := set t.e (if j + 1 < n then j + 1 else 0) r
    if r = 0 then ({ t with d := set t.d j (t.d j - t.p), e := e }, true)
    else
      let c := t.g / r
      let s := f / r
      let d := set t.d j (t.d j - t.p)
      let r := (d (j - 1) - d j) * s + 2 * c * b
      let p := s * r
      let d := set d j (d j + p)
      let g := c * r - b
      qlSweep rt n q (j - 1) ⟨qlRot n j s c t.A, d, e, g, s, c, p⟩

/-- One pass of the body of `while (1)` when `m != i` (lines 1094-1117) -/
def qlPass (rt : K → K) (n i m : Nat) (t : Tri K) : Tri K :=
  let g := (t.d (i + 1) - t.d i) / (2 * t.e (i + 1))
  let r := (if 0 < g then 1 else -1) * rt (g * g + 1)
  let g := t.d m - t.d i + t.e (i + 1) / (g + r)
  let v := qlSweep rt n (m - i) m ⟨t.A, t.d, t.e, g, 1, 1, 0⟩
  let e := set v.1.e (if m + 1 < n then m + 1 else 0) 0
  if v.2 then ⟨v.1.A, v.1.d, e⟩
  else ⟨v.1.A, set v.1.d i (v.1.d i - v.1.p), set e (i + 1) v.1.g⟩

/-- `while (1)` (lines 1086-1118) -/
def qlWhile (rt : K → K) (neg : K → K → Bool) (n i : Nat) : Nat → Tri K → Option (Tri K)
  | 0, _ => none
  | fuel + 1, t =>
    let m := qlFind neg t.d t.e (n - 1 - i) i
    if m = i then some t else qlWhile rt neg n i fuel (qlPass rt n i m t)

/-- The loop over `i` (line 1085) -/
def qlFrom (rt : K → K) (neg : K → K → Bool) (n fuel : Nat) : Nat → Nat → Tri K → Option (Tri K)
  | 0, _, t => some t
  | q + 1, i, t => (qlWhile rt neg n i fuel t).bind (qlFrom rt neg n fuel q (i + 1))

/-- `eig_tri_ql` (src/linalg.cpp:1077-1120) -/
def eigTri (rt : K → K) (neg : K → K → Bool) (n fuel : Nat) (t : Tri K) : Option (Tri K) := qlFrom rt neg n fuel n 0 t

/-! ## `eig_ql` (src/linalg.cpp:1122-1153) -/

/-- The place of the largest number (lines 1139-1142) -/
def eigMax (n i : Nat) (d : Nat → K) : K × Nat :=
  loop (i + 1) n (fun j (s : K × Nat) => if s.1 ≤ d j then (d j, j) else s) (d i, i)

/-- Two columns are exchanged (lines 1146-1150). -/
def colSwap (n i k : Nat) (A : Nat → K) : Nat → K :=
  loop 0 n (fun j A => set (set A (j * n + i) (A (j * n + k))) (j * n + k) (A (j * n + i))) A

/-- One round of the sort (lines 1139-1151) -/
def eigSort1 (n i : Nat) (s : (Nat → K) × (Nat → K)) : (Nat → K) × (Nat → K) :=
  let t := eigMax n i s.2
  if t.2 ≠ i then (colSwap n i t.2 s.1, set (set s.2 t.2 (s.2 i)) i t.1) else s

/-- `eig_ql` (src/linalg.cpp:1126-1153); `g` is what `new` gives. The result is the matrix with the diagonal. -/
def eigQl (rt : K → K) (neg : K → K → Bool) (fuel n : Nat) (A d g : Nat → K) (sorted : Bool) : Option ((Nat → K) × (Nat → K)) :=
  if n = 0 then some (A, d)
  else (eigTri rt neg n fuel (tridiag rt n ⟨A, d, g⟩)).map fun t =>
    if sorted then loop 0 (n - 1) (fun i s => eigSort1 n i s) (t.A, t.d) else (t.A, t.d)

/-! ## `bksub_eig`, `equ_eig`, `inv_eig` (src/linalg.cpp:1155-1251) -/

/-- `bksub_eig` (src/linalg.cpp:1155-1176) -/
def bksubEig (n : Nat) (Q d b : Nat → K) (p c : Nat) : Nat → K :=
  let tmp := loop 0 n (fun j tmp => if d j ≠ 0 then
      let tmp := loop 0 n (fun i tmp => set tmp j (tmp j + Q (i * n + j) * b (i * p + c))) tmp
      set tmp j (tmp j / d j)
    else tmp) (fun _ => 0)
  loop 0 n (fun j b => loop 0 n (fun i b => set b j (b j + Q (j * n + i) * tmp i)) (set b j 0)) b

/-- The numbers that are small beside the largest are set to zero (lines 1200-1207 and 1235-1242); `tol` is `EIG_TOL`. -/
def eigCut (tol : K) (n : Nat) (d : Nat → K) : Nat → K :=
  let max := loop 0 n (fun i m => if m < |d i| then |d i| else m) 0
  let max := max * tol
  loop 0 n (fun i d => if |d i| < max then set d i 0 else d) d

/-- `EIG_TOL` (include/linalg.h:50) -/
def eigTol : K := 10 / 10 ^ 18

/-- `equ_eig` (src/linalg.cpp:1184-1216); the `g`s are what `new` gives; `memcpy` copies the first numbers. -/
def equEig (rt : K → K) (neg : K → K → Bool) (fuel n : Nat) (A b x g1 g2 g3 g4 : Nat → K) : Option (Nat → K) :=
  if n = 0 then some x
  else
    let Q := fun p => if p < n * n then A p else g1 p
    let x := fun p => if p < n then b p else x p
    (eigTri rt neg n fuel (tridiag rt n ⟨Q, g2, g3⟩)).map fun t =>
      let d := eigCut eigTol n t.d
      let x := bksubEig n t.A d x 1 0
      let r := loop 0 n (fun i r => loop 0 n (fun j r => set r i (r i + A (i * n + j) * x j)) (set r i (-b i))) g4
      let r := bksubEig n t.A d r 1 0
      loop 0 n (fun i x => set x i (x i - r i)) x

/-- `inv_eig` (src/linalg.cpp:1221-1251) -/
def invEig (rt : K → K) (neg : K → K → Bool) (fuel n : Nat) (A g1 g2 g3 : Nat → K) : Option (Nat → K) :=
  if n = 0 then some A
  else
    let Q := fun p => if p < n * n then A p else g1 p
    (eigTri rt neg n fuel (tridiag rt n ⟨Q, g2, g3⟩)).map fun t =>
      let d := eigCut eigTol n t.d
      loop 0 n (fun i A => loop 0 n (fun j A =>
        loop 0 n (fun k A => if d k ≠ 0 then set A (i * n + j) (A (i * n + j) + t.A (i * n + k) * t.A (j * n + k) / d k) else A)
          (set A (i * n + j) 0)) A) A

end OP.Lin
