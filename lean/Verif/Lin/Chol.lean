import Verif.Lin.Pack
/-!
# Cholesky and L D L' decompositions

Model of src/linalg.cpp:340-655 in exact arithmetic over an ordered field.  `rt` stands for `sqrt`; what the theorems need of it is
that it gives a positive square root of every positive number.  An array is a function of its addresses.
-/
namespace OP.Lin
variable {K : Type} [Field K] [LinearOrder K]

/-- `decmp_chol(n,A)` (src/linalg.cpp:345-364) -/
def decmpChol (rt : K → K) (n : Nat) (A : Nat → K) : Res (Nat → K) :=
  loopM 0 n (fun i A => loopM i n (fun j A =>
    let sum := loop 0 i (fun k sum => sum - A (i * n + k) * A (j * n + k)) (A (j * n + i))
    if i = j then
      if sum ≤ 0 then .throw else .ok (set A (i * n + i) (1 / rt sum))
    else .ok (set A (j * n + i) (sum * A (i * n + i)))) A) A

/-- `decmp_chol_tri` (src/linalg.cpp:371-390) -/
def decmpCholTri (rt : K → K) (n : Nat) (A : Nat → K) : Res (Nat → K) :=
  loopM 0 n (fun i A => loopM i n (fun j A =>
    let sum := loop 0 i (fun k sum => sum - A (tIdx k i) * A (tIdx k j)) (A (tIdx i j))
    if i = j then
      if sum ≤ 0 then .throw else .ok (set A (tIdx i i) (rt sum))
    else .ok (set A (tIdx i j) (sum / A (tIdx i i)))) A) A

/-- `decmp_chol(n,w,A)` for a band (src/linalg.cpp:398-417); the loop condition `j <= i+w && j < n` is the bound `min (i+w+1) n`. -/
def decmpCholBand (rt : K → K) (n w : Nat) (A : Nat → K) : Res (Nat → K) :=
  loopM 0 n (fun i A => loopM i (min (i + w + 1) n) (fun j A =>
    let sum := loop (if w > j then 0 else j - w) i (fun k sum => sum - A (bIdx n w k i) * A (bIdx n w k j)) (A (bIdx n w i j))
    if i = j then
      if sum ≤ 0 then .throw else .ok (set A (bIdx n w i i) (1 / rt sum))
    else .ok (set A (bIdx n w i j) (sum * A (bIdx n w i i)))) A) A

/-- `bksub_chol(n,A,b,m,c)` (src/linalg.cpp:424-440) -/
def bksubChol (n : Nat) (A b : Nat → K) (m c : Nat) : Nat → K :=
  let b := loop 0 n (fun i b =>
    let b := loop 0 i (fun k b => set b (i * m + c) (b (i * m + c) - A (i * n + k) * b (k * m + c))) b
    set b (i * m + c) (b (i * m + c) * A (i * n + i))) b
  down n (fun i b =>
    let b := loop (i + 1) n (fun k b => set b (i * m + c) (b (i * m + c) - A (k * n + i) * b (k * m + c))) b
    set b (i * m + c) (b (i * m + c) * A (i * n + i))) b

/-- `bksub_chol(n,w,A,b,m,c)` for a band (src/linalg.cpp:446-462) -/
def bksubCholBand (n w : Nat) (A b : Nat → K) (m c : Nat) : Nat → K :=
  let b := loop 0 n (fun i b =>
    let b := loop (if w > i then 0 else i - w) i (fun k b => set b (i * m + c) (b (i * m + c) - A (bIdx n w k i) * b (k * m + c))) b
    set b (i * m + c) (b (i * m + c) * A (bIdx n w i i))) b
  down n (fun i b =>
    let b := loop (i + 1) (min (i + 1 + w) n) (fun k b => set b (i * m + c) (b (i * m + c) - A (bIdx n w i k) * b (k * m + c))) b
    set b (i * m + c) (b (i * m + c) * A (bIdx n w i i))) b

/-- `equ_chol(n,A,b,x)` (src/linalg.cpp:468-495); `g` stands for the previous contents of `x`. -/
def equChol (rt : K → K) (n : Nat) (A b g : Nat → K) : Res (Nat → K) :=
  if n = 0 then .ok g
  else decmpChol rt n A >>= fun a => .ok (bksubChol n a b 1 0)

/-- `equ_chol(n,w,A,b,x)` for a band (src/linalg.cpp:502-540).  `ITER_MAX` is 0, so the loop of refinements ends before its first
correction and the residual it computes is not used. -/
def equCholBand (rt : K → K) (n w : Nat) (A b g : Nat → K) : Res (Nat → K) :=
  if n = 0 then .ok g
  else decmpCholBand rt n w A >>= fun a => .ok (bksubCholBand n w a b 1 0)

/-- `inv_chol` (src/linalg.cpp:546-572) -/
def invChol (rt : K → K) (n : Nat) (A : Nat → K) : Res (Nat → K) :=
  decmpChol rt n A >>= fun A =>
    let A := loop 0 n (fun i A => loop (i + 1) n (fun j A =>
      let sum := loop i j (fun k sum => sum - A (j * n + k) * A (k * n + i)) 0
      set A (j * n + i) (sum * A (j * n + j))) A) A
    .ok (loop 0 n (fun i A =>
      let A := set A (i * n + i) (A (i * n + i) * A (i * n + i))
      let A := loop (i + 1) n (fun j A => set A (i * n + i) (A (i * n + i) + A (j * n + i) * A (j * n + i))) A
      loop (i + 1) n (fun j A =>
        let A := set A (i * n + j) 0
        let A := loop j n (fun k A => set A (i * n + j) (A (i * n + j) + A (k * n + i) * A (k * n + j))) A
        set A (j * n + i) (A (i * n + j))) A) A)

/-- `decmp_ldl` (src/linalg.cpp:580-600) -/
def decmpLdl (eps : K) (n : Nat) (A : Nat → K) : Res (Nat → K) :=
  loopM 0 n (fun i A =>
    let sum := loop 0 i (fun k sum => sum + A (k * n + k) * (A (i * n + k) * A (i * n + k))) 0
    let A := set A (i * n + i) (A (i * n + i) - sum)
    if |A (i * n + i)| < eps then .throw
    else .ok (loop (i + 1) n (fun j A =>
      let sum := loop 0 i (fun k sum => sum + A (k * n + k) * (A (i * n + k) * A (j * n + k))) 0
      set A (j * n + i) ((A (j * n + i) - sum) / A (i * n + i))) A)) A

/-- `bksub_ldl` (src/linalg.cpp:607-626) -/
def bksubLdl (n : Nat) (A b : Nat → K) (m c : Nat) : Nat → K :=
  let b := loop 0 n (fun i b =>
    let sum := loop 0 i (fun k sum => sum + A (i * n + k) * b (k * m + c)) 0
    set b (i * m + c) (b (i * m + c) - sum)) b
  down n (fun i b =>
    let b := set b (i * m + c) (b (i * m + c) / A (i * n + i))
    let sum := loop (i + 1) n (fun k sum => sum + A (k * n + i) * b (k * m + c)) 0
    set b (i * m + c) (b (i * m + c) - sum)) b

/-- `equ_ldl` (src/linalg.cpp:633-655); `g` stands for the contents of memory just allocated or not yet written. -/
def equLdl (eps : K) (n : Nat) (A b g : Nat → K) : Res (Nat → K) :=
  if n = 0 then .ok g
  else decmpLdl eps n A >>= fun a =>
    let x := bksubLdl n a b 1 0
    let r := loop 0 n (fun i r => loop 0 n (fun j r => set r i (r i + A (i * n + j) * x j)) (set r i (-b i))) g
    let r := bksubLdl n a r 1 0
    .ok (loop 0 n (fun i x => set x i (x i - r i)) x)

end OP.Lin
