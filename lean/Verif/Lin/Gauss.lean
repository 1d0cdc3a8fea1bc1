import Verif.Lin.Loop
import Mathlib.Algebra.Order.Field.Basic
import Mathlib.Algebra.Order.AbsoluteValue.Basic
/-!
# Gaussian elimination (src/linalg.cpp:92-174)

Arrays are functions of the address; numbers are elements of an ordered field, so arithmetic is exact; `eps` stands for `DBL_EPSILON`.
Redundant parts of loop conditions (`i < n &&`) are left out.
-/
namespace OP.Lin
variable {K : Type} [Field K] [LinearOrder K]

/-- The search for a pivot in column `i` from row `j` on (src/linalg.cpp:106-109, 144-147); `none` when it reaches row `n`. -/
def findPivot (eps : K) (n : Nat) (A : Nat → K) (i : Nat) : Nat → Nat → Option Nat
  | 0, _ => none
  | f + 1, j => if |A (j * n + i)| ≥ eps then some j else findPivot eps n A i f (j + 1)

/-- `for (k = 0; k < m; k++) swap(B[j*m+k],B[i*m+k])` -/
def swapRows (m i j : Nat) (B : Nat → K) : Nat → K := loop 0 m (fun k B => swp B (j * m + k) (i * m + k)) B

/-- The elimination of column `i` below row `i` (src/linalg.cpp:158-164). -/
def elim (n m i : Nat) (pvt : K) (s : (Nat → K) × (Nat → K)) : (Nat → K) × (Nat → K) :=
  loop (i + 1) n (fun k s =>
    let tmp := s.1 (k * n + i) / pvt
    (loop (i + 1) n (fun j A => set A (k * n + j) (A (k * n + j) - tmp * A (i * n + j))) s.1,
     loop 0 m (fun j B => set B (k * m + j) (B (k * m + j) - tmp * B (i * m + j))) s.2)) s

/-- One round of the first loop of `inv_mul_gauss` (src/linalg.cpp:142-165): matrix, right-hand sides and determinant. -/
def gaussStep (eps : K) (n m i : Nat) (s : (Nat → K) × (Nat → K) × K) : Res ((Nat → K) × (Nat → K) × K) :=
  match findPivot eps n s.1 i (n - i) i with
  | none => .throw
  | some j =>
    let pvt := s.1 (j * n + i)
    let AB := if j ≠ i then (swapRows n i j s.1, swapRows m i j s.2.1) else (s.1, s.2.1)
    let AB := elim n m i pvt AB
    .ok (AB.1, AB.2, s.2.2 * pvt)

/-- The back substitution (src/linalg.cpp:166-172). -/
def gaussBack (n m : Nat) (A B : Nat → K) : Nat → K :=
  down n (fun i B =>
    let B := loop (i + 1) n (fun j B => loop 0 m (fun k B => set B (i * m + k) (B (i * m + k) - A (i * n + j) * B (j * m + k))) B) B
    loop 0 m (fun k B => set B (i * m + k) (B (i * m + k) / A (i * n + i))) B) B

/-- `inv_mul_gauss` (src/linalg.cpp:136-174): the arrays at the end and the return value. -/
def invMulGauss (eps : K) (n m : Nat) (A B : Nat → K) : Res ((Nat → K) × (Nat → K) × K) :=
  loopM 0 n (gaussStep eps n m) (A, B, 1) >>= fun s => .ok (s.1, gaussBack n m s.1 s.2.1, s.2.2)

/-- One round of the first loop of `equ_gauss` (src/linalg.cpp:104-123). -/
def equStep (eps : K) (n i : Nat) (s : (Nat → K) × (Nat → K)) : Res ((Nat → K) × (Nat → K)) :=
  match findPivot eps n s.1 i (n - i) i with
  | none => .throw
  | some j =>
    let pvt := s.1 (j * n + i)
    let s := if j ≠ i then (swapRows n i j s.1, swp s.2 j i) else s
    .ok (loop (i + 1) n (fun k s =>
      let tmp := s.1 (k * n + i) / pvt
      (loop (i + 1) n (fun j A => set A (k * n + j) (A (k * n + j) - tmp * A (i * n + j))) s.1, set s.2 k (s.2 k - tmp * s.2 i))) s)

/-- `equ_gauss` (src/linalg.cpp:91-129); the result is the array `x`, `A` and `b` are only read. -/
def equGauss (eps : K) (n : Nat) (A b : Nat → K) : Res (Nat → K) :=
  loopM 0 n (equStep eps n) (A, b) >>= fun s =>
    .ok (down n (fun i x =>
      let x := loop (i + 1) n (fun j x => set x i (x i - s.1 (i * n + j) * x j)) x
      set x i (x i / s.1 (i * n + i))) s.2)

end OP.Lin
