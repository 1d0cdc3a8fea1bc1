import Verif.Lin.Loop
import Mathlib.Algebra.Order.Field.Basic
import Mathlib.Algebra.Order.AbsoluteValue.Basic
/-!
# Model of the QR decomposition of src/linalg.cpp

Numbers are those of an ordered field; the square root is a function that the theorems suppose to be exact.
-/
namespace OP.Lin
variable {K : Type} [Field K] [LinearOrder K]

/-- The result and the arrays of `decmp_qr`. -/
structure Qr (K : Type) where
  rv : Bool
  A : Nat → K
  s : Nat → K
  d : Nat → K

/-- The largest number of a column from the diagonal on (src/linalg.cpp:957-960) -/
def qrScale (n k : Nat) (A : Nat → K) : K := loop k n (fun i scale => if scale < |A (i * n + k)| then |A (i * n + k)| else scale) 0

/-- The column is divided by its scale, with the sum of the squares (lines 965-968). -/
def qrDiv (n k : Nat) (scale : K) (A : Nat → K) : (Nat → K) × K :=
  loop k n (fun i (p : (Nat → K) × K) =>
    let A := set p.1 (i * n + k) (p.1 (i * n + k) / scale)
    (A, p.2 + A (i * n + k) * A (i * n + k))) (A, 0)

/-- The reflection of a column after `k` (lines 974-978) -/
def qrCol (n k j : Nat) (s A : Nat → K) : Nat → K :=
  let sum := loop k n (fun i sum => sum + A (i * n + k) * A (i * n + j)) 0
  let sum := sum / s k
  loop k n (fun i A => set A (i * n + j) (A (i * n + j) - sum * A (i * n + k))) A

/-- One round of the loop over `k` (lines 956-980) -/
def qrStep (rt : K → K) (n k : Nat) (t : Qr K) : Qr K :=
  let scale := qrScale n k t.A
  if scale = 0 then ⟨false, t.A, set t.s k 0, set t.d k 0⟩
  else
    let p := qrDiv n k scale t.A
    let sum := (if p.1 (k * n + k) < 0 then -1 else 1) * rt p.2
    let A := set p.1 (k * n + k) (p.1 (k * n + k) + sum)
    let s := set t.s k (sum * A (k * n + k))
    let d := set t.d k (-scale * sum)
    ⟨t.rv, loop (k + 1) n (fun j A => qrCol n k j s A) A, s, d⟩

/-- `decmp_qr` (src/linalg.cpp:947-986); `t.rv` is true at the start. -/
def decmpQr (rt : K → K) (n : Nat) (A s d : Nat → K) : Qr K :=
  if n = 0 then ⟨true, A, s, d⟩
  else
    let t := loop 0 (n - 1) (fun k t => qrStep rt n k t) ⟨true, A, s, d⟩
    let d := set t.d (n - 1) (t.A (n * n - 1))
    ⟨if d (n - 1) = 0 then false else t.rv, t.A, t.s, d⟩

/-- The first loop of `bksub_qr`: one reflection of the right-hand side (lines 1001-1005) -/
def qrTurn (n j : Nat) (A s : Nat → K) (m c : Nat) (b : Nat → K) : Nat → K :=
  let sum := loop j n (fun i sum => sum + A (i * n + j) * b (i * m + c)) 0
  let sum := sum / s j
  loop j n (fun i b => set b (i * m + c) (b (i * m + c) - sum * A (i * n + j))) b

/-- `bksub_qr` (src/linalg.cpp:992-1012); `i` counts from one less than in the code. -/
def bksubQr (n : Nat) (A s d b : Nat → K) (m c : Nat) : Nat → K :=
  let b := loop 0 n (fun j b => qrTurn n j A s m c b) b
  down n (fun i b =>
    let sum := loop (i + 1) n (fun j sum => sum + A (i * n + j) * b (j * m + c)) 0
    set b (i * m + c) ((b (i * m + c) - sum) / d i)) b

end OP.Lin
