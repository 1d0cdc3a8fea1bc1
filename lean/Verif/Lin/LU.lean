import Verif.Lin.Gauss
/-!
# LU decomposition (src/linalg.cpp:176-338)

As for Gaussian elimination: arrays are functions of the address, arithmetic is exact, `eps` stands for `DBL_EPSILON`.
-/
namespace OP.Lin
variable {K : Type} [Field K] [LinearOrder K]

/-- The arrays and the sign of `decmp_lu`. -/
structure LU (K : Type) where
  A : Nat → K
  idx : Nat → Nat
  work : Nat → K
  d : Int

/-- `max` over row `i` (src/linalg.cpp:197-200). -/
def rowMax (n i : Nat) (A : Nat → K) : K := loop 0 n (fun j mx => if |A (i * n + j)| > mx then |A (i * n + j)| else mx) 0

/-- The first loop (src/linalg.cpp:196-204). -/
def luScale (eps : K) (n : Nat) (A : Nat → K) (work : Nat → K) : Res (Nat → K) :=
  loopM 0 n (fun i work => if rowMax n i A < eps then .throw else .ok (set work i (rowMax n i A))) work

/-- `for (k = 0; k < lim; k++) A[j*n+i] -= A[j*n+k]*A[k*n+i]` -/
def luEntry (n i j lim : Nat) (A : Nat → K) : Nat → K :=
  loop 0 lim (fun k A => set A (j * n + i) (A (j * n + i) - A (j * n + k) * A (k * n + i))) A

/-- The loop from the diagonal down, with the search for the pivot (src/linalg.cpp:210-217): the matrix, `max` and `idx[i]`. -/
def luPivot (n i : Nat) (work : Nat → K) (s : (Nat → K) × K × Nat) : (Nat → K) × K × Nat :=
  loop i n (fun j s =>
    let A := luEntry n i j i s.1
    let tmp := |A (j * n + i)| / work j
    if tmp ≥ s.2.1 then (A, tmp, j) else (A, s.2.1, s.2.2)) s

/-- One round of the main loop (src/linalg.cpp:205-229). -/
def luStep (n i : Nat) (s : LU K) : Res (LU K) :=
  let A := loop 0 i (fun j A => luEntry n i j j A) s.A
  let r := luPivot n i s.work (A, 0, s.idx i)
  let p := r.2.2
  let s : LU K := if i ≠ p then ⟨swapRows n i p r.1, set s.idx i p, swp s.work p i, s.d * -1⟩ else ⟨r.1, set s.idx i p, s.work, s.d⟩
  if s.A (i * n + i) = 0 then .throw
  else .ok { s with A := loop (i + 1) n (fun j A => set A (j * n + i) (A (j * n + i) / A (i * n + i))) s.A }

/-- `decmp_lu` (src/linalg.cpp:185-230); for n = 0 nothing is written.  `idx`, `work` and `d` start with any contents. -/
def decmpLu (eps : K) (n : Nat) (A : Nat → K) (idx : Nat → Nat) (work : Nat → K) (d : Int) : Res (LU K) :=
  if n = 0 then .ok ⟨A, idx, work, d⟩
  else luScale eps n A work >>= fun work => loopM 0 n (luStep n) ⟨A, idx, work, 1⟩

/-- `bksub_lu` (src/linalg.cpp:241-264): the array `b` with `m` columns, column `c`.  The local `k` is one more than the first row with a nonzero
value, or 0. -/
def bksubLu (n : Nat) (A : Nat → K) (idx : Nat → Nat) (b : Nat → K) (m c : Nat) : Nat → K :=
  let s := loop 0 n (fun i (s : (Nat → K) × Nat) =>
    let j := idx i
    let sum := s.1 (j * m + c)
    let b := set s.1 (j * m + c) (s.1 (i * m + c))
    if s.2 > 0 then
      let sum := if s.2 ≤ i then loop (s.2 - 1) i (fun j sum => sum - A (i * n + j) * b (j * m + c)) sum else sum
      (set b (i * m + c) sum, s.2)
    else if sum ≠ 0 then (set b (i * m + c) sum, i + 1)
    else (set b (i * m + c) sum, s.2)) (b, 0)
  down n (fun i b =>
    let b := loop (i + 1) n (fun j b => set b (i * m + c) (b (i * m + c) - A (i * n + j) * b (j * m + c))) b
    set b (i * m + c) (b (i * m + c) / A (i * n + i))) s.1

/-- `equ_lu` (src/linalg.cpp:271-294); `g` stands for the contents of memory just allocated. -/
def equLu (eps : K) (n : Nat) (A b g : Nat → K) (gi : Nat → Nat) : Res (Nat → K) :=
  if n = 0 then .ok g
  else decmpLu eps n A gi g 0 >>= fun s =>
    let x := bksubLu n s.A s.idx b 1 0
    let r := loop 0 n (fun i r => loop 0 n (fun j r => set r i (r i + A (i * n + j) * x j)) (set r i (-b i))) g
    let r := bksubLu n s.A s.idx r 1 0
    .ok (loop 0 n (fun i x => set x i (x i - r i)) x)

/-- `inv_mul_lu` (src/linalg.cpp:300-316): the array `B` and the value returned. -/
def invMulLu (eps : K) (n m : Nat) (A B g : Nat → K) (gi : Nat → Nat) : Res ((Nat → K) × K) :=
  if n = 0 then .ok (B, 0)
  else decmpLu eps n A gi g 0 >>= fun s =>
    .ok (loop 0 m (fun i B => bksubLu n s.A s.idx B m i) B, loop 0 n (fun i det => det * s.A (i * n + i)) (s.d : K))

/-- `inv_lu` (src/linalg.cpp:321-338) -/
def invLu (eps : K) (n : Nat) (A g : Nat → K) (gi : Nat → Nat) : Res (Nat → K) :=
  if n = 0 then .ok A
  else
    let I := loop 0 (n * n) (fun p I => set I p 0) A
    let I := loop 0 n (fun i I => set I (i * n + i) 1) I
    decmpLu eps n A gi g 0 >>= fun s => .ok (loop 0 n (fun i I => bksubLu n s.A s.idx I n i) I)

end OP.Lin
