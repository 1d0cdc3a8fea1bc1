import Verif.Lin.Loop
/-!
# Packed storage and in-place transposition

Model of the storage macros of include/linalg.h and of `transpose` in src/linalg.cpp.  Indices and sizes are natural numbers:
32 bit wrap of the products is not modelled here.
-/
namespace OP.Lin

/-- `T_SIZE(n)` (include/linalg.h:61) -/
def tSize (n : Nat) : Nat := n * (n + 1) / 2
/-- `T_IDX(i,j)` (include/linalg.h:66) -/
def tIdx (i j : Nat) : Nat := j * (j + 1) / 2 + i
/-- `B_SIZE(n,w)` (include/linalg.h:71) -/
def bSize (n w : Nat) : Nat := (w + 1) * n - w * (w + 1) / 2
/-- `B_IDX(n,w,i,j)` (include/linalg.h:76-77) -/
def bIdx (_n w i j : Nat) : Nat := if j ≤ w then j * (j + 1) / 2 + i else (j + 1) * w + i - w * (w + 1) / 2

/-- The address from which `transpose` fetches (src/linalg.cpp:48,55) -/
def nxt (m n j : Nat) : Nat := j % m * n + j / m

/-- The first `do` loop of `transpose` (src/linalg.cpp:46-49); `none` if it is still running after `fuel` rounds. -/
def follow (m n s : Nat) : Nat → Nat → Nat → Option (Nat × Nat)
  | 0, _, _ => none
  | fuel + 1, j, i =>
    let i := i + 1
    let j := nxt m n j
    if j > s then follow m n s fuel j i else some (j, i)

/-- The second `do` loop of `transpose` (src/linalg.cpp:53-57); `none` if it is still running after `fuel` rounds. -/
def rotate {K : Type} (m n s : Nat) (tmp : K) : Nat → Nat → (Nat → K) → Option (Nat → K)
  | 0, _, _ => none
  | fuel + 1, j, A =>
    let i := nxt m n j
    let A := set A j (if i = s then tmp else A i)
    let j := i
    if j > s then rotate m n s tmp fuel j A else some A

/-- `transpose` (src/linalg.cpp:43-60).  A loop running for more than `m*n` rounds counts as not terminating, which is reported as `ub`. -/
def transpose {K : Type} (m n : Nat) (A : Nat → K) : Res (Nat → K) :=
  loopM 0 (m * n) (fun s A =>
    match follow m n s (m * n) s 0 with
    | none => .ub
    | some (j, i) =>
      if j < s ∨ i = 1 then .ok A
      else match rotate m n s (A s) (m * n) s A with
        | none => .ub
        | some A => .ok A) A

end OP.Lin
