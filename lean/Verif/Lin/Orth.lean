import Verif.Lin.Loop
/-!
# Gram-Schmidt (`orth_gs`, src/linalg.cpp:62-87)

Arrays are functions of the address, arithmetic is exact, `rt` stands for `sqrt`.
-/
namespace OP.Lin
variable {K : Type} [Field K] [DecidableEq K]

/-- The sum of the squares of a column (src/linalg.cpp:72-73) -/
def colSq (n k : Nat) (Q : Nat → K) : K := loop 0 n (fun i r => r + Q (i * n + k) ^ 2) 0

/-- A column divided by a number (src/linalg.cpp:76-77) -/
def colDiv (n k : Nat) (r : K) (Q : Nat → K) : Nat → K := loop 0 n (fun i Q => set Q (i * n + k) (Q (i * n + k) / r)) Q

/-- The part along the column `k` is taken off the column `j` (src/linalg.cpp:79-82). -/
def colTake (n k j : Nat) (Q : Nat → K) : Nat → K :=
  let r := loop 0 n (fun i r => r + Q (i * n + k) * Q (i * n + j)) 0
  loop 0 n (fun i Q => set Q (i * n + j) (Q (i * n + j) - r * Q (i * n + k))) Q

/-- The loop over the columns (src/linalg.cpp:71-84), with `m` columns left from `k` on. -/
def gsFrom (rt : K → K) (n : Nat) : Nat → Nat → (Nat → K) → (Nat → K)
  | 0, _, Q => Q
  | m + 1, k, Q =>
    let r := rt (colSq n k Q)
    if r = 0 then Q
    else gsFrom rt n m (k + 1) (loop (k + 1) n (fun j Q => colTake n k j Q) (colDiv n k r Q))

/-- `orth_gs` (src/linalg.cpp:65-85) -/
def orthGs (rt : K → K) (n : Nat) (Q : Nat → K) : Nat → K := gsFrom rt n n 0 Q

end OP.Lin
