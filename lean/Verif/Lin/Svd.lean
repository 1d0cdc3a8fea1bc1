import Verif.Basic
import Verif.Lin.Eig
/-!
# Singular values (src/linalg.cpp:655-940)

Arrays are functions of the address, arithmetic is exact, `rt` stands for `sqrt`. `decmp_svd` is modelled up to the first address outside its arrays:
`rv1` has `n` numbers and the loop that accumulates the right-hand transformations begins by reading `rv1[n]`; what comes after that read is not part of this model; the iteration at the end is modelled in SvdDiag.lean.
-/
namespace OP.Lin
variable {K : Type} [Field K] [LinearOrder K]

/-- The arrays and numbers of `decmp_svd`. -/
structure Svd (K : Type) where
  A : Nat → K
  W : Nat → K
  rv1 : Nat → K
  G : K
  scale : K
  anorm : K

/-- The column of one round (src/linalg.cpp:678-697) -/
def svdCol (rt : K → K) (m n i : Nat) (t : Svd K) : Svd K :=
  let scale := loop i m (fun k v => v + |t.A (k * n + i)|) 0
  if scale = 0 then { t with scale := scale }
  else
    let p := loop i m (fun k (p : (Nat → K) × K) =>
      let A := set p.1 (k * n + i) (p.1 (k * n + i) / scale)
      (A, p.2 + A (k * n + i) * A (k * n + i))) (t.A, 0)
    let G := (if 0 < p.1 (i * n + i) then -1 else 1) * rt p.2
    let H := p.1 (i * n + i) * G - p.2
    let A := set p.1 (i * n + i) (p.1 (i * n + i) - G)
    let A := loop (i + 1) n (fun j A =>
      let S := loop i m (fun k S => S + A (k * n + i) * A (k * n + j)) 0
      loop i m (fun k A => set A (k * n + j) (A (k * n + j) + S * A (k * n + i) / H)) A) A
    let A := loop i m (fun k A => set A (k * n + i) (A (k * n + i) * scale)) A
    { t with A := A, W := set t.W i (scale * G), G := G, scale := scale }

/-- The row of one round (lines 698-718) -/
def svdRow (rt : K → K) (m n i : Nat) (t : Svd K) : Svd K :=
  let scale := if i < m then loop (i + 1) n (fun k v => v + |t.A (i * n + k)|) 0 else 0
  if scale = 0 then { t with scale := scale }
  else
    let p := loop (i + 1) n (fun k (p : (Nat → K) × K) =>
      let A := set p.1 (i * n + k) (p.1 (i * n + k) / scale)
      (A, p.2 + A (i * n + k) * A (i * n + k))) (t.A, 0)
    let G := (if 0 < p.1 (i * n + i + 1) then -1 else 1) * rt p.2
    let H := p.1 (i * n + i + 1) * G - p.2
    let A := set p.1 (i * n + i + 1) (p.1 (i * n + i + 1) - G)
    let rv1 := loop (i + 1) n (fun k r => set r k (A (i * n + k) / H)) t.rv1
    let A := loop (i + 1) m (fun j A =>
      let S := loop (i + 1) n (fun k S => S + A (j * n + k) * A (i * n + k)) 0
      loop (i + 1) n (fun k A => set A (j * n + k) (A (j * n + k) + S * rv1 k)) A) A
    let A := loop (i + 1) n (fun k A => set A (i * n + k) (A (i * n + k) * scale)) A
    { t with A := A, rv1 := rv1, G := G, scale := scale }

/-- One round of the reduction (lines 677-721) -/
def svdReduce (rt : K → K) (m n i : Nat) (t : Svd K) : Svd K :=
  let t := { t with rv1 := set t.rv1 i (t.scale * t.G) }
  let t := svdRow rt m n i (svdCol rt m n i t)
  let tmp := |t.W i| + |t.rv1 i|
  { t with anorm := if t.anorm < tmp then tmp else t.anorm }

/-- An array of `n` numbers. -/
def readIn (n : Nat) (a : Nat → K) (i : Nat) : Res K := if i < n then .ok (a i) else .ub

/-- One round of the accumulation of the right-hand transformations (lines 725-737); `i` is that of the code. -/
def svdRight (n i : Nat) (A rv1 V : Nat → K) : Res (Nat → K) :=
  (readIn n rv1 i).bind fun v => .ok (
    let V := if v ≠ 0 then
        let V := loop i n (fun j V => set V (j * n + (i - 1)) (A ((i - 1) * n + j) / A ((i - 1) * n + i) / v)) V
        loop i n (fun j V =>
          let S := loop i n (fun k S => S + A ((i - 1) * n + k) * V (k * n + j)) 0
          loop i n (fun k V => set V (k * n + j) (V (k * n + j) + S * V (k * n + (i - 1)))) V) V
      else V
    let V := loop i n (fun j V => set (set V (j * n + (i - 1)) 0) ((i - 1) * n + j) 0) V
    set V ((i - 1) * n + (i - 1)) 1)

/-- The loop of the accumulation (line 724), with `q` rounds left. -/
def svdRights (n : Nat) (A rv1 : Nat → K) : Nat → (Nat → K) → Res (Nat → K)
  | 0, V => .ok V
  | q + 1, V => (svdRight n (q + 1) A rv1 V).bind (svdRights n A rv1 q)

/-- `decmp_svd` (src/linalg.cpp:662-831) up to the end of the accumulation of the right-hand transformations; `g` is what `new` gives. -/
def decmpSvd (rt : K → K) (m n : Nat) (A W V g : Nat → K) : Res (Svd K × (Nat → K)) :=
  if m = 0 ∨ n = 0 then .ok (⟨A, W, g, 0, 0, 0⟩, V)
  else
    let t := loop 0 n (fun i t => svdReduce rt m n i t) ⟨A, W, g, 0, 0, 0⟩
    (svdRights n t.A t.rv1 n V).bind fun V => .ok (t, V)

/-- `bksub_svd` (src/linalg.cpp:833-857) -/
def bksubSvd (m n : Nat) (U W V b : Nat → K) (p c : Nat) (g : Nat → K) : Nat → K :=
  if m = 0 ∨ n = 0 then b
  else
    let tmp := loop 0 n (fun j tmp =>
      let tmp := set tmp j 0
      if W j ≠ 0 then
        let tmp := loop 0 m (fun i tmp => set tmp j (tmp j + U (i * n + j) * b (i * p + c))) tmp
        set tmp j (tmp j / W j)
      else tmp) g
    loop 0 n (fun j b => loop 0 n (fun i b => set b (j * p + c) (b (j * p + c) + V (j * n + i) * tmp i)) (set b (j * p + c) 0)) b

/-- `equ_svd` (src/linalg.cpp:865-895), up to the call of `decmp_svd`, which does not return: what follows is left to the argument. -/
def equSvd (rt : K → K) (n : Nat) (A x g1 g2 g3 g4 : Nat → K) (rest : Svd K × (Nat → K) → Res (Nat → K)) : Res (Nat → K) :=
  if n = 0 then .ok x else (decmpSvd rt n n (fun p => if p < n * n then A p else g1 p) g2 g3 g4).bind rest

/-- `inv_svd` (src/linalg.cpp:900-927), likewise. -/
def invSvd (rt : K → K) (n : Nat) (A g1 g2 g3 g4 : Nat → K) (rest : Svd K × (Nat → K) → Res (Nat → K)) : Res (Nat → K) :=
  if n = 0 then .ok A else (decmpSvd rt n n (fun p => if p < n * n then A p else g1 p) g2 g3 g4).bind rest

/-- `orth_svd` (src/linalg.cpp:932-940), likewise. -/
def orthSvd (rt : K → K) (n : Nat) (Q g2 g3 g4 : Nat → K) (rest : Svd K × (Nat → K) → Res (Nat → K)) : Res (Nat → K) :=
  if n = 0 then .ok Q else (decmpSvd rt n n Q g2 g3 g4).bind rest

end OP.Lin
