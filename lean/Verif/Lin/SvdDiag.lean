import Verif.Lin.Svd
/-!
# Singular values: the diagonalization (src/linalg.cpp:759-829)

The last part of `decmp_svd`.  Arrays are functions of the address, arithmetic is exact, `hypot(x,y)` is `rt (x*x+y*y)`.  The comparison
`fabs(x)+anorm == anorm` is a parameter `neg x anorm`.
-/
namespace OP.Lin
variable {K : Type} [Field K] [LinearOrder K]

/-- The arrays `A`, `V`, `W` and `rv1`.  `good` is not in the code: it tells that so far every singular value has converged in its 30 passes,
and that no cancellation went on beyond its first number. -/
structure Dg (K : Type) where
  A : Nat → K
  V : Nat → K
  W : Nat → K
  rv : Nat → K
  good : Bool

/-- Two columns of an array with `n` columns are turned (lines 781-785, 811-815 and 820-824 are all of this kind). -/
def rotCols (rows n a b : Nat) (S C : K) (A : Nat → K) : Nat → K :=
  loop 0 rows (fun k A =>
    let g := A (k * n + a)
    let A := set A (k * n + a) (A (k * n + b) * S + g * C)
    set A (k * n + b) (A (k * n + b) * C - g * S)) A

/-- The test for splitting (lines 765-772): `q` and `flag`, from `q` downwards.  Before the first number the code would read `W[-1]`. -/
def svdSplit (neg : K → K → Bool) (anorm : K) (W rv : Nat → K) : Nat → Res (Nat × Bool)
  | 0 => .ok (0, true)
  | q + 1 =>
    if neg |rv q| anorm then .ok (q, false)
    else if q = 0 then .ub
    else if neg |W (q - 1)| anorm then .ok (q, true)
    else svdSplit neg anorm W rv q

/-- The cancellation (lines 774-787) -/
def svdCancel (rt : K → K) (neg : K → K → Bool) (anorm : K) (m n i q : Nat) (t : Dg K) : Dg K :=
  let t := { t with good := t.good && decide (q = i) }
  (loop q (i + 1) (fun k (p : K × Dg K) =>
    let F := p.1 * p.2.rv k
    if neg |F| anorm then p
    else
      let G := p.2.W k
      let w := rt (F * F + G * G)
      (-F / w, { p.2 with W := set p.2.W k w, A := rotCols m n (q - 1) k (-F / w) (G / w) p.2.A })) (1, t)).2

/-- The numbers of the inner loop. -/
structure Qs (K : Type) where
  d : Dg K
  F : K
  C : K
  S : K
  X : K

/-- One round of the QR transformation (lines 806-824) -/
def svdStep (rt : K → K) (m n j : Nat) (t : Qs K) : Qs K :=
  let H := t.S * t.d.rv (j + 1)
  let G := t.C * t.d.rv (j + 1)
  let z := rt (t.F * t.F + H * H)
  let C := t.F / z
  let S := H / z
  let F := G * S + t.X * C
  let G := G * C - t.X * S
  let H := t.d.W (j + 1) * S
  let Y := t.d.W (j + 1) * C
  let V := rotCols n n j (j + 1) S C t.d.V
  let w := rt (F * F + H * H)
  let C := if w ≠ 0 then F / w else C
  let S := if w ≠ 0 then H / w else S
  ⟨⟨rotCols m n j (j + 1) S C t.d.A, V, set t.d.W j w, set t.d.rv j z, t.d.good⟩, S * Y + C * G, C, S, C * Y - S * G⟩

/-- The shift and the QR transformation (lines 797-827) -/
def svdPass (rt : K → K) (m n i q : Nat) (t : Dg K) : Dg K :=
  let F := ((t.W (i - 1) - t.W i) * (t.W (i - 1) + t.W i) + (t.rv (i - 1) - t.rv i) * (t.rv (i - 1) + t.rv i)) / (2 * t.rv i * t.W (i - 1))
  let G := (if F < 0 then -1 else 1) * rt (F * F + 1 * 1)
  let F := ((t.W q - t.W i) * (t.W q + t.W i) + t.rv i * (t.W (i - 1) / (F + G) - t.rv i)) / t.W q
  let s := loop q i (svdStep rt m n) ⟨t, F, 1, 1, t.W q⟩
  { s.d with rv := set (set s.d.rv q 0) i s.F, W := set s.d.W i s.X }

/-- A singular value is made nonnegative (lines 790-794). -/
def svdSign (n i : Nat) (t : Dg K) : Dg K :=
  if t.W i < 0 then { t with W := set t.W i (t.W i * -1), V := loop 0 n (fun j V => set V (j * n + i) (V (j * n + i) * -1)) t.V } else t

/-- The passes for one singular value (lines 763-828), of which `k` are left; the code goes on as if nothing had happened when there are none. -/
def svdOne (rt : K → K) (neg : K → K → Bool) (anorm : K) (m n i : Nat) : Nat → Dg K → Res (Dg K)
  | 0, t => .ok { t with good := false }
  | k + 1, t => svdSplit neg anorm t.W t.rv (i + 1) >>= fun p =>
    let t := if p.2 then svdCancel rt neg anorm m n i p.1 t else t
    if p.1 = i then .ok (svdSign n i t) else svdOne rt neg anorm m n i k (svdPass rt m n i p.1 t)

/-- The loop over the singular values (lines 761-829), `i` of them left. -/
def svdDiag (rt : K → K) (neg : K → K → Bool) (anorm : K) (m n : Nat) : Nat → Dg K → Res (Dg K)
  | 0, t => .ok t
  | i + 1, t => svdOne rt neg anorm m n i 30 t >>= svdDiag rt neg anorm m n i

end OP.Lin
