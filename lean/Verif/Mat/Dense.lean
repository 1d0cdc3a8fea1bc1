import Verif.Basic
import Mathlib.Data.Matrix.Mul
/-!
# Dense matrices (include/matrix.h:190-395) and fixed-size matrix expressions (include/tmatrix.h)

The numbers are those of an exact field.  `unsigned` products `M*N` and `i*N+j` are taken not to wrap.
-/
namespace OP.Mat

variable {K : Type}

/-- `matrix_dense` (include/matrix.h:190-302): sizes and the array `new double[M*N]`.  The flags are not modelled: no
class sets `scalar`. -/
structure Dense (K : Type) where
  M : Nat
  N : Nat
  data : Buf K

/-- `matrix_dense(m,n)` and `resize` (include/matrix.h:193-196, 296-301): unset cells. -/
def Dense.alloc (m n : Nat) : Dense K := ⟨m, n, List.replicate (m * n) none⟩

/-- `matrix_dense(m,n,v)` (include/matrix.h:216-220): `memcpy` of `M*N` numbers; undefined if there are fewer. -/
def Dense.ofArray (m n : Nat) (v : List K) : Res (Dense K) :=
  if m * n ≤ v.length then .ok ⟨m, n, (v.take (m * n)).map some⟩ else .ub

/-- `operator () (i,j)` (include/matrix.h:274-279) -/
def Dense.get (d : Dense K) (i j : Nat) : Res K := Buf.read d.data (i * d.N + j)

/-- The inner loop `for (j = 0; j < cols; j++) t(i,j) = f;` over the columns `js`. -/
def fillRow (n i : Nat) (f : Nat → Res K) : List Nat → Buf K → Res (Buf K)
  | [], b => .ok b
  | j :: js, b => f j >>= fun v => Buf.write b (i * n + j) (some v) >>= fun b => fillRow n i f js b

/-- The outer loop over the rows `is`. -/
def fillRows (n : Nat) (f : Nat → Nat → Res K) : List Nat → Buf K → Res (Buf K)
  | [], b => .ok b
  | i :: is, b => fillRow n i (f i) (List.range n) b >>= fun b => fillRows n f is b

/-- A new matrix filled by two loops. -/
def Dense.build (m n : Nat) (f : Nat → Nat → Res K) : Res (Dense K) :=
  fillRows n f (List.range m) (Dense.alloc (K := K) m n).data >>= fun b => .ok ⟨m, n, b⟩

/-- A loop `for (i = 0; i < M*N; i++) data[i] = f(i,data[i]);` over the cells `ks`. -/
def eachCell (f : Nat → K → Res K) : List Nat → Buf K → Res (Buf K)
  | [], b => .ok b
  | k :: ks, b => Buf.read b k >>= fun x => f k x >>= fun y => Buf.write b k (some y) >>= fun b => eachCell f ks b

/-- The loop over all cells of a matrix. -/
def Dense.each (d : Dense K) (f : Nat → K → Res K) : Res (Dense K) :=
  eachCell f (List.range (d.M * d.N)) d.data >>= fun b => .ok { d with data := b }

section
variable [Field K] [DecidableEq K]

/-- `matrix_dense(m,n,d,mkdiag)` (include/matrix.h:197-215): the last two loops, which set every cell again. -/
def Dense.const (m n : Nat) (d : K) (mkdiag : Bool) : Res (Dense K) :=
  Dense.build m n fun i j => .ok (if ¬ mkdiag ∨ i = j then d else 0)

/-- `operator += (d)` (include/matrix.h:240-244): nothing for 0. -/
def Dense.addVal (m : Dense K) (d : K) : Res (Dense K) :=
  if d ≠ 0 then m.each fun _ x => .ok (x + d) else .ok m

/-- `operator += (m)` (include/matrix.h:245-250) -/
def Dense.addTo (a m : Dense K) : Res (Dense K) := a.each fun k x => Buf.read m.data k >>= fun y => .ok (x + y)

/-- `operator -= (m)` (include/matrix.h:251-256) -/
def Dense.subFrom (a m : Dense K) : Res (Dense K) := a.each fun k x => Buf.read m.data k >>= fun y => .ok (x - y)

/-- `operator *= (d)` (include/matrix.h:257-265): `memset` for 0. -/
def Dense.mulVal (m : Dense K) (d : K) : Res (Dense K) :=
  if d = 0 then .ok { m with data := List.replicate (m.M * m.N) (some 0) } else m.each fun _ x => .ok (x * d)

/-- `operator ~` (include/matrix.h:304-311) -/
def Dense.trans (m : Dense K) : Res (Dense K) := Dense.build m.N m.M fun i j => m.get j i

/-- `operator -` (include/matrix.h:313-320) -/
def Dense.neg (m : Dense K) : Res (Dense K) := Dense.build m.M m.N fun i j => m.get i j >>= fun x => .ok (-x)

/-- `operator + (m,d)`, `operator + (d,m)` (include/matrix.h:322-331) -/
def Dense.plusVal (m : Dense K) (d : K) : Res (Dense K) := m.addVal d

/-- `operator - (m,d)` (include/matrix.h:333-336) -/
def Dense.minusVal (m : Dense K) (d : K) : Res (Dense K) := m.plusVal (-d)

/-- `operator - (d,m)` (include/matrix.h:338-345) -/
def Dense.valMinus (d : K) (m : Dense K) : Res (Dense K) :=
  Dense.build m.M m.N fun i j => m.get i j >>= fun x => .ok (d - x)

/-- `operator * (m,d)`, `operator * (d,m)` (include/matrix.h:347-356) -/
def Dense.timesVal (m : Dense K) (d : K) : Res (Dense K) := m.mulVal d

/-- `operator / (m,d)` (include/matrix.h:358-361) -/
def Dense.overVal (m : Dense K) (d : K) : Res (Dense K) := m.timesVal (1 / d)

/-- `operator / (d,m)` (include/matrix.h:363-370) -/
def Dense.valOver (d : K) (m : Dense K) : Res (Dense K) :=
  Dense.build m.M m.N fun i j => m.get i j >>= fun x => .ok (d / x)

/-- `operator + (a,b)` (include/matrix.h:372-376) -/
def Dense.add (a b : Dense K) : Res (Dense K) := a.addTo b

/-- `operator - (a,b)` (include/matrix.h:378-382) -/
def Dense.sub (a b : Dense K) : Res (Dense K) := a.subFrom b

/-- The loop over `k` of a product, from the sum so far (include/matrix.h:390-391). -/
def dotLoop (f : Nat → Res K) : List Nat → K → Res K
  | [], s => .ok s
  | k :: ks, s => f k >>= fun x => dotLoop f ks (s + x)

/-- `operator * (a,b)` (include/matrix.h:384-395); the sum kept in the cell is the argument of the loop. -/
def Dense.mul (a b : Dense K) : Res (Dense K) :=
  Dense.build a.M b.N fun i j =>
    dotLoop (fun k => a.get i k >>= fun x => b.get k j >>= fun y => .ok (x * y)) (List.range a.N) 0

end

/-! ## Fixed sizes -/

/-- `tmatrix::operator () (r,c)` (include/tmatrix.h:323-325): `data[r][c]`, undefined outside the array or where nothing
was set. -/
def tget (M N : Nat) (b : Buf K) (r c : Nat) : Res K := if r < M ∧ c < N then Buf.read b (r * N + c) else .ub

/-- A reference `lhs(r,c)` written to. -/
def tput (M N : Nat) (b : Buf K) (r c : Nat) (v : K) : Res (Buf K) :=
  if r < M ∧ c < N then Buf.write b (r * N + c) (some v) else .ub

/-- `meta_assign<I,J>::assignR…` (include/tmatrix.h:59-63, 69-73, 79-83 and so on to 118, the end at 120-134): the cells of row `I-1` from column 0
to `J-1`, each given by `f` from its place. -/
def assignR (M N : Nat) (f : Buf K → Nat → Nat → Res K) (I : Nat) : Nat → Buf K → Res (Buf K)
  | 0, b => .ok b
  | J + 1, b => assignR M N f I J b >>= fun b => f b (I - 1) J >>= fun v => tput M N b (I - 1) J v

/-- `meta_assign<I,J>::assign…` (include/tmatrix.h:64-68, 74-78, 84-88 and so on to 118, the end at 135-149): rows from 0 to `I-1`. -/
def assign (M N : Nat) (f : Buf K → Nat → Nat → Res K) : Nat → Buf K → Res (Buf K)
  | 0, b => .ok b
  | I + 1, b => assign M N f I b >>= fun b => assignR M N f (I + 1) N b

/-- An expression of fixed size (include/tmatrix.h:380-766).  A matrix in it is a copy of its array (`const E m_e`).
`e - d` is `addD e (-d)` (:464-476).  `expr / d` (:565-570) names two different types and does not compile if used, so
`divD` stands for `tmatrix / d` (:559-564) only. -/
inductive Expr (K : Type) : Nat → Nat → Type
  | mat {M N : Nat} (b : Buf K) : Expr K M N
  | trans {M N : Nat} (e : Expr K M N) : Expr K N M
  | neg {M N : Nat} (e : Expr K M N) : Expr K M N
  | addD {M N : Nat} (e : Expr K M N) (d : K) : Expr K M N
  | subD {M N : Nat} (e : Expr K M N) (d : K) : Expr K M N
  | mulD {M N : Nat} (e : Expr K M N) (d : K) : Expr K M N
  | divD {M N : Nat} (e : Expr K M N) (d : K) : Expr K M N
  | dDiv {M N : Nat} (e : Expr K M N) (d : K) : Expr K M N
  | add {M N : Nat} (e1 e2 : Expr K M N) : Expr K M N
  | sub {M N : Nat} (e1 e2 : Expr K M N) : Expr K M N
  | prod {M L N : Nat} (e1 : Expr K M L) (e2 : Expr K L N) : Expr K M N
  | diag {N : Nat} (e : Expr K N N) : Expr K N 1

section
variable [Field K]

/-- `meta_multiply<T,k>::prod` (include/tmatrix.h:687-700) of the entries `f` and `g`. -/
def metaProd (f g : Nat → Res K) : Nat → Res K
  | 0 => f 0 >>= fun x => g 0 >>= fun y => .ok (x * y)
  | k + 1 => f (k + 1) >>= fun x => g (k + 1) >>= fun y => metaProd f g k >>= fun s => .ok (x * y + s)

/-- `operator () (i,j)` of each expression (include/tmatrix.h:383-385, 408-410, 434-436, 486-488, 514-516, 552-556,
582-584, 610-612, 650-652, 707-716, 753-755). -/
def Expr.at : {M N : Nat} → Expr K M N → Nat → Nat → Res K
  | M, N, .mat b, i, j => tget M N b i j
  | _, _, .trans e, i, j => e.at j i
  | _, _, .neg e, i, j => e.at i j >>= fun x => .ok (-x)
  | _, _, .addD e d, i, j => e.at i j >>= fun x => .ok (x + d)
  | _, _, .subD e d, i, j => e.at i j >>= fun x => .ok (d - x)
  | _, _, .mulD e d, i, j => e.at i j >>= fun x => .ok (d * x)
  | _, _, .divD e d, i, j => e.at i j >>= fun x => .ok (x * (1 / d))
  | _, _, .dDiv e d, i, j => e.at i j >>= fun x => .ok (d / x)
  | _, _, .add e1 e2, i, j => e1.at i j >>= fun x => e2.at i j >>= fun y => .ok (x + y)
  | _, _, .sub e1 e2, i, j => e1.at i j >>= fun x => e2.at i j >>= fun y => .ok (x - y)
  | _, _, .prod (L := L) e1 e2, i, j => metaProd (fun k => e1.at i k) (fun k => e2.at k j) (L - 1)
  | _, _, .diag e, i, _ => e.at i i

/-- `operator () (i)` of an expression or matrix (include/tmatrix.h:161-163, 326-328): `m_e(i/N,i%N)`. -/
def Expr.at1 {M N : Nat} (e : Expr K M N) (i : Nat) : Res K := if N = 0 then .ub else e.at (i / N) (i % N)

/-- `tmatrix = expr` and construction from an expression (include/tmatrix.h:192-201, 223-233). -/
def tAssign {M N : Nat} (b : Buf K) (e : Expr K M N) : Res (Buf K) := assign M N (fun _ i j => e.at i j) M b

/-- `tmatrix += expr` (include/tmatrix.h:244-254) -/
def tAdd {M N : Nat} (b : Buf K) (e : Expr K M N) : Res (Buf K) :=
  assign M N (fun b i j => tget M N b i j >>= fun x => e.at i j >>= fun y => .ok (x + y)) M b

/-- `tmatrix -= expr` (include/tmatrix.h:275-285) -/
def tSub {M N : Nat} (b : Buf K) (e : Expr K M N) : Res (Buf K) :=
  assign M N (fun b i j => tget M N b i j >>= fun x => e.at i j >>= fun y => .ok (x - y)) M b

/-- `tmatrix += tmatrix` (include/tmatrix.h:234-243), the same object on both sides: read while it is written. -/
def tAddSelf {M N : Nat} (b : Buf K) : Res (Buf K) :=
  assign M N (fun b i j => tget M N b i j >>= fun x => tget M N b i j >>= fun y => .ok (x + y)) M b

/-- `tmatrix -= tmatrix` (include/tmatrix.h:265-274), the same object on both sides. -/
def tSubSelf {M N : Nat} (b : Buf K) : Res (Buf K) :=
  assign M N (fun b i j => tget M N b i j >>= fun x => tget M N b i j >>= fun y => .ok (x - y)) M b

/-- `tmatrix(d,eye)` (include/tmatrix.h:177-181) -/
def tFill {M N : Nat} (b : Buf K) (d : K) (eye : Bool) : Res (Buf K) :=
  assign M N (fun _ i j => .ok (if !eye || i = j then d else 0)) M b

/-- `tmatrix = d` (include/tmatrix.h:213-222) -/
def tSetD {M N : Nat} (b : Buf K) (d : K) : Res (Buf K) := assign M N (fun _ _ _ => .ok d) M b

/-- `tmatrix += d` (include/tmatrix.h:255-264) -/
def tAddD {M N : Nat} (b : Buf K) (d : K) : Res (Buf K) :=
  assign M N (fun b i j => tget M N b i j >>= fun x => .ok (x + d)) M b

/-- `tmatrix -= d` (include/tmatrix.h:286-295) -/
def tSubD {M N : Nat} (b : Buf K) (d : K) : Res (Buf K) := tAddD (M := M) (N := N) b (-d)

/-- `tmatrix *= d` (include/tmatrix.h:296-305) -/
def tMulD {M N : Nat} (b : Buf K) (d : K) : Res (Buf K) :=
  assign M N (fun b i j => tget M N b i j >>= fun x => .ok (x * d)) M b

/-- `tmatrix /= d` (include/tmatrix.h:306-316) -/
def tDivD {M N : Nat} (b : Buf K) (d : K) : Res (Buf K) := tMulD (M := M) (N := N) b (1 / d)

end
end OP.Mat
