import Verif.Basic
import Mathlib.Data.Int.Log
import Mathlib.Data.Rat.Floor
/-!
# Binomial coefficients, fixed-point numbers and constant strings

`include/mathplus.h`, `include/fixed.h`, `include/conststr.h`.  An `int` has 32 bits; leaving its range is undefined behaviour.
-/
namespace OP.Num

/-- The value of an `int` expression. -/
def int32 (v : Int) : Res Int := if -2 ^ 31 ≤ v ∧ v < 2 ^ 31 then .ok v else .ub

/-! ## Binomial coefficients -/

/-- The loop of `choose` (include/mathplus.h:225-226): `c = c*++j/i` for the `m` values of `i` from `i` on. -/
def chooseLoop : Nat → Int → Int → Int → Res Int
  | 0, _, _, c => .ok c
  | m + 1, i, j, c => int32 (j + 1) >>= fun j' => int32 (c * j') >>= fun p => chooseLoop m (i + 1) j' (p.tdiv i)

/-- `choose` (include/mathplus.h:216-228) -/
def choose (n k : Int) : Res Int :=
  int32 (n - k) >>= fun d => int32 (d + 1) >>= fun j =>
    if k < 0 ∨ k > n then .ok 0
    else if k = 0 ∨ k = n then .ok 1
    else chooseLoop (k - 1).toNat 2 j j

/-! ## Doubles -/

/-- Round to the nearest integer, ties to even. -/
def rne (q : ℚ) : Int :=
  if q - ⌊q⌋ < 1 / 2 then ⌊q⌋ else if 1 / 2 < q - ⌊q⌋ then ⌊q⌋ + 1 else if ⌊q⌋ % 2 = 0 then ⌊q⌋ else ⌊q⌋ + 1

/-- The spacing of the doubles around a positive number. -/
def ulp (q : ℚ) : ℚ := (2 : ℚ) ^ (Int.log 2 q - 52)

/-- Round a non-negative number to the nearest double, ties to even; overflow and underflow are not modelled. -/
def fl (q : ℚ) : ℚ := if q = 0 then 0 else rne (q / ulp q) * ulp q

/-! ## Fixed-point numbers -/

/-- The value represented by a `fixed<P>` (include/fixed.h:108-110): a double division by a power of two, which is exact. -/
def fixVal (P : Nat) (v : Int) : ℚ := v / 2 ^ P

/-- `fixed(int)` (include/fixed.h:63-65); a shift out of range is treated as undefined. -/
def fixOfInt (P : Nat) (i : Int) : Res Int := int32 (i * 2 ^ P)

/-- `fixed(unsigned)` (include/fixed.h:66-68): the shift is modulo 2^32, and so is the conversion to `int`. -/
def fixOfUnsigned (P : Nat) (i : Nat) : Int :=
  if (i * 2 ^ P) % 2 ^ 32 < 2 ^ 31 then ((i * 2 ^ P % 2 ^ 32 : Nat) : Int) else ((i * 2 ^ P % 2 ^ 32 : Nat) : Int) - 2 ^ 32

/-- `fixed(double)` (include/fixed.h:73-76).  The product with a power of two is exact, the addition rounds, and the
conversion truncates. -/
def fixOfDouble (P : Nat) (d : ℚ) : Res Int :=
  if d ≥ 0 then int32 ⌊fl (d * 2 ^ P + 1 / 2)⌋
  else int32 ⌊fl (1 / 2 - d * 2 ^ P)⌋ >>= fun v => int32 (-v)

/-- `operator int` (include/fixed.h:102-104): an arithmetic shift. -/
def fixToInt (P : Nat) (v : Int) : Int := v / 2 ^ P

/-- `operator +`, `operator -`, unary minus, `++`, `--`, `fabs` (include/fixed.h:139-178, 191-195). -/
def fixAdd (a b : Int) : Res Int := int32 (a + b)
def fixSub (a b : Int) : Res Int := int32 (a - b)
def fixNeg (a : Int) : Res Int := int32 (-a)
def fixInc (P : Nat) (a : Int) : Res Int := int32 (2 ^ P) >>= fun u => int32 (a + u)
def fixDec (P : Nat) (a : Int) : Res Int := int32 (2 ^ P) >>= fun u => int32 (a - u)
def fixAbs (a : Int) : Res Int := int32 |a|
/-- The comparisons (include/fixed.h:113-130). -/
def fixLt (a b : Int) : Bool := decide (a < b)
def fixEq (a b : Int) : Bool := decide (a = b)

/-! ## Constant strings -/

/-- `strncmp`: bytes compare as unsigned, a null ends both. -/
def strncmp : List Nat → List Nat → Nat → Int
  | _, _, 0 => 0
  | a :: as, b :: bs, n + 1 => if a < b then -1 else if b < a then 1 else if a = 0 then 0 else strncmp as bs n
  | _, _, _ => 0

/-- A byte as a `char` cast to `size_t`: the sign is extended (include/conststr.h:218). -/
def sext (b : Nat) : Nat := if b < 128 then b else 2 ^ 64 - 256 + b

/-- `fnv1a_hash` with 64-bit `size_t` (include/conststr.h:210-219). -/
def fnv1a (s : List Nat) : Nat := s.foldl (fun h b => ((h ^^^ sext b) * 0x100000001b3) % 2 ^ 64) 0xcbf29ce484222325

/-- `compare` (include/conststr.h:178-181) -/
def cmp (a b : List Nat) : Int :=
  let c := strncmp a b (min a.length b.length)
  if a.length = b.length then c else if c = 0 then (if a.length < b.length then -1 else 1) else c

/-- `operator ==`, `operator !=`, `operator <` (include/conststr.h:182-190). -/
def strEq (a b : List Nat) : Bool := fnv1a a == fnv1a b && cmp a b == 0
def strNe (a b : List Nat) : Bool := fnv1a a != fnv1a b && cmp a b != 0
def strLt (a b : List Nat) : Bool := cmp a b < 0

end OP.Num
