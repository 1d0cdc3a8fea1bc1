import Verif.Basic
import Mathlib.Analysis.SpecialFunctions.Trigonometric.Basic
import Mathlib.Analysis.SpecialFunctions.Log.Basic
/-!
# The random number generator (include/rng.h)

The state array is the sequence of its 64-bit words, `u[0]` and `u[1]` of `status[i]` being words `2 i` and `2 i + 1`; the 32-bit view
is little endian.  A double is the number encoded by its word; the subtractions in `c0o1`, `o0c1` and `o0o1` are exact for numbers in [1,2).
`stdnormal` is modelled over the reals.
-/
namespace OP.Num

/-- include/rng.h:78 -/
def dsfmtN : Nat := (19937 - 128) / 104 + 1

abbrev Word := BitVec 64

/-- The number a word encodes as an IEEE double, for normal numbers; `none` for zeros, subnormals, infinities and NaNs. -/
def decode (w : Word) : Option ℚ :=
  let e : Nat := (w.toNat / 2 ^ 52) % 2 ^ 11
  if e = 0 ∨ e = 2047 then none
  else some ((if w.toNat / 2 ^ 63 = 0 then 1 else -1) * (1 + ((w.toNat % 2 ^ 52 : Nat) : ℚ) / (2 : ℚ) ^ (52 : Nat)) * (2 : ℚ) ^ ((e : Int) - 1023))

/-- The generator: state array, `idx`, `ni`, `n[2]`. -/
structure Rng where
  st : Nat → Word
  idx : Nat
  ni : Nat
  n : Nat → Option ℝ

/-- Reading and writing a word of the array `status[DSFMT_N+1]`. -/
def rd (st : Nat → Word) (j : Nat) : Res Word := if j < 2 * (dsfmtN + 1) then .ok (st j) else .ub
def wr (st : Nat → Word) (j : Nat) (w : Word) : Res (Nat → Word) :=
  if j < 2 * (dsfmtN + 1) then .ok (fun i => if i = j then w else st i) else .ub

/-- The 32-bit words after seeding (include/rng.h:101-106). -/
def seedWord (seed : BitVec 32) : Nat → BitVec 32
  | 0 => seed
  | i + 1 => 1812433253#32 * (seedWord seed i ^^^ (seedWord seed i >>> 30)) + BitVec.ofNat 32 (i + 1)

/-- The 64-bit words after include/rng.h:107-109. -/
def seedState (seed : BitVec 32) (j : Nat) : Word :=
  let w : Word := (seedWord seed (2 * j)).zeroExtend 64 ||| ((seedWord seed (2 * j + 1)).zeroExtend 64 <<< 32)
  if j < 2 * dsfmtN then (w &&& 0x000FFFFFFFFFFFFF#64) ||| 0x3FF0000000000000#64 else w

/-- The parity of include/rng.h:110-114 for the two last words. -/
def inner (u0 u1 : Word) : Word :=
  let x := ((u0 ^^^ 0x90014964b32f4329#64) &&& 0x3d84e1ac0dc82880#64) ^^^ ((u1 ^^^ 0x3b8d12ac548a7c7a#64) &&& 1#64)
  let x := x ^^^ (x >>> 32)
  let x := x ^^^ (x >>> 16)
  let x := x ^^^ (x >>> 8)
  let x := x ^^^ (x >>> 4)
  let x := x ^^^ (x >>> 2)
  let x := x ^^^ (x >>> 1)
  x &&& 1#64

/-- The constructor (include/rng.h:98-118). -/
def Rng.new (seed : BitVec 32) : Rng :=
  let s := seedState seed
  let a := 2 * dsfmtN
  let st := if inner (s a) (s (a + 1)) ≠ 1#64 then (fun j => if j = a + 1 then s j ^^^ 1#64 else s j) else s
  ⟨st, 2 * dsfmtN, 1, fun _ => none⟩

/-- The body of the loop of `regen` (include/rng.h:168-181). -/
def regenBody (st : Nat → Word) (i : Nat) : Res (Nat → Word) :=
  rd st (2 * i) >>= fun t0 => rd st (2 * i + 1) >>= fun t1 =>
  rd st (2 * dsfmtN) >>= fun L0 => rd st (2 * dsfmtN + 1) >>= fun L1 =>
  rd st (2 * ((i + 117) % dsfmtN)) >>= fun p0 => rd st (2 * ((i + 117) % dsfmtN) + 1) >>= fun p1 =>
  let v0 := (t0 <<< 19) ^^^ (L1 >>> 32) ^^^ (L1 <<< 32) ^^^ p0
  let v1 := (t1 <<< 19) ^^^ (L0 >>> 32) ^^^ (L0 <<< 32) ^^^ p1
  wr st (2 * dsfmtN) v0 >>= fun st => wr st (2 * dsfmtN + 1) v1 >>= fun st =>
  wr st (2 * i) ((v0 >>> 12) ^^^ (v0 &&& 0x000ffafffffffb3f#64) ^^^ t0) >>= fun st =>
  wr st (2 * i + 1) ((v1 >>> 12) ^^^ (v1 &&& 0x000ffdfffc90fffd#64) ^^^ t1)

/-- `regen` (include/rng.h:167-182), from `i` on, `m` rounds. -/
def regenLoop : Nat → Nat → (Nat → Word) → Res (Nat → Word)
  | 0, _, st => .ok st
  | m + 1, i, st => regenBody st i >>= fun st => regenLoop m (i + 1) st

def regen (st : Nat → Word) : Res (Nat → Word) := regenLoop dsfmtN 0 st

/-- A draw of a word (include/rng.h:119-126). -/
def Rng.draw (g : Rng) : Res (Word × Rng) :=
  (if g.idx ≥ dsfmtN * 2 then regen g.st >>= fun st => .ok { g with st := st, idx := 0 } else .ok g) >>= fun g =>
    rd g.st g.idx >>= fun w => .ok (w, { g with idx := g.idx + 1 })

/-- The number in a word; anything but a normal number is an error here. -/
def num (w : Word) : Res ℚ := match decode w with
  | some q => .ok q
  | none => .ub

/-- `c1o2`, `c0o1`, `o0c1`, `o0o1` (include/rng.h:119-141). -/
def Rng.c1o2 (g : Rng) : Res (ℚ × Rng) := g.draw >>= fun r => num r.1 >>= fun d => .ok (d, r.2)
def Rng.c0o1 (g : Rng) : Res (ℚ × Rng) := g.c1o2 >>= fun r => .ok (r.1 - 1, r.2)
def Rng.o0c1 (g : Rng) : Res (ℚ × Rng) := g.c1o2 >>= fun r => .ok (2 - r.1, r.2)
def Rng.o0o1 (g : Rng) : Res (ℚ × Rng) := g.draw >>= fun r => num (r.1 ||| 1#64) >>= fun d => .ok (d - 1, r.2)

/-- `stdnormal` (include/rng.h:142-154). -/
noncomputable def Rng.stdnormal (g : Rng) : Res (ℝ × Rng) :=
  (if g.ni = 1 then g.o0c1 >>= fun a => a.2.o0c1 >>= fun b =>
      let r0 := Real.sqrt (-2 * Real.log (a.1 : ℝ))
      let r1 := 2 * Real.pi * (b.1 : ℝ)
      .ok { b.2 with n := fun i => if i = 0 then some (r0 * Real.sin r1) else some (r0 * Real.cos r1), ni := 0 }
    else .ok { g with ni := 1 }) >>= fun g =>
  match g.n g.ni with
  | some x => .ok (x, g)
  | none => .ub

/-- What can be asked of the generator. -/
inductive Draw where
  | c1o2 | c0o1 | o0c1 | o0o1 | normal

/-- One request. -/
noncomputable def Rng.step (g : Rng) : Draw → Res (ℝ × Rng)
  | .c1o2 => g.c1o2 >>= fun r => .ok ((r.1 : ℝ), r.2)
  | .c0o1 => g.c0o1 >>= fun r => .ok ((r.1 : ℝ), r.2)
  | .o0c1 => g.o0c1 >>= fun r => .ok ((r.1 : ℝ), r.2)
  | .o0o1 => g.o0o1 >>= fun r => .ok ((r.1 : ℝ), r.2)
  | .normal => g.stdnormal

/-- A sequence of requests and its results. -/
noncomputable def Rng.run (g : Rng) : List Draw → Res (List ℝ × Rng)
  | [] => .ok ([], g)
  | d :: ds => g.step d >>= fun r => r.2.run ds >>= fun t => .ok (r.1 :: t.1, t.2)

end OP.Num
