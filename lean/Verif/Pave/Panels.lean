import Mathlib.Algebra.Order.Field.Basic
import Mathlib.Data.List.Sort
import Mathlib.Data.List.Dedup
/-!
# The intervals over which the layered system is integrated (src/pavement.cpp:978-1001, 1189-1240)

Exact arithmetic.  A `cset` after `sort` is the list of its distinct values in order (`C06_cset_sort`).  The roots of the
Bessel functions and the stopping points are parameters.
-/
namespace OP.Pave.Panels

variable {K : Type} [Field K] [LinearOrder K]

/-- `cset::sort` (include/set.h:519-522) -/
def sorted (l : List K) : List K := l.dedup.insertionSort (· ≤ ·)

/-- `for (ib = 0; ib <= NBZ && t[ib]/q < m; ib++) add(t[ib]/q)` (src/pavement.cpp:992-999) -/
def rootsBelow (t : Nat → K) (nbz : Nat) (q m : K) : List K :=
  ((List.range (nbz + 1)).takeWhile fun i => decide (t i / q < m)).map fun i => t i / q

/-- The points for great depths (src/pavement.cpp:986-991).  At depth zero the quotient is infinite, and not added. -/
def deep (first a z : K) : List K :=
  if z = 0 then [] else ([1, 2, 3, 4, 5].filter fun i : Nat => decide (i * 7 * a / z < first)).map fun i : Nat => i * 7 * a / z

/-- `bm0` or `bm1` of `calc_accurate` (src/pavement.cpp:982-1001): `t` is `j0r` for `bm0` and `j1r` for `bm1`, `m` the stopping
point. -/
def accurate (t j1r : Nat → K) (nbz : Nat) (a r z m : K) : List K :=
  sorted (0 :: (deep (t 0) a z ++ ((if r > 0 then rootsBelow t nbz r m else []) ++ (rootsBelow j1r nbz a m ++ [m]))))

/-- One step of the loops that add intervals (src/pavement.cpp:1207-1214, 1225-1231): the state is `sm` and `x2`. -/
def insertPoint (s : List K × K) (x1 q lim : K) : List K × K :=
  if x1 < s.2 then s
  else
    let im := 1 + ((s.1.drop 1).takeWhile fun x => decide (x < x1)).length
    if im = s.1.length ∨ min (x1 - s.1.getD (im - 1) 0) (s.1.getD im 0 - x1) * q < lim then s
    else (s.1.take im ++ x1 :: s.1.drop im, x1)

/-- The intervals for great distances (src/pavement.cpp:1203-1216); `rs` are the radii in order, `qpi` is `M_PI_4`. -/
def bigR (j1r : Nat → K) (nbz ba : Nat) (qpi a : K) (rs : List K) (s : List K) : List K :=
  ((rs.reverse.takeWhile fun r => decide (r > a * ba)).foldl (fun s r =>
    (List.range (nbz / ba)).foldl (fun s k => insertPoint s (j1r (ba * (k + 1)) / r) r (ba * qpi)) s) (s, 0)).1

/-- The intervals for great depths (src/pavement.cpp:1217-1233); `first` is `j0r[0]`, `zs` are the depths in order. -/
def bigZ (first a : K) (zs : List K) (s : List K) : List K :=
  ((zs.reverse.takeWhile fun z => decide (z > 0)).foldl (fun s z =>
    ([1, 2, 3, 4, 5].takeWhile fun i : Nat => decide (i * 7 * a < first * z)).foldl
      (fun s (i : Nat) => insertPoint s (i * 7 * a / z) z (5 * a)) s) (s, 0)).1

/-- The points from which the intervals are made (src/pavement.cpp:1191-1200); `ms` are the stopping points. -/
def base (j1r : Nat → K) (nbz : Nat) (a : K) (ms : List K) : List K :=
  0 :: ((List.range (nbz + 1)).map (fun i => j1r i / a) ++ ms)

/-- `bm` of `calculate` (src/pavement.cpp:1189-1237) -/
def points (j0r j1r : Nat → K) (nbz ba : Nat) (qpi a : K) (rs zs ms : List K) : List K :=
  sorted (bigZ (j0r 0) a zs (bigR j1r nbz ba qpi a rs (sorted (base j1r nbz a ms))))

end OP.Pave.Panels
