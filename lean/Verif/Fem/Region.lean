import Mathlib.Data.List.Sort
import Mathlib.Data.List.Dedup
import Mathlib.Data.Int.Order.Basic
import Mathlib.Order.Interval.Set.Basic
/-!
# Regions of a mesh (fem3d/fem3d.cpp:3102-3178, 3714-3717)

A stop is a whole number of units (`fixed<8>`).  The lists of stops are `cset`s: after each change the code calls
`sort()`, which leaves the different elements in order (`C06_cset_sort`), and this is the function `stops` here.  The
calls of `overlaps` with doubles convert them to stops first (`C31`), so that they are given as stops here.
-/
namespace OP.Fem.Region

/-- `cset::sort` of a list of stops, by `C06_cset_sort`. -/
def stops (l : List Int) : List Int := l.dedup.insertionSort (· ≤ ·)

/-- `region` (fem3d/fem3d.cpp:3102-3107) -/
structure Region where
  /-- `xstop` -/
  xs : List Int
  /-- `ystop` -/
  ys : List Int
  deriving DecidableEq

/-- `xstop[0]`, and in the same way for `ystop`; the first of no stops is not defined, here zero (see `Sound`). -/
def first (l : List Int) : Int := l.headD 0

/-- `xstop[xstop.length()-1]` -/
def last (l : List Int) : Int := l.getLastD 0

/-- `region::xm`, `xp`, `ym`, `yp` (fem3d/fem3d.cpp:3108-3119) -/
def Region.xm (r : Region) : Int := first r.xs
@[inherit_doc Region.xm] def Region.xp (r : Region) : Int := last r.xs
@[inherit_doc Region.xm] def Region.ym (r : Region) : Int := first r.ys
@[inherit_doc Region.xm] def Region.yp (r : Region) : Int := last r.ys

/-- `region::overlaps(x1,y1,x2,y2)` (fem3d/fem3d.cpp:3120-3123) -/
def Region.meets (r : Region) (x1 y1 x2 y2 : Int) : Bool :=
  x1 < r.xp && x2 > r.xm && y1 < r.yp && y2 > r.ym

/-- `region::overlaps(r)` (fem3d/fem3d.cpp:3124-3127) -/
def Region.overlaps (s r : Region) : Bool :=
  r.xm < s.xp && r.xp > s.xm && r.ym < s.yp && r.yp > s.ym

/-- `region_list::xm`, `xp`, `ym`, `yp` (fem3d/fem3d.cpp:3131-3154): the loops start from zero. -/
def listXm (l : List Region) : Int := l.foldl (fun x r => min x r.xm) 0
@[inherit_doc listXm] def listXp (l : List Region) : Int := l.foldl (fun x r => max x r.xp) 0
@[inherit_doc listXm] def listYm (l : List Region) : Int := l.foldl (fun x r => min x r.ym) 0
@[inherit_doc listXm] def listYp (l : List Region) : Int := l.foldl (fun x r => max x r.yp) 0

/-- `region_list::overlaps` (fem3d/fem3d.cpp:3155-3160) -/
def listMeets (l : List Region) (x1 y1 x2 y2 : Int) : Bool :=
  l.foldl (fun rv r => rv || r.meets x1 y1 x2 y2) false

/-- The test of `merge` (fem3d/fem3d.cpp:3166-3170) -/
def touches (r1 r2 : Region) : Bool :=
  r1.overlaps r2
    || ((r1.xp == r2.xm || r1.xm == r2.xp) && (r1.ym == r2.ym && r1.yp == r2.yp))
    || ((r1.yp == r2.ym || r1.ym == r2.yp) && (r1.xm == r2.xm && r1.xp == r2.xp))

/-- The two lines that move the stops (fem3d/fem3d.cpp:3171-3172) -/
def join (r1 r2 : Region) : Region := ⟨stops (r1.xs ++ r2.xs), stops (r1.ys ++ r2.ys)⟩

/-- The inner loop of `merge` (fem3d/fem3d.cpp:3163-3175) for the region `r1 = (*this)[i]`; the list is what follows it.
A region that is taken up is removed and the loop goes on with the one that moved to its place. -/
def absorb (r1 : Region) : List Region → Region × List Region
  | [] => (r1, [])
  | r2 :: rest =>
    if touches r1 r2 then absorb (join r1 r2) rest
    else
      let (r, rs) := absorb r1 rest
      (r, r2 :: rs)

theorem absorb_length (r : Region) (l : List Region) : (absorb r l).2.length ≤ l.length := by
  induction l generalizing r with
  | nil => simp [absorb]
  | cons a l ih =>
    rw [absorb]
    by_cases h : touches r a
    · rw [if_pos h]
      exact (ih _).trans (Nat.le_succ _)
    · rw [if_neg h]
      simpa using ih r

/-- `region_list::merge` (fem3d/fem3d.cpp:3161-3177): the outer loop. -/
def merge : List Region → List Region
  | [] => []
  | r :: rest => (absorb r rest).1 :: merge (absorb r rest).2
  termination_by l => l.length
  decreasing_by
    have := absorb_length r rest
    simp only [List.length_cons]
    omega

/-- The loop that removes every second stop, `for (xi = 1; xi < xstop.length(); xi++) xstop.remove(xi)`
(fem3d/fem3d.cpp:3714-3717): the stop after the one that stays is removed, and `xi` passes the one that moved there. -/
def coarsen : List Int → List Int
  | [] => []
  | [a] => [a]
  | a :: _ :: rest => a :: coarsen rest

end OP.Fem.Region
