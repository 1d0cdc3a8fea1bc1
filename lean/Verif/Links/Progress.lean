import Verif.Basic
import Mathlib.Algebra.Field.Rat
import Mathlib.Algebra.Order.Field.Basic
import Mathlib.Algebra.Order.Ring.Rat
/-!
# Progress events (include/event.h:168-212)

The format string and its arguments are left out.  Markers are integers; the reported fraction is an exact
rational, and `none` when one of the divisors is zero (not finite in the code).
-/
namespace OP.Links

/-- The static variables of `event_progress` (include/event.h:175-176). -/
structure Prog where
  level : Int
  max : List Int
  mark : List Int
  deriving DecidableEq

/-- Before the first call. -/
def Prog.init : Prog := ⟨-1, [0, 0, 0], [0, 0, 0]⟩

/-- `a[i] = v` for `int a[3]`. -/
def aput (a : List Int) (i v : Int) : Res (List Int) :=
  if 0 ≤ i ∧ i < a.length then .ok (a.set i.toNat v) else .ub

/-- `a[i]` -/
def aget (a : List Int) (i : Int) : Res Int :=
  if 0 ≤ i then match a[i.toNat]? with
    | some v => .ok v
    | none => .ub
  else .ub

/-- A call of `event_progress_bar` (include/event.h:149-166): level and fraction. -/
abbrev Bar := Int × Option ℚ

/-- `x / y` for doubles converted from integers; `none` is not finite. -/
def qdiv (x y : Option ℚ) : Option ℚ := match x, y with
  | some x, some y => if y = 0 then none else some (x / y)
  | _, _ => none

def qadd (x y : Option ℚ) : Option ℚ := match x, y with
  | some x, some y => some (x + y)
  | _, _ => none

def qmul (x y : Option ℚ) : Option ℚ := match x, y with
  | some x, some y => some (x * y)
  | _, _ => none

/-- The loop over the outer levels (include/event.h:192-195): `n` rounds left, from level `i`. -/
def fracLoop (s : Prog) : Nat → Nat → Option ℚ → Option ℚ → Res (Option ℚ × Option ℚ)
  | 0, _, p, m => .ok (p, m)
  | n + 1, i, p, m =>
    aget s.mark i >>= fun mk => aget s.max i >>= fun mx =>
    fracLoop s n (i + 1) (qadd p (qdiv (qmul m (some mk)) (some mx))) (qmul m (qdiv (some 1) (some mx)))

/-- The argument `type` (include/event.h:70-72) with the marker. -/
inductive PEv where
  | start (m : Int)
  | update (m : Int)
  | stop
  | other

/-- `event_progress` (include/event.h:171-212): the new state and the bar drawn. -/
def Prog.step (s : Prog) : PEv → Res (Prog × Option Bar)
  | .start m =>
    let l := s.level + 1
    (if l < 3 then aput s.max l m >>= fun mx => aput s.mark l 0 >>= fun mk => .ok { level := l, max := mx, mark := mk }
     else .ok { s with level := l }) >>= fun s => .ok (s, some (l, some 0))
  | .update m =>
    if s.level < 0 then .throw
    else if s.level < 3 then
      aput s.mark s.level m >>= fun mk =>
      fracLoop { s with mark := mk } s.level.toNat 0 (some 0) (some 1) >>= fun r =>
      aget mk s.level >>= fun k => aget s.max s.level >>= fun x =>
      .ok ({ s with mark := mk }, some (s.level, qadd r.1 (qdiv (qmul r.2 (some k)) (some x))))
    else .ok (s, none)
  | .stop =>
    (if s.level < 3 then aput s.max s.level 0 >>= fun mx => aput s.mark s.level 0 >>= fun mk => .ok { s with max := mx, mark := mk }
     else .ok s) >>= fun t => .ok ({ t with level := s.level - 1 }, some (s.level, some 1))
  | .other => .throw

/-- What the caller sees of one event. -/
inductive POut where
  | rejected
  | quiet
  | bar (b : Bar)
  deriving DecidableEq

/-- A program reporting progress; a rejected event has changed nothing (include/event.h:188, 209). -/
def prun : Prog → List PEv → Res (Prog × List POut)
  | s, [] => .ok (s, [])
  | s, e :: es => match s.step e with
    | .ok (s, b) => prun s es >>= fun q => .ok (q.1, (match b with | some b => .bar b | none => .quiet) :: q.2)
    | .throw => prun s es >>= fun q => .ok (q.1, .rejected :: q.2)
    | .ub => .ub

end OP.Links
