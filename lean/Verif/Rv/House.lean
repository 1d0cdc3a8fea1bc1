import Verif.Basic
import Verif.SetFam.Sort
import Mathlib.Order.Defs.LinearOrder
/-!
# Random variables, their realizations and the house (include/randomvar.h)

Pointers are places in heaps that only grow; a place is `none` once its object was deleted.  Reference counts are exact
(they are 32-bit in the code).  Calls are made from one thread, so the mutex of the house is not modelled except where it
is used after it was destroyed.  A distribution is what the rest of the code sees of `struct random`: whether it is
randomizable, its mean and its value for a standard normal number.  `dice h n` is the `n`th standard normal number drawn
from house `h`.
-/
namespace OP.Rv
open OP.SetFam

/-- What a distribution answers (include/randomvar.h:242-292): `randomizable`, `mean` and `scale_stdnormal`. -/
structure Dist (F Z : Type) where
  randomizable : Bool
  mean : F
  scale : Z → F

/-- `struct random` with its count (include/randomvar.h:235-292). -/
structure Rnd (F Z : Type) where
  dist : Dist F Z
  cnt : Nat

/-- `class realized` (include/randomvar.h:88-112). -/
structure Rd (κ F : Type) where
  trial : Nat
  key : κ
  dealer : Nat
  rv : Nat
  v : F
  cnt : Nat
  rolled : Bool

/-- `class house` (include/randomvar.h:194-233): the pointers of the handles in its store, and how many numbers were drawn. -/
structure House where
  store : List Nat
  drawn : Nat

/-- Houses, random variables, realized objects, and the program's `randomvar` and `realization` objects. -/
structure St (κ F Z : Type) where
  houses : List (Option House)
  rnds : List (Option (Rnd F Z))
  rds : List (Option (Rd κ F))
  rvs : List (Option (Nat × Option Nat))
  hs : List (Option (Option Nat))

variable {κ F Z : Type}

/-- Nothing yet. -/
def St.init : St κ F Z := ⟨[], [], [], [], []⟩

/-- A live object in a heap, or a live variable of the program. -/
def look {α : Type} (l : List (Option α)) (i : Nat) : Res α :=
  match l[i]? with
  | some (some a) => .ok a
  | _ => .ub

/-- A pointer that must not be null. -/
def nn (p : Option Nat) : Res Nat :=
  match p with
  | some i => .ok i
  | none => .ub

/-- `~realized` (include/randomvar.h:541-550): the house is asked to forget the object (:220-228).  With the house gone its
mutex and store are used after they were destroyed. -/
def delRd (s : St κ F Z) (i : Nat) (r : Rd κ F) : Res (St κ F Z) :=
  look s.houses r.dealer >>= fun h =>
    .ok { s with rds := s.rds.set i none, houses := s.houses.set r.dealer (some { h with store := h.store.erase i }) }

/-- `if (me && --me->ref_cnt == 0) delete me;` (include/randomvar.h:139-140, 150-151) -/
def decRd (s : St κ F Z) : Option Nat → Res (St κ F Z)
  | none => .ok s
  | some i => look s.rds i >>= fun r =>
    if r.cnt - 1 = 0 then delRd s i r else .ok { s with rds := s.rds.set i (some { r with cnt := r.cnt - 1 }) }

/-- `me->ref_cnt++;` -/
def incRd (s : St κ F Z) (p : Option Nat) : Res (St κ F Z) :=
  nn p >>= fun i => look s.rds i >>= fun r => .ok { s with rds := s.rds.set i (some { r with cnt := r.cnt + 1 }) }

/-- `if (rv && --rv->ref_cnt == 0) delete rv;` (include/randomvar.h:326-327, 338-339) -/
def decRnd (s : St κ F Z) : Option Nat → Res (St κ F Z)
  | none => .ok s
  | some j => look s.rnds j >>= fun q =>
    if q.cnt - 1 = 0 then .ok { s with rnds := s.rnds.set j none }
    else .ok { s with rnds := s.rnds.set j (some { q with cnt := q.cnt - 1 }) }

/-- `rv->ref_cnt++;` -/
def incRnd (s : St κ F Z) (p : Option Nat) : Res (St κ F Z) :=
  nn p >>= fun j => look s.rnds j >>= fun q => .ok { s with rnds := s.rnds.set j (some { q with cnt := q.cnt + 1 }) }

/-- `realization::operator >` (include/randomvar.h:176-179) on the keys of two store entries. -/
def gtKey [LinearOrder κ] (a b : Nat × Nat × κ) : Bool :=
  decide (a.2.1 > b.2.1) || (decide (a.2.1 = b.2.1) && decide (a.2.2 > b.2.2))

/-- The keys of the store.  The code follows the pointers at each comparison. -/
def keys (s : St κ F Z) : List Nat → Res (List (Nat × Nat × κ))
  | [] => .ok []
  | i :: is => look s.rds i >>= fun r => keys s is >>= fun ks => .ok ((i, r.trial, r.key) :: ks)

/-- `realized::rolldice` (include/randomvar.h:552-562) of object `i` in house `h`. -/
def rollOne (dice : Nat → Nat → Z) (s : St κ F Z) (i : Nat) : Res (St κ F Z) :=
  look s.rds i >>= fun r =>
    if r.rolled then .ok s
    else look s.rnds r.rv >>= fun q =>
      if q.dist.randomizable then
        look s.houses r.dealer >>= fun h =>
          .ok { s with rds := s.rds.set i (some { r with v := q.dist.scale (dice r.dealer h.drawn), rolled := true }),
                       houses := s.houses.set r.dealer (some { h with drawn := h.drawn + 1 }) }
      else .ok { s with rds := s.rds.set i (some { r with v := q.dist.mean, rolled := true }) }

/-- The loop of `house::rolldice` (include/randomvar.h:571-573). -/
def rollAll (dice : Nat → Nat → Z) (s : St κ F Z) : List Nat → Res (St κ F Z)
  | [] => .ok s
  | i :: is => rollOne dice s i >>= fun s => rollAll dice s is

/-- `house::rolldice` (include/randomvar.h:564-574): the store is sorted in place by `oset::sort` (C04), then rolled. -/
def roll [LinearOrder κ] (dice : Nat → Nat → Z) (s : St κ F Z) (h : Nat) : Res (St κ F Z) :=
  look s.houses h >>= fun H => keys s H.store >>= fun ks => QS.sort (QS.lo gtKey) ks ks.length >>= fun ks =>
    rollAll dice { s with houses := s.houses.set h (some { H with store := ks.map (·.1) }) } (ks.map (·.1))

/-- Destruction of the handles in the store of a house that is being destroyed: the last handle to an object deletes it,
and its destructor locks the mutex that was destroyed before the store (include/randomvar.h:230-232). -/
def dropStore (s : St κ F Z) : List Nat → Res (St κ F Z)
  | [] => .ok s
  | i :: is => look s.rds i >>= fun r =>
    if r.cnt - 1 = 0 then .ub
    else dropStore { s with rds := s.rds.set i (some { r with cnt := r.cnt - 1 }) } is

/-- What a program does. -/
inductive Cmd (κ F Z : Type)
  | house
  | endHouse (h : Nat)
  | makeRv (h : Nat) (d : Dist F Z)
  | copyRv (x : Nat)
  | moveRv (x : Nat)
  | assignRv (x y : Nat)
  | swapRv (x y : Nat)
  | endRv (x : Nat)
  | realize (x : Nat)
  | nullH
  | copyH (a : Nat)
  | moveH (a : Nat)
  | assignH (a b : Nat)
  | swapH (a b : Nat)
  | endH (a : Nat)
  | value (a : Nat)
  | overwrite (a : Nat) (f : F)
  | setKey (a : Nat) (t : Nat) (k : κ)
  | roll (h : Nat)

/-- What a call returns. -/
inductive Out (F : Type)
  | done
  | val (f : F)

/-- One call: construction of a house (include/randomvar.h:198-200), `house::make_rv` (:577-597) with the constructor of
`randomvar` (:319-324), copy (:311-314), move (:315-318), assignment, which leaves `dealer` (:325-331), move assignment,
which swaps (:332-336), destructor (:337-340); `realize` (:341-344) with the constructor of `realized` (:530-539) and
`add_realization` (:215-219), `realization` by default (:123-125), copy (:126-129), move (:130-133), assignment (:138-144),
move assignment (:145-148), destructor (:149-152), value, overwrite and key (:153-165). -/
def step [LinearOrder κ] (dice : Nat → Nat → Z) (key0 : κ) (s : St κ F Z) : Cmd κ F Z → Res (Out F × St κ F Z)
  | .house => .ok (.done, { s with houses := s.houses ++ [some ⟨[], 0⟩] })
  | .endHouse h => look s.houses h >>= fun H =>
      dropStore { s with houses := s.houses.set h none } H.store >>= fun s => .ok (.done, s)
  | .makeRv h d => look s.houses h >>= fun _ =>
      .ok (.done, { s with rnds := s.rnds ++ [some ⟨d, 1⟩], rvs := s.rvs ++ [some (h, some s.rnds.length)] })
  | .copyRv x => look s.rvs x >>= fun X => incRnd s X.2 >>= fun s =>
      .ok (.done, { s with rvs := s.rvs ++ [some X] })
  | .moveRv x => look s.rvs x >>= fun X =>
      .ok (.done, { s with rvs := s.rvs.set x (some (X.1, none)) ++ [some X] })
  | .assignRv x y => look s.rvs x >>= fun X => look s.rvs y >>= fun Y => decRnd s X.2 >>= fun s =>
      incRnd s Y.2 >>= fun s => .ok (.done, { s with rvs := s.rvs.set x (some (X.1, Y.2)) })
  | .swapRv x y => look s.rvs x >>= fun X => look s.rvs y >>= fun Y =>
      .ok (.done, { s with rvs := (s.rvs.set x (some Y)).set y (some X) })
  | .endRv x => look s.rvs x >>= fun X => decRnd s X.2 >>= fun s => .ok (.done, { s with rvs := s.rvs.set x none })
  | .realize x => look s.rvs x >>= fun X => nn X.2 >>= fun j => look s.rnds j >>= fun q =>
      look s.houses X.1 >>= fun H =>
      .ok (.done, { s with rds := s.rds ++ [some ⟨4294967295, key0, X.1, j, q.dist.mean, 2, false⟩],
                           houses := s.houses.set X.1 (some { H with store := H.store ++ [s.rds.length] }),
                           hs := s.hs ++ [some (some s.rds.length)] })
  | .nullH => .ok (.done, { s with hs := s.hs ++ [some none] })
  | .copyH a => look s.hs a >>= fun p => incRd s p >>= fun s => .ok (.done, { s with hs := s.hs ++ [some p] })
  | .moveH a => look s.hs a >>= fun p => .ok (.done, { s with hs := s.hs.set a (some none) ++ [some p] })
  | .assignH a b => look s.hs a >>= fun p => look s.hs b >>= fun q => decRd s p >>= fun s => incRd s q >>= fun s =>
      .ok (.done, { s with hs := s.hs.set a (some q) })
  | .swapH a b => look s.hs a >>= fun p => look s.hs b >>= fun q =>
      .ok (.done, { s with hs := (s.hs.set a (some q)).set b (some p) })
  | .endH a => look s.hs a >>= fun p => decRd s p >>= fun s => .ok (.done, { s with hs := s.hs.set a none })
  | .value a => look s.hs a >>= fun p => nn p >>= fun i => look s.rds i >>= fun r => .ok (.val r.v, s)
  | .overwrite a f => look s.hs a >>= fun p => nn p >>= fun i => look s.rds i >>= fun r =>
      .ok (.done, { s with rds := s.rds.set i (some { r with v := f }) })
  | .setKey a t k => look s.hs a >>= fun p => nn p >>= fun i => look s.rds i >>= fun r =>
      .ok (.done, { s with rds := s.rds.set i (some { r with trial := t, key := k }) })
  | .roll h => roll dice s h >>= fun s => .ok (.done, s)

/-- A history of calls. -/
def run [LinearOrder κ] (dice : Nat → Nat → Z) (key0 : κ) (s : St κ F Z) : List (Cmd κ F Z) → Res (List (Out F) × St κ F Z)
  | [] => .ok ([], s)
  | c :: cs => step dice key0 s c >>= fun r => run dice key0 r.2 cs >>= fun t => .ok (r.1 :: t.1, t.2)

end OP.Rv
