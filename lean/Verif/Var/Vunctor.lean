import Verif.Basic
import Mathlib.Logic.Basic
/-!
# Variant functors (include/variant.h:340-643)

A class `vunctor<T1,...,Tn>` is the list of its types, with the compile-time relations `castable` and `setable` of
`compare_v` and the conversions between values.  The union of slots is modelled by the one slot that is ever used, the one
of type `k`: every access checks `k` first.  The types are plain values (for pointers see `Owner.lean`).  User functions are
pure and do not throw.  Copying constructs the first slot and writes to the one of type `k`, as if
constructed too.  A place in the list of variables is `none` once the variable was destroyed.
-/
namespace OP.Var

variable {Ty Val : Type}

/-- `vunctor<Ts...>`: its types, `compare_v<U,T>::castable`, `compare_v<U,T>::setable` (include/variant.h:199-217) and the
conversion of a value from one type to another. -/
structure Cls (Ty Val : Type) where
  slots : List Ty
  castable : Ty → Ty → Bool
  setable : Ty → Ty → Bool
  conv : Ty → Ty → Val → Val

/-- `callback f` (include/variant.h:349): a user function `g` returning a `U`, or the lambda of `chain` (:445), which
refers to another variable. -/
inductive Fn (Ty : Type)
  | user (U : Ty) (g : Nat)
  | chain (w : Nat)

/-- A variable: its type index, and the slot of that type (include/variant.h:346-347, 470-478). -/
structure Vun (Ty Val : Type) where
  k : Ty
  t : Val
  f : Option (Fn Ty)
  read : Bool
  written : Bool
  used : Bool

/-- The variables of a program. -/
abbrev St (Ty Val : Type) := List (Option (Vun Ty Val))

/-- A live variable. -/
def look (s : St Ty Val) (v : Nat) : Res (Vun Ty Val) :=
  match s[v]? with
  | some (some x) => .ok x
  | _ => .ub

section
variable [DecidableEq Ty]

/-- The search for the slot a call with a type is for, and the check of the type index there (include/variant.h:383-394,
396-409, 411-423): the first slot with `p`.  The end of the recursion throws (:246-249), though a call that gets there
does not compile. -/
def dispatch (p : Ty → Bool) (k : Ty) : List Ty → Bool
  | [] => false
  | T :: Ts => if p T then decide (k = T) else dispatch p k Ts

/-- `store::get<T>(d)` of the slot of the stored type (include/variant.h:384-389), through the functions it calls.  `fuel`
bounds the depth of the calls; without bound is undefined. -/
def eval (c : Cls Ty Val) (world : Nat → Val) : Nat → St Ty Val → Nat → Res (Val × St Ty Val)
  | 0, _, _ => .ub
  | fuel + 1, s, v => look s v >>= fun x =>
    let s' := s.set v (some { x with read := true })
    match x.f with
    | none => .ok (x.t, s')
    | some (.user U g) => .ok (c.conv U x.k (world g), s')
    | some (.chain w) => eval c world fuel s' w

/-- The first type a value of type `U` can be stored as (include/variant.h:370-379). -/
def place (c : Cls Ty Val) (U : Ty) : Option Ty := c.slots.find? (c.setable U)

/-- Calls on variables. -/
inductive Cmd (Ty Val : Type)
  | new (U : Ty) (u : Val)
  | copy (v : Nat)
  | move (v : Nat)
  | assign (v w : Nat)
  | moveAssign (v w : Nat)
  | setT (v : Nat) (U : Ty) (u : Val)
  | setF (v : Nat) (U : Ty) (g : Nat)
  | chain (v w : Nat)
  | get (v : Nat) (U : Ty)
  | type (v : Nat)
  | reset (v : Nat)
  | unmark (v : Nat)
  | mark (v : Nat)
  | destroy (v : Nat)

/-- What a call does to its caller. -/
inductive Out (Ty Val : Type)
  | done
  | threw
  | val (x : Val)
  | type (T : Ty)
deriving DecidableEq

/-- The depth of calls that cannot be reached without going round a cycle. -/
def depth (s : St Ty Val) : Nat := s.length + 1

/-- One call: construction from a value (include/variant.h:538-541; a value of no type of the class does not compile, and
is counted as rejected), copy (:531-533), which goes through `set` (:425-432), move (:534-536, 433-440), assignment
(:551-562), from a value or function (:564-595, 483-514, 397-422), `chain` (:596-603, 442-448), `get` (:605-609),
`get_type` (:624-626), `mark_reset` (:628-630), `unmark_self_reads` (:632-634), `mark_read_as_used` (:636-643). -/
def step (c : Cls Ty Val) (world : Nat → Val) (s : St Ty Val) : Cmd Ty Val → Res (Out Ty Val × St Ty Val)
  | .new U u => match place c U with
    | some T => .ok (.done, s ++ [some ⟨T, c.conv U T u, none, false, false, false⟩])
    | none => .ok (.threw, s)
  | .copy v => look s v >>= fun x => eval c world (depth s) s v >>= fun r =>
      .ok (.done, r.2 ++ [some ⟨x.k, r.1, none, false, true, false⟩])
  | .move v => look s v >>= fun x =>
      .ok (.done, s.set v (some { x with f := none }) ++ [some ⟨x.k, x.t, x.f, false, true, false⟩])
  | .assign v w => look s v >>= fun x => look s w >>= fun y =>
      if x.k ≠ y.k then .ok (.threw, s)
      else eval c world (depth s) s w >>= fun r => look r.2 v >>= fun x =>
        .ok (.done, r.2.set v (some { x with written := true, t := r.1, f := none }))
  | .moveAssign v w => look s v >>= fun x => look s w >>= fun y =>
      if x.k ≠ y.k then .ok (.threw, s)
      else if v = w then .ok (.done, s.set v (some { x with written := true }))
      else .ok (.done, (s.set v (some { x with written := true, t := y.t, f := y.f })).set w (some { y with f := none }))
  | .setT v U u => look s v >>= fun x =>
      if x.used then .ok (.threw, s)
      else if dispatch (c.setable U) x.k c.slots then
        .ok (.done, s.set v (some { x with written := true, t := c.conv U x.k u, f := none }))
      else .ok (.threw, s)
  | .setF v U g => look s v >>= fun x =>
      if x.used then .ok (.threw, s)
      else if dispatch (c.setable U) x.k c.slots then
        .ok (.done, s.set v (some { x with written := true, f := some (.user U g) }))
      else .ok (.threw, s)
  | .chain v w => look s v >>= fun x => look s w >>= fun y =>
      if x.used then .ok (.threw, s)
      else if x.k ≠ y.k then .ok (.threw, s)
      else .ok (.done, s.set v (some { x with written := true, f := some (.chain w) }))
  | .get v U => look s v >>= fun x =>
      if dispatch (c.castable U) x.k c.slots then
        eval c world (depth s) s v >>= fun r => .ok (.val (c.conv x.k U r.1), r.2)
      else .ok (.threw, s)
  | .type v => look s v >>= fun x => .ok (.type x.k, s)
  | .reset v => look s v >>= fun x =>
      .ok (.done, s.set v (some { x with read := false, written := false, used := false }))
  | .unmark v => look s v >>= fun x => .ok (.done, s.set v (some { x with read := false }))
  | .mark v => look s v >>= fun x =>
      if x.written && (x.used || x.read) then .ok (.threw, s)
      else if x.read then .ok (.done, s.set v (some { x with used := true, read := false }))
      else .ok (.done, s)
  | .destroy v => look s v >>= fun _ => .ok (.done, s.set v none)

/-- A history of calls. -/
def run (c : Cls Ty Val) (world : Nat → Val) (s : St Ty Val) :
    List (Cmd Ty Val) → Res (List (Out Ty Val) × St Ty Val)
  | [] => .ok ([], s)
  | d :: ds => step c world s d >>= fun r => run c world r.2 ds >>= fun t => .ok (r.1 :: t.1, t.2)

end
end OP.Var
