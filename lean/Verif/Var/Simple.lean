import Verif.Var.Vunctor
/-!
# Simple variants, realization and fixation (include/variant.h:80-175, 296-325, 616-623, 805-1001)

As in `Vunctor.lean` the union is the slot of type `k`.  A type is plain (a number) or a class with its own assignment; for
pointers see `Owner.lean`.  Of a simple variant the copy constructor and `fixate` do not construct the slot before they
assign to it: for a class that is undefined.  Construction and assignment from a vunctor (:916-918, 933-938) do not compile, nor
does assignment from a variable that is not constant (:950-959).
-/
namespace OP.Var.Simple

variable {Ty Val : Type}

/-- A simple variant: its type index and the slot of that type (include/variant.h:811, 894-895). -/
structure SVar (Ty Val : Type) where
  k : Ty
  t : Val
deriving DecidableEq

/-- The variables of a program; `none` once destroyed. -/
abbrev SSt (Ty Val : Type) := List (Option (SVar Ty Val))

/-- A live variable. -/
def slook (s : SSt Ty Val) (v : Nat) : Res (SVar Ty Val) :=
  match s[v]? with
  | some (some x) => .ok x
  | _ => .ub

/-- `wrap_type::set` or `move` (include/variant.h:110-131) on a slot that was not constructed. -/
def putRaw (plain : Ty → Bool) (T : Ty) (a : Val) : Res Val := if plain T then .ok a else .ub

/-- Calls on simple variants. -/
inductive SCmd (Ty Val : Type)
  | new (U : Ty) (u : Val)
  | copy (v : Nat)
  | move (v : Nat)
  | assign (v w : Nat)
  | moveAssign (v w : Nat)
  | setT (v : Nat) (U : Ty) (u : Val)
  | get (v : Nat) (U : Ty)
  | type (v : Nat)
  | destroy (v : Nat)

section
variable [DecidableEq Ty]

/-- One call: construction from a value (include/variant.h:925-928, 828-838), copy and move (:919-924, 822-827, 866-877; a
move copies first), assignment (:939-949), from a value (:950-959, 855-865), `get` (:960-964, 843-853), `get_type`
(:969-971) and the destructor (:930-932). -/
def sstep (c : Cls Ty Val) (plain : Ty → Bool) (s : SSt Ty Val) : SCmd Ty Val → Res (Out Ty Val × SSt Ty Val)
  | .new U u => match place c U with
    | some T => .ok (.done, s ++ [some ⟨T, c.conv U T u⟩])
    | none => .ok (.threw, s)
  | .copy v => slook s v >>= fun x => putRaw plain x.k x.t >>= fun a => .ok (.done, s ++ [some ⟨x.k, a⟩])
  | .move v => slook s v >>= fun x => putRaw plain x.k x.t >>= fun a => .ok (.done, s ++ [some ⟨x.k, a⟩])
  | .assign v w => slook s v >>= fun x => slook s w >>= fun y =>
      if x.k ≠ y.k then .ok (.threw, s) else .ok (.done, s.set v (some ⟨x.k, y.t⟩))
  | .moveAssign v w => slook s v >>= fun x => slook s w >>= fun y =>
      if x.k ≠ y.k then .ok (.threw, s) else .ok (.done, s.set v (some ⟨x.k, y.t⟩))
  | .setT v U u => slook s v >>= fun x =>
      if dispatch (c.setable U) x.k c.slots then .ok (.done, s.set v (some ⟨x.k, c.conv U x.k u⟩)) else .ok (.threw, s)
  | .get v U => slook s v >>= fun x =>
      if dispatch (c.castable U) x.k c.slots then .ok (.val (c.conv x.k U x.t), s) else .ok (.threw, s)
  | .type v => slook s v >>= fun x => .ok (.type x.k, s)
  | .destroy v => slook s v >>= fun _ => .ok (.done, s.set v none)

/-- A history of calls. -/
def srun (c : Cls Ty Val) (plain : Ty → Bool) (s : SSt Ty Val) : List (SCmd Ty Val) → Res (List (Out Ty Val) × SSt Ty Val)
  | [] => .ok ([], s)
  | d :: ds => sstep c plain s d >>= fun r => srun c plain r.2 ds >>= fun t => .ok (r.1 :: t.1, t.2)

/-- `store::set_r` (include/variant.h:459-468, 885-894): both lists of types are gone through together, and at the slot of the
type of the source `set_t` looks for its place from there on.  The result is the type index. -/
def setR (setable : Ty → Ty → Bool) (tgt : Ty → Ty) (k : Ty) : List Ty → Option Ty
  | [] => none
  | V :: Vs => if k = V then (if dispatch (setable (tgt V)) (tgt V) ((V :: Vs).map tgt) then some (tgt V) else none)
    else setR setable tgt k Vs

/-- `vunctor::realize` (include/variant.h:616-620): `real` and `conv` are `real_type<V>::real_t` and `real_type<V>::realize`
(:146-175). -/
def realize (c : Cls Ty Val) (real : Ty → Ty) (conv : Ty → Val → Val) (world : Nat → Val) (s : St Ty Val) (v : Nat) :
    Res (Vun Ty Val × St Ty Val) :=
  look s v >>= fun x => match setR c.setable real x.k c.slots with
    | none => .throw
    | some i => eval c world (depth s) s v >>= fun r => .ok (⟨i, conv x.k r.1, none, false, true, false⟩, r.2)

/-- `vunctor::fixate` (include/variant.h:992-997): `cast` is `cast_type<V>::type` (:186-196). -/
def fixate (c : Cls Ty Val) (plain : Ty → Bool) (cast : Ty → Ty) (world : Nat → Val) (s : St Ty Val) (v : Nat) :
    Res (SVar Ty Val × St Ty Val) :=
  look s v >>= fun x => match setR c.setable cast x.k c.slots with
    | none => .throw
    | some i => eval c world (depth s) s v >>= fun r => putRaw plain i (c.conv x.k i r.1) >>= fun a => .ok (⟨i, a⟩, r.2)

end
end OP.Var.Simple
