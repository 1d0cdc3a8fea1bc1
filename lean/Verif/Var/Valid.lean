import Verif.Var.Vunctor
/-!
# Validators (include/variant.h:266-294, 645-800)

A validator holds a function that says whether a value is valid, in the slot of its type `k`.  The class `c` gives the
types and `compare_v` as in `Vunctor.lean`; a function taking a `U` is stored in the first slot `T` with `castable U T`.
Functions are pure and do not throw.  Assignment from a function (:781-790) does not compile, nor does assignment from a
validator that is not constant.
-/
namespace OP.Var.Valid

variable {Ty Val : Type}

/-- A validator: its type and its function, given by the type it takes and a name; `none` after it was moved from. -/
structure Vdr (Ty : Type) where
  k : Ty
  f : Option (Ty × Nat)
deriving DecidableEq

/-- The validators and the vunctors of a program. -/
structure VSt (Ty Val : Type) where
  vs : List (Option (Vdr Ty))
  vars : St Ty Val

/-- A live validator. -/
def vlook (s : VSt Ty Val) (v : Nat) : Res (Vdr Ty) :=
  match s.vs[v]? with
  | some (some x) => .ok x
  | _ => .ub

/-- Calls on validators. -/
inductive VCmd (Ty Val : Type)
  | new (U : Ty) (g : Nat)
  | copy (v : Nat)
  | move (v : Nat)
  | assign (v w : Nat)
  | moveAssign (v w : Nat)
  | check (v : Nat) (U : Ty) (u : Val)
  | checkVar (v w : Nat)
  | destroy (v : Nat)

/-- What a call does to its caller. -/
inductive VOut
  | done
  | threw
  | valid (b : Bool)
deriving DecidableEq

/-- `f(u)` for a value `u` of type `T`: the function of a validator moved from is empty, and throws. -/
def call (c : Cls Ty Val) (pred : Nat → Val → Bool) (T : Ty) (u : Val) : Option (Ty × Nat) → VOut
  | none => .threw
  | some (U, g) => .valid (pred g (c.conv T U u))

section
variable [DecidableEq Ty]

/-- One call: construction (include/variant.h:757-764, 666-679), copy and move (:751-756, 659-664), which assign to a
`std::function` that was not constructed, assignment (:769-780, 721-732), `validate` for a value (:792-795, 684-696) and for a
vunctor of the same types (:796-800, 697-703), where the vunctor is converted to the type (:610-614), and the destructor. -/
def vstep (c : Cls Ty Val) (pred : Nat → Val → Bool) (world : Nat → Val) (s : VSt Ty Val) : VCmd Ty Val → Res (VOut × VSt Ty Val)
  | .new U g => match c.slots.find? (c.castable U) with
    | some T => .ok (.done, { s with vs := s.vs ++ [some ⟨T, some (U, g)⟩] })
    | none => .ok (.threw, s)
  | .copy v => vlook s v >>= fun _ => .ub
  | .move v => vlook s v >>= fun _ => .ub
  | .assign v w => vlook s v >>= fun x => vlook s w >>= fun y =>
      if x.k ≠ y.k then .ok (.threw, s) else .ok (.done, { s with vs := s.vs.set v (some ⟨x.k, y.f⟩) })
  | .moveAssign v w => vlook s v >>= fun x => vlook s w >>= fun y =>
      if x.k ≠ y.k then .ok (.threw, s)
      else if v = w then .ok (.done, s)
      else .ok (.done, { s with vs := (s.vs.set v (some ⟨x.k, y.f⟩)).set w (some ⟨y.k, none⟩) })
  | .check v U u => vlook s v >>= fun x =>
      if dispatch (fun T => c.castable T U) x.k c.slots then .ok (call c pred x.k (c.conv U x.k u) x.f, s) else .ok (.threw, s)
  | .checkVar v w => vlook s v >>= fun x => look s.vars w >>= fun y =>
      if x.k ≠ y.k then .ok (.threw, s)
      else if dispatch (c.castable x.k) y.k c.slots then
        eval c world (depth s.vars) s.vars w >>= fun r => .ok (call c pred x.k (c.conv y.k x.k r.1) x.f, { s with vars := r.2 })
      else .ok (.threw, s)
  | .destroy v => vlook s v >>= fun _ => .ok (.done, { s with vs := s.vs.set v none })

/-- A history of calls. -/
def vrun (c : Cls Ty Val) (pred : Nat → Val → Bool) (world : Nat → Val) (s : VSt Ty Val) :
    List (VCmd Ty Val) → Res (List VOut × VSt Ty Val)
  | [] => .ok ([], s)
  | d :: ds => vstep c pred world s d >>= fun r => vrun c pred world r.2 ds >>= fun t => .ok (r.1 :: t.1, t.2)

end
end OP.Var.Valid
