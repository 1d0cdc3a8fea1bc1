import Verif.Basic
/-!
# Doubly linked and owned lists (include/list.h:181-438)

Elements are numbered; `nod i` is the pair `(prev, next)` of element `i`, and `none` if there is no such
object.  All elements belong to the one list `s` (`LElayer` is only created by its `LEsystem`), so `owner`
is not stored.
-/
namespace OP.Links

/-- `list_double` (include/list.h:236-239) and its elements. -/
structure L2 where
  first : Option Nat
  last : Option Nat
  nod : Nat → Option (Option Nat × Option Nat)

/-- A new list (include/list.h:242-244). -/
def L2.init : L2 := ⟨none, none, fun _ => none⟩

/-- Replace one object, or destroy it. -/
def L2.put (s : L2) (i : Nat) (v : Option (Option Nat × Option Nat)) : L2 :=
  { s with nod := fun j => if j = i then v else s.nod j }

/-- Read `i->prev` and `i->next`. -/
def L2.get (s : L2) (i : Nat) : Res (Option Nat × Option Nat) :=
  match s.nod i with
  | some v => .ok v
  | none => .ub

/-- `i->prev = v` -/
def L2.setPrev (s : L2) (i : Nat) (v : Option Nat) : Res L2 := s.get i >>= fun n => .ok (s.put i (some (v, n.2)))

/-- `i->next = v` -/
def L2.setNext (s : L2) (i : Nat) (v : Option Nat) : Res L2 := s.get i >>= fun n => .ok (s.put i (some (n.1, v)))

/-- `listelement_d::listelement_d(p,n)` (include/list.h:194-212) for the new object `e`. -/
def L2.ctorD (s : L2) (e : Nat) (p n : Option Nat) : Res L2 :=
  let s := s.put e (some (p, n))
  match n with
  | some x =>
    s.get x >>= fun nx => match nx.1 with
    | some y =>
      if p ≠ none ∧ p ≠ some y then .throw
      else s.setPrev e (some y) >>= fun s => s.setNext y (some e) >>= fun s => s.setPrev x (some e)
    | none => if p ≠ none then .throw else s.setPrev x (some e)
  | none => match p with
    | some y =>
      s.get y >>= fun ny => (match ny.2 with
        | some x => s.setNext e (some x) >>= fun s => s.setPrev x (some e)
        | none => .ok s) >>= fun s => s.setNext y (some e)
    | none => .ok s

/-- `listelement_o::listelement_o(o,p,n)` (include/list.h:352-371). -/
def L2.create (s : L2) (e : Nat) (p n : Option Nat) : Res L2 :=
  s.ctorD e p n >>= fun s =>
  s.get e >>= fun v =>
  (if v.1 = none ∧ v.2 = none then
    s.setPrev e s.last >>= fun s => match s.last with
    | some l => s.setNext l (some e)
    | none => .ok s
  else .ok s) >>= fun s =>
  s.get e >>= fun v =>
  (if v.1 = none then
    if s.first ≠ v.2 then .throw else .ok { s with first := some e }
  else .ok s) >>= fun s =>
  if v.2 = none then
    if s.last ≠ v.1 then .throw else .ok { s with last := some e }
  else .ok s

/-- `~listelement_d` (include/list.h:219-224). -/
def L2.dtorD (s : L2) (e : Nat) : Res L2 :=
  s.get e >>= fun v =>
  (match v.1 with | some p => s.setNext p v.2 | none => .ok s) >>= fun s =>
  (match v.2 with | some n => s.setPrev n v.1 | none => .ok s) >>= fun s =>
  .ok (s.put e none)

/-- `~listelement_o` (include/list.h:378-385), then `~listelement_d`. -/
def L2.destroy (s : L2) (e : Nat) : Res L2 :=
  s.get e >>= fun v =>
  let s := if v.1 = none then { s with first := v.2 } else s
  let s := if v.2 = none then { s with last := v.1 } else s
  s.dtorD e

/-- `list_double::empty` (include/list.h:332-335) of an owned list; `none` if it has not ended. -/
def L2.empty : Nat → L2 → Res (Option L2)
  | 0, _ => .ok none
  | f + 1, s => match s.first with
    | none => .ok (some s)
    | some e => s.destroy e >>= fun s => L2.empty f s

/-- `list_double::empty` (include/list.h:332-335) of elements that are plain `listelement_d`. -/
def L2.emptyD : Nat → L2 → Res (Option L2)
  | 0, _ => .ok none
  | f + 1, s => match s.first with
    | none => .ok (some s)
    | some e => s.dtorD e >>= fun s => L2.emptyD f s

/-- `list_double::insert` (include/list.h:262-285). -/
def L2.insert (s : L2) (e : Nat) : Res L2 :=
  s.get e >>= fun v =>
  (if v.1 = none ∧ v.2 = none then
    s.setPrev e s.last >>= fun s => match s.last with
    | some l => s.setNext l (some e)
    | none => .ok s
  else .ok s) >>= fun s =>
  s.get e >>= fun v =>
  (if v.1 = none then
    if s.first ≠ v.2 then .throw
    else match v.2 with
      | some n => ({ s with first := some e } : L2).setPrev n (some e)
      | none => .ok { s with first := some e }
  else .ok s) >>= fun s =>
  if v.2 = none then
    if s.last ≠ v.1 then .throw
    else match v.1 with
      | some p => ({ s with last := some e } : L2).setNext p (some e)
      | none => .ok { s with last := some e }
  else .ok s

/-- `list_double::push` (include/list.h:305-314). -/
def L2.push (s : L2) (e : Nat) : Res L2 :=
  s.get e >>= fun v =>
  (if v.1 = none ∧ v.2 = none then
    s.setNext e s.first >>= fun s => match s.first with
    | some n => s.setPrev n (some e)
    | none => .ok s
  else .ok s) >>= fun s => s.insert e

/-- A new element that is not in a list yet. -/
def L2.fresh (s : L2) (e : Nat) : L2 := s.put e (some (none, none))

/-- The walk along `next` (include/list.h:324-330): the elements visited. -/
def L2.fwd (s : L2) : Nat → Option Nat → Res (Option (List Nat))
  | _, none => .ok (some [])
  | 0, some _ => .ok none
  | f + 1, some x => s.get x >>= fun v => L2.fwd s f v.2 >>= fun r => .ok (r.map (x :: ·))

/-- The walk along `prev`. -/
def L2.bwd (s : L2) : Nat → Option Nat → Res (Option (List Nat))
  | _, none => .ok (some [])
  | 0, some _ => .ok none
  | f + 1, some x => s.get x >>= fun v => L2.bwd s f v.1 >>= fun r => .ok (r.map (x :: ·))

/-- `listelement_o::position` (include/list.h:387-393): from `t`, with `s` elements counted; a null `t` is read. -/
def L2.position (s : L2) (e : Nat) : Nat → Option Nat → Nat → Res (Option Nat)
  | _, none, _ => .ub
  | 0, some _, _ => .ok none
  | f + 1, some x, c => if x = e then .ok (some c) else s.get x >>= fun v => L2.position s e f v.2 (c + 1)

/-- The loop of `LEsystem::layer` (src/pavement.cpp:225-226). -/
def layerLoop (s : L2) : Nat → Nat → Res Nat
  | 0, x => .ok x
  | l + 1, x => s.get x >>= fun v => match v.2 with
    | none => .ok x
    | some y => layerLoop s l y

/-- `LEsystem::layer` (src/pavement.cpp:219-228). -/
def L2.layer (s : L2) (l : Nat) : Res Nat :=
  match s.first with
  | none => .ub
  | some x => layerLoop s l x

/-- `LEsystem::addlayer` (src/pavement.cpp:185-198) with the new layer `e`; `none` is `UINT_MAX`. -/
def L2.addlayer (s : L2) (e : Nat) (p : Option Nat) : Res L2 :=
  match p, s.first with
  | some p, some x => layerLoop s p x >>= fun pl => s.create e none (some pl)
  | _, _ => s.create e s.last none

/-- The loop of `LEsystem::removelayer` (src/pavement.cpp:207-208). -/
def removeWalk (s : L2) : Nat → Option Nat → Res (Option Nat)
  | 0, x => .ok x
  | _ + 1, none => .ok none
  | l + 1, some x => s.get x >>= fun v => removeWalk s l v.2

/-- `LEsystem::removelayer` (src/pavement.cpp:200-210). -/
def L2.removelayer (s : L2) (l : Nat) : Res L2 :=
  removeWalk s l s.first >>= fun x => match x with
  | none => .ok s
  | some e => s.destroy e

end OP.Links
