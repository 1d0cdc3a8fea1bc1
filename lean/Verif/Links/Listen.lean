import Verif.Links.Single
/-!
# Dispatchers and listeners (include/listen.h)

Dispatchers, listeners and sinks are numbered objects.  A listener's private list of removers
(include/listen.h:206-222) is only appended to and emptied from the front, and is kept as a list of the
(dispatcher, sink) pairs captured by the removers.  Handlers do not attach or detach anybody.  Object
addresses are not reused.
-/
namespace OP.Links

/-- All dispatchers (include/listen.h:95-166) with their list heads, the sinks (154-165) with their `next`
members and the listener each handler belongs to, and the listeners (175-223). -/
structure Hub where
  disp : Nat → Option (Option Nat)
  nxt : Heap
  who : Nat → Nat
  lis : Nat → Option (List (Nat × Nat))
  fresh : Nat

/-- Nothing created yet. -/
def Hub.init : Hub := ⟨fun _ => none, fun _ => none, fun _ => 0, fun _ => none, 0⟩

/-- What a `sink **` points to. -/
inductive HLoc where
  | head (d : Nat)
  | next (i : Nat)

/-- `*s` -/
def Hub.rd (s : Hub) : HLoc → Res (Option Nat)
  | .head d => match s.disp d with
    | some p => .ok p
    | none => .ub
  | .next i => match s.nxt i with
    | some p => .ok p
    | none => .ub

/-- `*s = v` -/
def Hub.wr (s : Hub) (v : Option Nat) : HLoc → Res Hub
  | .head d => match s.disp d with
    | some _ => .ok { s with disp := fun j => if j = d then some v else s.disp j }
    | none => .ub
  | .next i => match s.nxt i with
    | some _ => .ok { s with nxt := s.nxt.set i v }
    | none => .ub

/-- The loop of `attach` (include/listen.h:110-114). -/
def attachLoop (s : Hub) (t : Option Nat) : Nat → HLoc → Res (Option HLoc)
  | 0, _ => .ok none
  | f + 1, l =>
    s.rd l >>= fun p =>
    if p = t then .ok (some l)
    else match p with
      | none => .ub
      | some i => s.rd (.next i) >>= fun q =>
        if q = none ∧ t ≠ none then .throw else attachLoop s t f (.next i)

/-- `dispatcher::attach` (include/listen.h:105-129) for listener `l`: the new state and the sink captured by the
remover; a loop that has not ended counts as undefined. -/
def Hub.attach (f : Nat) (s : Hub) (d l : Nat) (before : Option Nat) : Res (Hub × Nat) :=
  attachLoop s before f (.head d) >>= fun r => match r with
  | none => .ub
  | some k =>
    let i := s.fresh
    ({ s with nxt := s.nxt.set i none, who := fun j => if j = i then l else s.who j, fresh := i + 1 } : Hub).wr (some i) k >>= fun s =>
    s.wr before (.next i) >>= fun s => .ok (s, i)

/-- `listener::listen` (include/listen.h:196-202). -/
def Hub.listen (f : Nat) (s : Hub) (l d : Nat) (before : Option Nat) : Res Hub :=
  match s.lis l with
  | none => .ub
  | some S => s.attach f d l before >>= fun r =>
    .ok { r.1 with lis := fun j => if j = l then some (S ++ [(d, r.2)]) else r.1.lis j }

/-- The remover (include/listen.h:118-128). -/
def removerLoop (s : Hub) (t : Nat) : Nat → HLoc → Res Hub
  | 0, _ => .ub
  | f + 1, k => s.rd k >>= fun p => match p with
    | none => .ok s
    | some i =>
      if i = t then
        s.rd (.next t) >>= fun q => s.wr q k >>= fun s => .ok { s with nxt := fun j => if j = t then none else s.nxt j }
      else removerLoop s t f (.next i)

/-- The loop of `~listener` (include/listen.h:189-192). -/
def dropAll (f : Nat) : Hub → List (Nat × Nat) → Res Hub
  | s, [] => .ok s
  | s, (d, i) :: S => removerLoop s i f (.head d) >>= fun s => dropAll f s S

/-- `~listener` (include/listen.h:186-193). -/
def Hub.dropListener (f : Nat) (s : Hub) (l : Nat) : Res Hub :=
  match s.lis l with
  | none => .ub
  | some S => dropAll f s S >>= fun s => .ok { s with lis := fun j => if j = l then none else s.lis j }

/-- The loop of `dispatch` (include/listen.h:144-148): the listeners called. -/
def dispatchLoop (s : Hub) : Nat → Option Nat → Res (List Nat)
  | _, none => .ok []
  | 0, some _ => .ub
  | f + 1, some i => match s.nxt i with
    | none => .ub
    | some p => dispatchLoop s f p >>= fun r => .ok (s.who i :: r)

/-- `dispatcher::dispatch` (include/listen.h:143-149). -/
def Hub.dispatch (f : Nat) (s : Hub) (d : Nat) : Res (List Nat) :=
  match s.disp d with
  | none => .ub
  | some h => dispatchLoop s f h

/-- `~dispatcher` (include/listen.h:138-141), with assertions compiled out. -/
def Hub.dropDispatcher (s : Hub) (d : Nat) : Res Hub :=
  match s.disp d with
  | none => .ub
  | some _ => .ok { s with disp := fun j => if j = d then none else s.disp j }

/-- A new dispatcher. -/
def Hub.newDispatcher (s : Hub) (d : Nat) : Hub := { s with disp := fun j => if j = d then some none else s.disp j }

/-- A new listener. -/
def Hub.newListener (s : Hub) (l : Nat) : Hub := { s with lis := fun j => if j = l then some [] else s.lis j }

/-- A program's use of the event system. -/
inductive HOp where
  | newD (d : Nat)
  | newL (l : Nat)
  | listen (l d : Nat) (before : Option Nat)
  | dispatch (d : Nat)
  | dropL (l : Nat)
  | dropD (d : Nat)

/-- What it sees. -/
inductive HOut where
  | done
  | rejected
  | called (ls : List Nat)
  deriving DecidableEq

/-- One operation; a rejected `listen` has changed nothing (include/listen.h:113 throws before any write). -/
def HOp.run (f : Nat) (s : Hub) : HOp → Res (Hub × HOut)
  | newD d => .ok (s.newDispatcher d, .done)
  | newL l => .ok (s.newListener l, .done)
  | listen l d b => match s.listen f l d b with
    | .ok s => .ok (s, .done)
    | .throw => .ok (s, .rejected)
    | .ub => .ub
  | dispatch d => s.dispatch f d >>= fun r => .ok (s, .called r)
  | dropL l => s.dropListener f l >>= fun s => .ok (s, .done)
  | dropD d => s.dropDispatcher d >>= fun s => .ok (s, .done)

/-- A whole program. -/
def hrun (f : Nat) : Hub → List HOp → Res (Hub × List HOut)
  | s, [] => .ok (s, [])
  | s, o :: os => o.run f s >>= fun r => hrun f r.1 os >>= fun q => .ok (q.1, r.2 :: q.2)

end OP.Links
