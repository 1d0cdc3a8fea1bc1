import Verif.Basic
/-!
# The task queue (include/task.h)

One thread owns the queue and makes the calls; `n` workers run `worker()`.  Every critical section of the
mutex is one step, as is the run of a task outside the lock and each callback.  A task or a callback that
throws is the choice `thrown` of the step that delivers the result.  `sub`, `ran`, `dlv` and `dropped` record what
happened; the code does not store them.

Not modelled: failures of the standard library inside the worker (include/task.h:215-227), which would
need the library to run out of memory, and tasks that call the queue.
-/
namespace OP.Par

/-- A worker thread: asleep in `cv.wait` (include/task.h:203-205), about to test the predicate with the lock held,
running a task (include/task.h:212), or returned. -/
inductive W where
  | asleep
  | awake
  | running (t : Nat)
  | exited
  deriving DecidableEq

/-- Where the owner is.  `d` says whether `drain` was called by the destructor, `fin` is the local `done`. -/
inductive Pc where
  | idle
  | tryRes
  | top (d : Bool)
  | res (d fin : Bool)
  | hold (d fin : Bool)
  | call (t : Nat) (k : Option (Bool × Bool))
  | kill
  | join
  | gone
  deriving DecidableEq

/-- The members (include/task.h:281-297), the threads, and the records. -/
structure TQ where
  tasks : List Nat
  results : List Nat
  work : Nat → W
  ready : Nat → Bool
  exiting : Bool
  empty : Bool
  abort : Bool
  single : Bool
  pc : Pc
  sub : List Nat
  ran : List Nat
  dlv : List Nat
  dropped : List Nat

/-- After the constructor (include/task.h:117-123). -/
def TQ.init : TQ := ⟨[], [], fun _ => .awake, fun _ => false, false, false, false, false, .idle, [], [], [], []⟩

/-- What happens next.  `pick` is the thread `notify_one` wakes. -/
inductive Lab where
  | enqueue (t pick : Nat)
  | drain
  | single
  | destroy
  | main (pick : Nat) (thrown : Bool)
  | worker (k : Nat)
  | spurious (k : Nat)

/-- Change the state of one thread. -/
def TQ.setW (s : TQ) (k : Nat) (w : W) : TQ := { s with work := fun j => if j = k then w else s.work j }

/-- `cv.notify_one()`: some sleeping thread wakes, if there is one. -/
def TQ.notifyOne (n : Nat) (s : TQ) (pick : Nat) : Option TQ :=
  if pick < n ∧ s.work pick = .asleep then some (s.setW pick .awake)
  else if ∀ k, k < n → s.work k ≠ .asleep then some s
  else none

/-- `cv.notify_all()` -/
def TQ.notifyAll (s : TQ) : TQ := { s with work := fun j => if s.work j = .asleep then .awake else s.work j }

/-- The end of one round of `drain` (include/task.h:155, 164). -/
def nextPc : Option (Bool × Bool) → Pc
  | none => .idle
  | some (d, fin) => if fin then (if d then .gone else .idle) else .top d

/-- An exception leaves the call; the destructor swallows it (include/task.h:144). -/
def thrownPc : Option (Bool × Bool) → Pc
  | some (true, _) => .gone
  | _ => .idle

/-- The front result is taken (include/task.h:234, 275-277): it is delivered, or dropped after an abort. -/
def TQ.take (s : TQ) (t : Nat) (rs : List Nat) (k : Option (Bool × Bool)) : TQ :=
  if s.abort then { s with results := rs, dropped := s.dropped ++ [t], pc := nextPc k }
  else { s with results := rs, pc := .call t k }

/-- `enqueue` (include/task.h:169-183), up to the end of its critical section. -/
def TQ.enqueue (n : Nat) (s : TQ) (t pick : Nat) : Option TQ :=
  if s.exiting || s.empty || s.abort then some s
  else if s.single then
    some { s with sub := s.sub ++ [t], ran := s.ran ++ [t], dlv := s.dlv ++ [t], ready := fun j => if j = t then true else s.ready j }
  else
    ({ s with tasks := s.tasks ++ [t], sub := s.sub ++ [t] } : TQ).notifyOne n pick |>.map fun s =>
      { s with pc := if s.results = [] then .idle else .tryRes }

/-- The next step of the owner inside a call. -/
def TQ.mainStep (n : Nat) (s : TQ) (pick : Nat) (thrown : Bool) : Option TQ :=
  match s.pc with
  | .idle => none
  | .gone => none
  -- result(false): include/task.h:230-244, 263-278
  | .tryRes => match s.results with
    | [] => some { s with pc := .idle }
    | t :: rs => if s.ready t then some (s.take t rs none) else some { s with pc := .idle }
  -- the callback: include/task.h:235-243
  | .call t k =>
    if thrown then some { s with dlv := s.dlv ++ [t], abort := true, pc := thrownPc k }
    else some { s with dlv := s.dlv ++ [t], pc := nextPc k }
  -- one round of drain: include/task.h:155-164
  | .top d =>
    let fin := decide (s.tasks = [] ∧ s.results = [])
    if s.empty = false ∧ s.tasks ≠ [] then (s.notifyOne n pick).map fun s => { s with pc := .res d fin }
    else some { s with pc := .res d fin }
  -- result(true): take the lock, then wait for the future with the lock held
  | .res d fin => match s.results with
    | [] => some { s with pc := nextPc (some (d, fin)) }
    | _ :: _ => some { s with pc := .hold d fin }
  | .hold d fin => match s.results with
    | [] => none
    | t :: rs => if s.ready t then some (s.take t rs (some (d, fin))) else none
  -- ~task_queue: include/task.h:128-140
  | .kill =>
    if s.tasks = [] then
      if s.empty then some { s with pc := .gone } else some { ({ s with empty := true } : TQ).notifyAll with pc := .join }
    else some s.notifyAll
  -- include/task.h:141-143
  | .join => if ∀ k, k < n → s.work k = .exited then some { s with pc := .top true } else none

/-- Does the owner hold the mutex while it waits? -/
def TQ.locked (s : TQ) : Bool := match s.pc with
  | .hold _ _ => true
  | _ => false

/-- The next step of a worker (include/task.h:200-214). -/
def TQ.workStep (s : TQ) (k : Nat) : Option TQ :=
  match s.work k with
  | .asleep => none
  | .exited => none
  | .running t => some { s.setW k .awake with ready := fun j => if j = t then true else s.ready j }
  | .awake =>
    if s.locked then none
    else if s.exiting || s.empty || s.abort || s.tasks ≠ [] then
      if s.empty || s.abort then some (s.setW k .exited)
      else match s.tasks with
        | t :: ts => some { s.setW k (.running t) with tasks := ts, results := s.results ++ [t], ran := s.ran ++ [t] }
        | [] => if s.exiting then some (s.setW k .exited) else some s
    else some (s.setW k .asleep)

/-- One step of the whole program; `none` if it cannot happen now. -/
def TQ.step (n : Nat) (s : TQ) : Lab → Option TQ
  | .enqueue t pick => if s.pc = .idle ∧ t ∉ s.sub then s.enqueue n t pick else none
  | .drain => if s.pc = .idle then some { s with pc := .top false } else none
  | .single => if s.pc = .idle then some { s with single := true, pc := .top false } else none
  | .destroy => if s.pc = .idle then
      if s.exiting then some { s with pc := .gone } else some { s with exiting := true, pc := .kill }
    else none
  | .main pick thrown => s.mainStep n pick thrown
  | .worker k => if k < n then s.workStep k else none
  | .spurious k => if k < n ∧ s.work k = .asleep then some (s.setW k .awake) else none

/-- A schedule. -/
def TQ.run (n : Nat) : TQ → List Lab → Option TQ
  | s, [] => some s
  | s, l :: ls => (s.step n l).bind fun s => s.run n ls

end OP.Par
