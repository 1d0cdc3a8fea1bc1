import Verif.Mat.Dense
/-!
# Shared matrix storage (include/matrix.h:66-185, 397-694): reference counts, zero, unit and operator matrices, `matrix`

Objects live in a heap that is only ever extended; a place is `none` once its object was deleted.  A pointer is a place.
The assertions on reference counts and on null pointers are undefined outcomes here, as they are with assertions off.
`flags` is not modelled: nothing sets `scalar`, so the branch on it is never taken.  `int` counts do not wrap.
-/
namespace OP.Mat

variable {K : Type}

/-- `matrix_operator::op_t` (include/matrix.h:464-466) -/
inductive OpKind
  | ref | unref | neg | trans | add | sub | mul | inv
deriving DecidableEq, Repr

/-- An object of a class derived from `matrix_storage`: `matrix_dense` (include/matrix.h:190-302), `matrix_zero`
(:400-428), `matrix_eye` (:433-460) and `matrix_operator` (:462-593) with its two smart pointers. -/
inductive Obj (K : Type)
  | dense (d : Dense K)
  | zero (m n : Nat)
  | eye (n : Nat)
  | op (k : OpKind) (op1 op2 : Option Nat)

/-- The pointers held by an object. -/
def Obj.ptrs : Obj K → List Nat
  | .op _ p q => p.toList ++ q.toList
  | _ => []

/-- Objects with their `count`. -/
abbrev Heap (K : Type) := List (Option (Nat × Obj K))

/-- The object behind a pointer; undefined for `nullptr` (the assertion of `operator *` and `operator ->`,
include/matrix.h:177-184) and for a deleted object. -/
def deref (h : Heap K) : Option Nat → Res (Nat × Obj K)
  | none => .ub
  | some k => match h[k]? with
    | some (some e) => .ok e
    | _ => .ub

/-- `matrix_storage_ptr::addref` (include/matrix.h:146-150) -/
def addref (h : Heap K) : Option Nat → Res (Heap K)
  | none => .ok h
  | some k => deref h (some k) >>= fun e => .ok (h.set k (some (e.1 + 1, e.2)))

/-- `matrix_storage_ptr::release` (include/matrix.h:156-164): count down, and delete the object at 0.  Deleting an
operator destroys its pointers, the second first.  `fuel` bounds the nesting. -/
def release : Nat → Heap K → Option Nat → Res (Heap K)
  | _, h, none => .ok h
  | fuel, h, some k => deref h (some k) >>= fun e =>
    if e.1 = 0 then .ub
    else if e.1 - 1 = 0 then
      match fuel with
      | 0 => .ub
      | fuel + 1 => match e.2 with
        | .op _ p q => release fuel (h.set k none) q >>= fun h => release fuel h p
        | _ => .ok (h.set k none)
    else .ok (h.set k (some (e.1 - 1, e.2)))

/-- `new` of a storage object (include/matrix.h:101-104): the count starts at 0. -/
def newObj (h : Heap K) (o : Obj K) : Heap K × Nat := (h ++ [some (0, o)], h.length)

/-- `rows()` (`c = false`) and `cols()` (`c = true`) of storage (include/matrix.h:269-274, 409-414, 442-447, 491-534). -/
def dim : Nat → Heap K → Option Nat → Bool → Res Nat
  | 0, _, _, _ => .ub
  | fuel + 1, h, p, c => deref h p >>= fun e =>
    match e.2 with
    | .dense d => .ok (if c then d.N else d.M)
    | .zero m n => .ok (if c then n else m)
    | .eye n => .ok n
    | .op .trans p _ => dim fuel h p (!c)
    | .op .mul p q => if c then dim fuel h q c else dim fuel h p c
    | .op _ p _ => dim fuel h p c

section
variable [Field K] [DecidableEq K]

/-- `operator () (i,j)` of storage (include/matrix.h:275-277, 415-417, 448-450, 535-557).  `evaluate` does nothing
(:572-592). -/
def entry : Nat → Heap K → Option Nat → Nat → Nat → Res K
  | 0, _, _, _, _ => .ub
  | fuel + 1, h, p, i, j => deref h p >>= fun e =>
    match e.2 with
    | .dense d => d.get i j
    | .zero _ _ => .ok 0
    | .eye _ => .ok (if i = j then 1 else 0)
    | .op .neg p _ => entry fuel h p i j >>= fun x => .ok (-x)
    | .op .trans p _ => entry fuel h p j i
    | .op _ p _ => entry fuel h p i j

/-- `getdense()` (include/matrix.h:287-289, 418-420, 451-453, 558-565) -/
def getdense (fuel : Nat) (h : Heap K) (p : Option Nat) : Res (Dense K) :=
  deref h p >>= fun e =>
    match e.2 with
    | .dense d => .ok d
    | .zero m n => Dense.const m n 0 false
    | .eye n => Dense.const n n 1 true
    | .op _ op1 _ =>
      dim fuel h p false >>= fun m => dim fuel h p true >>= fun n =>
        Dense.build m n fun i j => entry fuel h op1 i j

/-- The inner loop of `operator ==` (include/matrix.h:647-650): `true` when all entries of the row agree. -/
def eqRow (f g : Nat → Nat → Res K) (i : Nat) : List Nat → Res Bool
  | [] => .ok true
  | j :: js => f i j >>= fun x => g i j >>= fun y => if x ≠ y then .ok false else eqRow f g i js

/-- The outer loop of `operator ==` (include/matrix.h:646-651) -/
def eqRows (n : Nat) (f g : Nat → Nat → Res K) : List Nat → Res Bool
  | [] => .ok true
  | i :: is => eqRow f g i (List.range n) >>= fun b => if b then eqRows n f g is else .ok false

/-- `matrix` variables over the heap: dead, null or pointing to storage. -/
structure St (K : Type) where
  heap : Heap K
  vars : List (Option (Option Nat))

/-- Nested calls are never deeper than there are objects. -/
def St.fuel (s : St K) : Nat := s.heap.length

/-- The pointer in a live variable. -/
def St.data (s : St K) (v : Nat) : Res (Option Nat) :=
  match s.vars[v]? with
  | some (some p) => .ok p
  | _ => .ub

/-- What a program does with matrices.  `make` gives `matrix` a new storage object that is not an operator. -/
inductive Cmd (K : Type)
  | null
  | zero (m n : Nat)
  | dense (d : Dense K)
  | eye (n : Nat)
  | copy (v : Nat)
  | neg (v : Nat)
  | trans (v : Nat)
  | unref (v : Nat)
  | assign (v w : Nat)
  | destroy (v : Nat)
  | rows (v : Nat)
  | cols (v : Nat)
  | read (v i j : Nat)
  | eq (v w : Nat)

/-- What a call returns. -/
inductive Out (K : Type)
  | done
  | size (n : Nat)
  | num (x : K)
  | truth (b : Bool)

/-- A new variable that points to a new object: `matrix(matrix_storage *)` (include/matrix.h:611-613).  The temporary
smart pointer of the source is left out: it adds and takes back one count. -/
def St.fresh (s : St K) (o : Obj K) : Res (St K) :=
  addref (newObj s.heap o).1 (some (newObj s.heap o).2) >>= fun h =>
    .ok ⟨h, s.vars ++ [some (some (newObj s.heap o).2)]⟩

/-- `new matrix_operator(k,b.data)` (include/matrix.h:474-477, 671-690): the operand is copied, which counts it up. -/
def St.freshOp (s : St K) (k : OpKind) (p : Option Nat) : Res (St K) :=
  addref s.heap p >>= fun h => St.fresh ⟨h, s.vars⟩ (.op k p none)

/-- One call: constructors (include/matrix.h:600-613), `operator =` (:636-639, 166-175), the destructor (:142-145), sizes
and entries (:615-623), `==` (:641-653), `!` (:671-676), `~` (:679-683) and `-` (:686-690). -/
def step (s : St K) : Cmd K → Res (Out K × St K)
  | .null => .ok (.done, { s with vars := s.vars ++ [some none] })
  | .zero m n => s.fresh (.zero m n) >>= fun s => .ok (.done, s)
  | .dense d => s.fresh (.dense d) >>= fun s => .ok (.done, s)
  | .eye n => s.fresh (.eye n) >>= fun s => .ok (.done, s)
  | .copy v => s.data v >>= fun p => addref s.heap p >>= fun h => .ok (.done, ⟨h, s.vars ++ [some p]⟩)
  | .neg v => s.data v >>= fun p => s.freshOp .neg p >>= fun s => .ok (.done, s)
  | .trans v => s.data v >>= fun p => s.freshOp .trans p >>= fun s => .ok (.done, s)
  | .unref v => s.data v >>= fun p => s.freshOp .unref p >>= fun s =>
      release s.fuel s.heap p >>= fun h => .ok (.done, ⟨h, s.vars.set v (some none)⟩)
  | .assign v w => s.data v >>= fun p => s.data w >>= fun q =>
      if v = w then .ok (.done, s)
      else addref s.heap q >>= fun h => release s.fuel h p >>= fun h => .ok (.done, ⟨h, s.vars.set v (some q)⟩)
  | .destroy v => s.data v >>= fun p => release s.fuel s.heap p >>= fun h => .ok (.done, ⟨h, s.vars.set v none⟩)
  | .rows v => s.data v >>= fun p => dim s.fuel s.heap p false >>= fun n => .ok (.size n, s)
  | .cols v => s.data v >>= fun p => dim s.fuel s.heap p true >>= fun n => .ok (.size n, s)
  | .read v i j => s.data v >>= fun p => entry s.fuel s.heap p i j >>= fun x => .ok (.num x, s)
  | .eq v w => s.data v >>= fun p => s.data w >>= fun q =>
      dim s.fuel s.heap p false >>= fun m => dim s.fuel s.heap p true >>= fun n =>
      dim s.fuel s.heap q false >>= fun m' =>
      if m ≠ m' then .ok (.truth false, s)
      else dim s.fuel s.heap q true >>= fun n' =>
      if n ≠ n' then .ok (.truth false, s)
      else eqRows n (entry s.fuel s.heap p) (entry s.fuel s.heap q) (List.range m) >>= fun b => .ok (.truth b, s)

/-- A history of calls. -/
def run (s : St K) : List (Cmd K) → Res (List (Out K) × St K)
  | [] => .ok ([], s)
  | c :: cs => step s c >>= fun r => run r.2 cs >>= fun t => .ok (r.1 :: t.1, t.2)

end
end OP.Mat
