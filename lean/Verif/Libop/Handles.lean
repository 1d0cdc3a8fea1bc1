import Verif.Tree.Avl
import Mathlib.Algebra.Order.Ring.Int
import Mathlib.Algebra.Order.Field.Rat
/-!
# The handle tables of the C interface (libop/libop.cpp:254-270, 280-289, 653-670, 722-816)

A process keeps a tree from handles (`long`) to pointers, and the objects the pointers lead to.  An address is an index
into `heap`; `none` is an object that has been deleted, and touching it is undefined.  Addresses are not used again: a
C++ allocator may do so, but reaching the new object through the old pointer is undefined as well.  `new` and the
tree's `realloc` are taken to succeed.  `mg` is the layout of the tree's elements: `merged_v<long,LEsystem *>`
(include/meta.h:180-187) is false, so the code is the case `mg = false`.
-/
namespace OP.Libop
open OP.Tree

/-- The table (`lesystems` or `tokens`) and the objects. -/
structure Proc (σ : Type) where
  tab : Avl.S Int Nat
  heap : List (Option σ)

variable {σ α : Type}

/-- At program start. -/
def Proc.init : Proc σ := ⟨Avl.S.init, []⟩

/-- `while (lesystems.haskey(token)) token++;` (libop/libop.cpp:262-263, 746-747), with fuel. -/
def freeToken (t : Avl.S Int Nat) : Nat → Int → Res Int
  | 0, _ => .ub
  | f + 1, k => Avl.haskey t k >>= fun b => if b then freeToken t f (k + 1) else .ok k

/-- `OP_LE_Create` (libop/libop.cpp:256-270, `first` is 1) and the part of `OP_HT_Init` after the checks
(libop/libop.cpp:744-748, `first` is 0). -/
def Proc.create (mg : Bool) (first : Int) (p : Proc σ) (x : σ) : Res (Proc σ × Int) :=
  freeToken p.tab (Avl.length p.tab + 1) first >>= fun k =>
  Avl.add mg p.tab k p.heap.length >>= fun t => .ok (⟨t, p.heap ++ [some x]⟩, k)

/-- `if (!lesystems.haskey(token)) ...; LEsystem * system = lesystems.get_noexcept(token);`
(libop/libop.cpp:276-280 and at the start of every other call): `none` for "Invalid token!". -/
def Proc.pointer (p : Proc σ) (h : Int) : Res (Option Nat) :=
  Avl.haskey p.tab h >>= fun b => if b then Avl.getv p.tab h >>= fun i => .ok (some i) else .ok none

/-- Any call on the object of a handle (libop/libop.cpp:272-651, 764-798): `none` for an invalid handle. -/
def Proc.call (p : Proc σ) (h : Int) (f : σ → Res (σ × α)) : Res (Proc σ × Option α) :=
  p.pointer h >>= fun i => match i with
  | none => .ok (p, none)
  | some i =>
    Buf.read p.heap i >>= fun s => f s >>= fun r =>
    Buf.write p.heap i (some r.1) >>= fun hp => .ok ({ p with heap := hp }, some r.2)

/-- `OP_LE_Reset`, `OP_HT_Reset` (libop/libop.cpp:653-670, 799-816): `false` for an invalid handle. -/
def Proc.reset (mg : Bool) (p : Proc σ) (h : Int) : Res (Proc σ × Bool) :=
  p.pointer h >>= fun i => match i with
  | none => .ok (p, false)
  | some i =>
    Buf.destroy p.heap i >>= fun hp =>
    Avl.remove mg p.tab (.ext h) >>= fun t => .ok (⟨t, hp⟩, true)

/-- The thickness check of `OP_HT_Init` (libop/libop.cpp:739-744), from layer `i` for `f` layers: `h[i]` of a layer
that is not there is undefined. -/
def thickOk (h : List ℚ) : Nat → Nat → Res Bool
  | 0, _ => .ok true
  | f + 1, i => match h[i]? with
    | none => .ub
    | some d => if d ≤ 0 then .ok false else thickOk h f (i + 1)

/-- `OP_HT_Init` (libop/libop.cpp:724-761).  `x` stands for the object built from the arguments.  `nl-1` is unsigned,
so no layers at all make the check run to 4294967295.  The value returned for an error is 0. -/
def Proc.htInit (mg : Bool) (p : Proc σ) (nl : Nat) (h : List ℚ) (nn nw : Nat) (x : σ) : Res (Proc σ × Int) :=
  if ¬ (nw = 1 ∨ nw = 2 ∨ nw = 4) then .ok (p, 0)
  else if nn < nw + 1 ∨ (nn - 1) % nw ≠ 0 then .ok (p, 0)
  else thickOk h ((nl + 4294967295) % 4294967296) 0 >>= fun b =>
    if b then p.create mg 0 x else .ok (p, 0)

/-- A call of the C interface: make an object that starts as `x`, use one, or destroy one. -/
inductive Call (σ α : Type) where
  | create (x : σ)
  | use (h : Int) (f : σ → σ × α)
  | reset (h : Int)

/-- What the caller sees. -/
inductive Out (α : Type) where
  | handle (h : Int)
  | invalid
  | done (a : α)
  | gone
deriving DecidableEq

/-- One call. -/
def step (mg : Bool) (first : Int) (p : Proc σ) : Call σ α → Res (Proc σ × Out α)
  | .create x => p.create mg first x >>= fun r => .ok (r.1, .handle r.2)
  | .use h f => p.call h (fun s => .ok (f s)) >>= fun r => .ok (r.1, match r.2 with
    | none => .invalid
    | some a => .done a)
  | .reset h => p.reset mg h >>= fun r => .ok (r.1, if r.2 then .gone else .invalid)

/-- A history of calls, with what the caller sees. -/
def run (mg : Bool) (first : Int) (p : Proc σ) : List (Call σ α) → Res (Proc σ × List (Out α))
  | [] => .ok (p, [])
  | c :: cs => step mg first p c >>= fun r => run mg first r.1 cs >>= fun q => .ok (q.1, r.2 :: q.2)

end OP.Libop
