import Verif.Basic
import Verif.SetFam.Bufsize
/-!
# `table` (include/table.h:70-276) on raw storage

`sizes` is the member array in the order of the C++ array, so the axis declared last is `sizes[0]`.
Tuples of positions are in the order of the arguments, so the axis declared first comes first.
Simplifications: the arithmetic on sizes and addresses is exact (fewer than `2^32` cells), except for
the subtractions in `add` and `remove`, which wrap as in the code; allocation never fails.
`pod` says whether the cell type is plain old data, for which `initelem` without a source does nothing
(include/table.h:222-226) and destructors are trivial; for other types `d0` is the default value.
-/
namespace OP.Table
open OP.SetFam (bufsize)

/-- State of a `table` (include/table.h:119-138); `buflen` is `buf.length`. -/
structure Tab (V : Type) where
  sizes : List Nat
  blk : Nat
  buf : Buf V
deriving DecidableEq, Repr

variable {V : Type}

/-- `table::length(d)` (include/table.h:110-115). -/
def lengthTo (sizes : List Nat) (d : Nat) : Nat := (sizes.take d).prod

/-- `table::length()` (include/table.h:110-115). -/
def Tab.length (t : Tab V) : Nat := lengthTo t.sizes t.sizes.length

/-- `table::step` (include/table.h:183-188). -/
def step (sizes : List Nat) (d : Nat) : Nat := (sizes.drop (d + 1)).prod

/-- `table::make_index` (include/table.h:165-172). -/
def mkIndex (sizes : List Nat) : Nat → List Nat → Nat
  | p, [] => p
  | p, i :: is => mkIndex sizes (p * sizes.getD is.length 0 + i) is

/-- `operator ()` on positions (include/table.h:96-101), as a read: there is no check. -/
def Tab.at_ (t : Tab V) (ps : List Nat) : Res V := t.buf.read (mkIndex t.sizes 0 ps)

/-- `operator ()` on positions (include/table.h:99-101), as an assignment. -/
def Tab.set (t : Tab V) (ps : List Nat) (v : V) : Res (Tab V) :=
  t.buf.write (mkIndex t.sizes 0 ps) (some v) >>= fun b => .ok { t with buf := b }

/-- Destructor calls on `n` cells from `i` on (include/table.h:205-206, 270-271). -/
def destroyCells (pod : Bool) (b : Buf V) (i n : Nat) : Res (Buf V) :=
  if pod then .ok b else b.destroyRange i n

/-- `table::allocate` (include/table.h:199-217). -/
def Tab.allocate (pod : Bool) (t : Tab V) (s : Nat) : Res (Tab V) :=
  let r := bufsize s t.blk
  let t := { t with blk := r.2 }
  if r.1 = t.buf.length then .ok t
  else if r.1 = 0 then
    destroyCells pod t.buf 0 t.length >>= fun _ => .ok { t with buf := [] }
  else .ok { t with buf := t.buf.realloc r.1 }

/-- `table::table` and `table::init` (include/table.h:73-78, 140-164) over axes of the given lengths:
storage, but no cell is constructed. -/
def Tab.make (pod : Bool) (sizes : List Nat) : Res (Tab V) :=
  (⟨sizes, OP.SetFam.dfltBlk, []⟩ : Tab V).allocate pod (lengthTo sizes sizes.length)

/-- `table::empty` (include/table.h:218-222): every extent becomes zero. -/
def Tab.empty (pod : Bool) (t : Tab V) : Res (Tab V) :=
  t.allocate pod 0 >>= fun t => .ok { t with sizes := t.sizes.map fun _ => 0 }

/-- `initelem(i,nullptr)` for `n` cells from `i` on (include/table.h:223-236, 256-257). -/
def initCells (pod : Bool) (d0 : V) (b : Buf V) (i : Nat) : Nat → Res (Buf V)
  | 0 => .ok b
  | n + 1 => (if pod then .ok b else b.write i (some d0)) >>= fun b => initCells pod d0 b (i + 1) n

/-- Subtraction of `unsigned`. -/
def usub (a b : Nat) : Nat := if b ≤ a then a - b else a + OP.SetFam.W - b

/-- The loop of `table::add` (include/table.h:251-258); the counter is the C++ `i`. -/
def addLoop (pod : Bool) (d0 : V) (bs ss os p : Nat) : Nat → Buf V → Res (Buf V)
  | 0, b => .ok b
  | i + 1, b =>
    let ob := (i * os + p) * bs
    let nb := (i * (os + 1) + p + 1) * bs
    let ln := if i + 1 = ss then usub os p else os
    b.memmove nb ob (ln * bs) >>= fun b =>
    initCells pod d0 b (nb - bs) bs >>= fun b =>
    addLoop pod d0 bs ss os p i b

/-- `table::add(d,p)` (include/table.h:244-259), always called without a source. -/
def Tab.add (pod : Bool) (d0 : V) (t : Tab V) (d p : Nat) : Res (Tab V) :=
  let bs := lengthTo t.sizes d
  let ss := step t.sizes d
  let os := t.sizes.getD d 0
  let t := { t with sizes := t.sizes.set d (os + 1) }
  t.allocate pod t.length >>= fun t =>
  addLoop pod d0 bs ss os p ss t.buf >>= fun b => .ok { t with buf := b }

/-- The loop of `table::remove` (include/table.h:266-273): `n` iterations left, counter `i`. -/
def removeLoop (pod : Bool) (bs ss os p : Nat) : Nat → Nat → Buf V → Res (Buf V)
  | 0, _, b => .ok b
  | n + 1, i, b =>
    let ob := (i * os + p + 1) * bs
    let nb := (i * usub os 1 + p) * bs
    let ln := if i = ss - 1 then usub (usub os p) 1 else os
    destroyCells pod b nb bs >>= fun b =>
    b.memmove nb ob (ln * bs) >>= fun b =>
    removeLoop pod bs ss os p n (i + 1) b

/-- `table::remove(d,p)` (include/table.h:261-275). -/
def Tab.remove (pod : Bool) (t : Tab V) (d p : Nat) : Res (Tab V) :=
  let bs := lengthTo t.sizes d
  let ss := step t.sizes d
  let os := t.sizes.getD d 0
  removeLoop pod bs ss os p ss 0 t.buf >>= fun b =>
  let t := { t with sizes := t.sizes.set d (usub os 1), buf := b }
  t.allocate pod t.length

end OP.Table
