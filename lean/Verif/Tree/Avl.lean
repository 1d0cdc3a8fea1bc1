import Verif.Tree.Arena
import Mathlib.Order.Defs.LinearOrder
/-!
# `ktree_avl` and its base class `tree` (include/tree.h:259-576, 586-867)

Each node holds a key `k` and a value `v`.  `mg` says how: `true` is the merged layout
(`merged_v<K,V>`, include/meta.h:180-187, include/tree.h:365-400), where the stored object is the
pair and assigning or swapping `_v` moves the key along; `false` is the layout with separate `_k` and
`_v` (include/tree.h:401-421), where only `v` is touched.  Keys are compared by a linear order.

`unsigned & r` parameters are references to a link: the functions below return the new link and the
caller stores it.  Recursion takes fuel; running out of fuel is reported as undefined behaviour, and
the theorems show it does not happen.  `allocate` (include/tree.h:503-516) is the capacity arithmetic of
C01 and is not repeated; nodes are moved bytewise by it and keep their positions.  Weights are
integers, so the theorems also show that the unsigned subtractions in the rotations do not wrap.
-/
namespace OP.Tree.Avl
open OP.Tree

/-- What an AVL node stores besides its links (include/tree.h:358-364, 709-711). -/
structure D (K V : Type) where
  k : K
  v : V
  w : Int
  h : Int
deriving DecidableEq, Repr

variable {K V : Type} [LinearOrder K]

/-- `tree::weight` (include/tree.h:544-546). -/
def weight (m : Mem (D K V)) : Option Nat → Res Int
  | none => .ok 0
  | some r => get m r >>= fun n => .ok n.d.w

/-- `ktree_avl::height` (include/tree.h:713-715). -/
def height (m : Mem (D K V)) : Option Nat → Res Int
  | none => .ok 0
  | some r => get m r >>= fun n => .ok n.d.h

/-- `ktree_avl::balance` (include/tree.h:716-718). -/
def balance (m : Mem (D K V)) (r : Nat) : Res Int :=
  get m r >>= fun n => height m n.right >>= fun a => height m n.left >>= fun b => .ok (a - b)

/-- `ktree_avl::new_height` (include/tree.h:719-721). -/
def newHeight (m : Mem (D K V)) (r : Nat) : Res Int :=
  get m r >>= fun n => height m n.left >>= fun a => height m n.right >>= fun b => .ok (max a b + 1)

/-- `tree::new_weight` (include/tree.h:552-554). -/
def newWeight (m : Mem (D K V)) (r : Nat) : Res Int :=
  get m r >>= fun n => weight m n.left >>= fun a => weight m n.right >>= fun b => .ok (a + b + 1)

/-- `ktree_avl::rotate_left` (include/tree.h:812-821). -/
def rotateLeft (m : Mem (D K V)) (r : Nat) : Res (Mem (D K V) × Nat) :=
  get m r >>= fun nr =>
  match nr.right with
  | none => .ub
  | some x =>
    get m x >>= fun nx =>
    upd m r (fun n => { n with right := nx.left }) >>= fun m =>
    weight m (some x) >>= fun wx =>
    weight m nx.left >>= fun wl =>
    upd m r (fun n => { n with d := { n.d with w := n.d.w - (wx - wl) } }) >>= fun m =>
    newHeight m r >>= fun h =>
    upd m r (fun n => { n with d := { n.d with h := h } }) >>= fun m =>
    weight m (some r) >>= fun wr =>
    get m x >>= fun nx =>
    weight m nx.left >>= fun wl =>
    upd m x (fun n => { n with d := { n.d with w := n.d.w + (wr - wl) } }) >>= fun m =>
    upd m x (fun n => { n with left := some r }) >>= fun m =>
    newHeight m x >>= fun h =>
    upd m x (fun n => { n with d := { n.d with h := h } }) >>= fun m =>
    .ok (m, x)

/-- `ktree_avl::rotate_right` (include/tree.h:822-831). -/
def rotateRight (m : Mem (D K V)) (r : Nat) : Res (Mem (D K V) × Nat) :=
  get m r >>= fun nr =>
  match nr.left with
  | none => .ub
  | some x =>
    get m x >>= fun nx =>
    upd m r (fun n => { n with left := nx.right }) >>= fun m =>
    weight m (some x) >>= fun wx =>
    weight m nx.right >>= fun wl =>
    upd m r (fun n => { n with d := { n.d with w := n.d.w - (wx - wl) } }) >>= fun m =>
    newHeight m r >>= fun h =>
    upd m r (fun n => { n with d := { n.d with h := h } }) >>= fun m =>
    weight m (some r) >>= fun wr =>
    get m x >>= fun nx =>
    weight m nx.right >>= fun wl =>
    upd m x (fun n => { n with d := { n.d with w := n.d.w + (wr - wl) } }) >>= fun m =>
    upd m x (fun n => { n with right := some r }) >>= fun m =>
    newHeight m x >>= fun h =>
    upd m x (fun n => { n with d := { n.d with h := h } }) >>= fun m =>
    .ok (m, x)

/-- `if (balance(value[r].left) > 0) rotate_left(value[r].left);` (include/tree.h:795-796). -/
def fixLeft (m : Mem (D K V)) (r : Nat) : Res (Mem (D K V)) :=
  get m r >>= fun n =>
  match n.left with
  | none => .ub
  | some l =>
    balance m l >>= fun b =>
    if b > 0 then
      rotateLeft m l >>= fun ml => upd ml.1 r (fun n => { n with left := some ml.2 })
    else .ok m

/-- `if (balance(value[r].right) < 0) rotate_right(value[r].right);` (include/tree.h:799-800). -/
def fixRight (m : Mem (D K V)) (r : Nat) : Res (Mem (D K V)) :=
  get m r >>= fun n =>
  match n.right with
  | none => .ub
  | some l =>
    balance m l >>= fun b =>
    if b < 0 then
      rotateRight m l >>= fun ml => upd ml.1 r (fun n => { n with right := some ml.2 })
    else .ok m

/-- `ktree_avl::rebalance` (include/tree.h:786-811); the link is not `UINT_MAX` at any call. -/
def rebalance (m : Mem (D K V)) (r : Nat) : Res (Mem (D K V) × Nat) :=
  get m r >>= fun n =>
  if n.d.h < 2 then .ok (m, r)
  else
    balance m r >>= fun b =>
    if b < -1 then fixLeft m r >>= fun m => rotateRight m r
    else if b > 1 then fixRight m r >>= fun m => rotateLeft m r
    else .ok (m, r)

/-- The update of weight and height on the way back up (include/tree.h:740-743, 775-778). -/
def refresh (m : Mem (D K V)) (r : Nat) (p : Option Nat) : Res (Mem (D K V)) :=
  if p.isSome then
    newWeight m r >>= fun w =>
    upd m r (fun n => { n with d := { n.d with w := w } }) >>= fun m =>
    newHeight m r >>= fun h =>
    upd m r (fun n => { n with d := { n.d with h := h } })
  else .ok m

/-- After the recursive call: weights, then rebalancing (include/tree.h:740-744, 775-783). -/
def finish (m : Mem (D K V)) (r : Nat) (p : Option Nat) :
    Res (Mem (D K V) × Option Nat × Option Nat) :=
  refresh m r p >>= fun m => rebalance m r >>= fun mr => .ok (mr.1, some mr.2, p)

/-- The assignment `value[r]._v = v._v` in either layout. -/
def assignV (mg : Bool) (d : D K V) (k : K) (v : V) : D K V :=
  if mg then { d with k := k, v := v } else { d with v := v }

/-- `ktree_avl::append` (include/tree.h:722-749): new array, new link, position written. -/
def append (mg : Bool) (k : K) (v : V) :
    Nat → Mem (D K V) → Option Nat → Res (Mem (D K V) × Option Nat × Option Nat)
  | 0, _, _ => .ub
  | _ + 1, m, none => .ok (m ++ [⟨⟨k, v, 1, 1⟩, none, none⟩], some m.length, some m.length)
  | f + 1, m, some r =>
    get m r >>= fun n =>
    if n.d.k = k then
      put m r { n with d := assignV mg n.d k v } >>= fun m => .ok (m, some r, some r)
    else if k < n.d.k then
      append mg k v f m n.left >>= fun q =>
      upd q.1 r (fun n => { n with left := q.2.1 }) >>= fun m => finish m r q.2.2
    else
      append mg k v f m n.right >>= fun q =>
      upd q.1 r (fun n => { n with right := q.2.1 }) >>= fun m => finish m r q.2.2

/-- A `const K &`: an object outside the tree, or the key part of a stored element. -/
inductive KRef (K : Type) where
  | ext (k : K)
  | cell (i : Nat)
deriving DecidableEq, Repr

/-- The key a reference denotes now. -/
def KRef.read (m : Mem (D K V)) : KRef K → Res K
  | .ext k => .ok k
  | .cell i => get m i >>= fun n => .ok n.d.k

/-- The loop to the leftmost node (include/tree.h:766-768). -/
def minLoop (m : Mem (D K V)) : Nat → Nat → Res Nat
  | 0, _ => .ub
  | f + 1, x =>
    get m x >>= fun n =>
    match n.left with
    | none => .ok x
    | some y => minLoop m f y

/-- `swap(value[r]._v,value[x]._v)` (include/tree.h:769) in either layout. -/
def swapV (mg : Bool) (m : Mem (D K V)) (r x : Nat) : Res (Mem (D K V)) :=
  get m r >>= fun nr => get m x >>= fun nx =>
  put m r { nr with d := assignV mg nr.d nx.d.k nx.d.v } >>= fun m =>
  get m x >>= fun nx => put m x { nx with d := assignV mg nx.d nr.d.k nr.d.v }

/-- `ktree_avl::remove(r,k,p)` (include/tree.h:750-785): new array, new link, position removed. -/
def removeAt (mg : Bool) (kr : KRef K) :
    Nat → Mem (D K V) → Option Nat → Res (Mem (D K V) × Option Nat × Option Nat)
  | 0, _, _ => .ub
  | _ + 1, m, none => .ok (m, none, none)
  | f + 1, m, some r =>
    get m r >>= fun n =>
    kr.read m >>= fun k =>
    if n.d.k = k then
      match n.right with
      | none => put m r { n with left := none } >>= fun m => .ok (m, n.left, some r)
      | some x =>
        minLoop m m.length x >>= fun x =>
        swapV mg m r x >>= fun m =>
        removeAt mg kr f m n.right >>= fun q =>
        upd q.1 r (fun n => { n with right := q.2.1 }) >>= fun m => finish m r q.2.2
    else if k < n.d.k then
      removeAt mg kr f m n.left >>= fun q =>
      upd q.1 r (fun n => { n with left := q.2.1 }) >>= fun m => finish m r q.2.2
    else
      removeAt mg kr f m n.right >>= fun q =>
      upd q.1 r (fun n => { n with right := q.2.1 }) >>= fun m => finish m r q.2.2

/-- The object: `value[0..size)` and `root`. -/
structure S (K V : Type) where
  mem : Mem (D K V)
  root : Option Nat
deriving DecidableEq, Repr

/-- A new tree (include/tree.h:602-604). -/
def S.init : S K V := ⟨[], none⟩

/-- `ktree_avl::add` (include/tree.h:631-676). -/
def add (mg : Bool) (s : S K V) (k : K) (v : V) : Res (S K V) :=
  append mg k v (s.mem.length + 1) s.mem s.root >>= fun q => .ok ⟨q.1, q.2.1⟩

/-- Renumbering of one link (include/tree.h:536-541). -/
def dec (p i : Nat) : Nat := if i > p then i - 1 else i

/-- `tree::expunge` (include/tree.h:526-542). -/
def expunge (s : S K V) (p : Nat) : Res (S K V) :=
  if p < s.mem.length then
    .ok ⟨(s.mem.eraseIdx p).map fun n => { n with left := n.left.map (dec p), right := n.right.map (dec p) },
      s.root.map (dec p)⟩
  else .ub

/-- `ktree_avl::remove(k)` (include/tree.h:678-688). -/
def remove (mg : Bool) (s : S K V) (kr : KRef K) : Res (S K V) :=
  removeAt mg kr (s.mem.length + 1) s.mem s.root >>= fun q =>
  match q.2.2 with
  | none => .ok ⟨q.1, q.2.1⟩
  | some p => expunge ⟨q.1, q.2.1⟩ p

/-- `tree::empty` (include/tree.h:350-352). -/
def empty (_ : S K V) : S K V := S.init

/-- `tree::length` (include/tree.h:264-266). -/
def length (s : S K V) : Nat := s.mem.length

/-- The loop of `tree::getposition` (include/tree.h:295-307). -/
def findLoop (k : K) (m : Mem (D K V)) : Nat → Option Nat → Res (Option Nat)
  | _, none => .ok none
  | 0, some _ => .ub
  | f + 1, some x =>
    get m x >>= fun n =>
    if n.d.k = k then .ok (some x)
    else if k < n.d.k then findLoop k m f n.left
    else findLoop k m f n.right

/-- `tree::getposition` (include/tree.h:295-307). -/
def getposition (s : S K V) (k : K) : Res (Option Nat) := findLoop k s.mem s.mem.length s.root

/-- `tree::haskey` (include/tree.h:272-274). -/
def haskey (s : S K V) (k : K) : Res Bool := getposition s k >>= fun p => .ok p.isSome

/-- `tree::getatposition` and `operator []` (include/tree.h:282-289). -/
def getatposition (s : S K V) (p : Nat) : Res V :=
  match s.mem[p]? with
  | some n => .ok n.d.v
  | none => .throw

/-- `tree::getkey` (include/tree.h:276-280). -/
def getkey (s : S K V) (p : Nat) : Res K :=
  match s.mem[p]? with
  | some n => .ok n.d.k
  | none => .throw

/-- `tree::get(k)` (include/tree.h:308-310): a missing key gives position `UINT_MAX`, which throws. -/
def getv (s : S K V) (k : K) : Res V :=
  getposition s k >>= fun p => match p with
  | some p => getatposition s p
  | none => .throw

/-- `tree::order` (include/tree.h:548-550) of a node. -/
def order (m : Mem (D K V)) (n : Node (D K V)) : Res Int := weight m n.left

/-- The loop of `tree::getatorder` (include/tree.h:315-327). -/
def atLoop (m : Mem (D K V)) (i : Int) : Nat → Option Nat → Int → Res (Option Nat)
  | _, none, _ => .ok none
  | 0, some _, _ => .ub
  | f + 1, some x, o =>
    get m x >>= fun n => order m n >>= fun w =>
    if i = o + w then .ok (some x)
    else if i < o + w then atLoop m i f n.left o
    else atLoop m i f n.right (o + (w + 1))

/-- `tree::getatorder` (include/tree.h:315-330): key and value of the element found. -/
def getatorder (s : S K V) (i : Nat) : Res (K × V) :=
  atLoop s.mem i s.mem.length s.root 0 >>= fun x => match x with
  | none => .throw
  | some x => get s.mem x >>= fun n => .ok (n.d.k, n.d.v)

/-- The loop of `tree::getorderof` (include/tree.h:332-345). -/
def ofLoop (k : K) (m : Mem (D K V)) : Nat → Option Nat → Int → Res (Option Int)
  | _, none, _ => .ok none
  | 0, some _, _ => .ub
  | f + 1, some x, o =>
    get m x >>= fun n => order m n >>= fun w =>
    if n.d.k = k then .ok (some (o + w))
    else if k < n.d.k then ofLoop k m f n.left o
    else ofLoop k m f n.right (o + (w + 1))

/-- `tree::getorderof` (include/tree.h:332-349); `UINT_MAX` is `none`. -/
def getorderof (s : S K V) (k : K) : Res (Option Int) := ofLoop k s.mem s.mem.length s.root 0

end OP.Tree.Avl
