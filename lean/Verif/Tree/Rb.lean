import Verif.Tree.Arena
import Mathlib.Order.Defs.LinearOrder
/-!
# The pointer tree `BST` and the array tree `ktree_llrb` (include/tree.h:61-247, 883-1147)

Both are left-leaning red-black trees in the 2-3-4 style: a black node may have two red links in a row
on its left.  `BST` allocates each node separately and every node has one owner, so it is modelled as a
value of type `T`; the number in a node stands for its address.  `ktree_llrb` keeps its nodes in one array
and is modelled on the array.

Dereferencing a null pointer or reading outside the array is `ub`.  Recursion takes fuel; running out of
fuel is reported as `throw`, which nothing else here produces, and the theorems show it does not happen.
`order` is an integer, so the theorems also show that the unsigned subtraction does not wrap
when only insertions are used.
-/
namespace OP.Tree.Rb
open OP.Tree

/-- What a node stores besides its links (include/tree.h:105-119, 975-991). -/
structure D (K V : Type) where
  k : K
  v : V
  o : Int
  red : Bool
deriving DecidableEq, Repr

variable {K V : Type}

/-- `h != nullptr && h->red`. -/
def isRed : T (D K V) → Bool
  | .nil => false
  | .node _ d _ _ => d.red

/-- `h->red = c`. -/
def paint (c : Bool) : T (D K V) → Res (T (D K V))
  | .nil => .ub
  | .node i d l r => .ok (.node i { d with red := c } l r)

/-- `BST::rotL` (include/tree.h:151-157). -/
def rotL : T (D K V) → Res (T (D K V))
  | .node i d l (.node j e a b) => .ok (.node j { e with o := e.o + (d.o + 1) } (.node i d l a) b)
  | _ => .ub

/-- `BST::rotR` (include/tree.h:158-164). -/
def rotR : T (D K V) → Res (T (D K V))
  | .node i d (.node j e a b) r => .ok (.node j e a (.node i { d with o := d.o - (e.o + 1) } b r))
  | _ => .ub

/-- `BST::leanLeft` (include/tree.h:165-170). -/
def leanLeft (h : T (D K V)) : Res (T (D K V)) :=
  rotL h >>= fun h => match h with
  | .node i d l r => paint true l >>= fun l' => .ok (.node i { d with red := isRed l } l' r)
  | .nil => .ub

/-- `BST::leanRight` (include/tree.h:171-176). -/
def leanRight (h : T (D K V)) : Res (T (D K V)) :=
  rotR h >>= fun h => match h with
  | .node i d l r => paint true r >>= fun r' => .ok (.node i { d with red := isRed r } l r')
  | .nil => .ub

/-- `if (h->right != nullptr && h->right->red) h = leanLeft(h);` (include/tree.h:147-148, 231-232). -/
def fix : T (D K V) → Res (T (D K V))
  | .nil => .ub
  | .node i d l r => if isRed r then leanLeft (.node i d l r) else .ok (.node i d l r)

/-- Is there a node with a red left child and a red left grandchild (include/tree.h:129-130). -/
def doubleRed : T (D K V) → Bool
  | .node _ _ l _ => isRed l && (match l with | .node _ _ a _ => isRed a | .nil => false)
  | .nil => false

/-- Split double reds on the way down (include/tree.h:128-134). -/
def split (h : T (D K V)) : Res (T (D K V)) :=
  if doubleRed h then
    rotR h >>= fun h => match h with
    | .node i d l r => paint false l >>= fun l => .ok (.node i d l r)
    | .nil => .ub
  else .ok h

variable [LinearOrder K]

/-- `BST::insert(h,k,v,o)` (include/tree.h:122-150); the flag is `*o`.  `n` is the address of the new node.
`early` says whether a present key returns at once, as in `ktree_llrb::append`, or goes on to
`fix`, as in `BST::insert`. -/
def ins (early : Bool) (k : K) (v : V) (n : Nat) : Nat → T (D K V) → Res (T (D K V) × Bool)
  | 0, _ => .throw
  | _ + 1, .nil => .ok (.node n ⟨k, v, 0, true⟩ .nil .nil, true)
  | f + 1, .node i0 d0 l0 r0 =>
    split (.node i0 d0 l0 r0) >>= fun h => match h with
    | .nil => .ub
    | .node i d l r =>
      if k = d.k then
        if early then .ok (.node i { d with v := v } l r, false)
        else fix (.node i { d with v := v } l r) >>= fun h => .ok (h, false)
      else if k < d.k then
        ins early k v n f l >>= fun q =>
        fix (.node i { d with o := if q.2 then d.o + 1 else d.o } q.1 r) >>= fun h => .ok (h, q.2)
      else
        ins early k v n f r >>= fun q => fix (.node i d l q.1) >>= fun h => .ok (h, q.2)

/-- `BST::insert(k,v)` (include/tree.h:84-88). -/
def insert (k : K) (v : V) (n : Nat) (t : T (D K V)) : Res (T (D K V)) :=
  ins false k v n (t.size + 1) t >>= fun q => paint false q.1

/-- `BST::get` (include/tree.h:72-83). -/
def lookup (k : K) : T (D K V) → Option V
  | .nil => none
  | .node _ d l r => if k = d.k then some d.v else if k < d.k then lookup k l else lookup k r

/-- Move a red link to the left child if it needs one (include/tree.h:182-192). -/
def pushLeft : T (D K V) → Res (T (D K V))
  | .node i d (.node j e a b) r =>
    if !e.red && !isRed a then
      match r with
      | .nil => .ub
      | .node p g x y =>
        if isRed x then
          rotR (.node p g x y) >>= fun r =>
          rotL (.node i { d with red := false } (.node j { e with red := true } a b) r)
        else
          .ok (.node i { d with red := false } (.node j { e with red := true } a b)
            (.node p { g with red := true } x y))
    else .ok (.node i d (.node j e a b) r)
  | _ => .ub

/-- Push a red link to the right child if it needs one (include/tree.h:205-216). -/
def pushRight : T (D K V) → Res (T (D K V))
  | .node i d l (.node j e a b) =>
    if !e.red && !isRed a then
      match l with
      | .nil => .ub
      | .node p g x y =>
        if isRed x then
          rotR (.node i { d with red := false } (.node p g x y) (.node j { e with red := true } a b)) >>= fun h =>
          match h with
          | .node i d l r => paint false l >>= fun l => .ok (.node i { d with red := true } l r)
          | .nil => .ub
        else
          .ok (.node i { d with red := false } (.node p { g with red := true } x y)
            (.node j { e with red := true } a b))
    else .ok (.node i d l (.node j e a b))
  | _ => .ub

/-- The loop to the smallest element (include/tree.h:221-223). -/
def minEntry : T (D K V) → Res (K × V)
  | .nil => .ub
  | .node _ d .nil _ => .ok (d.k, d.v)
  | .node _ _ l _ => minEntry l

/-- `BST::remove(h,k)` (include/tree.h:177-234). -/
def rem : Nat → K → T (D K V) → Res (T (D K V))
  | 0, _, _ => .throw
  | _ + 1, _, .nil => .ub
  | f + 1, k, .node i0 d0 l0 r0 =>
    if k < d0.k then
      if l0.isNil then .ok (.node i0 d0 l0 r0)
      else
        pushLeft (.node i0 d0 l0 r0) >>= fun h => match h with
        | .nil => .ub
        | .node i d l r => rem f k l >>= fun l => fix (.node i d l r)
    else
      (if isRed l0 then leanRight (.node i0 d0 l0 r0) else .ok (.node i0 d0 l0 r0)) >>= fun h =>
      match h with
      | .nil => .ub
      | .node i1 d1 l1 r1 =>
        if k = d1.k ∧ r1.isNil then .ok .nil
        else
          pushRight (.node i1 d1 l1 r1) >>= fun h => match h with
          | .nil => .ub
          | .node i d l r =>
            if k = d.k then
              minEntry r >>= fun e => rem f e.1 r >>= fun r => fix (.node i { d with k := e.1, v := e.2 } l r)
            else rem f k r >>= fun r => fix (.node i d l r)

/-- `BST::remove(k)` (include/tree.h:89-95). -/
def remove (k : K) (t : T (D K V)) : Res (T (D K V)) :=
  match t with
  | .nil => .ok .nil
  | t => rem (t.size + 1) k t >>= fun t => match t with
    | .nil => .ok .nil
    | t => paint false t

/-! ## `ktree_llrb` -/

/-- Split double reds on the way down (include/tree.h:1016-1025): new array and link. -/
def splitM (m : Mem (D K V)) (r : Nat) : Res (Mem (D K V) × Nat) :=
  get m r >>= fun n => match n.left with
  | none => .ok (m, r)
  | some x =>
    get m x >>= fun nx =>
    if nx.d.red then
      match nx.left with
      | none => .ok (m, r)
      | some y =>
        get m y >>= fun ny =>
        if ny.d.red then
          upd m r (fun n => { n with left := nx.right }) >>= fun m =>
          upd m x (fun n => { n with right := some r }) >>= fun m =>
          get m x >>= fun nx =>
          upd m r (fun n => { n with d := { n.d with o := n.d.o - (nx.d.o + 1) } }) >>= fun m =>
          upd m y (fun n => { n with d := { n.d with red := false } }) >>= fun m =>
          .ok (m, x)
        else .ok (m, r)
    else .ok (m, r)

/-- Lean a red link left on the way up (include/tree.h:1038-1046): new array and link. -/
def leanM (m : Mem (D K V)) (r : Nat) : Res (Mem (D K V) × Nat) :=
  get m r >>= fun n => match n.right with
  | none => .ok (m, r)
  | some x =>
    get m x >>= fun nx =>
    if nx.d.red then
      upd m r (fun n => { n with right := nx.left }) >>= fun m =>
      upd m x (fun n => { n with left := some r }) >>= fun m =>
      get m r >>= fun n =>
      upd m x (fun nx => { nx with d := { nx.d with o := nx.d.o + (n.d.o + 1) } }) >>= fun m =>
      get m r >>= fun n =>
      upd m x (fun nx => { nx with d := { nx.d with red := n.d.red } }) >>= fun m =>
      upd m r (fun n => { n with d := { n.d with red := true } }) >>= fun m =>
      .ok (m, x)
    else .ok (m, r)

/-- `ktree_llrb::append` (include/tree.h:1005-1047): new array, new link, `*grew`. -/
def append (k : K) (v : V) : Nat → Mem (D K V) → Option Nat → Res (Mem (D K V) × Option Nat × Bool)
  | 0, _, _ => .throw
  | _ + 1, m, none => .ok (m ++ [⟨⟨k, v, 0, true⟩, none, none⟩], some m.length, true)
  | f + 1, m, some r =>
    splitM m r >>= fun mr =>
    get mr.1 mr.2 >>= fun n =>
    if k = n.d.k then
      put mr.1 mr.2 { n with d := { n.d with k := k, v := v } } >>= fun m => .ok (m, some mr.2, false)
    else if k < n.d.k then
      append k v f mr.1 n.left >>= fun q =>
      upd q.1 mr.2 (fun n => { n with left := q.2.1 }) >>= fun m =>
      (if q.2.2 then upd m mr.2 (fun n => { n with d := { n.d with o := n.d.o + 1 } }) else .ok m) >>= fun m =>
      leanM m mr.2 >>= fun x => .ok (x.1, some x.2, q.2.2)
    else
      append k v f mr.1 n.right >>= fun q =>
      upd q.1 mr.2 (fun n => { n with right := q.2.1 }) >>= fun m =>
      leanM m mr.2 >>= fun x => .ok (x.1, some x.2, q.2.2)

/-- The object: `value[0..size)` and `root`. -/
structure S (K V : Type) where
  mem : Mem (D K V)
  root : Option Nat
deriving DecidableEq, Repr

/-- A new tree (include/tree.h:886-888). -/
def S.init : S K V := ⟨[], none⟩

/-- `ktree_llrb::add` (include/tree.h:950-957).  `allocate` is the arithmetic of C01. -/
def add (s : S K V) (k : K) (v : V) : Res (S K V) :=
  append k v (s.mem.length + 1) s.mem s.root >>= fun q => match q.2.1 with
  | none => .ub
  | some r => upd q.1 r (fun n => { n with d := { n.d with red := false } }) >>= fun m => .ok ⟨m, some r⟩

/-- `ktree_llrb::length` (include/tree.h:895-897). -/
def length (s : S K V) : Nat := s.mem.length

/-- The loop of `haskey` (include/tree.h:899-911). -/
def findLoop (k : K) (m : Mem (D K V)) : Nat → Option Nat → Res (Option Nat)
  | _, none => .ok none
  | 0, some _ => .throw
  | f + 1, some x =>
    get m x >>= fun n =>
    if k = n.d.k then .ok (some x)
    else if k < n.d.k then findLoop k m f n.left
    else findLoop k m f n.right

/-- `ktree_llrb::haskey` (include/tree.h:899-911): a position, or `none` for `UINT_MAX`. -/
def haskey (s : S K V) (k : K) : Res (Option Nat) := findLoop k s.mem s.mem.length s.root

/-- `ktree_llrb::operator []` (include/tree.h:913-915): not checked. -/
def at_ (s : S K V) (p : Nat) : Res (K × V) := get s.mem p >>= fun n => .ok (n.d.k, n.d.v)

/-- The loop of `getindex` (include/tree.h:918-928). -/
def atLoop (m : Mem (D K V)) (i : Int) : Nat → Option Nat → Int → Res (Option Nat)
  | _, none, _ => .ok none
  | 0, some _, _ => .throw
  | f + 1, some x, o =>
    get m x >>= fun n =>
    if i = o + n.d.o then .ok (some x)
    else if i < o + n.d.o then atLoop m i f n.left o
    else atLoop m i f n.right (o + (n.d.o + 1))

/-- `ktree_llrb::getindex` (include/tree.h:917-931); past the end it reads `value[UINT_MAX]`. -/
def getindex (s : S K V) (i : Nat) : Res (K × V) :=
  atLoop s.mem i s.mem.length s.root 0 >>= fun x => match x with
  | none => .ub
  | some x => at_ s x

/-- The loop of `getorder` (include/tree.h:936-947): the rank found, or where the search fell off. -/
def ofLoop (k : K) (m : Mem (D K V)) : Nat → Option Nat → Int → Res Int
  | _, none, o => .ok o
  | 0, some _, _ => .throw
  | f + 1, some x, o =>
    get m x >>= fun n =>
    if k = n.d.k then .ok (o + n.d.o)
    else if k < n.d.k then ofLoop k m f n.left o
    else ofLoop k m f n.right (o + (n.d.o + 1))

/-- `ktree_llrb::getorder` (include/tree.h:933-948). -/
def getorder (s : S K V) (p : Nat) : Res Int :=
  get s.mem p >>= fun n => ofLoop n.d.k s.mem s.mem.length s.root 0

end OP.Tree.Rb
