import Verif.Tree.Avl
import Verif.Table.Table
import Mathlib.Data.Prod.Lex
/-!
# `axis` (include/axis.h:98-334) and a table listening to its axes

An axis stores its keys in a `ktree_avl<axis_key>`, where key and value are one object; here the value
part of the AVL model is `Unit`.  The messages an axis sends are values of `Msg`; what a listener does with
them is a function called where the C++ code calls `dispatch`.
-/
namespace OP.Table
open OP.Tree

/-- The member `me` (include/axis.h:248, 333). -/
abbrev Me (K : Type) := Avl.S K Unit

variable {K V : Type} [LinearOrder K]

/-! ## `axis<K>` -/

/-- `axis<K>::add` (include/axis.h:276-282): the new keys, and the position announced afterwards. -/
def axisAdd (s : Me K) (k : K) : Res (Me K × Nat) :=
  Avl.haskey s k >>= fun b =>
  if b then .throw
  else
    Avl.add true s k () >>= fun s =>
    Avl.getorderof s k >>= fun o => match o with
    | none => .ub
    | some p => .ok (s, p.toNat)

/-- `axis<K>::remove` (include/axis.h:283-289): the position announced before the removal, and the keys
after it. -/
def axisRemove (s : Me K) (k : K) : Res (Nat × Me K) :=
  Avl.haskey s k >>= fun b =>
  if b then
    Avl.getorderof s k >>= fun o => match o with
    | none => .ub
    | some p => Avl.remove true s (.ext k) >>= fun s => .ok (p.toNat, s)
  else .throw

/-- `axis<K>::getorderof` (include/axis.h:305-309). -/
def axisOrder (s : Me K) (k : K) : Res Nat :=
  Avl.haskey s k >>= fun b =>
  if b then
    Avl.getorderof s k >>= fun o => match o with
    | none => .ub
    | some p => .ok p.toNat
  else .throw

/-- `axis<K>::operator []` (include/axis.h:299-303). -/
def axisAt (s : Me K) (p : Nat) : Res K :=
  if p < Avl.length s then Avl.getatorder s p >>= fun e => .ok e.1 else .throw

/-! ## A table over several axes -/

/-- The axes, in the order of `sizes`, and the table listening to them. -/
structure Sys (K V : Type) where
  axes : List (Me K)
  tab : Tab V

/-- `table::make_fromkey` (include/table.h:173-181). -/
def fromKeys (axes : List (Me K)) (sizes : List Nat) : Nat → List K → Res Nat
  | p, [] => .ok p
  | p, k :: ks => match axes[ks.length]? with
    | none => .ub
    | some a => axisOrder a k >>= fun i => fromKeys axes sizes (p * sizes.getD ks.length 0 + i) ks

/-- `operator ()` on keys (include/table.h:103-105), as a read. -/
def Sys.get (s : Sys K V) (ks : List K) : Res V :=
  fromKeys s.axes s.tab.sizes 0 ks >>= fun i => s.tab.buf.read i

/-- `operator ()` on keys (include/table.h:106-108), as an assignment. -/
def Sys.put (s : Sys K V) (ks : List K) (v : V) : Res (Sys K V) :=
  fromKeys s.axes s.tab.sizes 0 ks >>= fun i =>
  s.tab.buf.write i (some v) >>= fun b => .ok { s with tab := { s.tab with buf := b } }

/-- `add(k)` on axis `d`, with the table's handler for `add` (include/table.h:151-153). -/
def Sys.addKey (pod : Bool) (d0 : V) (s : Sys K V) (d : Nat) (k : K) : Res (Sys K V) :=
  match s.axes[d]? with
  | none => .ub
  | some a => axisAdd a k >>= fun x =>
    s.tab.add pod d0 d x.2 >>= fun t => .ok ⟨s.axes.set d x.1, t⟩

/-- `remove(k)` on axis `d`, with the table's handler for `remove` (include/table.h:154-156). -/
def Sys.removeKey (pod : Bool) (s : Sys K V) (d : Nat) (k : K) : Res (Sys K V) :=
  match s.axes[d]? with
  | none => .ub
  | some a => axisRemove a k >>= fun x =>
    s.tab.remove pod d x.1 >>= fun t => .ok ⟨s.axes.set d x.2, t⟩

/-- `empty()` on axis `d` (include/axis.h:311-314), with the table's handler for `empty`
(include/table.h:157-159). -/
def Sys.emptyAxis (pod : Bool) (s : Sys K V) (d : Nat) : Res (Sys K V) :=
  match s.axes[d]? with
  | none => .ub
  | some a => s.tab.empty pod >>= fun t => .ok ⟨s.axes.set d (Avl.empty a), t⟩

/-! ## `axis<K,Ks...>` with one prior axis -/

/-- `axis_key` of a dependent axis (include/axis.h:220-247): the parent position, then the key. -/
abbrev DKey (K : Type) := Nat ×ₗ K

/-- The parent axis and one dependent axis. -/
structure Dep (K₁ K : Type) where
  prior : Me K₁
  me : Me (DKey K)

variable {K₁ : Type} [LinearOrder K₁]

/-- Messages sent to listeners of the dependent axis, oldest first. -/
inductive Msg where
  | add (p : Nat)
  | remove (p : Nat)
  | empty
deriving DecidableEq, Repr

/-- `axis<K,K₁>::add` (include/axis.h:151-159). -/
def Dep.add (s : Dep K₁ K) (k : K) (k1 : K₁) : Res (Dep K₁ K × List Msg) :=
  Avl.haskey s.prior k1 >>= fun b =>
  if b then
    axisOrder s.prior k1 >>= fun pi =>
    axisAdd s.me (toLex (pi, k)) >>= fun x => .ok ({ s with me := x.1 }, [.add x.2])
  else .throw

/-- `axis<K,K₁>::remove` (include/axis.h:160-166). -/
def Dep.remove (s : Dep K₁ K) (k : K) (k1 : K₁) : Res (Dep K₁ K × List Msg) :=
  Avl.haskey s.prior k1 >>= fun b =>
  if b then
    axisOrder s.prior k1 >>= fun pi =>
    axisRemove s.me (toLex (pi, k)) >>= fun x => .ok ({ s with me := x.2 }, [.remove x.1])
  else .throw

/-- `a.pi = f(a.pi)` for the stored element at position `i`. -/
def setPi (m : Mem (Avl.D (DKey K) Unit)) (i : Nat) (f : Nat → Nat) : Res (Mem (Avl.D (DKey K) Unit)) :=
  upd m i fun n => { n with d := { n.d with k := toLex (f (ofLex n.d.k).1, (ofLex n.d.k).2) } }

/-- The handler for `add` from the prior axis (include/axis.h:121-127): `n` positions left, from `i` on. -/
def onAdd (p : Nat) : Nat → Nat → Mem (Avl.D (DKey K) Unit) → Res (Mem (Avl.D (DKey K) Unit))
  | 0, _, m => .ok m
  | n + 1, i, m => setPi m i (fun q => if q ≥ p then q + 1 else q) >>= fun m => onAdd p n (i + 1) m

/-- The position in the array of the element at sorted position `i` (include/tree.h:315-330). -/
def posAtOrder (s : Me (DKey K)) (i : Nat) : Res Nat :=
  Avl.atLoop s.mem i s.mem.length s.root 0 >>= fun x => match x with
  | none => .throw
  | some x => .ok x

/-- The handler for `remove` from the prior axis (include/axis.h:128-137), as a run of at most `fuel`
iterations; `none` if it has not ended by then.  The removal goes through the reference `a`. -/
def onRemove (p : Nat) : Nat → Nat → Me (DKey K) → List Msg → Res (Option (Me (DKey K) × List Msg))
  | 0, _, _, _ => .ok none
  | f + 1, i, s, log =>
    if i < Avl.length s then
      posAtOrder s i >>= fun x =>
      get s.mem x >>= fun n =>
      if (ofLex n.d.k).1 = p then
        Avl.remove true s (.cell x) >>= fun s => onRemove p f i s (log ++ [.remove i])
      else if (ofLex n.d.k).1 > p then
        setPi s.mem x (fun q => q - 1) >>= fun m => onRemove p f (i + 1) { s with mem := m } log
      else onRemove p f (i + 1) s log
    else .ok (some (s, log))

/-- `add` on the prior axis, with the dependent axis listening. -/
def Dep.priorAdd (s : Dep K₁ K) (k1 : K₁) : Res (Dep K₁ K) :=
  axisAdd s.prior k1 >>= fun x =>
  onAdd x.2 s.me.mem.length 0 s.me.mem >>= fun m => .ok ⟨x.1, { s.me with mem := m }⟩

/-- `remove` on the prior axis, with the dependent axis listening. -/
def Dep.priorRemove (fuel : Nat) (s : Dep K₁ K) (k1 : K₁) : Res (Option (Dep K₁ K × List Msg)) :=
  axisRemove s.prior k1 >>= fun x =>
  onRemove x.1 fuel 0 s.me [] >>= fun r => match r with
  | none => .ok none
  | some r => .ok (some (⟨x.2, r.1⟩, r.2))

/-- `empty` on the prior axis (include/axis.h:138-141, 311-314). -/
def Dep.priorEmpty (s : Dep K₁ K) : Dep K₁ K × List Msg := (⟨Avl.empty s.prior, Avl.empty s.me⟩, [.empty])

/-- `axis<K,K₁>::operator []` (include/axis.h:186-194): the key and the key of the prior axis. -/
def Dep.at_ (s : Dep K₁ K) (p : Nat) : Res (K × K₁) :=
  axisAt s.me p >>= fun a => axisAt s.prior (ofLex a).1 >>= fun k1 => .ok ((ofLex a).2, k1)

end OP.Table
