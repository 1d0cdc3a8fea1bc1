import Verif.Basic
import Mathlib.Data.List.Perm.Subperm
/-!
# Nodes in one array, linked by position (include/tree.h:259-576, 883-1147)

`tree::value` is an array of nodes; `left` and `right` are positions in it, with `UINT_MAX` for "no
node" (`none` here, which assumes fewer than `UINT_MAX` nodes).  Reading or writing a position outside
the array is undefined behaviour.
-/
namespace OP.Tree

/-- A node (include/tree.h:358-364 for the links); `d` is everything else the node stores. -/
structure Node (δ : Type) where
  d : δ
  left : Option Nat
  right : Option Nat
deriving DecidableEq, Repr

/-- The live part of `value`. -/
abbrev Mem (δ : Type) := List (Node δ)

variable {δ : Type}

/-- Read `value[i]`. -/
def get (m : Mem δ) (i : Nat) : Res (Node δ) :=
  match m[i]? with
  | some n => .ok n
  | none => .ub

/-- Write `value[i]`. -/
def put (m : Mem δ) (i : Nat) (n : Node δ) : Res (Mem δ) :=
  if i < m.length then .ok (m.set i n) else .ub

/-- Change part of `value[i]`. -/
def upd (m : Mem δ) (i : Nat) (f : Node δ → Node δ) : Res (Mem δ) :=
  get m i >>= fun n => put m i (f n)

theorem get_ok {m : Mem δ} {i : Nat} {n : Node δ} (h : m[i]? = some n) : get m i = .ok n := by
  simp [get, h]

theorem put_ok {m : Mem δ} {i : Nat} {n n' : Node δ} (h : m[i]? = some n) :
    put m i n' = .ok (m.set i n') := by
  obtain ⟨h, -⟩ := List.getElem?_eq_some_iff.1 h
  simp [put, h]

theorem upd_ok {m : Mem δ} {i : Nat} {n : Node δ} (h : m[i]? = some n) (f : Node δ → Node δ) :
    upd m i f = .ok (m.set i (f n)) := by
  simp [upd, get_ok h, put_ok h]

theorem set_self {m : Mem δ} {i : Nat} {n n' : Node δ} (h : m[i]? = some n) :
    (m.set i n')[i]? = some n' := by
  obtain ⟨h, -⟩ := List.getElem?_eq_some_iff.1 h
  simp [h]

theorem set_ne {m : Mem δ} {i j : Nat} {n' : Node δ} (h : i ≠ j) :
    (m.set i n')[j]? = m[j]? := by
  simp [h]

/-! ## The tree an array stands for -/

/-- A binary tree whose nodes carry their position in the array. -/
inductive T (δ : Type) where
  | nil
  | node (i : Nat) (d : δ) (l r : T δ)

namespace T

/-- Position of the root. -/
def root : T δ → Option Nat
  | nil => none
  | node i _ _ _ => some i

theorem root_node (i : Nat) (d : δ) (l r : T δ) : (node i d l r).root = some i := rfl

/-- Is there no node. -/
def isNil : T δ → Bool
  | nil => true
  | node .. => false

theorem isNil_iff {t : T δ} : t.isNil = true ↔ t = nil := by cases t <;> simp [isNil]

/-- In-order walk: positions and data. -/
def inord : T δ → List (Nat × δ)
  | nil => []
  | node i d l r => l.inord ++ (i, d) :: r.inord

/-- Positions, in order. -/
def ids : T δ → List Nat
  | nil => []
  | node i _ l r => l.ids ++ i :: r.ids

/-- Number of nodes. -/
def size : T δ → Nat
  | nil => 0
  | node _ _ l r => l.size + r.size + 1

/-- Number of levels. -/
def ht : T δ → Nat
  | nil => 0
  | node _ _ l r => max l.ht r.ht + 1

theorem inord_ids (t : T δ) : t.inord.map Prod.fst = t.ids := by
  induction t with
  | nil => rfl
  | node i d l r hl hr => simp [inord, ids, hl, hr]

theorem ids_length (t : T δ) : t.ids.length = t.size := by
  induction t with
  | nil => rfl
  | node i d l r hl hr => simp [ids, size, hl, hr]; omega

theorem inord_length (t : T δ) : t.inord.length = t.size := by
  rw [← ids_length, ← inord_ids, List.length_map]

theorem ht_le_size (t : T δ) : t.ht ≤ t.size := by
  induction t with
  | nil => simp [ht, size]
  | node i d l r hl hr => simp only [ht, size]; omega

theorem root_nil_iff {t : T δ} : t.root = none ↔ t = nil := by
  cases t <;> simp [root]

end T

/-- The array holds the tree: every node is at its position with the right links. -/
def Rep (m : Mem δ) : T δ → Prop
  | .nil => True
  | .node i d l r => m[i]? = some ⟨d, l.root, r.root⟩ ∧ Rep m l ∧ Rep m r

theorem Rep.frame {m m' : Mem δ} {t : T δ} (h : Rep m t) (hf : ∀ i ∈ t.ids, m'[i]? = m[i]?) :
    Rep m' t := by
  induction t with
  | nil => trivial
  | node i d l r hl hr =>
    obtain ⟨h1, h2, h3⟩ := h
    refine ⟨by rw [hf i (by simp [T.ids])]; exact h1,
      hl h2 fun j hj => hf j (by simp [T.ids, hj]), hr h3 fun j hj => hf j (by simp [T.ids, hj])⟩

theorem Rep.lt {m : Mem δ} {t : T δ} (h : Rep m t) : ∀ i ∈ t.ids, i < m.length := by
  induction t with
  | nil => simp [T.ids]
  | node i d l r hl hr =>
    obtain ⟨h1, h2, h3⟩ := h
    intro j hj
    simp only [T.ids, List.mem_append, List.mem_cons] at hj
    rcases hj with hj | rfl | hj
    · exact hl h2 j hj
    · exact (List.getElem?_eq_some_iff.1 h1).1
    · exact hr h3 j hj

/-- Distinct positions below `n` number at most `n`. -/
theorem Rep.size_le {m : Mem δ} {t : T δ} (h : Rep m t) (hn : t.ids.Nodup) : t.size ≤ m.length := by
  rw [← T.ids_length]
  have : t.ids ⊆ List.range m.length := fun i hi => List.mem_range.2 (h.lt i hi)
  simpa using (List.subperm_of_subset hn this).length_le

/-- Setting a cell outside a tree keeps the tree. -/
theorem Rep.set {m : Mem δ} {t : T δ} (h : Rep m t) {i : Nat} {n : Node δ} (hi : i ∉ t.ids) :
    Rep (m.set i n) t :=
  h.frame fun j hj => set_ne (by rintro rfl; exact hi hj)

end OP.Tree
