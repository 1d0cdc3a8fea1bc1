import Verif.Basic
/-!
# Singly linked lists (include/list.h:70-178)

Elements are numbered; `nxt i` is the `next` member of element `i`, and `none` if there is no such object.
A pointer to a pointer (`T **`) is the head of the list or the `next` member of an element.
Loops take fuel and give `none` when it runs out.
-/
namespace OP.Links

/-- The `next` members of all objects. -/
abbrev Heap := Nat → Option (Option Nat)

/-- `list_single` (include/list.h:92-97) and the elements. -/
structure L1 where
  head : Option Nat
  nxt : Heap

/-- What a `T **` points to. -/
inductive Loc where
  | head
  | next (i : Nat)

/-- `*t` -/
def L1.rd (s : L1) : Loc → Res (Option Nat)
  | .head => .ok s.head
  | .next i => match s.nxt i with
    | some p => .ok p
    | none => .ub

/-- Change one `next` member. -/
def Heap.set (h : Heap) (i : Nat) (v : Option Nat) : Heap := fun j => if j = i then some v else h j

/-- `*t = v` -/
def L1.wr (s : L1) (v : Option Nat) : Loc → Res L1
  | .head => .ok { s with head := v }
  | .next i => match s.nxt i with
    | some _ => .ok { s with nxt := s.nxt.set i v }
    | none => .ub

/-- A new element (include/list.h:74-76). -/
def L1.create (s : L1) (e : Nat) (n : Option Nat) : L1 := { s with nxt := s.nxt.set e n }

/-- The loop of `list_single::insert` (include/list.h:121-129). -/
def insertLoop (s : L1) (e : Nat) : Nat → Loc → Loc → Res (Option L1)
  | 0, _, _ => .ok none
  | f + 1, t, l =>
    s.rd t >>= fun p => match p with
    | none => s.wr (some e) t >>= fun s => .ok (some s)
    | some x =>
      s.rd (.next e) >>= fun n =>
      if n ≠ none ∧ n = some x then
        s.rd l >>= fun y => match y with
        | none => .ub
        | some y => s.wr (some e) (.next y) >>= fun s => .ok (some s)
      else insertLoop s e f (.next x) t

/-- `list_single::insert` (include/list.h:117-130). -/
def L1.insert (f : Nat) (s : L1) (e : Nat) : Res (Option L1) := insertLoop s e f .head .head

/-- The loop of `list_single::remove` (include/list.h:133-142): the list, and the pointer returned. -/
def removeLoop (s : L1) (e : Option Nat) : Nat → Loc → Loc → Res (Option (L1 × Option Nat))
  | 0, _, _ => .ok none
  | f + 1, t, l =>
    s.rd t >>= fun p => match p with
    | none => s.rd l >>= fun r => .ok (some (s, r))
    | some x =>
      match e with
      | some e' =>
        if x = e' then
          s.rd (.next e') >>= fun n =>
          s.wr n l >>= fun s =>
          s.wr none (.next e') >>= fun s => .ok (some (s, some e'))
        else removeLoop s e f (.next x) t
      | none => removeLoop s e f (.next x) t

/-- `list_single::remove` (include/list.h:132-143). -/
def L1.remove (f : Nat) (s : L1) (e : Option Nat) : Res (Option (L1 × Option Nat)) := removeLoop s e f .head .head

/-- The loop of `list_single::push` (include/list.h:148-151). -/
def pushLoop (s : L1) (e : Nat) : Nat → Loc → Res (Option L1)
  | 0, _ => .ok none
  | f + 1, t =>
    s.rd t >>= fun p => match p with
    | none => s.wr s.head t >>= fun s => .ok (some { s with head := some e })
    | some x => pushLoop s e f (.next x)

/-- `list_single::push` (include/list.h:145-153). -/
def L1.push (f : Nat) (s : L1) (e : Nat) : Res (Option L1) := pushLoop s e f (.next e)

/-- `list_single::pop` (include/list.h:155-160). -/
def L1.pop (s : L1) : Res (L1 × Nat) :=
  match s.head with
  | none => .ub
  | some e =>
    s.rd (.next e) >>= fun n =>
    ({ s with head := n } : L1).wr none (.next e) >>= fun s => .ok (s, e)

/-- The loop of `list_single::length` (include/list.h:169-170). -/
def lengthLoop (h : Heap) : Nat → Option Nat → Nat → Res (Option Nat)
  | _, none, n => .ok (some n)
  | 0, some _, _ => .ok none
  | f + 1, some x, n => match h x with
    | none => .ub
    | some q => lengthLoop h f q (n + 1)

/-- `list_single::length` (include/list.h:166-172). -/
def L1.length (f : Nat) (s : L1) : Res (Option Nat) := lengthLoop s.nxt f s.head 0

/-- The loop of `list_single::empty` (include/list.h:174-177): every element is popped and deleted. -/
def L1.empty : Nat → L1 → Res (Option L1)
  | 0, _ => .ok none
  | f + 1, s => match s.head with
    | none => .ok (some s)
    | some _ => s.pop >>= fun r => L1.empty f { r.1 with nxt := fun j => if j = r.2 then none else r.1.nxt j }

/-! ## Chains -/

/-- Following `next` from `p` visits exactly `L` and arrives at `q`. -/
def Seg (h : Heap) : Option Nat → List Nat → Option Nat → Prop
  | p, [], q => p = q
  | p, a :: L, q => p = some a ∧ ∃ r, h a = some r ∧ Seg h r L q

theorem Seg.append {h : Heap} {p q : Option Nat} {A B : List Nat} :
    Seg h p (A ++ B) q ↔ ∃ m, Seg h p A m ∧ Seg h m B q := by
  induction A generalizing p with
  | nil => simp [Seg]
  | cons a A ih =>
    simp only [List.cons_append, Seg, ih]
    constructor
    · rintro ⟨h1, r, h2, m, h3, h4⟩; exact ⟨m, ⟨h1, r, h2, h3⟩, h4⟩
    · rintro ⟨m, ⟨h1, r, h2, h3⟩, h4⟩; exact ⟨h1, r, h2, m, h3, h4⟩

theorem Seg.frame {h h' : Heap} {p q : Option Nat} {L : List Nat} (hs : Seg h p L q)
    (hf : ∀ a ∈ L, h' a = h a) : Seg h' p L q := by
  induction L generalizing p with
  | nil => exact hs
  | cons a L ih =>
    obtain ⟨h1, r, h2, h3⟩ := hs
    exact ⟨h1, r, by rw [hf a (by simp)]; exact h2, ih h3 fun b hb => hf b (by simp [hb])⟩

theorem Seg.head {h : Heap} {p : Option Nat} {L : List Nat} (hs : Seg h p L none) : p = L.head? := by
  cases L with
  | nil => exact hs
  | cons a L => exact hs.1

theorem Seg.set {h : Heap} {p q : Option Nat} {L : List Nat} {i : Nat} {v : Option Nat} (hs : Seg h p L q)
    (hi : i ∉ L) : Seg (h.set i v) p L q :=
  hs.frame fun a ha => by
    have : a ≠ i := fun h => hi (h ▸ ha)
    simp [Heap.set, this]

/-- The list holds the elements `L`. -/
def L1.Rep (s : L1) (L : List Nat) : Prop := Seg s.nxt s.head L none ∧ L.Nodup

end OP.Links
