import Verif.SetFam.Keyed
/-!
# Associative sets: `afset`/`asset` (include/set.h:1306-1530)
-/
namespace OP.SetFam.Keyed
open QS

variable {K V : Type} [DecidableEq K]

/-- The arrays `key[0..size)` and `value[0..size)`. -/
abbrev AS (K V : Type) := List K × List V

/-- `afset::haskey` (include/set.h:1334-1340). -/
def asHaskey (s : AS K V) (k : K) : Option Nat := haskey id s.1 k

/-- One round of `afset::copy` with `checkdups` (include/set.h:1439-1446). -/
def asCopyOne (s : AS K V) (kv : K × V) : AS K V :=
  match asHaskey s kv.1 with
  | some p => (s.1, s.2.set p kv.2)
  | none => (s.1 ++ [kv.1], s.2 ++ [kv.2])

/-- `asset::remove` (include/set.h:1504-1517).  The position is incremented before the destructor
call and the moves, so the pair after the one found is removed; if the one found is the last, the
destructor runs on a position that holds no object. -/
def asRemove (s : AS K V) (k : K) : Res (AS K V) :=
  match asHaskey s k with
  | none => .throw
  | some p =>
    if p + 1 < s.1.length then .ok (s.1.eraseIdx (p + 1), s.2.eraseIdx (p + 1)) else .ub

/-- `asset::add`, `remove`, `replace`, `empty` (include/set.h:1493-1529). -/
def asStep (s : AS K V) : Op K (K × V) → Res (AS K V)
  | .add vs => if vs = [] then .throw else .ok (vs.foldl asCopyOne s)
  | .remove k => asRemove s k
  | .replace kv =>
    match asHaskey s kv.1 with
    | none => .throw
    | some p => .ok (s.1, s.2.set p kv.2)
  | .empty => .ok ([], [])

/-- `operator [](k)` (include/set.h:1349-1356, release build). -/
def asGet (s : AS K V) (k : K) : Res V :=
  match asHaskey s k with
  | some p => rd s.2 p
  | none => .ub

/-! ## Lemmas -/

theorem haskeyFrom_map {A : Type} (f : A → K) (k : K) (a : List A) (i : Nat) :
    haskeyFrom id k (a.map f) i = haskeyFrom f k a i := by
  induction a generalizing i with
  | nil => rfl
  | cons x a ih => simp [haskeyFrom, ih]

theorem asHaskey_split (l : List (K × V)) (k : K) :
    asHaskey (split2 l) k = haskey Prod.fst l k := haskeyFrom_map Prod.fst k l 0

theorem asCopyOne_split (l : List (K × V)) (kv : K × V) :
    asCopyOne (split2 l) kv = split2 (copyOne Prod.fst l kv) := by
  unfold asCopyOne copyOne
  rw [asHaskey_split]
  rcases haskey_cases Prod.fst l kv.1 with ⟨h1, h2⟩ | ⟨p, h1, h2, h3⟩
  · rw [h1]; simp [split2]
  · rw [h1]
    simp only [split2, List.map_set, Prod.mk.injEq, and_true]
    have : kv.1 = (l.map Prod.fst)[p]'(by simpa using h2) := by simp [h3]
    rw [this, List.set_getElem_self]

theorem asFold_split (vs : List (K × V)) (l : List (K × V)) :
    vs.foldl asCopyOne (split2 l) = split2 (vs.foldl (copyOne Prod.fst) l) := by
  induction vs generalizing l with
  | nil => rfl
  | cons v vs ih => rw [List.foldl_cons, asCopyOne_split, ih, List.foldl_cons]

/-- Everything but `remove` is the keyed set of pairs. -/
theorem asStep_split (l : List (K × V)) (op : Op K (K × V)) (h : ∀ k, op ≠ .remove k) :
    asStep (split2 l) op = (ksStep Prod.fst l op).map split2 := by
  cases op with
  | add vs =>
    simp only [asStep, ksStep]
    split
    · rfl
    · rw [asFold_split]; rfl
  | remove k => exact absurd rfl (h k)
  | replace kv =>
    simp only [asStep, ksStep]
    rw [asHaskey_split]
    rcases haskey_cases Prod.fst l kv.1 with ⟨h1, h2⟩ | ⟨p, h1, h2, h3⟩
    · rw [h1]; rfl
    · rw [h1]
      simp only [split2, Res.map_ok, List.map_set, Res.ok.injEq, Prod.mk.injEq, and_true]
      have : kv.1 = (l.map Prod.fst)[p]'(by simpa using h2) := by simp [h3]
      rw [this, List.set_getElem_self]
  | empty => rfl

end OP.SetFam.Keyed
