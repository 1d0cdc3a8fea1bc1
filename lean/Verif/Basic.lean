/-!
# Shared vocabulary of the models

`Res` is the outcome of running a piece of C++: a value, a thrown exception, or undefined
behaviour.  `Buf` is a block of raw storage as obtained from `realloc`: a cell is `none` while no
object has been constructed in it (or after its destructor ran) and `some v` while it holds `v`.
-/

namespace OP

/-- Outcome of a C++ fragment. -/
inductive Res (α : Type u) where
  | ok (a : α)
  | throw
  | ub
deriving DecidableEq, Repr

namespace Res

/-- Sequencing: an exception or undefined behaviour ends the run. -/
def bind {α : Type u} {β : Type v} : Res α → (α → Res β) → Res β
  | ok a, f => f a
  | throw, _ => throw
  | ub, _ => ub

instance : Monad Res where
  pure := Res.ok
  bind := Res.bind

@[simp] theorem pure_eq (a : α) : (pure a : Res α) = ok a := rfl
@[simp] theorem ok_bind (a : α) (f : α → Res β) : (ok a >>= f) = f a := rfl
@[simp] theorem throw_bind (f : α → Res β) : ((throw : Res α) >>= f) = throw := rfl
@[simp] theorem ub_bind (f : α → Res β) : ((ub : Res α) >>= f) = ub := rfl

theorem bind_eq_ok {x : Res α} {f : α → Res β} {b : β} :
    (x >>= f) = ok b ↔ ∃ a, x = ok a ∧ f a = ok b := by
  cases x <;> simp [Bind.bind, Res.bind]

end Res

/-- Raw storage. -/
abbrev Buf (α : Type u) := List (Option α)

namespace Buf
variable {α : Type u}

/-- Read of an object: undefined outside the block or where no object lives. -/
def read (b : Buf α) (i : Nat) : Res α :=
  match b[i]? with
  | some (some a) => .ok a
  | _ => .ub

/-- Write of a cell (placement new with `some v`, destructor with `none`). -/
def write (b : Buf α) (i : Nat) (c : Option α) : Res (Buf α) :=
  if i < b.length then .ok (b.set i c) else .ub

/-- Destructor call: undefined where no object lives. -/
def destroy (b : Buf α) (i : Nat) : Res (Buf α) :=
  match b[i]? with
  | some (some _) => .ok (b.set i none)
  | _ => .ub

/-- `memmove(&b[dst],&b[src],n*sizeof(V))`: undefined if either range leaves the block. -/
def memmove (b : Buf α) (dst src n : Nat) : Res (Buf α) :=
  if dst + n ≤ b.length ∧ src + n ≤ b.length then
    .ok (b.take dst ++ (b.drop src).take n ++ b.drop (dst + n))
  else .ub

/-- `realloc(b,n*sizeof(V))`. -/
def realloc (b : Buf α) (n : Nat) : Buf α :=
  b.take n ++ List.replicate (n - b.length) none

/-- Construct the given values in consecutive cells starting at `p`. -/
def construct (b : Buf α) (p : Nat) : List α → Res (Buf α)
  | [] => .ok b
  | v :: vs => do
    let b' ← b.write p (some v)
    construct b' (p + 1) vs

/-- Destroy `n` consecutive cells starting at `p`. -/
def destroyRange (b : Buf α) (p : Nat) : Nat → Res (Buf α)
  | 0 => .ok b
  | n + 1 => do
    let b' ← b.destroy p
    destroyRange b' (p + 1) n

@[simp] theorem realloc_length (b : Buf α) (n : Nat) : (realloc b n).length = n := by
  simp [realloc]; omega

/-- Growing or shrinking down to no less than the live prefix keeps the live prefix. -/
theorem realloc_prefix (l : List α) (junk : Buf α) (n : Nat) (h : l.length ≤ n) :
    ∃ junk', realloc (l.map some ++ junk) n = l.map some ++ junk' ∧
      l.length + junk'.length = n := by
  refine ⟨junk.take (n - l.length) ++ List.replicate (n - (l.length + junk.length)) none, ?_, ?_⟩
  · simp only [realloc, List.take_append, List.length_map, List.length_append]
    rw [List.take_of_length_le (by simpa using h)]
    simp
  · simp; omega

theorem construct_append (pre mid post : Buf α) (vs : List α) (h : mid.length = vs.length) :
    construct (pre ++ (mid ++ post)) pre.length vs = .ok (pre ++ (vs.map some ++ post)) := by
  induction vs generalizing pre mid with
  | nil => simp_all [construct]
  | cons v vs ih =>
    match mid, h with
    | m :: mid, h =>
      have := ih (pre ++ [some v]) mid (by simpa using h)
      simp only [List.length_append, List.length_cons, List.length_nil, List.append_assoc,
        List.cons_append, List.nil_append, Nat.zero_add] at this
      simp [construct, write, this]

theorem destroyRange_append (pre post : Buf α) (vs : List α) :
    destroyRange (pre ++ (vs.map some ++ post)) pre.length vs.length
      = .ok (pre ++ (List.replicate vs.length none ++ post)) := by
  induction vs generalizing pre with
  | nil => simp [destroyRange]
  | cons v vs ih =>
    have := ih (pre ++ [none])
    simp only [List.length_append, List.length_cons, List.length_nil, List.append_assoc,
      List.cons_append, List.nil_append, Nat.zero_add] at this
    simp [destroyRange, destroy, this, List.replicate_succ]

theorem read_append_left (l : List α) (junk : Buf α) (i : Nat) (h : i < l.length) :
    read (l.map some ++ junk) i = .ok l[i] := by
  simp [read, List.getElem?_append_left, h]

theorem construct_length {b b' : Buf α} {p : Nat} {vs : List α} (h : construct b p vs = .ok b') :
    b'.length = b.length := by
  induction vs generalizing b p with
  | nil => simp [construct] at h; rw [h]
  | cons v vs ih =>
    simp only [construct, Res.bind_eq_ok] at h
    obtain ⟨b1, h1, h2⟩ := h
    have := ih h2
    simp only [write] at h1
    split at h1 <;> simp_all
    rw [← h1]; simp

end Buf
end OP
