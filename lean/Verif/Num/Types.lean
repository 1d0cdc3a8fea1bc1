import Verif.Num.Small
/-!
# Names of types, and arrays that are deleted with their owner

`include/ctti.h` and `include/autodelete.h`.  Strings are lists of bytes, as in `Verif.Num.Small`.

Not modelled: how the compiler writes the name of a type (the name is any string of bytes) and the deduction and decay of the
argument of `type_id(T &&)`.
-/
namespace OP.Num.Types

/-- The bytes of a literal of ASCII characters. -/
def bytes (s : String) : List Nat := s.toList.map Char.toNat

/-- What a compiler writes before and after the name of the type (include/ctti.h:174-187): `CTTI_PREFIX` and `CTTI_SUFFIX`. -/
structure Compiler where
  /-- `CTTI_PREFIX` -/
  pre : List Nat
  /-- `CTTI_SUFFIX` -/
  suf : List Nat

/-- include/ctti.h:174-177 -/
def clang : Compiler := ⟨bytes "OP::type_info OP::type_deducer() [T = ", bytes "]"⟩
/-- include/ctti.h:178-181 -/
def gcc : Compiler := ⟨bytes "constexpr OP::type_info OP::type_deducer() [with T = ", bytes "]"⟩
/-- include/ctti.h:182-185 -/
def msvc : Compiler := ⟨bytes "class OP::type_info __cdecl OP::type_deducer<", bytes ">(void) noexcept"⟩

/-- `conststr::operator ()` (include/conststr.h:174-176): the bytes from `b` to `e`.  Pointers outside the string are undefined
behaviour. -/
def chunk (s : List Nat) (b e : Nat) : Res (List Nat) :=
  if b ≤ e ∧ e ≤ s.length then .ok ((s.drop b).take (e - b)) else .ub

/-- `type_deducer` (include/ctti.h:189-200): `CTTI_BEGIN` is the length of the prefix and `CTTI_END` the length of the text less
that of the suffix, in unsigned arithmetic. -/
def deduce (c : Compiler) (text : List Nat) : Res (List Nat) :=
  chunk text c.pre.length ((text.length + 2 ^ 64 - c.suf.length) % 2 ^ 64)

/-- `type_info` (include/ctti.h:79-117): only the name, with its hash. -/
structure Info where
  /-- `magic` -/
  magic : List Nat

/-- `type_info::hash_code` (include/ctti.h:98-100) -/
def Info.hashCode (t : Info) : Nat := fnv1a t.magic
/-- `type_info::before` (include/ctti.h:105-107) -/
def Info.before (t r : Info) : Bool := strLt t.magic r.magic
/-- `type_info::operator ==` (include/ctti.h:108-110) -/
def Info.eq (t r : Info) : Bool := t.hashCode == r.hashCode
/-- `type_info::operator !=` (include/ctti.h:111-113) -/
def Info.ne (t r : Info) : Bool := t.hashCode != r.hashCode

/-- `type_index` (include/ctti.h:125-171) -/
structure Index where
  /-- `magic` -/
  magic : List Nat
  /-- `hash` -/
  hash : Nat

/-- The constructor (include/ctti.h:132-134). -/
def Index.ofInfo (t : Info) : Index := ⟨t.magic, t.hashCode⟩
/-- The six comparisons (include/ctti.h:149-166). -/
def Index.eq (t r : Index) : Bool := t.hash == r.hash
def Index.ne (t r : Index) : Bool := t.hash != r.hash
def Index.lt (t r : Index) : Bool := t.hash < r.hash
def Index.le (t r : Index) : Bool := t.hash ≤ r.hash
def Index.gt (t r : Index) : Bool := r.hash < t.hash
def Index.ge (t r : Index) : Bool := r.hash ≤ t.hash

/-! ## Arrays deleted with their owner -/

/-- The arrays are numbered in the order of the `new T[n]`; `obj i` is the object number `i` if it is alive, with its pointer;
`dels` are the arrays passed to `delete []`, the last first. -/
structure Heap where
  /-- The number of arrays allocated. -/
  next : Nat
  /-- The number of objects constructed. -/
  objs : Nat
  /-- The objects alive and their pointers. -/
  obj : Nat → Option (Option Nat)
  /-- The arrays deleted. -/
  dels : List Nat

/-- What a program does with its `autodelete` objects. -/
inductive Op where
  /-- `autodelete<T> a(new T[n])` -/
  | make
  /-- `autodelete<T> a(nullptr)` -/
  | null
  /-- `autodelete<T> b(std::move(a))` -/
  | moveNew (a : Nat)
  /-- `b = std::move(a)` -/
  | moveTo (b a : Nat)
  /-- the end of the life of `a` -/
  | destroy (a : Nat)

/-- Write the pointer of an object. -/
def put (f : Nat → Option (Option Nat)) (i : Nat) (v : Option (Option Nat)) : Nat → Option (Option Nat) :=
  fun j => if j = i then v else f j

/-- One operation (include/autodelete.h:44-60): the constructor, the destructor (`delete []` of a null pointer does nothing), the
move constructor, and the move assignment, which reads `a.ptr`, writes `ptr`, then clears `a.ptr`.  An object that is not alive is
undefined behaviour. -/
def step (h : Heap) : Op → Res Heap
  | .make => .ok { h with next := h.next + 1, objs := h.objs + 1, obj := put h.obj h.objs (some (some h.next)) }
  | .null => .ok { h with objs := h.objs + 1, obj := put h.obj h.objs (some none) }
  | .moveNew a =>
    match h.obj a with
    | none => .ub
    | some p => .ok { h with objs := h.objs + 1, obj := put (put h.obj h.objs (some p)) a (some none) }
  | .moveTo b a =>
    match h.obj b, h.obj a with
    | some _, some p => .ok { h with obj := put (put h.obj b (some p)) a (some none) }
    | _, _ => .ub
  | .destroy a =>
    match h.obj a with
    | none => .ub
    | some none => .ok { h with obj := put h.obj a none }
    | some (some p) => .ok { h with obj := put h.obj a none, dels := p :: h.dels }

/-- A history. -/
def run (h : Heap) : List Op → Res Heap
  | [] => .ok h
  | o :: os => step h o >>= fun h' => run h' os

/-- Nothing allocated yet. -/
def start : Heap := ⟨0, 0, fun _ => none, []⟩

end OP.Num.Types
