import Verif.Basic
/-!
# The slab cache (include/cache.h)

Addresses are naturals.  `sys k` is what the system returns for the `k`-th call of `malloc`: the address and the
number of bytes that really are there (at least what was asked for).  The chain is the list of the marks of its slabs; slab `k` is at
`(sys k).1`.  Pointers are 8 bytes wide, so the header is 16 bytes.  Requests near 2^64, for which `align` wraps, and a `malloc` that
fails are not modelled.
-/
namespace OP.Mem

/-- include/cache.h:151 with 8-byte pointers. -/
def page : Nat := 0x400000 - 6 * 8

/-- include/cache.h:166-168 -/
def align (s : Nat) : Nat := s + (16 - s % 16) % 16

/-- The space a slab is taken to have when `len` bytes are wanted (include/cache.h:66-67). -/
def room (len : Nat) : Nat := align (max len page) + align 16

/-- What `malloc` returns, call by call. -/
abbrev Sys := Nat → Nat × Nat

/-- The mark of a slab after the test for an empty slab (include/cache.h:76-79). -/
def front (base mark : Nat) : Nat := if mark = base then align (base + 16) else mark

/-- `allocate` from slab number `k` on (include/cache.h:65-108); the new chain and the address. -/
def alloc (sys : Sys) (len : Nat) : Nat → List Nat → List Nat × Nat
  | _, [] => ([], 0)
  | k, m :: ms =>
    let b := (sys k).1
    let q := front b m
    if q + align len ≤ b + room len then (align (q + len) :: ms, q)
    else match ms with
      | [] =>
        let q' := align ((sys (k + 1)).1 + 16)
        ([align (b + room len), align (q' + len)], q')
      | _ :: _ =>
        let r := alloc sys len (k + 1) ms
        (q :: r.1, r.2)

/-- `create` (include/cache.h:117-127) -/
def create (sys : Sys) : List Nat := [(sys 0).1]

/-- `reset` (include/cache.h:109-116) -/
def resetFrom (sys : Sys) : Nat → List Nat → List Nat
  | _, [] => []
  | k, _ :: ms => (sys k).1 :: resetFrom sys (k + 1) ms

/-- A use of the cache. -/
inductive Op where
  | alloc (len : Nat)
  | reset

/-- The chain, and the blocks handed out since the last reset, with their lengths. -/
structure Cache where
  marks : List Nat
  blocks : List (Nat × Nat)

/-- One call. -/
def Cache.step (sys : Sys) (c : Cache) : Op → Cache
  | .alloc len => let r := Mem.alloc sys len 0 c.marks; ⟨r.1, c.blocks ++ [(r.2, len)]⟩
  | .reset => ⟨resetFrom sys 0 c.marks, []⟩

/-- A history. -/
def Cache.run (sys : Sys) (c : Cache) (ops : List Op) : Cache := ops.foldl (Cache.step sys) c

/-- A new cache. -/
def Cache.new (sys : Sys) : Cache := ⟨create sys, []⟩

end OP.Mem
