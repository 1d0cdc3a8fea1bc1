import Verif.SetFam.SSet
/-!
# Arguments that are part of the set they are given to (include/set.h:167-172, 318-355)

`SSet.add` and `SSet.assign` have arguments outside the set.  Here the argument points into the buffer of the set.  A
pointer into the buffer is of no use after `realloc` has been called (C11 7.22.3.5: the old object is deallocated, even if
the new one is at the same place), and what it points to changes when elements are moved.  The copy of an element onto
itself leaves it as it is.
-/
namespace OP.SetFam.SSet
variable {α : Type u}

/-- `for (i = 0; i < s; i++) init(p+i,&v[i])` (include/set.h:353-354) with `v = &value[q]`. -/
def copyOwn (b : Buf α) (p q : Nat) : Nat → Res (Buf α)
  | 0 => .ok b
  | s + 1 => do
    let b ← copyOwn b p q s
    let v ← b.read (q + s)
    b.write (p + s) (some v)

/-- `allocate` (include/set.h:208-221) while a pointer into the buffer is held that is used afterwards. -/
def allocateHeld (st : SSet α) (s : Nat) : Res (SSet α) :=
  if (bufsize s st.block).1 = st.buf.length then st.allocate s else .ub

/-- `sset::add(p,v,s)` (include/set.h:338-355) with `v = &value[q]`: the calls `add(x[q])`, `add(p,x[q])`, `add(x)` and
`add(p,x)` of a set `x` (include/set.h:318-337). -/
def addOwn (d : α) (st : SSet α) (p q s : Nat) : Res (SSet α) :=
  if s = 0 then .throw
  else if p ≥ st.size then do
    let st' ← st.allocateHeld (p + s)
    let b ← st'.buf.construct st'.size (List.replicate (p - 1 - st'.size) d)
    let b ← copyOwn b p q s
    .ok { st' with size := p + s, buf := b }
  else do
    let st' ← st.allocateHeld (st.size + s)
    let b ← st'.buf.memmove (p + s) p (st'.size - p)
    let b ← copyOwn b p q s
    .ok { st' with size := st'.size + s, buf := b }

/-- `x.add(x[q])` (include/set.h:318-320) -/
def addElement (d : α) (st : SSet α) (q : Nat) : Res (SSet α) := st.addOwn d st.size q 1

/-- `x.add(p,x[q])` (include/set.h:330-332) -/
def insertElement (d : α) (st : SSet α) (p q : Nat) : Res (SSet α) := st.addOwn d p q 1

/-- `x.add(x)` (include/set.h:322-324) -/
def addSelf (d : α) (st : SSet α) : Res (SSet α) := st.addOwn d st.size 0 st.size

/-- `x.add(p,x)` (include/set.h:334-336) -/
def insertSelf (d : α) (st : SSet α) (p : Nat) : Res (SSet α) := st.addOwn d p 0 st.size

/-- `x = x` (include/set.h:167-172): the size and the buffer of the argument are read after the set has been emptied. -/
def assignOwn (st : SSet α) : Res (SSet α) := do
  let st ← st.deallocate
  let st ← st.allocate st.size
  let b ← copyOwn st.buf 0 0 st.size
  .ok { st with buf := b, size := st.size + st.size }

end OP.SetFam.SSet
