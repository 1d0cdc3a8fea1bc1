import Verif.Basic
import Verif.SetFam.Bufsize
/-!
# `fset` and `sset` (include/set.h:139-378) on raw storage

Simplifications: allocation never fails (`std::bad_alloc` is not modelled); the arithmetic on sizes is
exact, except in `remove`, whose clamp `p+s` is 32-bit as in the code.  Element types are class types
with a default constructor producing `d`; the special cases for `int`, `unsigned`, `float` and
`double` (include/set.h:252-275) that skip construction for a null source are not modelled.
Arguments do not alias the set's own storage; `SetFam/Own` has those that do.
-/
namespace OP.SetFam

/-- State of an `sset<V>` (include/set.h:94-95,131,195): `buffer` is `buf.length`. -/
structure SSet (α : Type u) where
  block : Nat
  size : Nat
  buf : Buf α

namespace SSet
variable {α : Type u}

/-- `sset()` (include/set.h:98-100,243-246,289-291). -/
def init (b : Nat) : SSet α := ⟨if b > 1 then b else 1, 0, []⟩

/-- `set::length` (include/set.h:85-87). -/
def length (st : SSet α) : Nat := st.size

/-- `set::inbounds` (include/set.h:89-91). -/
def inbounds (st : SSet α) (p : Nat) : Bool := p < st.size

/-- The buffer as `fset::deallocate` gives it to `free` (include/set.h:223-227). -/
def freed (st : SSet α) : Res (Buf α) :=
  if st.buf.length = 0 then .ok st.buf else st.buf.destroyRange 0 st.size

/-- `fset::deallocate` (include/set.h:222-231). -/
def deallocate (st : SSet α) : Res (SSet α) := do
  let _ ← st.freed
  .ok { st with size := 0, buf := [] }

/-- `fset::allocate` (include/set.h:208-221). -/
def allocate (st : SSet α) (s : Nat) : Res (SSet α) :=
  let r := bufsize s st.block
  let st := { st with block := r.2 }
  if r.1 = st.buf.length then .ok st
  else if s = 0 then st.deallocate
  else .ok { st with buf := st.buf.realloc r.1 }

/-- `fset::copy(s,v)` (include/set.h:238-241) for a source holding `vs`. -/
def copy (st : SSet α) (vs : List α) : Res (SSet α) := do
  let b ← st.buf.construct st.size vs
  .ok { st with size := st.size + vs.length, buf := b }

/-- `fset::resize` (include/set.h:174-178). -/
def resize (d : α) (st : SSet α) (n : Nat) : Res (SSet α) := do
  let st ← st.deallocate
  let st ← st.allocate n
  st.copy (List.replicate n d)

/-- `fset::operator =` (include/set.h:167-172) from another set holding `vs`. -/
def assign (st : SSet α) (vs : List α) : Res (SSet α) := do
  let st ← st.deallocate
  let st ← st.allocate vs.length
  st.copy vs

/-- `sset::add(p,v,s)` (include/set.h:338-355) with `vs` the `s` source elements (a null source is
`s` copies of the default).  The gap loop `for (i = size; p > 0 && i < p-1; i++) init(i,nullptr)`
constructs `p-1-size` default elements. -/
def add (d : α) (st : SSet α) (p : Nat) (vs : List α) : Res (SSet α) :=
  let s := vs.length
  if s = 0 then .throw
  else if p ≥ st.size then do
    let st' ← st.allocate (p + s)
    let b ← st'.buf.construct st'.size (List.replicate (p - 1 - st'.size) d)
    let b ← b.construct p vs
    .ok { st' with size := p + s, buf := b }
  else do
    let st' ← st.allocate (st.size + s)
    let b ← st'.buf.memmove (p + s) p (st'.size - p)
    let b ← b.construct p vs
    .ok { st' with size := st'.size + s, buf := b }

/-- The move closing the gap in `sset::remove` (include/set.h:369-371). -/
def closeGap (b : Buf α) (size p s : Nat) : Res (Buf α) :=
  if size - p > s then b.memmove p (p + s) (size - p - s) else .ok b

/-- `sset::remove(p,s)` (include/set.h:361-374). -/
def remove (st : SSet α) (p s : Nat) : Res (SSet α) :=
  if ¬ p < st.size then .throw
  else if s = 0 then .throw
  else
    let s := if (p + s) % W > st.size then st.size - p else s
    do
    let b ← st.buf.destroyRange p s
    let b ← closeGap b st.size p s
    let st' := { st with size := st.size - s, buf := b }
    st'.allocate st'.size

/-- `sset::remove()` (include/set.h:357-359): `remove(size-1,1)`, where `size-1` wraps for an empty
set and is then out of range. -/
def removeLast (st : SSet α) : Res (SSet α) :=
  if st.size = 0 then st.remove (W - 1) 1 else st.remove (st.size - 1) 1

/-- `sset::empty` (include/set.h:375-377). -/
def empty (st : SSet α) : Res (SSet α) := st.deallocate

/-- `fset::operator []` (include/set.h:180-186, release build). -/
def get (st : SSet α) (p : Nat) : Res α := st.buf.read p

/-- `fset::copyout` (include/set.h:189-192): read every element in order. -/
def copyout (st : SSet α) : Res (List α) :=
  (List.range st.size).foldr (fun i acc => do
    let v ← st.get i
    let vs ← acc
    .ok (v :: vs)) (.ok [])

/-- The operations of the public interface. -/
inductive Op (α : Type u) where
  | add (p : Nat) (vs : List α)
  | append (v : α)
  | remove (p s : Nat)
  | removeLast
  | resize (n : Nat)
  | assign (vs : List α)
  | empty

/-- One call. -/
def step (d : α) (st : SSet α) : Op α → Res (SSet α)
  | .add p vs => st.add d p vs
  | .append v => st.add d st.size [v]
  | .remove p s => st.remove p s
  | .removeLast => st.removeLast
  | .resize n => st.resize d n
  | .assign vs => st.assign vs
  | .empty => st.empty

/-- A history of calls; a call that throws leaves the object as it was (all throws in the modelled
functions precede any change) and is reported as `false`. -/
def run (d : α) (st : SSet α) : List (Op α) → Res (SSet α × List Bool)
  | [] => .ok (st, [])
  | op :: ops =>
    match st.step d op with
    | .ok st' => do
      let (r, bs) ← run d st' ops
      .ok (r, true :: bs)
    | .throw => do
      let (r, bs) ← run d st ops
      .ok (r, false :: bs)
    | .ub => .ub

/-! ## Specification: an ordinary list -/

/-- What one call should do to a list.  `none`: outside the contract (insertion beyond the end, or a
removal length overflowing `unsigned`); `some none`: rejected; `some (some l)`: new content. -/
def spec (d : α) (l : List α) : Op α → Option (Option (List α))
  | .add p vs =>
    if p > l.length then none
    else if vs = [] then some none
    else some (some (l.take p ++ vs ++ l.drop p))
  | .append v => some (some (l ++ [v]))
  | .remove p s =>
    if p + s ≥ W then none
    else if p < l.length ∧ s ≠ 0 then some (some (l.take p ++ l.drop (p + s)))
    else some none
  | .removeLast => if l = [] then some none else some (some l.dropLast)
  | .resize n => some (some (List.replicate n d))
  | .assign vs => some (some vs)
  | .empty => some (some [])

/-- A history on the list; `none` once a call is outside the contract or the list has outgrown
`unsigned`. -/
def specRun (d : α) (l : List α) : List (Op α) → Option (List α × List Bool)
  | [] => some (l, [])
  | op :: ops =>
    if l.length ≥ W then none else
    match spec d l op with
    | none => none
    | some none => (specRun d l ops).map fun r => (r.1, false :: r.2)
    | some (some l') => (specRun d l' ops).map fun r => (r.1, true :: r.2)

/-! ## Representation -/

/-- The object holds exactly the list `l`: its first `size` cells are live and hold `l`. -/
structure Rep (st : SSet α) (l : List α) : Prop where
  block_pos : 0 < st.block
  size_eq : st.size = l.length
  buf_eq : ∃ junk, st.buf = l.map some ++ junk

theorem Rep.init (b : Nat) : Rep (SSet.init b : SSet α) [] := by
  refine ⟨?_, rfl, ⟨[], rfl⟩⟩
  simp only [SSet.init]; split <;> omega

theorem deallocate_rep {st : SSet α} {l : List α} (h : Rep st l) :
    st.deallocate = .ok { st with size := 0, buf := [] } := by
  obtain ⟨_, hs, junk, hb⟩ := h
  unfold deallocate freed
  split
  · rfl
  · have := Buf.destroyRange_append [] junk l
    simp only [List.nil_append, List.length_nil] at this
    rw [hb, hs, this]; simp

theorem bufsize_block_pos (s b : Nat) (hb : 0 < b) : 0 < (bufsize s b).2 := growBlock_pos s b hb

theorem le_bufsize (s b : Nat) (hb : 0 < b) : s ≤ (bufsize s b).1 :=
  roundUp_ge s _ (growBlock_pos s b hb)

/-- `allocate` for a length that covers the live elements keeps them and makes room. -/
theorem allocate_rep {st : SSet α} {l : List α} (h : Rep st l) (s : Nat) (hs : l.length ≤ s) :
    ∃ st', st.allocate s = .ok st' ∧ Rep st' l ∧ s ≤ st'.buf.length := by
  have hbp := bufsize_block_pos s st.block h.block_pos
  have hle := le_bufsize s st.block h.block_pos
  unfold allocate
  simp only
  split
  · rename_i hc
    exact ⟨_, rfl, ⟨hbp, h.size_eq, h.buf_eq⟩, by simp only; omega⟩
  · split
    · rename_i h0
      subst h0
      have hl : l = [] := List.length_eq_zero_iff.mp (by omega)
      subst hl
      have hr : Rep ({ st with block := (bufsize 0 st.block).2 } : SSet α) [] :=
        ⟨hbp, h.size_eq, h.buf_eq⟩
      rw [deallocate_rep hr]
      exact ⟨_, rfl, ⟨hbp, rfl, ⟨[], rfl⟩⟩, by simp⟩
    · obtain ⟨hb0, hsz, junk, hb⟩ := h
      obtain ⟨junk', hj, hjl⟩ := Buf.realloc_prefix l junk (bufsize s st.block).1 (by omega)
      refine ⟨_, rfl, ⟨hbp, hsz, ⟨junk', ?_⟩⟩, ?_⟩
      · simp only [hb, hj]
      · simp only [Buf.realloc_length]; omega

theorem add_rep {st : SSet α} {l : List α} (d : α) (h : Rep st l) (p : Nat) (vs : List α)
    (hp : p ≤ l.length) (hv : vs ≠ []) :
    ∃ st', st.add d p vs = .ok st' ∧ Rep st' (l.take p ++ vs ++ l.drop p) := by
  have hvl : vs.length ≠ 0 := by simpa [List.length_eq_zero_iff] using hv
  unfold add
  simp only [hvl, if_false]
  have hsz := h.size_eq
  split
  · rename_i hge
    have hpe : p = l.length := by omega
    subst hpe
    obtain ⟨st', hst, hr, hlen⟩ := allocate_rep h (l.length + vs.length) (by omega)
    obtain ⟨hb', hs', junk, hbuf⟩ := hr
    rw [hst]
    simp only [Res.ok_bind]
    have e : l.length - 1 - st'.size = 0 := by omega
    rw [e]
    simp only [List.replicate_zero, Buf.construct, Res.ok_bind]
    rw [hbuf, List.length_append, List.length_map] at hlen
    have hc := Buf.construct_append (l.map some) (junk.take vs.length) (junk.drop vs.length) vs
      (by simp; omega)
    rw [List.take_append_drop, List.length_map] at hc
    rw [hbuf, hc]
    simp only [Res.ok_bind]
    refine ⟨_, rfl, ⟨hb', by simp, ⟨junk.drop vs.length, by simp⟩⟩⟩
  · rename_i hlt
    obtain ⟨st', hst, hr, hlen⟩ := allocate_rep h (st.size + vs.length) (by omega)
    obtain ⟨hb', hs', junk, hbuf⟩ := hr
    rw [hst]
    simp only [Res.ok_bind]
    have hlen' := hlen
    rw [hbuf, List.length_append, List.length_map] at hlen'
    have hmm : st'.buf.memmove (p + vs.length) p (st'.size - p) =
        .ok ((l.take p).map some ++
          (((st'.buf.take (p + vs.length)).drop p) ++
            ((l.drop p).map some ++ st'.buf.drop (p + vs.length + (st'.size - p))))) := by
      unfold Buf.memmove
      rw [if_pos (by omega)]
      congr 1
      have h1 : st'.buf.take (p + vs.length) =
          (l.take p).map some ++ (st'.buf.take (p + vs.length)).drop p := by
        conv_lhs => rw [← List.take_append_drop p (st'.buf.take (p + vs.length))]
        congr 1
        rw [List.take_take, Nat.min_eq_left (by omega), hbuf,
          List.take_append_of_le_length (by simp; omega), List.map_take]
      have h2 : (st'.buf.drop p).take (st'.size - p) = (l.drop p).map some := by
        rw [hbuf, List.drop_append_of_le_length (by simp; omega),
          List.take_append_of_le_length (by simp; omega), ← List.map_drop]
        apply List.take_of_length_le
        simp; omega
      rw [h2]
      conv_lhs => rw [h1]
      simp only [List.append_assoc]
    rw [hmm]
    simp only [Res.ok_bind]
    have hc := Buf.construct_append ((l.take p).map some) ((st'.buf.take (p + vs.length)).drop p)
      ((l.drop p).map some ++ st'.buf.drop (p + vs.length + (st'.size - p))) vs
      (by simp; omega)
    rw [List.length_map, List.length_take, Nat.min_eq_left hp] at hc
    rw [hc]
    simp only [Res.ok_bind]
    refine ⟨_, rfl, ⟨hb', ?_, ⟨st'.buf.drop (p + vs.length + (st'.size - p)), ?_⟩⟩⟩
    · simp; omega
    · simp

theorem remove_rep {st : SSet α} {l : List α} (h : Rep st l) (p s : Nat)
    (hp : p < l.length) (hs : s ≠ 0) (hw : p + s < W) :
    ∃ st', st.remove p s = .ok st' ∧ Rep st' (l.take p ++ l.drop (p + s)) := by
  obtain ⟨hb0, hsz, junk, hbuf⟩ := h
  unfold remove
  rw [if_neg (by omega), if_neg hs, Nat.mod_eq_of_lt hw]
  simp only
  generalize hn : (if p + s > st.size then st.size - p else s) = n
  have hn1 : n ≤ l.length - p := by
    rw [← hn]; split <;> omega
  have hdrop : l.drop (p + s) = l.drop (p + n) := by
    rw [← hn]; split
    · rw [List.drop_of_length_le (by omega), List.drop_of_length_le (by omega)]
    · rfl
  have hbuf' : st.buf = (l.take p).map some ++ ((((l.drop p).take n).map some) ++
      ((l.drop (p + n)).map some ++ junk)) := by
    rw [hbuf, ← List.append_assoc, ← List.append_assoc, ← List.map_append, ← List.map_append]
    congr 2
    rw [← List.drop_drop, List.append_assoc, List.take_append_drop, List.take_append_drop]
  have hdl : ((l.drop p).take n).length = n := by simp; omega
  have hd := Buf.destroyRange_append ((l.take p).map some) ((l.drop (p + n)).map some ++ junk)
    ((l.drop p).take n)
  rw [hdl, List.length_map, List.length_take, Nat.min_eq_left (by omega), ← hbuf'] at hd
  rw [hd]
  simp only [Res.ok_bind]
  have key : ∃ b, closeGap (List.map some (List.take p l) ++ (List.replicate n none ++
          (List.map some (List.drop (p + n) l) ++ junk))) st.size p n = .ok b ∧
      ∃ junk', b = (l.take p ++ l.drop (p + n)).map some ++ junk' := by
    unfold closeGap
    split
    · unfold Buf.memmove
      rw [if_pos (by simp; omega)]
      refine ⟨_, rfl, ?_⟩
      · refine ⟨List.drop (p + (st.size - p - n)) (List.map some (List.take p l) ++
          (List.replicate n none ++ (List.map some (List.drop (p + n) l) ++ junk))), ?_⟩
        have h1 : (List.map some (List.take p l)).length = p := by simp; omega
        have h2 : (List.map some (List.take p l) ++ (List.replicate n none ++
            (List.map some (List.drop (p + n) l) ++ junk))).take p = (l.take p).map some := by
          rw [List.take_append_of_le_length (by omega)]
          exact List.take_of_length_le (by omega)
        have h3 : ((List.map some (List.take p l) ++ (List.replicate n none ++
            (List.map some (List.drop (p + n) l) ++ junk))).drop (p + n)).take (st.size - p - n)
            = (l.drop (p + n)).map some := by
          rw [← List.append_assoc, List.drop_append_of_le_length (by simp; omega),
            List.drop_of_length_le (by simp), List.nil_append,
            List.take_append_of_le_length (by simp; omega)]
          exact List.take_of_length_le (by simp; omega)
        rw [h2, h3]
        simp
    · have h0 : l.drop (p + n) = [] := List.drop_of_length_le (by omega)
      refine ⟨_, rfl, ⟨List.replicate n none ++ junk, ?_⟩⟩
      rw [h0]; simp
  obtain ⟨b, hb1, junk', hb2⟩ := key
  rw [hb1]
  simp only [Res.ok_bind]
  have hr : Rep ({ st with size := st.size - n, buf := b } : SSet α)
      (l.take p ++ l.drop (p + s)) := by
    rw [hdrop]
    exact ⟨hb0, by simp; omega, ⟨junk', hb2⟩⟩
  obtain ⟨st', h1, h2, _⟩ := allocate_rep hr (st.size - n) (by rw [← hr.size_eq])
  exact ⟨st', h1, h2⟩

theorem copy_rep {st : SSet α} {l : List α} (h : Rep st l) (vs : List α)
    (hroom : l.length + vs.length ≤ st.buf.length) :
    ∃ st', st.copy vs = .ok st' ∧ Rep st' (l ++ vs) := by
  obtain ⟨hb0, hsz, junk, hbuf⟩ := h
  rw [hbuf, List.length_append, List.length_map] at hroom
  have hc := Buf.construct_append (l.map some) (junk.take vs.length) (junk.drop vs.length) vs
    (by simp; omega)
  rw [List.take_append_drop, List.length_map] at hc
  unfold copy
  rw [hbuf, hsz, hc]
  simp only [Res.ok_bind]
  exact ⟨_, rfl, ⟨hb0, by simp, ⟨junk.drop vs.length, by simp⟩⟩⟩

theorem assign_rep {st : SSet α} {l : List α} (h : Rep st l) (vs : List α) :
    ∃ st', st.assign vs = .ok st' ∧ Rep st' vs := by
  unfold assign
  rw [deallocate_rep h]
  simp only [Res.ok_bind]
  have hr : Rep ({ st with size := 0, buf := [] } : SSet α) [] := ⟨h.block_pos, rfl, ⟨[], rfl⟩⟩
  obtain ⟨st1, h1, h2, h3⟩ := allocate_rep hr vs.length (by simp)
  rw [h1]
  simp only [Res.ok_bind]
  simpa using copy_rep h2 vs (by simpa using h3)

theorem resize_rep {st : SSet α} {l : List α} (d : α) (h : Rep st l) (n : Nat) :
    ∃ st', st.resize d n = .ok st' ∧ Rep st' (List.replicate n d) := by
  have := assign_rep h (List.replicate n d)
  simpa [assign, resize] using this

theorem add_throw {st : SSet α} (d : α) (p : Nat) : st.add d p [] = .throw := by
  simp [add]

theorem remove_throw {st : SSet α} (p s : Nat) (h : ¬ p < st.size ∨ s = 0) :
    st.remove p s = .throw := by
  unfold remove
  by_cases h1 : p < st.size
  · rw [if_neg (by omega), if_pos (by omega)]
  · rw [if_pos h1]

theorem step_rep {st : SSet α} {l : List α} (d : α) (h : Rep st l) (hW : l.length < W) (op : Op α) :
    (∀ l', spec d l op = some (some l') → ∃ st', st.step d op = .ok st' ∧ Rep st' l') ∧
    (spec d l op = some none → st.step d op = .throw) := by
  cases op with
  | add p vs =>
    simp only [spec, step]
    split
    · simp
    · rename_i hp
      split
      · rename_i hv; subst hv; simp [add_throw]
      · rename_i hv
        simpa using add_rep d h p vs (by omega) hv
  | append v =>
    simp only [spec, step]
    have := add_rep d h st.size [v] (by rw [h.size_eq]) (by simp)
    rw [h.size_eq] at this ⊢
    simpa using this
  | remove p s =>
    simp only [spec, step]
    split
    · simp
    · split
      · rename_i hw hps
        simpa using remove_rep h p s hps.1 hps.2 (by omega)
      · rename_i hw hps
        refine ⟨by simp, fun _ => remove_throw p s ?_⟩
        rw [h.size_eq]; by_cases hh : p < l.length
        · right; by_contra hc; exact hps ⟨hh, hc⟩
        · left; exact hh
  | removeLast =>
    simp only [spec, step, removeLast]
    split
    · rename_i hl; subst hl
      have := h.size_eq
      simp only [List.length_nil] at this
      rw [if_pos this]
      refine ⟨by simp, fun _ => remove_throw _ _ (by simp [this, W])⟩
    · rename_i hl
      have hpos : 0 < l.length := List.length_pos_iff.mpr hl
      rw [if_neg (by rw [h.size_eq]; omega), h.size_eq]
      have := remove_rep h (l.length - 1) 1 (by omega) (by omega) (by omega)
      rw [List.drop_of_length_le (by omega), List.append_nil, ← List.dropLast_eq_take] at this
      simpa using this
  | resize n => simpa [spec, step] using resize_rep d h n
  | assign vs => simpa [spec, step] using assign_rep h vs
  | empty =>
    simp only [spec, step, empty, deallocate_rep h]
    simp only [Option.some.injEq, forall_eq']
    exact ⟨⟨_, rfl, ⟨h.block_pos, rfl, ⟨[], rfl⟩⟩⟩, by simp⟩

end SSet
end OP.SetFam
