import Verif.Basic
import Mathlib.Data.Nat.Digits.Defs
/-!
# The runs of the finite element program and its files (fem3d/fem3d.cpp:3180-3233, 3775-3950)
-/
namespace OP.Fem.Runs

/-! ### The loop over the runs -/

/-- `isvar`, `run` (fem3d/fem3d.cpp:2849-2850) and the results written so far, the oldest first.  `run` is an integer that does
not overflow. -/
structure RSt where
  isvar : Bool
  run : Int
  out : List (Bool × Int)
deriving DecidableEq

/-- The start (fem3d/fem3d.cpp:3825-3828) -/
def start (S : Int) : RSt := ⟨false, S, []⟩

/-- The loop is left (fem3d/fem3d.cpp:3831-3835): the next round has a number after the last. -/
def stops (S N : Int) (s : RSt) : Bool := decide ((if !s.isvar then s.run + 1 else s.run) > S + N)

/-- One round (fem3d/fem3d.cpp:3830-3950).  `ok v` says whether `solve` returns for a pavement with (`v`) or without variations;
otherwise it throws.  The results of a round are written under its kind and number.  After the last round nothing happens. -/
def round (S N : Int) (ok : Bool → Bool) (s : RSt) : RSt :=
  if stops S N s then s
  else
    let isvar := !s.isvar
    let run := if isvar then s.run + 1 else s.run
    if ok isvar then ⟨isvar, run, s.out ++ [(isvar, run)]⟩ else ⟨false, run - 1, s.out⟩

/-- Rounds, with what `solve` does in each of them. -/
def rounds (S N : Int) (h : List (Bool → Bool)) : RSt := h.foldl (fun s ok => round S N ok s) (start S)

/-! ### The names of the files -/

/-- `%05d` (fem3d/fem3d.cpp:3217), as codes of characters. -/
def pad5 (r : Int) : List Nat :=
  let d := ((Nat.digits 10 r.natAbs).map (48 + ·)).reverse
  if r < 0 then 45 :: (List.replicate (4 - d.length) 48 ++ d) else List.replicate (5 - d.length) 48 ++ d

/-- `sprintf(fname,"%s_%s_%05d.bin",...)` (fem3d/fem3d.cpp:3217) -/
def fileName (d : List Nat) (isvar : Bool) (r : Int) : List Nat :=
  d ++ 95 :: ((if isvar then [51, 100] else [49, 100]) ++ 95 :: (pad5 r ++ [46, 98, 105, 110]))

/-! ### The contents of a file -/

/-- The results at a point, as far as they are written (src/pavement.h:257-380). -/
structure Pt (α : Type) where
  x : α
  y : α
  z : α
  emod : α
  data : Fin 27 → α

/-- The loop that looks for the layer (fem3d/fem3d.cpp:3221-3223): materials are compared by address.  It reads on after the last
layer. -/
def layerOf : List Nat → Nat → Res Nat
  | [], _ => .ub
  | a :: as, m => if a = m then .ok 0 else layerOf as m >>= fun i => .ok (i + 1)

/-- What is written for one point (fem3d/fem3d.cpp:3226-3229) -/
def point {α : Type} (ild : α) (p : Pt α) : List α := [p.x, p.y, p.z, ild, p.emod] ++ List.ofFn p.data

/-- `results` (fem3d/fem3d.cpp:3209-3233) for `n` points in each element: an element is the address of its material with its
results; `num` makes a double of a number. -/
def results {α : Type} (num : Nat → α) (layers : List Nat) {n : Nat} : List (Nat × (Fin n → Pt α)) → Res (List α)
  | [] => .ok []
  | e :: es => do
    let il ← layerOf layers e.1
    let r ← results num layers es
    .ok ((List.ofFn e.2).flatMap (point (num il)) ++ r)

/-! ### The files with the correlations -/

/-- The files `cor0.tri` … and what is in them. -/
abbrev Files (α : Type) := Nat → Option (List α)

/-- What the program does to the files. -/
inductive Act (α : Type) where
  | create (l : Nat)
  | append (l : Nat) (x : α)

/-- `fopen(fname,"wb")` and the writing of one number. -/
def Act.apply {α : Type} (fs : Files α) : Act α → Files α
  | .create l => fun k => if k = l then some [] else fs k
  | .append l x => fun k => if k = l then (fs k).map (· ++ [x]) else fs k

/-- The loop over the layers (fem3d/fem3d.cpp:3778-3822) from layer `l` on, for as many as the last argument says: the changes of the files,
and whether the loop is finished.  An existing file is left as it is.  Otherwise the file is made, and only then the matrix is filled and
decomposed; `fac l` is the factor, or `none` if the matrix is not positive definite: then `decmp_chol_tri` throws (src/linalg.cpp:382-384),
which nothing catches.  Then the factor is written.  The files of other layers do not matter, so `fs` are the files at the start. -/
def acts {α : Type} (fac : Nat → Option (List α)) (fs : Files α) : Nat → Nat → List (Act α) × Bool
  | _, 0 => ([], true)
  | l, k + 1 => match fs l with
    | some _ => acts fac fs (l + 1) k
    | none => match fac l with
      | none => ([.create l], false)
      | some c =>
        let r := acts fac fs (l + 1) k
        (.create l :: c.map (.append l) ++ r.1, r.2)

/-- The files after the first changes of a start of the program for `m` layers; it is stopped before change number `t`, if there are
so many. -/
def boot {α : Type} (fac : Nat → Option (List α)) (m : Nat) (t : Nat) (fs : Files α) : Files α :=
  ((acts fac fs 0 m).1.take t).foldl Act.apply fs

/-- The reading of a factor of `n` numbers (fem3d/fem3d.cpp:3839-3849).  Neither `fopen` nor `fread` is checked, and all of the numbers are
used (fem3d/fem3d.cpp:3851-3855). -/
def readFac {α : Type} (fs : Files α) (l n : Nat) : Res (List α) :=
  match fs l with
  | none => .ub
  | some c => if n ≤ c.length then .ok (c.take n) else .ub

end OP.Fem.Runs
