import Verif.Basic
import Mathlib.Data.Rat.Defs
import Mathlib.Algebra.Order.Ring.Unbundled.Rat
/-!
# Weigh-in-motion traffic counts

`src/traffic.cpp`, `src/traffic.h`.  Characters are the integers they are promoted to; the character classes are those of the
C locale, and any other value belongs to none.  A pointer to characters is the list of characters that may be read from it;
reading past it and signed overflow are undefined.  Doubles are rationals with `fl` applied after every operation, where `fl`
is any function; `none` is a value that is not a number.  Counters are unbounded, and `mktime` is a parameter of the date.
-/
namespace OP.Traffic

/-- `isspace` in the C locale. -/
def isspace (c : Int) : Bool := c == 32 || (9 ≤ c && c ≤ 13)

/-- `isdigit`. -/
def isdigit (c : Int) : Bool := 48 ≤ c && c ≤ 57

/-- `isprint` in the C locale. -/
def isprint (c : Int) : Bool := 32 ≤ c && c ≤ 126

/-- The result of an `int` operation. -/
def int (n : Int) : Res Int := if -2147483648 ≤ n ∧ n ≤ 2147483647 then .ok n else .ub

/-- `while (w > 0 && isspace(*c))` (src/traffic.cpp:64-65). -/
def skip : Nat → List Int → Res (Nat × List Int)
  | 0, l => .ok (0, l)
  | _ + 1, [] => .ub
  | w + 1, c :: l => if isspace c then skip w l else .ok (w + 1, c :: l)

/-- `while (w-- > 0)` and the return (src/traffic.cpp:66-73). -/
def digits : Nat → List Int → Bool → Int → Res Int
  | 0, _, n, r => int (if n then -r else r)
  | _ + 1, [], _, _ => .ub
  | w + 1, c :: l, n, r =>
    if r = 0 ∧ c = 45 then
      int (r * 10) >>= fun x => int (x + c) >>= fun x => int (x - 48) >>= fun x => digits w l true x
    else if ¬ isdigit c then int (if n then -r else r)
    else int (r * 10) >>= fun x => int (x + c) >>= fun x => int (x - 48) >>= fun x => digits w l n x

/-- `str2int` (src/traffic.cpp:58-74); `none` is the null pointer. -/
def str2int (c : Option (List Int)) (w : Int) : Res Int :=
  match c with
  | none => .ok 0
  | some l => if w ≤ 0 then .ok 0 else skip w.toNat l >>= fun x => digits x.1 x.2 false 0

/-- The date fields set by `str2time` (src/traffic.cpp:80-98): year since 1900, month from 0, day; `none` if it returns early.
C++ division truncates. -/
def str2date (s : Option (List Int)) : Res (Option (Int × Int × Int)) :=
  str2int s 6 >>= fun d =>
  if s = none ∨ d = 0 then .ok none else
  let d := if d < 690000 then d + 1000000 else d
  let y := d.tdiv 10000
  let d := d - d.tdiv 10000 * 10000
  let m := d.tdiv 100 - 1
  let d := d - d.tdiv 100 * 100
  .ok (some (y, m, d))

/-- `str2time` (src/traffic.cpp:80-98). -/
def str2time (mktime : Int × Int × Int → Int) (s : Option (List Int)) : Res Int :=
  str2date s >>= fun d => .ok (match d with | none => -1 | some d => mktime d)

/-! ## Files -/

/-- A file open for reading: what is left and the end-of-file indicator. -/
structure File where
  rest : List Int
  eof : Bool := false

/-- `fgetc`. -/
def File.getc (f : File) : Int × File :=
  match f.rest with
  | [] => (-1, { f with eof := true })
  | c :: r => (c, { f with rest := r })

/-- The reading loop of `fgetln` (src/traffic.cpp:123-132): `l` is the room left and `out` what was written.  The stale
character tested at a line end is overwritten by what follows, so it is left out. -/
def readln : Nat → Nat → List Int → File → List Int × File
  | 0, _, out, f => (out, f)
  | k + 1, l, out, f =>
    if f.eof then (out, f) else
    let (c, f) := f.getc
    if c = 10 then (out, f)
    else if l > 1 then readln k (l - 1) (out ++ [if isprint c then c else 32]) f
    else readln k l out f

/-- `fgetln` (src/traffic.cpp:117-135) into a buffer of `l ≥ 1` characters: all of them are written.  The loop reads at most
every character and the end of the file once. -/
def fgetln (l : Nat) (f : File) : List Int × File :=
  let (out, f') := readln (f.rest.length + 2) l [] f
  (out ++ List.replicate (l - out.length) 0, f')

/-! ## Counts -/

/-- `WIMday` (src/traffic.h:69-75). -/
structure Day where
  day : Int
  SV : Nat
  LVPL : Nat → Nat
  HVPL : Nat → Nat
  WG : Nat → Nat → Nat → Nat
  AAS : Nat → Option ℚ

/-- `Clear` (src/traffic.h:82-85). -/
def Day.clear (d : Int) : Day :=
  { day := d, SV := 0, LVPL := fun _ => 0, HVPL := fun _ => 0, WG := fun _ _ _ => 0, AAS := fun _ => some 0 }

/-- An element of an array of counters incremented. -/
def inc (f : Nat → Nat) (i : Nat) : Nat → Nat := fun j => if j = i then f j + 1 else f j

/-- `WG[il][at][l]++`. -/
def Day.incWG (d : Day) (il at_ l : Nat) : Day :=
  { d with WG := fun a b c => if a = il ∧ b = at_ ∧ c = l then d.WG a b c + 1 else d.WG a b c }

/-- The search of the load group (src/traffic.cpp:232-234, 242-244); `load[l]/10` is `l+1` (src/traffic.h:61-64). -/
def bin (w : ℚ) : Nat → Nat → Nat
  | 0, l => l
  | k + 1, l => if w < ((10 * (l + 1) : Nat) : ℚ) / 10 then l else bin w k (l + 1)

/-- The number of axles in a group (src/traffic.cpp:215-217). -/
def bogey (c17 : ℚ) (na : Nat) (AS : Nat → ℚ) (ia : Nat) : Nat → Nat → Nat
  | 0, ib => ib
  | k + 1, ib => if ia + ib < na ∧ AS (ia + ib) ≤ c17 then bogey c17 na AS ia k (ib + 1) else ib

/-- The axle type (src/traffic.cpp:218-227). -/
def axleType (na ia ib : Nat) : Nat :=
  if ib > 3 then 4 else if ib = 3 then 3 else if ib = 2 then 2 else if ia = 0 ∧ na > 1 then 0 else 1

/-- The sum of the weights of a group (src/traffic.cpp:239-242). -/
def groupSum (fl : ℚ → ℚ) (AW : Nat → ℚ) (ia : Nat) : Nat → ℚ
  | 0 => 0
  | i + 1 => fl (groupSum fl AW ia i + AW (ia + i))

/-- `AAS[at]` changed by an operation. -/
def Day.addAAS (d : Day) (at_ : Nat) (f : ℚ → ℚ) : Day :=
  { d with AAS := fun t => if t = at_ then (d.AAS t).map f else d.AAS t }

/-- Counting one group (src/traffic.cpp:228-249). -/
def countGroup (fl : ℚ → ℚ) (il na : Nat) (AW AS : Nat → ℚ) (ia ib : Nat) (d : Day) : Day :=
  let at_ := axleType na ia ib
  if at_ = 4 then (List.range ib).foldl (fun d i => d.incWG il at_ (bin (AW (ia + i)) 20 0)) d
  else
    let W := fl (groupSum fl AW ia ib / ib)
    let d := d.incWG il at_ (bin W 20 0)
    (List.range (ib - 1)).foldl (fun d i => d.addAAS at_ fun x => fl (x + fl (AS (ia + (i + 1)) / ((ib - 1 : Nat) : ℚ)))) d

/-- The loop over the groups (src/traffic.cpp:213-251). -/
def axles (fl : ℚ → ℚ) (il na : Nat) (AW AS : Nat → ℚ) : Nat → Nat → Day → Day
  | 0, _, d => d
  | k + 1, ia, d =>
    if ia < na then
      let ib := bogey (fl (17 / 10)) na AS ia na 1
      axles fl il na AW AS k (ia + ib) (countGroup fl il na AW AS ia ib d)
    else d

/-- Fields `f(ia)` for `ia = i, …, i+n-1`. -/
def fields (f : Nat → Res Int) : Nat → Nat → Res (List Int)
  | 0, _ => .ok []
  | n + 1, i => f i >>= fun x => fields f n (i + 1) >>= fun xs => .ok (x :: xs)

/-- The vehicle behind a record after the weights were corrected: gross mass and weights (src/traffic.cpp:199-200). -/
def correct (fl : ℚ → ℚ) (na : Nat) (AS AW : Nat → ℚ) (GVM : ℚ) : ℚ × (Nat → ℚ) :=
  if na = 2 ∧ AS 1 ≤ fl (29 / 10) ∧ GVM ≥ 3 then
    (5 / 2, fun i => if i < 2 then fl (AW i * fl (5 / 2 / GVM)) else AW i)
  else (GVM, AW)

/-- Light vehicles (src/traffic.cpp:202-206). -/
def isLight (fl : ℚ → ℚ) (na : Nat) (GVM L : ℚ) : Prop :=
  na = 0 ∨ (na = 1 ∧ GVM < 2 ∧ L < 17 / 2) ∨ (na = 2 ∧ GVM < 7 / 2 ∧ L < fl (108 / 10)) ∨
    (na = 3 ∧ GVM < 11 / 2) ∨ (na = 4 ∧ GVM < 7)

instance (fl : ℚ → ℚ) (na : Nat) (GVM L : ℚ) : Decidable (isLight fl na GVM L) := by unfold isLight; infer_instance

/-- `AddRSAVehicle` (src/traffic.cpp:172-253). -/
def addVehicle (fl : ℚ → ℚ) (mktime : Int × Int × Int → Int) (buf : List Int) (d : Day) : Res (Bool × Day) :=
  let fld := fun o w => str2int (some (buf.drop o)) w
  str2time mktime (some (buf.drop 5)) >>= fun t =>
  if t ≠ d.day then .ok (false, d) else
  fld 24 2 >>= fun il =>
  let il := il - 1
  if il < 0 ∨ il ≥ 6 then .ok (false, d) else
  let il := il.toNat
  fld 33 4 >>= fun n =>
  let L := fl (fl (1 / 100) * n)
  if L < 5 / 2 then .ok (true, { d with SV := d.SV + 1 }) else
  fld 51 2 >>= fun na =>
  if na < 0 ∨ na > 15 then .ok (false, d) else
  let na := na.toNat
  fields (fun ia => fld (54 + ia * 9) 3) na 0 >>= fun ws =>
  fields (fun ia => fld (49 + ia * 9) 4) (na - 1) 1 >>= fun ss =>
  let AW := fun i => fl (fl (1 / 10) * (ws.getD i 0 : Int))
  let AS := fun i => if i = 0 then 0 else fl (fl (1 / 100) * (ss.getD (i - 1) 0 : Int))
  let GVM := (List.range na).foldl (fun g i => fl (g + AW i)) 0
  let c := correct fl na AS AW GVM
  if isLight fl na c.1 L then .ok (true, { d with LVPL := inc d.LVPL il })
  else .ok (true, axles fl il na c.2 AS na 0 { d with HVPL := inc d.HVPL il })

/-- `AC` (src/traffic.h:135-140). -/
def Day.AC (d : Day) (l t : Nat) : Nat := (List.range 21).foldl (fun s i => s + d.WG l t i) 0

/-- `AxC` (src/traffic.h:128-133). -/
def Day.AxC (d : Day) (t : Nat) : Nat := (List.range 6).foldl (fun s l => s + d.AC l t) 0

/-- The weighted average of `operator +=` (src/traffic.cpp:264-267); dividing by no axles gives `0/0`. -/
def average (fl : ℚ → ℚ) (n m : Nat) (a b : Option ℚ) : Option ℚ :=
  if n + m = 0 then none else
  a.bind fun a => b.bind fun b => some (fl (fl (fl (n * a) + fl (m * b)) / ((n + m : Nat) : ℚ)))

/-- `WIMday::operator +=` (src/traffic.cpp:258-277). -/
def Day.add (fl : ℚ → ℚ) (s d : Day) : Day :=
  { day := d.day, SV := s.SV + d.SV
    LVPL := fun l => s.LVPL l + d.LVPL l
    HVPL := fun l => s.HVPL l + d.HVPL l
    WG := fun l t i => s.WG l t i + d.WG l t i
    AAS := fun t => average fl (s.AxC t) (d.AxC t) (s.AAS t) (d.AAS t) }

/-- A survey: its totals and the first and last day (src/traffic.h:146-165). -/
structure Survey where
  tot : Day
  start : Int
  fin : Int

/-- `if (start <= d.day && end >= d.day) *this += d`. -/
def Survey.addIf (fl : ℚ → ℚ) (s : Survey) (d : Day) : Survey :=
  if s.start ≤ d.day ∧ s.fin ≥ d.day then { s with tot := s.tot.add fl d } else s

/-- The loop of `Read` (src/traffic.cpp:330-334) over a file of whole records; reading past the last one sets the end-of-file
indicator and leaves `d` as it is. -/
def readLoop (fl : ℚ → ℚ) : List Day → Day → Survey → Survey
  | [], d, s => s.addIf fl d
  | r :: rs, _, s => readLoop fl rs r (s.addIf fl r)

/-- `Read` (src/traffic.cpp:323-337) of a file that can be opened; `d` starts as the empty day `-1`. -/
def Survey.read (fl : ℚ → ℚ) (f : List Day) (s : Survey) : Survey := readLoop fl f (Day.clear (-1)) s

/-! ## Record files -/

/-- `strncmp(buf, "xy", 2) == 0` on a terminated buffer. -/
def starts (a b : Int) (buf : List Int) : Bool := buf.take 2 == [a, b]

/-- Skipping to the first data line (src/traffic.cpp:290-295). -/
def toData : Nat → File → File
  | 0, f => f
  | k + 1, f =>
    if f.eof then f else
    let (b, f) := fgetln 256 f
    if starts 72 57 b then f else toData k f

/-- What `ProcessRSAFile` changes: the days written so far, the survey, the day being counted. -/
structure Proc where
  out : List Day
  sur : Survey
  cur : Day

/-- The data loop (src/traffic.cpp:298-315). -/
def dataLoop (fl : ℚ → ℚ) (mktime : Int × Int × Int → Int) : Nat → File → Proc → Res Proc
  | 0, _, p => .ok p
  | k + 1, f, p =>
    if f.eof then .ok p else
    let (b, f) := fgetln 256 f
    if starts 72 48 b then .ok p
    else if starts 49 51 b then
      str2time mktime (some (b.drop 5)) >>= fun t =>
      let p := if t ≠ p.cur.day then
        { out := p.out ++ [p.cur], sur := p.sur.addIf fl p.cur, cur := Day.clear t } else p
      addVehicle fl mktime b p.cur >>= fun r => dataLoop fl mktime k f { p with cur := r.2 }
    else dataLoop fl mktime k f p

/-- `ProcessRSAFile` (src/traffic.cpp:282-318) of a file that can be opened.  Every round but the last reads a character. -/
def processFile (fl : ℚ → ℚ) (mktime : Int × Int × Int → Int) (bytes : List Int) (p : Proc) : Res (Bool × Proc) :=
  let f := toData (bytes.length + 2) { rest := bytes }
  if f.eof then .ok (false, p) else
  dataLoop fl mktime (f.rest.length + 2) f p >>= fun p => .ok (true, p)

/-- The files of a directory in order and the final write (src/traffic.cpp:395-402). -/
def processFiles (fl : ℚ → ℚ) (mktime : Int × Int × Int → Int) : List (List Int) → Proc → Res Proc
  | [], p => .ok { p with out := p.out ++ [p.cur], sur := p.sur.addIf fl p.cur }
  | f :: fs, p => processFile fl mktime f p >>= fun r => processFiles fl mktime fs r.2

end OP.Traffic
