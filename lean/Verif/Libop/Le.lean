import Verif.Pave.Sys
import Verif.Libop.Handles
/-!
# The layered elastic calls of the C interface (libop/libop.cpp:272-651, 121-190, 672-720)

Each call works on the system of a handle (Handles.lean).  What a call does to the system is given in terms of the
model of `LEsystem`; the status it returns is `true` for an error, as in the code.  Every call but those that cannot
throw is wrapped in `try`: an exception gives the status `true`.  `nullQ` is the null pointer passed for the direction
matrix.
-/
namespace OP.Libop
open OP.Pave

variable {K L R Q : Type} [Field K] [LinearOrder K]

/-- The calls that may change the system of a handle.  Numbers are as the caller gives them. -/
inductive Cmd (K L : Type)
  | addLayer (y : Layer K)
  | insertLayer (p : Nat) (y : Layer K)
  | removeLayer (p : Nat)
  | removeLayers
  | addLoad (x : L)
  | removeLoad (l : Nat)
  | removeLoads
  | addGroupLoad (g : Nat) (x : L)
  | removeGroupLoad (g l : Nat)
  | removeGroup (g : Nat)
  | removeAllLoadGroups
  | addPoint (p : P3 K) (pl : Nat)
  | removePoint (p : P3 K) (pl : Nat)
  | removePoints
  | calculate (flags : Nat)

/-- The point of a call with layer number `pl`: `pl == 0` leaves the layer open, else it is `pl-1`
(libop/libop.cpp:488-491, 508-511, 143-146). -/
def pt (p : P3 K) (pl : Nat) : PP K := ⟨p, if pl = 0 then none else some (pl - 1)⟩

/-- Which routine `flags` selects (libop/libop.cpp:541-567, 148-173): `calculate` with a kind of result, or one of the
others by its own kind. -/
def kind (flags : Nat) : Nat × Bool :=
  match flags % 256 with
  | 1 => (if flags > 255 then 0x0101 else 0x0001, false)
  | 2 => (if flags > 255 then 0x0102 else 0x0002, false)
  | 3 => (3, true)
  | 4 => (4, true)
  | 255 => (0xFF, true)
  | _ => (if flags > 255 then 0x0100 else 0x0000, false)

/-- The status of a call that returned or threw: an exception, or a calculation that did not succeed. -/
def status : Ret → Bool
  | .done => false
  | .bool b => !b
  | .threw => true

/-- `while (system->groups() > 0) system->removeloads(0);` (libop/libop.cpp:469-470). -/
def dropGroups : Nat → Sys K L R → Res (Sys K L R × Ret)
  | 0, s => if s.groups = [] then .ok (s, .done) else .ub
  | f + 1, s =>
    if s.groups = [] then .ok (s, .done)
    else
      let r := s.removeloads 0
      if r.2 = .threw then .ok r else dropGroups f r.1

variable (num : Num K L R Q) (zero : R) (nullQ : Q)

/-- The calculation selected by `flags` (libop/libop.cpp:541-567). -/
def select (s : Sys K L R) (flags : Nat) : Res (Sys K L R × Ret) :=
  if (kind flags).2 then s.special num zero (kind flags).1 nullQ else s.calculate num zero (kind flags).1 nullQ

/-- One call: the system left and the status. -/
def cmd (s : Sys K L R) : Cmd K L → Res (Sys K L R × Bool)
  -- OP_LE_AddLayer (libop/libop.cpp:272-288)
  | .addLayer y => .ok (s.addlayer y none, false)
  -- OP_LE_InsertLayer (libop/libop.cpp:290-311)
  | .insertLayer p y =>
    if p = 0 ∨ (p > s.layers.length ∧ s.layers.length > 0) then .ok (s, true)
    else .ok (s.addlayer y (some (p - 1)), false)
  -- OP_LE_RemoveLayer (libop/libop.cpp:313-327)
  | .removeLayer p =>
    if p = 0 ∨ p > s.layers.length then .ok (s, true) else .ok (s.removelayer (p - 1), false)
  -- OP_LE_RemoveLayers (libop/libop.cpp:329-339)
  | .removeLayers => .ok (s.removelayers, false)
  -- OP_LE_AddLoad (libop/libop.cpp:341-357)
  | .addLoad x => s.addload s.clg x >>= fun r => .ok (r.1, status r.2)
  -- OP_LE_RemoveLoad (libop/libop.cpp:359-378); `loads()` throws if the default group is not there
  | .removeLoad l =>
    match (if s.groups = [] then some 0 else (s.groups[s.clg]?).map List.length) with
    | none => .ok (s, true)
    | some n =>
      if l = 0 ∨ l > n then .ok (s, true)
      else .ok ((s.removeload s.clg (l - 1)).1, status (s.removeload s.clg (l - 1)).2)
  -- OP_LE_RemoveLoads (libop/libop.cpp:380-395)
  | .removeLoads => .ok ((s.removeloads s.clg).1, status (s.removeloads s.clg).2)
  -- OP_LE_AddGroupLoad (libop/libop.cpp:397-413)
  | .addGroupLoad g x => s.addload g x >>= fun r => .ok (r.1, status r.2)
  -- OP_LE_RemoveGroupLoad (libop/libop.cpp:415-438)
  | .removeGroupLoad g l =>
    if g = 0 ∨ g > s.groups.length then .ok (s, true)
    else match s.groups[g - 1]? with
      | none => .ok (s, true)
      | some gr =>
        if l = 0 ∨ l > gr.length then .ok (s, true)
        else .ok ((s.removeload (g - 1) (l - 1)).1, status (s.removeload (g - 1) (l - 1)).2)
  -- OP_LE_RemoveGroup (libop/libop.cpp:440-459)
  | .removeGroup g =>
    if g = 0 ∨ g > s.groups.length then .ok (s, true)
    else .ok ((s.removeloads (g - 1)).1, status (s.removeloads (g - 1)).2)
  -- OP_LE_RemoveAllLoadGroups (libop/libop.cpp:461-476)
  | .removeAllLoadGroups => dropGroups s.groups.length s >>= fun r => .ok (r.1, status r.2)
  -- OP_LE_AddPoint (libop/libop.cpp:478-497)
  | .addPoint p pl => .ok (s.addpoint (pt p pl), false)
  -- OP_LE_RemovePoint (libop/libop.cpp:499-518)
  | .removePoint p pl => .ok ((s.removepoint (pt p pl)).1, status (s.removepoint (pt p pl)).2)
  -- OP_LE_RemovePoints (libop/libop.cpp:520-530)
  | .removePoints => .ok (s.removepoints, false)
  -- OP_LE_Calculate (libop/libop.cpp:532-575)
  | .calculate flags => select num zero nullQ s flags >>= fun r => .ok (r.1, status r.2)

/-- A history of calls on one system, with their statuses. -/
def cmds (s : Sys K L R) : List (Cmd K L) → Res (Sys K L R × List Bool)
  | [] => .ok (s, [])
  | c :: cs => cmd num zero nullQ s c >>= fun r => cmds r.1 cs >>= fun q => .ok (q.1, r.2 :: q.2)

/-- `OP_LE_GroupResult` (libop/libop.cpp:617-632), and `OP_LE_Result` (577-593) with the default group: the numbers, or
`none` for the error status. -/
def readResult (s : Sys K L R) (g i : Nat) : Res (Option (PP K × R)) :=
  match s.result g i with
  | .ok d => .ok (some d)
  | .throw => .ok none
  | .ub => .ub

/-- The loop of `OP_LE_Results` and `OP_LE_GroupResults` (libop/libop.cpp:595-615, 634-651) over the indices given. -/
def readEach (s : Sys K L R) (g : Nat) : List Nat → Res (Option (List (PP K × R)))
  | [] => .ok (some [])
  | i :: is => readResult s g i >>= fun d => match d with
    | none => .ok none
    | some d => readEach s g is >>= fun ds => .ok (ds.map (d :: ·))

/-- `OP_LE_GroupResults`, and `OP_LE_Results` with the default group. -/
def readResults (s : Sys K L R) (g : Nat) : Res (Option (List (PP K × R))) := readEach s g (List.range s.results)

/-- Adding the loads of `OP_LE_Calc` (libop/libop.cpp:140-142). -/
def addLoads (s : Sys K L R) : List L → Res (Sys K L R)
  | [] => .ok s
  | x :: xs => s.addload s.clg x >>= fun r => addLoads r.1 xs

/-- The result loop of `OP_LE_Calc` (libop/libop.cpp:174-179). -/
def readPoints (s : Sys K L R) : List (P3 K × Nat) → Res (List (PP K × R))
  | [] => .ok []
  | p :: ps => s.resultAt s.clg (pt p.1 p.2) >>= fun d => readPoints s ps >>= fun ds => .ok (d :: ds)

/-- `OP_LE_Calc` (libop/libop.cpp:121-190): the status, and the numbers unless an exception was thrown. -/
def leCalc (flags : Nat) (ys : List (Layer K)) (xs : List L) (ps : List (P3 K × Nat)) :
    Res (Bool × Option (List (PP K × R))) :=
  let s := ys.foldl (fun s y => s.addlayer y none) (Sys.init K L R)
  addLoads s xs >>= fun s =>
  let s := ps.foldl (fun s p => s.addpoint (pt p.1 p.2)) s
  select num zero nullQ s flags >>= fun r =>
  match readPoints r.1 ps with
  | .ok ds => .ok (status r.2, some ds)
  | .throw => .ok (true, none)
  | .ub => .ub

/-- The status of `OP_LE_BackCalc` (libop/libop.cpp:708-713) from what `LEbackcalc::backcalc` returned: `rv =
pave.backcalc()`, without the negation of the other calls. -/
def backStatus : Ret → Bool
  | .done => false
  | .bool b => b
  | .threw => true

end OP.Libop
