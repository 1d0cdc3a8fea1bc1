import Verif.Lin.Loop
import Verif.Pave.Bouss
/-!
# Odemark's method of equivalent thicknesses

`src/pavement.cpp`: the loops over the layers of `calc_odemark` and `calc_fastnum`, for one point and one load.
-/
namespace OP.Pave.Bouss

open OP.Lin

/-- The layers, as copied from the list (src/pavement.cpp:1492-1493,1720-1721); `h` is the depth of the bottom, zero for a layer
without one. -/
structure Lay where
  nl : Nat
  h : Nat → ℝ
  v : Nat → ℝ
  E : Nat → ℝ

/-- `axialdata`, without the parts that are only used for integration (src/pavement.cpp:425-431). -/
structure Ax where
  vse : ℝ
  rse : ℝ
  tse : ℝ
  sse : ℝ
  rdp : ℝ
  vdp : ℝ

/-- The variables of the loop. -/
structure OSt where
  he : ℝ
  hc : ℝ
  s : Ax

/-- `he` and `hc` (src/pavement.cpp:1506-1517 and 1733-1744). -/
noncomputable def thin (L : Lay) (il : Nat) (he hc : ℝ) : ℝ × ℝ :=
  if 0 < il then
    let z := L.h (il - 1) - (if 1 < il then L.h (il - 2) else 0)
    let he := (he + z) * (L.E (il - 1) / L.E il * (1 + L.v il * L.v il) / (1 + L.v (il - 1) * L.v (il - 1))) ^ (1 / 3 : ℝ)
    (he, if 2 < L.nl ∧ 1 < il then 0.8 else if 2 < L.nl then 1 else 0.9)
  else (he, hc)

/-- `boussinesq_vdp` as it is called, with `R` and `A` (src/pavement.cpp:1523-1524 and others). -/
noncomputable def vdpAt (z r a v E : ℝ) : ℝ := vdp z r a v E (hypot r z) (if 0 < r then 0 else hypot z a)

/-- One layer of `calc_odemark` (src/pavement.cpp:1505-1547), for a point at depth `dz` in layer `dil`. -/
noncomputable def odeLayer (L : Lay) (dz : ℝ) (dil : Nat) (r a : ℝ) (il : Nat) (t : OSt) : OSt :=
  let p := thin L il t.he t.hc
  let he := p.1
  let hc := p.2
  if il < dil then ⟨he, hc, t.s⟩
  else if dil < il then
    let s := { t.s with vdp := t.s.vdp + vdpAt (hc * he) r a (L.v il) (L.E il) }
    if L.h il = 0 then ⟨he, hc, s⟩
    else ⟨he, hc, { s with vdp := s.vdp - vdpAt (hc * he + L.h il - L.h (il - 1)) r a (L.v il) (L.E il) }⟩
  else
    let z := hc * he + dz - (if 0 < il then L.h (il - 1) else 0)
    let R := hypot r z
    let A := if 0 < r then 0 else hypot z a
    let s : Ax := ⟨vse z r a R A, rse z r a (L.v dil) R A, tse z r a (L.v dil) R, sse z r a R, rdp z r a (L.v dil) (L.E dil) R,
      vdp z r a (L.v dil) (L.E dil) R A⟩
    if L.h il = 0 then ⟨he, hc, s⟩
    else ⟨he, hc, { s with vdp := s.vdp - vdpAt (hc * he + L.h il - (if 0 < il then L.h (il - 1) else 0)) r a (L.v dil) (L.E dil) }⟩

/-- What a load adds to a point (src/pavement.cpp:1499-1550). -/
noncomputable def odemark (L : Lay) (dz : ℝ) (dil : Nat) (r a : ℝ) : Ax :=
  (loop 0 L.nl (odeLayer L dz dil r a) ⟨0, 1, ⟨0, 0, 0, 0, 0, 0⟩⟩).s

/-- The variables of the loop of `calc_fastnum`. -/
structure FSt where
  he : ℝ
  hc : ℝ
  vdp : ℝ
  vse : ℝ

/-- One layer of `calc_fastnum` (src/pavement.cpp:1732-1764); `qd z v` and `qs z` are the integrals `quad8_vdp` and `quad8_vse` for
the distance and radius of the load. -/
noncomputable def fastLayer (qd : ℝ → ℝ → ℝ) (qs : ℝ → ℝ) (L : Lay) (dz : ℝ) (il : Nat) (t : FSt) : FSt :=
  let p := thin L il t.he t.hc
  let he := p.1
  let hc := p.2
  if L.h il ≠ 0 ∧ L.h il ≤ dz then ⟨he, hc, t.vdp, t.vse⟩
  else if 0 < il ∧ dz < L.h (il - 1) then
    let w := t.vdp + qd (hc * he) (L.v il) / L.E il
    ⟨he, hc, if L.h il ≠ 0 then w - qd (hc * he + L.h il - L.h (il - 1)) (L.v il) / L.E il else w, t.vse⟩
  else
    let top := if 0 < il then L.h (il - 1) else 0
    let z := hc * he + dz - top
    let w := t.vdp + qd z (L.v il) / L.E il
    ⟨he, hc, if L.h il ≠ 0 then w - qd (hc * he + L.h il - top) (L.v il) / L.E il else w, qs z⟩

/-- What a load adds to a point (src/pavement.cpp:1727-1766), for a pressure of one: deflection and stress. -/
noncomputable def fastnum (qd : ℝ → ℝ → ℝ) (qs : ℝ → ℝ) (L : Lay) (dz : ℝ) : ℝ × ℝ :=
  let t := loop 0 L.nl (fastLayer qd qs L dz) ⟨0, 1, 0, 0⟩
  (t.vdp, t.vse)

end OP.Pave.Bouss
