import Verif.Pave.Odemark
import Verif.Pave.PropsBouss
/-!
# C98: Odemark's method of equivalent thicknesses
-/
namespace OP.Pave.Bouss

open OP.Lin Finset

/-! ## Specification -/

/-- The depth of the top of a layer. -/
def Lay.top (L : Lay) (k : Nat) : ℝ := if k = 0 then 0 else L.h (k - 1)

/-- The thickness of a layer with a bottom. -/
def Lay.thick (L : Lay) (k : Nat) : ℝ := L.h k - L.top k

/-- The thickness of the layers above `n`, each replaced by as much of the material of `n` as has the same `E h³ / (1 + ν²)`. -/
noncomputable def Lay.equiv (L : Lay) (n : Nat) : ℝ :=
  ∑ k ∈ range n, L.thick k * (L.E k / L.E n * (1 + L.v n ^ 2) / (1 + L.v k ^ 2)) ^ (1 / 3 : ℝ)

/-- The correction factors. -/
noncomputable def Lay.factor (L : Lay) (k : Nat) : ℝ :=
  if k = 0 then 1 else if L.nl = 2 then 0.9 else if k = 1 then 1 else 0.8

/-- The transformed depth of the top of a layer. -/
noncomputable def Lay.above (L : Lay) (k : Nat) : ℝ := L.factor k * L.equiv k

/-- The shortening of a layer from a transformed depth down to its bottom, if it has one; `w k z` is the deflection in a half-space
of the material of layer `k`. -/
noncomputable def Lay.drop (L : Lay) (w : Nat → ℝ → ℝ) (k : Nat) (z : ℝ) : ℝ :=
  w k z - if L.h k = 0 then 0 else w k (L.above k + L.thick k)

/-- The deflection at depth `dz` in layer `n`: what this layer shortens below it, and what the layers below shorten. -/
noncomputable def Lay.deflection (L : Lay) (w : Nat → ℝ → ℝ) (n : Nat) (dz : ℝ) : ℝ :=
  L.drop w n (L.above n + dz - L.top n) + ∑ k ∈ Ico (n + 1) L.nl, L.drop w k (L.above k)

/-! ## The loop -/

theorem equiv_next (L : Lay) (n : Nat) (hE : ∀ k ≤ n + 1, 0 < L.E k) :
    L.equiv (n + 1) = (L.equiv n + L.thick n) * (L.E n / L.E (n + 1) * (1 + L.v (n + 1) * L.v (n + 1)) / (1 + L.v n * L.v n)) ^ (1 / 3 : ℝ) := by
  have h1 := hE n (by omega)
  have h2 := hE (n + 1) le_rfl
  have p : ∀ k, 0 < 1 + L.v k ^ 2 := fun k => by positivity
  rw [Lay.equiv, sum_range_succ, add_mul, Lay.equiv, sum_mul, ← pow_two, ← pow_two]
  congr 1
  · refine sum_congr rfl fun k hk => ?_
    have h3 := hE k (by have := mem_range.1 hk; omega)
    have q := p n
    have q1 := p k
    have q2 := p (n + 1)
    rw [mul_assoc, ← Real.mul_rpow (by positivity) (by positivity)]
    congr 2
    field_simp

/-- The variables on entry of a layer. -/
def Now (L : Lay) (il : Nat) (he hc : ℝ) : Prop := if il = 0 then he = 0 ∧ hc = 1 else he = L.equiv (il - 1) ∧ hc = L.factor (il - 1)

theorem thin_spec (L : Lay) (hE : ∀ k < L.nl, 0 < L.E k) (il : Nat) (hil : il < L.nl) (he hc : ℝ) (h : Now L il he hc) :
    thin L il he hc = (L.equiv il, L.factor il) := by
  unfold thin
  rcases Nat.eq_zero_or_pos il with e | e
  · subst e
    rw [Now, if_pos rfl] at h
    rw [if_neg (lt_irrefl _), h.1, h.2, Lay.equiv, sum_range_zero, Lay.factor, if_pos rfl]
  · obtain ⟨n, rfl⟩ : ∃ n, il = n + 1 := ⟨il - 1, by omega⟩
    rw [Now, if_neg (by omega), show n + 1 - 1 = n by omega] at h
    rw [if_pos e, h.1, equiv_next L n fun k hk => hE k (by omega), Lay.factor]
    dsimp only
    have ht : L.h (n + 1 - 1) - (if 1 < n + 1 then L.h (n + 1 - 2) else 0) = L.thick n := by
      rw [Lay.thick, Lay.top, show n + 1 - 1 = n by omega]
      rcases Nat.eq_zero_or_pos n with q | q
      · rw [if_neg (by omega), if_pos q]
      · rw [if_pos (by omega), if_neg (by omega), show n + 1 - 2 = n - 1 by omega]
    rw [ht, show n + 1 - 1 = n by omega]
    refine Prod.ext rfl ?_
    show (if 2 < L.nl ∧ 1 < n + 1 then (0.8 : ℝ) else if 2 < L.nl then 1 else 0.9) =
      if n + 1 = 0 then 1 else if L.nl = 2 then 0.9 else if n + 1 = 1 then 1 else 0.8
    rw [if_neg (Nat.succ_ne_zero n)]
    by_cases a : 2 < L.nl
    · by_cases b : 1 < n + 1
      · rw [if_pos ⟨a, b⟩, if_neg (by omega), if_neg (by omega)]
      · rw [if_neg (fun q => b q.2), if_pos a, if_neg (by omega), if_pos (by omega)]
    · rw [if_neg (fun q => a q.1), if_neg a, if_pos (by omega)]

theorem drop_def (L : Lay) (w : Nat → ℝ → ℝ) (k : Nat) (z : ℝ) :
    L.drop w k z = w k z - if L.h k = 0 then 0 else w k (L.above k + L.thick k) := rfl

theorem now_next (L : Lay) (il : Nat) : Now L (il + 1) (L.equiv il) (L.factor il) := by
  rw [Now, if_neg (by omega)]; exact ⟨rfl, rfl⟩

theorem top_eq (L : Lay) (il : Nat) : (if 0 < il then L.h (il - 1) else 0) = L.top il := by
  rw [Lay.top]; split_ifs <;> first | rfl | omega

/-- The deflection in a half-space of the material of a layer. -/
noncomputable def Lay.space (L : Lay) (r a : ℝ) (k : Nat) (z : ℝ) : ℝ := vdpAt z r a (L.v k) (L.E k)

/-! ## C98 -/

/-- **C98**, Odemark: the stresses and the radial displacement are those of Boussinesq at the transformed depth, and the deflection
adds what the layers below shorten. -/
theorem C98_odemark (L : Lay) (hE : ∀ k < L.nl, 0 < L.E k) (dz : ℝ) (n : Nat) (hn : n < L.nl) (r a : ℝ) :
    let z := L.above n + dz - L.top n
    let R := hypot r z
    let A := if 0 < r then 0 else hypot z a
    odemark L dz n r a = ⟨vse z r a R A, rse z r a (L.v n) R A, tse z r a (L.v n) R, sse z r a R, rdp z r a (L.v n) (L.E n) R,
      L.deflection (L.space r a) n dz⟩ := by
  intro z R A
  have key := loop_rule (f := odeLayer L dz n r a) (s := ⟨0, 1, ⟨0, 0, 0, 0, 0, 0⟩⟩) (lo := 0) (hi := L.nl)
    (fun il t => Now L il t.he t.hc ∧ (n < il → t.s = ⟨vse z r a R A, rse z r a (L.v n) R A, tse z r a (L.v n) R, sse z r a R,
      rdp z r a (L.v n) (L.E n) R, L.drop (L.space r a) n z + ∑ k ∈ Ico (n + 1) il, L.drop (L.space r a) k (L.above k)⟩))
    (Nat.zero_le _) ⟨by rw [Now, if_pos rfl]; exact ⟨rfl, rfl⟩, fun h => absurd h (by omega)⟩ ?_
  · rw [odemark, key.2 hn]; rfl
  · intro il t _ hil ⟨hnow, hs⟩
    have ht := thin_spec L hE il hil _ _ hnow
    unfold odeLayer
    rw [ht]
    dsimp only
    rcases lt_trichotomy il n with q | q | q
    · rw [if_pos q]
      exact ⟨now_next L il, fun h => absurd h (by omega)⟩
    · subst q
      rw [if_neg (lt_irrefl _), if_neg (lt_irrefl _), top_eq]
      have e : L.factor il * L.equiv il + L.h il - L.top il = L.above il + L.thick il := by
        rw [Lay.above, Lay.thick]; ring
      by_cases q : L.h il = 0
      · rw [if_pos q]
        refine ⟨now_next L il, fun _ => ?_⟩
        rw [Ico_self, sum_empty, add_zero, Lay.drop, if_pos q, sub_zero]
        rfl
      · rw [if_neg q]
        refine ⟨now_next L il, fun _ => ?_⟩
        rw [Ico_self, sum_empty, add_zero, Lay.drop, if_neg q, e]
        rfl
    · rw [if_neg (by omega), if_pos q, hs q, sum_Ico_succ_top (by omega)]
      have e : L.factor il * L.equiv il + L.h il - L.h (il - 1) = L.above il + L.thick il := by
        rw [Lay.above, Lay.thick, Lay.top, if_neg (by omega)]; ring
      by_cases q1 : L.h il = 0
      · rw [if_pos q1]
        refine ⟨now_next L il, fun _ => ?_⟩
        rw [drop_def L _ il, if_pos q1, sub_zero, ← add_assoc]
        rfl
      · rw [if_neg q1]
        refine ⟨now_next L il, fun _ => ?_⟩
        dsimp only
        rw [e, ← add_assoc, drop_def L _ il, if_neg q1, ← add_sub_assoc]
        rfl

/-- **C98**, interfaces: the deflection at the bottom of a layer is that at the top of the next. -/
theorem C98_continuous (L : Lay) (hE : ∀ k < L.nl, 0 < L.E k) (n : Nat) (hn : n + 1 < L.nl) (hh : L.h n ≠ 0) (r a : ℝ) :
    (odemark L (L.h n) n r a).vdp = (odemark L (L.h n) (n + 1) r a).vdp := by
  rw [C98_odemark L hE _ n (by omega), C98_odemark L hE _ (n + 1) hn]
  simp only [Lay.deflection]
  rw [sum_eq_sum_Ico_succ_bot hn, drop_def L _ n, if_neg hh, Lay.thick, ← add_sub_assoc, sub_self, zero_add]
  congr 2
  rw [Lay.top, if_neg (by omega), show n + 1 - 1 = n by omega]
  ring

/-- **C98**, half-space: for a single layer without a bottom, the results are those of Boussinesq at the depth of the point. -/
theorem C98_halfspace (L : Lay) (h1 : L.nl = 1) (hE : 0 < L.E 0) (hh : L.h 0 = 0) (dz r a : ℝ) :
    let A := if 0 < r then 0 else hypot dz a
    odemark L dz 0 r a = ⟨vse dz r a (hypot r dz) A, rse dz r a (L.v 0) (hypot r dz) A, tse dz r a (L.v 0) (hypot r dz),
      sse dz r a (hypot r dz), rdp dz r a (L.v 0) (L.E 0) (hypot r dz), vdp dz r a (L.v 0) (L.E 0) (hypot r dz) A⟩ := by
  intro A
  rw [C98_odemark L (fun k hk => by rw [h1] at hk; obtain rfl : k = 0 := by omega
                                    exact hE) dz 0 (by omega)]
  have e : L.above 0 + dz - L.top 0 = dz := by
    rw [Lay.above, Lay.equiv, Lay.top, if_pos rfl, sum_range_zero]; ring
  rw [Lay.deflection, e, h1, Ico_self, sum_empty, add_zero, Lay.drop, if_pos hh, sub_zero]
  rfl

theorem cube_root {x : ℝ} (h : 0 ≤ x) : (x ^ (1 / 3 : ℝ)) ^ 3 = x := by
  rw [← Real.rpow_natCast, ← Real.rpow_mul h]; norm_num

/-- **C98** fails for layers of different Poisson's ratio: the method replaces a layer by as much of the next material as has the same
bending stiffness `E h³ / (1 - ν²)`, but the thickness the code calculates has it only if the ratios are the same (up to sign).  The code has
`1 + ν²` for `1 - ν²`. -/
theorem C98_stiffness (L : Lay) (hE0 : 0 < L.E 0) (hE1 : 0 < L.E 1) (hh : 0 < L.h 0) (h0 : L.v 0 ^ 2 < 1) (h1 : L.v 1 ^ 2 < 1) :
    L.E 1 * L.equiv 1 ^ 3 / (1 + L.v 1 ^ 2) = L.E 0 * L.h 0 ^ 3 / (1 + L.v 0 ^ 2) ∧
    (L.E 1 * L.equiv 1 ^ 3 / (1 - L.v 1 ^ 2) = L.E 0 * L.h 0 ^ 3 / (1 - L.v 0 ^ 2) ↔ L.v 0 ^ 2 = L.v 1 ^ 2) := by
  have e : L.equiv 1 ^ 3 = L.h 0 ^ 3 * (L.E 0 / L.E 1 * (1 + L.v 1 ^ 2) / (1 + L.v 0 ^ 2)) := by
    rw [Lay.equiv, sum_range_one, mul_pow, cube_root (by positivity), Lay.thick, Lay.top, if_pos rfl, sub_zero]
  have q0 : 0 < 1 + L.v 0 ^ 2 := by positivity
  have q1 : 0 < 1 + L.v 1 ^ 2 := by positivity
  have q2 : 0 < 1 - L.v 0 ^ 2 := by linarith
  have q3 : 0 < 1 - L.v 1 ^ 2 := by linarith
  have q4 := pow_pos hh 3
  rw [e]
  generalize L.v 0 ^ 2 = x at *
  generalize L.v 1 ^ 2 = y at *
  generalize L.h 0 ^ 3 = t at *
  constructor
  · field_simp
  · rw [div_eq_div_iff q3.ne' q2.ne']
    have e2 : L.E 1 * (t * (L.E 0 / L.E 1 * (1 + y) / (1 + x))) * (1 - x) - L.E 0 * t * (1 - y) = L.E 0 * t * (2 * (y - x)) / (1 + x) := by
      field_simp; ring
    constructor
    · intro h
      have : L.E 0 * t * (2 * (y - x)) / (1 + x) = 0 := by rw [← e2, h, sub_self]
      have h5 : y - x = 0 := by
        rcases div_eq_zero_iff.1 this with h6 | h6
        · have : L.E 0 * t ≠ 0 := by positivity
          have := (mul_eq_zero.1 h6).resolve_left this
          linarith
        · exact absurd h6 q0.ne'
      linarith
    · intro h
      rw [h, sub_self, mul_zero, mul_zero, zero_div] at e2
      rw [h]
      linarith

/-- **C98** fails for a half-space described as two equal layers: under the centre of the load, the surface deflects more than that of the
half-space.  (The correction factors are meant for layers that get stiffer upwards, but are always applied.) -/
theorem C98_split (L : Lay) (h2 : L.nl = 2) (hE : 0 < L.E 0) (hE1 : L.E 1 = L.E 0) (hv : L.v 1 = L.v 0) (hv0 : -1 < L.v 0) (hv1 : L.v 0 ≤ 1 / 2)
    (hh : 0 < L.h 0) (hb : L.h 1 = 0) (a : ℝ) (ha : 0 < a) :
    vdpAt 0 0 a (L.v 0) (L.E 0) < (odemark L 0 0 0 a).vdp := by
  have hEk : ∀ k < L.nl, 0 < L.E k := fun k hk => by
    rw [h2] at hk
    rcases (by omega : k = 0 ∨ k = 1) with rfl | rfl
    · exact hE
    · rw [hE1]; exact hE
  rw [C98_odemark L hEk 0 0 (by omega)]
  have e1 : L.equiv 1 = L.h 0 := by
    have : L.E 0 / L.E 0 * (1 + L.v 0 ^ 2) / (1 + L.v 0 ^ 2) = 1 := by
      have : 1 + L.v 0 ^ 2 ≠ 0 := by positivity
      field_simp
    rw [Lay.equiv, sum_range_one, hE1, hv, this, Real.one_rpow, mul_one, Lay.thick, Lay.top, if_pos rfl, sub_zero]
  have e2 : L.above 1 = 9 / 10 * L.h 0 := by
    rw [Lay.above, e1, Lay.factor, if_neg (by omega), if_pos h2]; norm_num
  have e0 : L.above 0 = 0 := by
    rw [Lay.above, Lay.equiv, sum_range_zero, mul_zero]
  simp only [Lay.deflection]
  rw [h2, show Ico (0 + 1) 2 = {1} from rfl, sum_singleton, Lay.drop, Lay.drop, if_neg hh.ne', if_pos hb, e0, e2, sub_zero, zero_add, zero_add,
    Lay.top, if_pos rfl, sub_zero, Lay.thick, Lay.top, if_pos rfl, sub_zero]
  simp only [Lay.space, hE1, hv]
  have mono : vdpAt (L.h 0) 0 a (L.v 0) (L.E 0) < vdpAt (9 / 10 * L.h 0) 0 a (L.v 0) (L.E 0) := by
    simp only [vdpAt, vdp, if_neg (lt_irrefl (0 : ℝ))]
    have hc : 0 < (1 + L.v 0) / L.E 0 := div_pos (by linarith) hE
    refine mul_lt_mul_of_pos_left ?_ hc
    have q1 := hypot_pos' (9 / 10 * L.h 0) ha
    have q2 := hypot_pos' (L.h 0) ha
    have s1 := hypot_sq (9 / 10 * L.h 0) a
    have s2 := hypot_sq (L.h 0) a
    generalize hypot (9 / 10 * L.h 0) a = A1 at *
    generalize hypot (L.h 0) a = A2 at *
    generalize L.h 0 = t at *
    have hlt : A1 < A2 := by nlinarith
    have hd : A2 - A1 ≤ t - 9 / 10 * t := by
      have : (A2 - A1) * (A2 + A1) = (t - 9 / 10 * t) * (t + 9 / 10 * t) := by nlinarith
      have h1 : t ≤ A2 := by nlinarith
      have h2 : 9 / 10 * t ≤ A1 := by nlinarith
      nlinarith
    have h3 : a * a / A2 < a * a / A1 := div_lt_div_of_pos_left (by positivity) q1 hlt
    nlinarith
  linarith

/-! ### `calc_fastnum` -/

/-- **C98**, the other method: for layers in order, the deflection and the vertical stress are those of a circular load at the transformed
depth, with the same contributions of the layers below.  The layer is the one below the point if that lies on an interface, whatever
layer was asked for. -/
theorem C98_fastnum (qd : ℝ → ℝ → ℝ) (qs : ℝ → ℝ) (L : Lay) (hE : ∀ k < L.nl, 0 < L.E k) (hpos : ∀ k, k + 1 < L.nl → L.h k ≠ 0)
    (hord : ∀ i j, i < j → j < L.nl → L.h j = 0 ∨ L.h i < L.h j) (dz : ℝ) (n : Nat)
    (hn : n < L.nl) (htop : L.top n ≤ dz) (hbot : L.h n = 0 ∨ dz < L.h n) :
    fastnum qd qs L dz = (L.deflection (fun k z => qd z (L.v k) / L.E k) n dz, qs (L.above n + dz - L.top n)) := by
  have key := loop_rule (f := fastLayer qd qs L dz) (s := ⟨0, 1, 0, 0⟩) (lo := 0) (hi := L.nl)
    (fun il t => Now L il t.he t.hc ∧ (il ≤ n → t.vdp = 0) ∧ (n < il → t.vse = qs (L.above n + dz - L.top n) ∧
      t.vdp = L.drop (fun k z => qd z (L.v k) / L.E k) n (L.above n + dz - L.top n) +
        ∑ k ∈ Ico (n + 1) il, L.drop (fun k z => qd z (L.v k) / L.E k) k (L.above k)))
    (Nat.zero_le _) ⟨by rw [Now, if_pos rfl]; exact ⟨rfl, rfl⟩, fun _ => rfl, fun h => absurd h (by omega)⟩ ?_
  · obtain ⟨-, -, h⟩ := key
    obtain ⟨h1, h2⟩ := h hn
    simp only [fastnum]
    rw [h1, h2]; rfl
  · intro il t _ hil ⟨hnow, h0, hs⟩
    have ht := thin_spec L hE il hil _ _ hnow
    unfold fastLayer
    rw [ht]
    dsimp only
    have nc : n ≤ il → ¬(L.h il ≠ 0 ∧ L.h il ≤ dz) := by
      rintro q ⟨q1, q2⟩
      rcases eq_or_lt_of_le q with e | e
      · subst e
        rcases hbot with h | h
        · exact q1 h
        · linarith
      · have h5 : dz < L.h n := by
          rcases hbot with h | h
          · exact absurd h (hpos n (by omega))
          · exact h
        rcases hord n il e hil with h | h
        · exact q1 h
        · linarith
    rcases lt_trichotomy il n with q | q | q
    · have hlow : L.h il ≠ 0 ∧ L.h il ≤ dz := by
        refine ⟨hpos il (by omega), ?_⟩
        rw [Lay.top, if_neg (by omega)] at htop
        rcases eq_or_lt_of_le (show il ≤ n - 1 by omega) with e | e
        · rw [e]; exact htop
        · rcases hord il (n - 1) e (by omega) with h | h
          · exact absurd h (hpos (n - 1) (by omega))
          · linarith
      rw [if_pos hlow]
      exact ⟨now_next L il, fun _ => h0 (by omega), fun h => absurd h (by omega)⟩
    · subst q
      have hin : ¬(0 < il ∧ dz < L.h (il - 1)) := by
        rintro ⟨q1, q2⟩
        rw [Lay.top, if_neg (by omega)] at htop
        linarith
      rw [if_neg (nc le_rfl), if_neg hin, top_eq, h0 le_rfl, zero_add]
      refine ⟨now_next L il, fun h => absurd h (by omega), fun _ => ⟨rfl, ?_⟩⟩
      rw [Ico_self, sum_empty, add_zero, Lay.drop]
      have e : L.factor il * L.equiv il + L.h il - L.top il = L.above il + L.thick il := by
        rw [Lay.above, Lay.thick]; ring
      dsimp only
      rw [e]
      split_ifs <;> first | rfl | (rw [sub_zero]; rfl) | contradiction
    · have hin : 0 < il ∧ dz < L.h (il - 1) := by
        refine ⟨by omega, ?_⟩
        have h5 : dz < L.h n := by
          rcases hbot with h | h
          · exact absurd h (hpos n (by omega))
          · exact h
        rcases eq_or_lt_of_le (show n ≤ il - 1 by omega) with e | e
        · rw [← e]; exact h5
        · rcases hord n (il - 1) e (by omega) with h | h
          · exact absurd h (hpos (il - 1) (by omega))
          · linarith
      rw [if_neg (nc q.le), if_pos hin]
      obtain ⟨hs1, hs2⟩ := hs q
      refine ⟨now_next L il, fun h => absurd h (by omega), fun _ => ⟨hs1, ?_⟩⟩
      rw [hs2, sum_Ico_succ_top (by omega)]
      have e : L.factor il * L.equiv il + L.h il - L.h (il - 1) = L.above il + L.thick il := by
        rw [Lay.above, Lay.thick, Lay.top, if_neg (by omega)]; ring
      dsimp only
      rw [e, ← add_assoc, drop_def L _ il]
      by_cases q1 : L.h il = 0
      · rw [if_neg (not_not.2 q1), if_pos q1, sub_zero]; rfl
      · rw [if_pos q1, if_neg q1, ← add_sub_assoc]; rfl

/-! ## A pavement -/

/-- Asphalt on a base on the ground. -/
noncomputable def road : Lay := ⟨3, fun k => if k = 0 then 100 else if k = 1 then 400 else 0, fun k => if k = 0 then 0.4 else 0.35,
  fun k => if k = 0 then 3000000 else if k = 1 then 300000 else 100000⟩

/-- The hypotheses hold of it. -/
example : (∀ k < road.nl, 0 < road.E k) ∧ (∀ k, k + 1 < road.nl → road.h k ≠ 0) ∧
    (∀ i j, i < j → j < road.nl → road.h j = 0 ∨ road.h i < road.h j) ∧ road.top 1 ≤ 250 ∧ 250 < road.h 1 := by
  simp only [road, Lay.top]
  refine ⟨fun k _ => by split_ifs <;> norm_num, fun k hk => ?_, fun i j hij hj => ?_, by norm_num, by norm_num⟩
  · have : k = 0 ∨ k = 1 := by omega
    rcases this with rfl | rfl <;> norm_num
  · have : i = 0 ∧ j = 1 ∨ j = 2 := by omega
    rcases this with ⟨rfl, rfl⟩ | rfl <;> norm_num

end OP.Pave.Bouss
