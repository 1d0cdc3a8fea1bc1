import Verif.Pave.PropsAxial
import Verif.Pave.PropsQuad
/-!
# C69: deflection gradients
-/
namespace OP.Pave

open List

/-! ## Specification -/

/-- The moduli with that of layer `i` multiplied by `10^(1e-8)`. -/
noncomputable def stiffer (E : Nat → ℝ) (i : Nat) : Nat → ℝ := fun k => if k = i then E k * 10 ^ (1e-8 : ℝ) else E k

/-- The deflection the loads of radius `a` in `ls` cause at `(x, y)`. -/
noncomputable def deflOf (ax : ℝ → ℝ → Ax) (a : ℝ) (ls : List Load) (x y : ℝ) : ℝ :=
  ((ls.filter fun l => l.radius = a).map fun l => l.pressure * (ax a (l.distance x y)).vdp).sum

/-! ## Lemmas -/

theorem perturb_none (E : Nat → ℝ) (hE : ∀ i, 0 < E i) (nl i : Nat) : perturb E none nl i = stiffer E i := by
  funext k
  simp only [perturb, stiffer, gradStep]
  split_ifs with h
  · rw [Real.rpow_add (by norm_num), Real.rpow_logb (by norm_num) (by norm_num) (hE k)]
  · rfl

theorem ten_gt : (1 : ℝ) < 10 ^ (1e-8 : ℝ) := Real.one_lt_rpow (by norm_num) (by norm_num)

theorem filter_sum (dmin a : ℝ) (hd : 0 ≤ dmin) (c : Load → ℝ) : ∀ ls : List Load,
    (∀ l ∈ ls, |l.radius - a| ≤ dmin → l.radius = a) →
    (ls.map fun l => if |l.radius - a| > dmin then 0 else c l).sum = ((ls.filter fun l => l.radius = a).map c).sum
  | [], _ => rfl
  | l :: ls, h => by
    have ih := filter_sum dmin a hd c ls fun l hl => h l (by simp [hl])
    rw [map_cons, sum_cons, ih]
    by_cases hl : l.radius = a
    · rw [if_neg (by rw [hl, sub_self, abs_zero, not_lt]; exact hd), filter_cons_of_pos (by simpa using hl), map_cons, sum_cons]
    · rw [if_pos, zero_add, filter_cons_of_neg (by simpa using hl)]
      by_contra hc
      exact hl (h l (by simp) (not_lt.1 hc))

/-- The sums of the loop over the radii when gradients are asked for: each radius starts from the moduli the previous one
left. -/
theorem radLoop_grad (dmin : ℝ) (hd : 0 ≤ dmin) (disp : Bool) (ax : Bool → (Nat → ℝ) → ℝ → ℝ → Ax) (E : Nat → ℝ)
    (Q : Option (Nat → ℝ)) (nl : Nat) (hn : 0 < nl) (x y : ℝ) (ls : List Load) : ∀ (as : List ℝ) (s : GSt),
    (∀ a ∈ as, ∀ l ∈ ls, |l.radius - a| ≤ dmin → l.radius = a) → s.d.x = x → s.d.y = y →
    let o := radLoop dmin disp true ax E Q nl ls as s
    (∀ i, i < nl → o.g i = s.g i + (as.map fun a => deflOf (ax true (perturb E Q nl i)) a ls x y).sum) ∧
    (o.E = if as = [] then s.E else perturb E Q nl (nl - 1)) ∧
    o.d.uz = s.d.uz + (match as with
      | [] => 0
      | a :: as => deflOf (ax disp s.E) a ls x y +
        (as.map fun a => deflOf (ax disp (perturb E Q nl (nl - 1))) a ls x y).sum)
  | [], s, _, _, _ => by simp [radLoop]
  | a :: as, s, hs, hx, hy => by
    intro o
    have hxy := translate_xy dmin disp (ax disp s.E a) a ls s.d
    let s1 : GSt := ⟨s.E, translate dmin disp (ax disp s.E a) a ls s.d, s.g⟩
    let s2 := gradLoop dmin ax E Q nl a ls nl s1
    have ho : o = radLoop dmin disp true ax E Q nl ls as s2 := rfl
    have e2d : s2.d = s1.d := gradLoop_d ..
    have e2E : s2.E = perturb E Q nl (nl - 1) := by
      have := gradLoop_E dmin ax E Q nl a ls nl s1
      rw [if_neg (by omega)] at this
      exact this
    have hlo := fun l hl => hs a (by simp) l hl
    have e2g : ∀ i, i < nl → s2.g i = s.g i + deflOf (ax true (perturb E Q nl i)) a ls x y := by
      intro i hi
      have h := gradLoop_g dmin ax E Q nl a ls nl le_rfl s1 i hi
      rw [if_pos (by omega), translateGrad_eq, hxy.1, hxy.2, hx, hy, filter_sum dmin a hd _ ls hlo] at h
      exact h
    have e1 : s1.d.uz = s.d.uz + deflOf (ax disp s.E) a ls x y := by
      have h := translate_obs PD.uz dmin disp (ax disp s.E a) a x y
        (fun l => l.pressure * (ax disp s.E a (l.distance x y)).vdp) ls s.d hx hy (fun l _ d _ _ => addtodata_uz ..)
      rw [filter_sum dmin a hd _ ls hlo] at h
      exact h
    obtain ⟨h1, h2, h3⟩ := radLoop_grad dmin hd disp ax E Q nl hn x y ls as s2 (fun b hb => hs b (by simp [hb]))
      (by rw [e2d]; exact hxy.1.trans hx) (by rw [e2d]; exact hxy.2.trans hy)
    rw [← ho] at h1 h2 h3
    refine ⟨fun i hi => ?_, ?_, ?_⟩
    · rw [h1 i hi, e2g i hi, map_cons, sum_cons, add_assoc]
    · rw [h2, e2E, ite_self, if_neg (by simp)]
    · rw [h3, e2d, e1, add_assoc]
      congr 1
      cases as with
      | nil => simp
      | cons b bs => simp only [e2E, map_cons, sum_cons]

theorem sep_loads {dmin : ℝ} {groups : List (List Load)} {ls : List Load} (hls : ls ∈ groups)
    (hsep : ∀ a ∈ radii groups, ∀ b ∈ radii groups, |a - b| ≤ dmin → a = b) :
    ∀ a ∈ radii groups, ∀ l ∈ ls, |l.radius - a| ≤ dmin → l.radius = a :=
  fun a ha l hl h => hsep _ (mem_radii.2 ⟨ls, hls, l, hl, rfl⟩) a ha h

/-- With one radius, a deflection is the share of that radius. -/
theorem defl_single (ax : ℝ → ℝ → Ax) (groups : List (List Load)) (ls : List Load) (hls : ls ∈ groups) (a x y : ℝ)
    (hr : radii groups = [a]) : deflOf ax a ls x y = (ls.map fun l => l.pressure * (ax l.radius (l.distance x y)).vdp).sum := by
  have hl : ∀ l ∈ ls, l.radius = a := by
    intro l hl
    have : l.radius ∈ radii groups := mem_radii.2 ⟨ls, hls, l, hl, rfl⟩
    rw [hr] at this
    exact mem_singleton.1 this
  unfold deflOf
  rw [filter_eq_self.2 (by simpa using hl)]
  congr 1
  exact map_congr_left fun l h => by rw [hl l h]

/-! ## Theorems -/

/-- **C69** for loads of one radius: asking for gradients does not change the deflection, and the gradient of layer `i` is
the difference quotient between the deflections two separate calculations report, one of them with the modulus of layer
`i` raised by the step. -/
theorem C69_single_partial (dmin : ℝ) (hd : 0 ≤ dmin) (ax : Bool → (Nat → ℝ) → ℝ → ℝ → Ax) (E : Nat → ℝ)
    (hE : ∀ i, 0 < E i) (nl : Nat) (hn : 0 < nl) (groups : List (List Load)) (ls : List Load) (hls : ls ∈ groups) (a : ℝ)
    (hr : radii groups = [a]) (disp : Bool) (x y : ℝ) (il : Nat) :
    let o := calculate dmin disp true ax E none nl groups ls x y il
    let base := (calculate dmin disp false ax E none nl groups ls x y il).d.uz
    o.d.uz = base ∧ ∀ i, i < nl →
      o.g i = ((calculate dmin true false ax (stiffer E i) none nl groups ls x y il).d.uz - base) / 1e-8 := by
  have hsep : ∀ a ∈ radii groups, ∀ b ∈ radii groups, |a - b| ≤ dmin → a = b := by
    rw [hr]; simp
  obtain ⟨h1, -, h3⟩ := radLoop_grad dmin hd disp ax E none nl hn x y ls (radii groups)
    ⟨E, ⟨x, y, 0, 0, 0, 0, 0, 0, 0, 0, 0⟩, fun _ => 0⟩ (sep_loads hls hsep) rfl rfl
  have h3' : (calculate dmin disp true ax E none nl groups ls x y il).d.uz = deflOf (ax disp E) a ls x y := by
    simp only [calculate]
    rw [h3, hr]
    simp
  have hb := C49_deflection dmin hd ax E none nl groups ls hls hsep disp x y il
  rw [← defl_single (ax disp E) groups ls hls a x y hr] at hb
  intro o base
  have hbase : base = deflOf (ax disp E) a ls x y := hb
  refine ⟨h3'.trans hbase.symm, fun i hi => ?_⟩
  have hg : o.g i = (deflOf (ax true (stiffer E i)) a ls x y - o.d.uz) / gradStep := by
    simp only [o, calculate]
    rw [h1 i hi, hr, perturb_none E hE]
    simp
  rw [hg, hbase, h3', C49_deflection dmin hd ax _ none nl groups ls hls hsep true x y il,
    ← defl_single (ax true (stiffer E i)) groups ls hls a x y hr, gradStep]

/-- **C69**, directions: with a matrix `Q` of directions and loads of one radius, the result is `Q` applied to the difference
quotients along its columns. -/
theorem C69_directions_partial (dmin : ℝ) (hd : 0 ≤ dmin) (ax : Bool → (Nat → ℝ) → ℝ → ℝ → Ax) (E : Nat → ℝ)
    (hE : ∀ i, 0 < E i) (Q : Nat → ℝ) (nl : Nat) (hn : 0 < nl) (groups : List (List Load)) (ls : List Load)
    (hls : ls ∈ groups) (a : ℝ) (hr : radii groups = [a]) (disp : Bool) (x y : ℝ) (il gl : Nat) :
    let base := (calculate dmin disp false ax E none nl groups ls x y il).d.uz
    let along := fun i => (calculate dmin true false ax (fun k => E k * 10 ^ (Q (k * nl + i) * 1e-8)) none nl groups ls x y
      il).d.uz
    (calculate dmin disp true ax E (some Q) nl groups ls x y il).g gl =
      ((range nl).map fun i => (along i - base) / 1e-8 * Q (gl * nl + i)).sum := by
  intro base along
  have hsep : ∀ a ∈ radii groups, ∀ b ∈ radii groups, |a - b| ≤ dmin → a = b := by
    rw [hr]; simp
  obtain ⟨h1, -, h3⟩ := radLoop_grad dmin hd disp ax E (some Q) nl hn x y ls (radii groups)
    ⟨E, ⟨x, y, 0, 0, 0, 0, 0, 0, 0, 0, 0⟩, fun _ => 0⟩ (sep_loads hls hsep) rfl rfl
  have hb := C49_deflection dmin hd ax E none nl groups ls hls hsep disp x y il
  rw [← defl_single (ax disp E) groups ls hls a x y hr] at hb
  have hp : ∀ i, perturb E (some Q) nl i = fun k => E k * 10 ^ (Q (k * nl + i) * 1e-8) := by
    intro i
    funext k
    simp only [perturb, gradStep]
    rw [Real.rpow_add (by norm_num), Real.rpow_logb (by norm_num) (by norm_num) (hE k)]
  have ha : ∀ i, along i = deflOf (ax true (perturb E (some Q) nl i)) a ls x y := by
    intro i
    rw [defl_single _ groups ls hls a x y hr, hp]
    exact C49_deflection dmin hd ax _ none nl groups ls hls hsep true x y il
  have hbase : base = deflOf (ax disp E) a ls x y := hb
  simp only [calculate]
  congr 1
  refine map_congr_left fun i hi => ?_
  rw [h1 i (mem_range.1 hi), h3, ha, hbase, hr, gradStep]
  simp

/-- What is reported for loads of several radii, for deflections: the first radius is calculated with the moduli of the
pavement, all others with those of the last gradient of the radius before. -/
theorem C69_several (dmin : ℝ) (hd : 0 ≤ dmin) (ax : Bool → (Nat → ℝ) → ℝ → ℝ → Ax) (E : Nat → ℝ)
    (hE : ∀ i, 0 < E i) (nl : Nat) (hn : 0 < nl) (groups : List (List Load)) (ls : List Load) (hls : ls ∈ groups)
    (hsep : ∀ a ∈ radii groups, ∀ b ∈ radii groups, |a - b| ≤ dmin → a = b) (a : ℝ) (as : List ℝ)
    (hr : radii groups = a :: as) (disp : Bool) (x y : ℝ) (il : Nat) :
    let o := calculate dmin disp true ax E none nl groups ls x y il
    o.d.uz = deflOf (ax disp E) a ls x y + (as.map fun b => deflOf (ax disp (stiffer E (nl - 1))) b ls x y).sum ∧
    (∀ i, i < nl → o.g i = (deflOf (ax true (stiffer E i)) a ls x y +
      (as.map fun b => deflOf (ax true (stiffer E i)) b ls x y).sum - o.d.uz) / 1e-8) ∧
    o.E = stiffer E (nl - 1) il := by
  obtain ⟨h1, h2, h3⟩ := radLoop_grad dmin hd disp ax E none nl hn x y ls (radii groups)
    ⟨E, ⟨x, y, 0, 0, 0, 0, 0, 0, 0, 0, 0⟩, fun _ => 0⟩ (sep_loads hls hsep) rfl rfl
  intro o
  rw [hr] at h1 h2 h3
  have e : radLoop dmin disp true ax E none nl ls (radii groups) ⟨E, ⟨x, y, 0, 0, 0, 0, 0, 0, 0, 0, 0⟩, fun _ => 0⟩ =
    radLoop dmin disp true ax E none nl ls (a :: as) ⟨E, ⟨x, y, 0, 0, 0, 0, 0, 0, 0, 0, 0⟩, fun _ => 0⟩ := by rw [hr]
  refine ⟨?_, fun i hi => ?_, ?_⟩
  · simp only [o, calculate, e, h3, zero_add, perturb_none E hE]
  · have := h1 i hi
    simp only [o, calculate, e, this, zero_add, perturb_none E hE, map_cons, sum_cons, gradStep]
  · simp only [o, calculate, e, h2, perturb_none E hE]
    rw [if_neg (by simp)]

/-- **C69** fails for loads of several radii: the deflection is the right one only if raising the modulus of the last layer
does not change the deflection due to the radii after the first. -/
theorem C69_deflection_fails (dmin : ℝ) (hd : 0 ≤ dmin) (ax : Bool → (Nat → ℝ) → ℝ → ℝ → Ax) (E : Nat → ℝ)
    (hE : ∀ i, 0 < E i) (nl : Nat) (hn : 0 < nl) (groups : List (List Load)) (ls : List Load) (hls : ls ∈ groups)
    (hsep : ∀ a ∈ radii groups, ∀ b ∈ radii groups, |a - b| ≤ dmin → a = b) (a : ℝ) (as : List ℝ)
    (hr : radii groups = a :: as) (disp : Bool) (x y : ℝ) (il : Nat) :
    (calculate dmin disp true ax E none nl groups ls x y il).d.uz =
      (calculate dmin disp false ax E none nl groups ls x y il).d.uz ↔
    (as.map fun b => deflOf (ax disp (stiffer E (nl - 1))) b ls x y).sum = (as.map fun b => deflOf (ax disp E) b ls x y).sum := by
  rw [(C69_several dmin hd ax E hE nl hn groups ls hls hsep a as hr disp x y il).1,
    C49_deflection dmin hd ax E none nl groups ls hls hsep disp x y il]
  have h := sum_loads dmin hd groups ls hls hsep (fun a l => l.pressure * (ax disp E a (l.distance x y)).vdp)
  rw [← h, hr, map_cons, sum_cons]
  have hl := sep_loads hls hsep
  rw [hr] at hl
  rw [filter_sum dmin a hd _ ls (hl a (by simp))]
  have : ∀ b ∈ as, (ls.map fun l => if |l.radius - b| > dmin then 0 else l.pressure * (ax disp E b (l.distance x y)).vdp).sum =
      deflOf (ax disp E) b ls x y := fun b hb => filter_sum dmin b hd _ ls (hl b (by simp [hb]))
  rw [map_congr_left this]
  exact add_right_inj _

/-- **C69** fails for loads of several radii: the gradient of the last layer leaves out every radius but the first. -/
theorem C69_last_layer (dmin : ℝ) (hd : 0 ≤ dmin) (ax : Bool → (Nat → ℝ) → ℝ → ℝ → Ax) (E : Nat → ℝ)
    (hE : ∀ i, 0 < E i) (nl : Nat) (hn : 0 < nl) (groups : List (List Load)) (ls : List Load) (hls : ls ∈ groups)
    (hsep : ∀ a ∈ radii groups, ∀ b ∈ radii groups, |a - b| ≤ dmin → a = b) (a : ℝ) (as : List ℝ)
    (hr : radii groups = a :: as) (x y : ℝ) (il : Nat) :
    (calculate dmin true true ax E none nl groups ls x y il).g (nl - 1) =
      (deflOf (ax true (stiffer E (nl - 1))) a ls x y - deflOf (ax true E) a ls x y) / 1e-8 := by
  obtain ⟨h1, h2, -⟩ := C69_several dmin hd ax E hE nl hn groups ls hls hsep a as hr true x y il
  rw [h2 (nl - 1) (by omega), h1]
  congr 1
  ring

/-- **C69** fails when stresses are asked for as well: even for a single radius the strains at a point in the last layer
are calculated from another modulus than that of the layer. -/
theorem C69_strain_modulus (dmin : ℝ) (hd : 0 ≤ dmin) (ax : Bool → (Nat → ℝ) → ℝ → ℝ → Ax) (E : Nat → ℝ)
    (hE : ∀ i, 0 < E i) (nl : Nat) (hn : 0 < nl) (groups : List (List Load)) (ls : List Load) (hls : ls ∈ groups)
    (hsep : ∀ a ∈ radii groups, ∀ b ∈ radii groups, |a - b| ≤ dmin → a = b) (hr : radii groups ≠ []) (x y : ℝ) :
    (calculate dmin false true ax E none nl groups ls x y (nl - 1)).E = E (nl - 1) * 10 ^ (1e-8 : ℝ) ∧
    E (nl - 1) < E (nl - 1) * 10 ^ (1e-8 : ℝ) ∧
    (calculate dmin false false ax E none nl groups ls x y (nl - 1)).E = E (nl - 1) := by
  obtain ⟨a, as, hra⟩ := exists_cons_of_ne_nil hr
  refine ⟨?_, ?_, ?_⟩
  · rw [(C69_several dmin hd ax E hE nl hn groups ls hls hsep a as hra false x y (nl - 1)).2.2, stiffer, if_pos rfl]
  · exact lt_mul_of_one_lt_right (hE _) ten_gt
  · simp only [calculate, radLoop_E]

/-- **C69** fails for every half space under loads of two radii: if the second radius deflects the point at all, the reported
deflection is not the one reported without gradients. -/
theorem C69_half_space_fails (dmin : ℝ) (hd : 0 ≤ dmin) (bs : Bessel) (l : Lim) (h v f : Nat → ℝ) (hh : h 0 = 0)
    (qs : ℝ → List Panel) (stop : ℝ → ℝ → ℝ × ℝ) (eps z : ℝ) (E : Nat → ℝ) (hE : ∀ i, 0 < E i)
    (groups : List (List Load)) (ls : List Load) (hls : ls ∈ groups)
    (hsep : ∀ a ∈ radii groups, ∀ b ∈ radii groups, |a - b| ≤ dmin → a = b) (a b : ℝ)
    (hr : radii groups = [a, b]) (disp : Bool) (x y : ℝ)
    (hdefl : deflOf (integrate bs l ⟨1, h, v, E, f⟩ qs stop eps z 0 disp E) b ls x y ≠ 0) :
    (calculate dmin disp true (integrate bs l ⟨1, h, v, E, f⟩ qs stop eps z 0) E none 1 groups ls x y 0).d.uz ≠
      (calculate dmin disp false (integrate bs l ⟨1, h, v, E, f⟩ qs stop eps z 0) E none 1 groups ls x y 0).d.uz := by
  intro hc
  rw [C69_deflection_fails dmin hd _ E hE 1 one_pos groups ls hls hsep a [b] hr] at hc
  simp only [map_cons, map_nil, sum_cons, sum_nil, add_zero, Nat.sub_self] at hc
  choose K hK using fun r => C71_half_space bs l h v f hh E qs stop eps z disp b r
  have e : ∀ E' : Nat → ℝ, deflOf (integrate bs l ⟨1, h, v, E, f⟩ qs stop eps z 0 disp E') b ls x y =
      ((ls.filter fun l => l.radius = b).map fun l => l.pressure * K (l.distance x y)).sum / E' 0 := by
    intro E'
    simp only [deflOf, hK]
    rw [div_eq_mul_inv, ← sum_map_mul_right]
    congr 1
    exact map_congr_left fun l _ => by ring
  rw [e] at hdefl
  rw [e, e] at hc
  generalize ((ls.filter fun l => l.radius = b).map fun l => l.pressure * K (l.distance x y)).sum = S at *
  have hE0 := hE 0
  have h10 := ten_gt
  have hS : S ≠ 0 := fun h => hdefl (by rw [h, zero_div])
  have hst : stiffer E 0 0 = E 0 * 10 ^ (1e-8 : ℝ) := by simp [stiffer]
  rw [hst] at hc
  generalize (10 : ℝ) ^ (1e-8 : ℝ) = t at *
  have ht : 0 < t := by linarith
  field_simp at hc
  linarith

/-! ## Non-vacuity -/

theorem demo_radii_eq : radii [demoLoads] = [1, 2] := by
  have hp : (radii [demoLoads]).Perm [1, 2] := by
    refine (perm_ext_iff_of_nodup (radii_nodup _) (by norm_num)).2 fun a => ⟨fun h => ?_, fun h => ?_⟩
    · rcases demo_radii a h with rfl | rfl <;> simp
    · simp only [mem_cons, not_mem_nil, or_false] at h
      refine mem_radii.2 ⟨demoLoads, by simp, ?_⟩
      rcases h with rfl | rfl
      · exact ⟨⟨0, 0, 20, 1⟩, by simp [demoLoads], rfl⟩
      · exact ⟨⟨3, 4, 20, 2⟩, by simp [demoLoads], rfl⟩
  exact hp.eq_of_pairwise' (pairwise_insertionSort _ _) (by simp)

/-- The two loads of the superposition example: every hypothesis of the failure theorems holds, the second radius does deflect
the point, and so the deflection reported with gradients is wrong. -/
example : (∀ i : Nat, (0 : ℝ) < (fun _ => 100) i) ∧ radii [demoLoads] = [1, 2] ∧
    (calculate 1e-30 true true demoAx (fun _ => 100) none 1 [demoLoads] demoLoads 0 0 0).d.uz ≠
      (calculate 1e-30 true false demoAx (fun _ => 100) none 1 [demoLoads] demoLoads 0 0 0).d.uz := by
  refine ⟨fun _ => by norm_num, demo_radii_eq, ?_⟩
  rw [Ne, C69_deflection_fails 1e-30 (by norm_num) demoAx _ (fun _ => by norm_num) 1 one_pos [demoLoads] demoLoads (by simp)
    demo_sep 1 [2] demo_radii_eq]
  have e : ∀ E : Nat → ℝ, deflOf (demoAx true E) 2 demoLoads 0 0 =
      Load.pressure ⟨3, 4, 20, 2⟩ * (2 / (E 0 * (1 + Load.distance ⟨3, 4, 20, 2⟩ 0 0))) := by
    intro E
    have : demoLoads.filter (fun l => l.radius = 2) = [⟨3, 4, 20, 2⟩] := by
      unfold demoLoads
      rw [filter_cons_of_neg (by norm_num), filter_cons_of_pos (by simp), filter_nil]
    simp [deflOf, this, demoAx]
  simp only [map_cons, map_nil, sum_cons, sum_nil, add_zero, e]
  have hp : (0 : ℝ) < Load.pressure ⟨3, 4, 20, 2⟩ := by
    simp only [Load.pressure]
    rw [if_neg (by norm_num)]
    positivity
  have hD : (0 : ℝ) ≤ Load.distance ⟨3, 4, 20, 2⟩ 0 0 := distance_nonneg _ _ _
  have h10 := ten_gt
  simp only [stiffer, Nat.sub_self, if_true]
  generalize Load.pressure ⟨3, 4, 20, 2⟩ = p at *
  generalize Load.distance ⟨3, 4, 20, 2⟩ 0 0 = D at *
  generalize (10 : ℝ) ^ (1e-8 : ℝ) = t at *
  intro hc
  have ht : 0 < t := by linarith
  field_simp at hc
  linarith

/-- A half space with one integration point: its deflection does not vanish. -/
theorem demo_half (a r : ℝ) : (integrate ⟨fun _ => 1, fun _ => 1⟩ ⟨709, 10⟩ ⟨1, fun _ => 0, fun _ => 1 / 4, fun _ => 100, fun _ => 1⟩
    (fun _ => [⟨[(1, 1)], true⟩]) (fun _ _ => (2, 2)) 0 0 0 true (fun _ => 100) a r).vdp = 3 * a / 160 := by
  rw [C71_precise]
  simp only [physical, total, flatMap_cons, flatMap_nil, append_nil, map_cons, map_nil, sum_cons, sum_nil, add_zero]
  have : abcd ⟨709, 10⟩ ⟨1, fun _ => 0, fun _ => 1 / 4, fun _ => 100, fun _ => 1⟩ 1 0 = q![0, 0, -1 / 2, -1] := by
    funext i
    have e : ∀ i : Fin 4, i = 0 ∨ i = 1 ∨ i = 2 ∨ i = 3 := by decide
    rcases e i with rfl | rfl | rfl | rfl <;> norm_num [abcd, CD, det0, cols, last, B1, Fin.sum_univ_four]
  simp only [contrib, this, buildT]
  norm_num
  ring

/-- So the hypotheses on the half space hold for the two loads above. -/
example : deflOf (integrate ⟨fun _ => 1, fun _ => 1⟩ ⟨709, 10⟩ ⟨1, fun _ => 0, fun _ => 1 / 4, fun _ => 100, fun _ => 1⟩
    (fun _ => [⟨[(1, 1)], true⟩]) (fun _ _ => (2, 2)) 0 0 0 true (fun _ => 100)) 2 demoLoads 0 0 ≠ 0 := by
  have : demoLoads.filter (fun l => l.radius = 2) = [⟨3, 4, 20, 2⟩] := by
    unfold demoLoads
    rw [filter_cons_of_neg (by norm_num), filter_cons_of_pos (by simp), filter_nil]
  simp only [deflOf, this, map_cons, map_nil, sum_cons, sum_nil, add_zero, demo_half, Load.pressure]
  rw [if_neg (by norm_num)]
  positivity

/-- A single load meets the hypotheses of the positive statements. -/
example : radii [[⟨0, 0, 20, 1⟩]] = [1] ∧ [Load.mk 0 0 20 1] ∈ [[Load.mk 0 0 20 1]] := by
  simp [radii]

end OP.Pave
