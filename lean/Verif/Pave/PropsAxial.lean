import Verif.Pave.AxialLemmas
/-!
# C49, C69, C71: from the integrals of one load to the results of a point
-/
namespace OP.Pave

open List

/-! ## Specification -/

/-- The stress tensor of a point. -/
def PD.stress (d : PD) : Fin 3 → Fin 3 → ℝ :=
  t![t![d.sxx, d.sxy, d.sxz], t![d.sxy, d.syy, d.syz], t![d.sxz, d.syz, d.szz]]

/-- The displacement of a point. -/
def PD.displ (d : PD) : Fin 3 → ℝ := t![d.ux, d.uy, d.uz]

/-- The stress tensor in cylindrical axes (radial, tangential, vertical). -/
def Ax.stress (s : Ax) : Fin 3 → Fin 3 → ℝ := t![t![s.rse, 0, s.sse], t![0, s.tse, 0], t![s.sse, 0, s.vse]]

/-- The displacement in cylindrical axes. -/
def Ax.displ (s : Ax) : Fin 3 → ℝ := t![s.rdp, 0, s.vdp]

/-- Rotation about the vertical by the angle with cosine `c` and sine `s`. -/
def rot (c s : ℝ) : Fin 3 → Fin 3 → ℝ := t![t![c, -s, 0], t![s, c, 0], t![0, 0, 1]]

/-- The rotated tensor `Q S Qᵀ`. -/
def rotT (Q S : Fin 3 → Fin 3 → ℝ) (i j : Fin 3) : ℝ := ∑ k, ∑ l, Q i k * S k l * Q j l

/-- The rotated vector. -/
def rotV (Q : Fin 3 → Fin 3 → ℝ) (u : Fin 3 → ℝ) (i : Fin 3) : ℝ := ∑ k, Q i k * u k

/-- The direction from the load to the point `(x, y)`; any direction will do right below it. -/
noncomputable def bearing (l : Load) (x y : ℝ) : Fin 3 → Fin 3 → ℝ :=
  let r := l.distance x y
  if r = 0 then rot 1 0 else rot ((x - l.x) / r) ((y - l.y) / r)

/-- The state right below the centre of a load has no direction. -/
noncomputable def centred (r : ℝ) (s : Ax) : Ax := if r = 0 then ⟨s.vse, (s.rse + s.tse) / 2, (s.rse + s.tse) / 2, 0, 0, s.vdp⟩ else s

/-! ## C49 -/

/-- **C49**, one load away from its centre: the tensor and the displacement, rotated into the direction of the point and
multiplied by the pressure, are added; the special cases on the axes are no exception. -/
theorem C49_rotation (s : Ax) (d : PD) (l : Load) (h : l.distance d.x d.y ≠ 0) :
    let d' := addtodata false s d l (l.distance d.x d.y)
    let Q := rot ((d.x - l.x) / l.distance d.x d.y) ((d.y - l.y) / l.distance d.x d.y)
    (∀ i j, d'.stress i j = d.stress i j + l.pressure * rotT Q s.stress i j) ∧
    ∀ i, d'.displ i = d.displ i + l.pressure * rotV Q s.displ i := by
  intro d' Q
  have e := addtodata_general s d l h
  simp only at e
  constructor
  · refine all3 (all3 ?_ ?_ ?_) (all3 ?_ ?_ ?_) (all3 ?_ ?_ ?_) <;>
      simp only [d', Q, e, PD.stress, rotT, Ax.stress, rot, Fin.sum_univ_three, v3_0, v3_1, v3_2] <;> ring
  · refine all3 ?_ ?_ ?_ <;>
      simp only [d', Q, e, PD.displ, rotV, Ax.displ, rot, Fin.sum_univ_three, v3_0, v3_1, v3_2] <;> ring

/-- The matrix used is a rotation: its rows are orthonormal. -/
theorem C49_orthogonal (l : Load) (x y : ℝ) (i j : Fin 3) :
    ∑ k, bearing l x y i k * bearing l x y j k = if i = j then 1 else 0 := by
  obtain ⟨c, s, hcs, h⟩ : ∃ c s : ℝ, c ^ 2 + s ^ 2 = 1 ∧ bearing l x y = rot c s := by
    unfold bearing
    simp only
    split_ifs with h
    · exact ⟨1, 0, by norm_num, rfl⟩
    · refine ⟨_, _, ?_, rfl⟩
      rw [div_pow, div_pow, ← add_div, ← distance_sq, div_self (pow_ne_zero 2 h)]
  rw [h]
  revert i j
  refine all3 (all3 ?_ ?_ ?_) (all3 ?_ ?_ ?_) (all3 ?_ ?_ ?_) <;> simp [rot, Fin.sum_univ_three] <;> linarith

/-- Rotating a centred state changes nothing, so the choice of a direction there is immaterial. -/
theorem C49_centre_any (s : Ax) (c t : ℝ) (h : c ^ 2 + t ^ 2 = 1) (i j : Fin 3) :
    rotT (rot c t) (centred 0 s).stress i j = (centred 0 s).stress i j := by
  revert i j
  refine all3 (all3 ?_ ?_ ?_) (all3 ?_ ?_ ?_) (all3 ?_ ?_ ?_) <;>
    simp [rotT, centred, Ax.stress, rot, Fin.sum_univ_three] <;> first | ring1 | linear_combination ((s.rse + s.tse) / 2) * h

/-- **C49**, right below the centre of a load: the mean of the radial and the tangential stress goes to both horizontal
directions, if the shear stress vanishes there (which `C49_centre` shows). -/
theorem C49_below (s : Ax) (d : PD) (l : Load) (hs : s.sse = 0) :
    let d' := addtodata false s d l 0
    (∀ i j, d'.stress i j = d.stress i j + l.pressure * (centred 0 s).stress i j) ∧
    ∀ i, d'.displ i = d.displ i + l.pressure * (centred 0 s).displ i := by
  constructor
  · refine all3 (all3 ?_ ?_ ?_) (all3 ?_ ?_ ?_) (all3 ?_ ?_ ?_) <;>
      simp [addtodata, PD.stress, centred, Ax.stress, hs] <;> ring
  · refine all3 ?_ ?_ ?_ <;> simp [addtodata, PD.displ, centred, Ax.displ]

/-- The share of one load in the stress at `(x, y)`: `ax a r` are the results of a load of radius `a` at distance `r`. -/
noncomputable def stressOf (ax : ℝ → ℝ → Ax) (x y : ℝ) (i j : Fin 3) (l : Load) : ℝ :=
  l.pressure * rotT (bearing l x y) (centred (l.distance x y) (ax l.radius (l.distance x y))).stress i j

/-- The share of one load in the displacement at `(x, y)`. -/
noncomputable def displOf (ax : ℝ → ℝ → Ax) (x y : ℝ) (i : Fin 3) (l : Load) : ℝ :=
  l.pressure * rotV (bearing l x y) (centred (l.distance x y) (ax l.radius (l.distance x y))).displ i

theorem one_load (s : Ax) (d : PD) (l : Load) (x y : ℝ) (hx : d.x = x) (hy : d.y = y)
    (h0 : l.distance x y = 0 → s.sse = 0) :
    let d' := addtodata false s d l (l.distance x y)
    (∀ i j, d'.stress i j = d.stress i j + l.pressure * rotT (bearing l x y) (centred (l.distance x y) s).stress i j) ∧
    ∀ i, d'.displ i = d.displ i + l.pressure * rotV (bearing l x y) (centred (l.distance x y) s).displ i := by
  subst hx hy
  by_cases h : l.distance d.x d.y = 0
  · have hb : bearing l d.x d.y = rot 1 0 := by simp [bearing, h]
    rw [h, hb]
    have hh := C49_below s d l (h0 h)
    refine ⟨fun i j => ?_, fun i => ?_⟩
    · rw [C49_centre_any s 1 0 (by norm_num)]
      exact hh.1 i j
    · have : rotV (rot 1 0) (centred 0 s).displ i = (centred 0 s).displ i := by
        revert i
        refine all3 ?_ ?_ ?_ <;> simp [rotV, rot, centred, Ax.displ, Fin.sum_univ_three]
      rw [this]
      exact hh.2 i
  · have hb : bearing l d.x d.y = rot ((d.x - l.x) / l.distance d.x d.y) ((d.y - l.y) / l.distance d.x d.y) := by
      simp [bearing, h]
    have hc : centred (l.distance d.x d.y) s = s := by simp [centred, h]
    rw [hb, hc]
    exact C49_rotation s d l h

/-- **C49**, superposition: for any number of groups and loads, each with its own radius and position, the stress and the
displacement of a point are the sums over the loads of its group of the rotated shares.  The load radii are equal or
differ by more than `DBL_MIN`. -/
theorem C49_superposition (dmin : ℝ) (hd : 0 ≤ dmin) (ax : Bool → (Nat → ℝ) → ℝ → ℝ → Ax) (E : Nat → ℝ)
    (Q : Option (Nat → ℝ)) (nl : Nat) (groups : List (List Load)) (ls : List Load) (hls : ls ∈ groups)
    (hsep : ∀ a ∈ radii groups, ∀ b ∈ radii groups, |a - b| ≤ dmin → a = b)
    (hax : ∀ a, (ax false E a 0).sse = 0) (x y : ℝ) (il : Nat) :
    let o := calculate dmin false false ax E Q nl groups ls x y il
    (∀ i j, o.d.stress i j = (ls.map (stressOf (ax false E) x y i j)).sum) ∧
    (∀ i, o.d.displ i = (ls.map (displOf (ax false E) x y i)).sum) ∧ o.E = E il := by
  refine ⟨fun i j => ?_, fun i => ?_, ?_⟩
  · have h := radLoop_obs (fun d => d.stress i j) dmin false ax E Q nl x y
      (fun a l => l.pressure * rotT (bearing l x y) (centred (l.distance x y) (ax false E a (l.distance x y))).stress i j) ls
      (fun a l _ d hx hy => (one_load _ d l x y hx hy (fun h => by rw [h]; exact hax a)).1 i j) (radii groups)
      ⟨E, ⟨x, y, 0, 0, 0, 0, 0, 0, 0, 0, 0⟩, fun _ => 0⟩ rfl rfl rfl
    rw [sum_loads dmin hd groups ls hls hsep] at h
    simp only [calculate]
    rw [h]
    have hz : PD.stress ⟨x, y, 0, 0, 0, 0, 0, 0, 0, 0, 0⟩ i j = 0 := by
      clear h
      revert i j
      exact all3 (all3 rfl rfl rfl) (all3 rfl rfl rfl) (all3 rfl rfl rfl)
    rw [hz, zero_add]
    rfl
  · have h := radLoop_obs (fun d => d.displ i) dmin false ax E Q nl x y
      (fun a l => l.pressure * rotV (bearing l x y) (centred (l.distance x y) (ax false E a (l.distance x y))).displ i) ls
      (fun a l _ d hx hy => (one_load _ d l x y hx hy (fun h => by rw [h]; exact hax a)).2 i) (radii groups)
      ⟨E, ⟨x, y, 0, 0, 0, 0, 0, 0, 0, 0, 0⟩, fun _ => 0⟩ rfl rfl rfl
    rw [sum_loads dmin hd groups ls hls hsep] at h
    simp only [calculate]
    rw [h]
    have hz : PD.displ ⟨x, y, 0, 0, 0, 0, 0, 0, 0, 0, 0⟩ i = 0 := by
      clear h
      revert i
      exact all3 rfl rfl rfl
    rw [hz, zero_add]
    rfl
  · simp only [calculate, radLoop_E]

/-- **C49**, deflections alone: asking for deflections only gives the same deflection. -/
theorem C49_deflection (dmin : ℝ) (hd : 0 ≤ dmin) (ax : Bool → (Nat → ℝ) → ℝ → ℝ → Ax) (E : Nat → ℝ)
    (Q : Option (Nat → ℝ)) (nl : Nat) (groups : List (List Load)) (ls : List Load) (hls : ls ∈ groups)
    (hsep : ∀ a ∈ radii groups, ∀ b ∈ radii groups, |a - b| ≤ dmin → a = b) (disp : Bool) (x y : ℝ) (il : Nat) :
    (calculate dmin disp false ax E Q nl groups ls x y il).d.uz =
      (ls.map fun l => l.pressure * (ax disp E l.radius (l.distance x y)).vdp).sum := by
  have h := radLoop_obs PD.uz dmin disp ax E Q nl x y
    (fun a l => l.pressure * (ax disp E a (l.distance x y)).vdp) ls
    (fun a l _ d hx hy => addtodata_uz ..) (radii groups)
    ⟨E, ⟨x, y, 0, 0, 0, 0, 0, 0, 0, 0, 0⟩, fun _ => 0⟩ rfl rfl rfl
  rw [sum_loads dmin hd groups ls hls hsep] at h
  simp only [calculate]
  rw [h, zero_add]

/-! ## Non-vacuity -/

/-- Two loads of different radius, one of them right above the point, with results that decay with the distance. -/
noncomputable def demoAx : Bool → (Nat → ℝ) → ℝ → ℝ → Ax := fun _ E a r =>
  ⟨a / (1 + r), 1 / (1 + r), 2 / (1 + r), r / (1 + r ^ 2), r / (1 + r ^ 2), a / (E 0 * (1 + r))⟩

noncomputable def demoLoads : List Load := [⟨0, 0, 20, 1⟩, ⟨3, 4, 20, 2⟩]

theorem demo_radii (a : ℝ) (h : a ∈ radii [demoLoads]) : a = 1 ∨ a = 2 := by
  obtain ⟨ls, h1, l, h2, rfl⟩ := mem_radii.1 h
  simp only [mem_singleton] at h1
  subst h1
  simp only [demoLoads, mem_cons, not_mem_nil, or_false] at h2
  rcases h2 with rfl | rfl
  · exact Or.inl rfl
  · exact Or.inr rfl

theorem demo_sep : ∀ a ∈ radii [demoLoads], ∀ b ∈ radii [demoLoads], |a - b| ≤ (1e-30 : ℝ) → a = b := by
  intro a ha b hb h
  rcases demo_radii a ha with rfl | rfl <;> rcases demo_radii b hb with rfl | rfl <;> first
    | rfl
    | (exfalso; norm_num at h)

/-- The hypotheses of the superposition theorems hold for it, and the loads do not lie on one axis. -/
example : (0 : ℝ) ≤ 1e-30 ∧ demoLoads ∈ [demoLoads] ∧
    (∀ a ∈ radii [demoLoads], ∀ b ∈ radii [demoLoads], |a - b| ≤ (1e-30 : ℝ) → a = b) ∧
    (∀ a, (demoAx false (fun _ => 100) a 0).sse = 0) ∧
    Load.distance ⟨0, 0, 20, 1⟩ 0 0 = 0 ∧ Load.distance ⟨3, 4, 20, 2⟩ 0 0 ≠ 0 := by
  refine ⟨by norm_num, by simp, demo_sep, fun a => by simp [demoAx], by simp [Load.distance, hyp2], ?_⟩
  simp only [Load.distance, hyp2]
  positivity

end OP.Pave
