import Verif.Fem.PropsOutwardMesh
/-!
# C120, continued: the mesh of the program
-/
namespace OP.Fem.Outward
open OP.Fem.Region

theorem gridPairs_fine {edge : Int} {a b : Nat} {d : Int} (hd : 0 < d) (ha : (a : Int) * d ≤ edge) (hb : (b : Int) * d ≤ edge)
    (he : 0 < edge) {k : Block} (hx : (k.x1, k.x2) ∈ pairs (grid a d)) (hy : (k.y1, k.y2) ∈ pairs (grid b d)) : Fine edge k := by
  obtain ⟨x1, x2, x3, x4⟩ := pairs_mem (grid_sorted a hd) hx
  obtain ⟨y1, y2, y3, -⟩ := pairs_mem (grid_sorted b hd) hy
  have z : (0 : Int) ∈ grid a d := mem_grid.mpr ⟨0, by omega, by omega, by ring⟩
  have b1 := first_le (grid_sorted a hd) x2
  have b2 := le_last (grid_sorted a hd) x3
  have b3 := first_le (grid_sorted b hd) y2
  have b4 := le_last (grid_sorted b hd) y3
  rw [grid_first] at b1 b3
  rw [grid_last] at b2 b4
  have := x4 0 z
  exact ⟨x1, y1, by omega, by omega, by omega, by omega, by omega⟩

/-- What the rounds from a rectangle on can be. -/
def Shaped (c : Setup) (h : Nat) (s : State) : Prop :=
  ∃ a b : Nat, ∃ d : Int, s.filling = [rect (2 * a) (2 * b) d] ∧ s.delta = d ∧ 0 < d ∧
    ((a < 2 * h ∧ b < 2 * h ∧ ∃ K : Nat, ((2 * h : Nat) : Int) * (2 * d * 2 ^ K) = c.edge)
      ∨ (a = h ∧ b = h ∧ ((2 * h : Nat) : Int) * d = c.edge))

theorem shaped_le {c : Setup} {h : Nat} {s : State} {a b : Nat} {d : Int} (hd : 0 < d)
    (hc : (a < 2 * h ∧ b < 2 * h ∧ ∃ K : Nat, ((2 * h : Nat) : Int) * (2 * d * 2 ^ K) = c.edge)
      ∨ (a = h ∧ b = h ∧ ((2 * h : Nat) : Int) * d = c.edge)) :
    ((2 * a : Nat) : Int) * d ≤ c.edge ∧ ((2 * b : Nat) : Int) * d ≤ c.edge ∧ (0 < h → 0 < c.edge) := by
  rcases hc with ⟨h1, h2, K, h3⟩ | ⟨rfl, rfl, h3⟩
  · have hp : (1 : Int) ≤ 2 ^ K := one_le_pow₀ (by omega)
    have e : ((2 * h : Nat) : Int) * (2 * d) ≤ c.edge := by
      rw [← h3]
      apply mul_le_mul_of_nonneg_left _ (by omega)
      have := mul_le_mul_of_nonneg_left hp (show 0 ≤ 2 * d by omega)
      omega
    have key : ∀ k : Nat, k < 2 * h → ((2 * k : Nat) : Int) * d ≤ ((2 * h : Nat) : Int) * (2 * d) := by
      intro k hk
      have : ((2 * k : Nat) : Int) * d = (k : Int) * (2 * d) := by push_cast; ring
      rw [this]
      exact mul_le_mul_of_nonneg_right (by omega) (by omega)
    refine ⟨(key a h1).trans e, (key b h2).trans e, fun hh => ?_⟩
    have : 0 < ((2 * h : Nat) : Int) * (2 * d) := by positivity
    omega
  · refine ⟨h3.le, h3.le, fun hh => ?_⟩
    rw [← h3]; positivity

theorem shaped_round {c : Setup} {h : Nat} (hh : 0 < h) (hS : c.step = (2 * h : Nat)) {s s' : State} (H : Shaped c h s)
    (hr : round c s = .ok s') : Shaped c h s' := by
  obtain ⟨a, b, d, hf, hdl, hd, hc⟩ := H
  obtain ⟨l1, l2, l3⟩ := shaped_le (s := s) hd hc
  have hpos := l3 hh
  obtain ⟨sl, g, -, e2, e3, e4, -, -⟩ := round_ok hr
  rw [hf, hdl] at e2
  rcases hc with ⟨h1, h2, K, h3⟩ | ⟨rfl, rfl, h3⟩
  · have hp : (1 : Int) ≤ 2 ^ K := one_le_pow₀ (by omega)
    have e : ((2 * h : Nat) : Int) * (2 * d) ≤ c.edge := by
      rw [← h3]
      apply mul_le_mul_of_nonneg_left _ (by omega)
      have := mul_le_mul_of_nonneg_left hp (show 0 ≤ 2 * d by omega)
      omega
    have key : ∀ k : Nat, k < 2 * h → ((2 * k : Nat) : Int) * d < c.edge := by
      intro k hk
      have e1 : ((2 * k : Nat) : Int) * d = (k : Int) * (2 * d) := by push_cast; ring
      have e2 : (k : Int) * (2 * d) < ((2 * h : Nat) : Int) * (2 * d) := mul_lt_mul_of_pos_right (by omega) (by omega)
      omega
    rw [thinOut_rect hpos (key a h1) (key b h2)] at e2
    obtain ⟨f1, f2⟩ := Prod.mk.inj (Res.ok.inj e2)
    rw [← f1, ← f2, hS, growAll_rect (by omega) (Or.inl h1) (Or.inl h2) e] at e3
    obtain rfl := Res.ok.inj e3
    rw [merge_one] at e4
    refine ⟨h, h, 2 * d, e4, f2.symm, by omega, ?_⟩
    cases K with
    | zero => right; exact ⟨rfl, rfl, by rw [← h3]; ring⟩
    | succ K => left; exact ⟨by omega, by omega, K, by rw [← h3]; ring⟩
  · have ht : thinOut c.edge d [rect (2 * b) (2 * b) d] = .ok ([rect (2 * b) (2 * b) d], d) := by
      unfold thinOut
      rw [if_neg (by rw [isInside_rect hpos, h3]; simp)]
    rw [ht] at e2
    obtain ⟨f1, f2⟩ := Prod.mk.inj (Res.ok.inj e2)
    rw [← f1, ← f2, hS, growAll_rect hd (Or.inr ⟨rfl, h3⟩) (Or.inr ⟨rfl, h3⟩) h3.le] at e3
    obtain rfl := Res.ok.inj e3
    rw [merge_one] at e4
    exact ⟨_, _, d, e4, f2.symm, hd, Or.inr ⟨rfl, rfl, h3⟩⟩

theorem shaped_fine {c : Setup} {h : Nat} (hh : 0 < h) {s : State} (H : Shaped c h s) {t : Slab} {b : Block}
    (hb : b ∈ over s.filled s.filling s.zi t) : Fine c.edge b := by
  obtain ⟨a, a', d, hf, -, hd, hc⟩ := H
  obtain ⟨l1, l2, l3⟩ := shaped_le (s := s) hd hc
  obtain ⟨-, ⟨r, hr, hx, hy⟩, -⟩ := over_slab hb
  rw [hf, List.mem_singleton] at hr
  subst hr
  exact gridPairs_fine hd l1 l2 (l3 hh) hx hy

/-! ## The program -/

/-- The edge of the program, in units. -/
def edge0 : Int := 4096 * 256

/-- The program: loads of radius 100 at 160 on both sides, so that `step` is 32 and then 16. -/
def start0 : State := start 32 (4 * 256) [(-160 * 256, 0), (160 * 256, 0)]

def left0 : Region := square 32 (4 * 256) (-160 * 256) 0
def right0 : Region := square 32 (4 * 256) (160 * 256) 0

theorem start0_filling : start0.filling = [left0, right0] := by
  have h : touches left0 right0 = false := by decide +kernel
  have : start0.filling = merge [left0, right0] := rfl
  rw [this]
  simp [merge, absorb, h]

def left1 : Region := ⟨coarsen left0.xs, coarsen left0.ys⟩
def right1 : Region := ⟨coarsen right0.xs, coarsen right0.ys⟩

theorem thinOut0 : thinOut edge0 (2 * (4 * 256)) [left0, right0] = .ok ([left1, right1], 4096) := by decide +kernel

def left2 : Region := ⟨(List.range 33).map fun k : Nat => (-416 + 16 * (k : Int)) * 256, (List.range 33).map fun k : Nat => (-256 + 16 * (k : Int)) * 256⟩
def right2 : Region := ⟨(List.range 33).map fun k : Nat => (-96 + 16 * (k : Int)) * 256, (List.range 33).map fun k : Nat => (-256 + 16 * (k : Int)) * 256⟩

theorem growAll0 : growAll 16 4096 edge0 [left1, right1] = .ok [left2, right2] := by decide +kernel

theorem merge0 : merge [left2, right2] = [rect (2 * 13) (2 * 8) 4096] := by
  have h : touches left2 right2 = true := by decide +kernel
  have e : join left2 right2 = rect (2 * 13) (2 * 8) 4096 := by decide +kernel
  have : merge [left2, right2] = [join left2 right2] := by simp [merge, absorb, h]
  rw [this, e]

theorem fresh0 : Fresh start0 := by
  have s1 : left0.xs.Pairwise (· < ·) := stops_sorted _
  have s2 : left0.ys.Pairwise (· < ·) := stops_sorted _
  have s3 : right0.xs.Pairwise (· < ·) := stops_sorted _
  have s4 : right0.ys.Pairwise (· < ·) := stops_sorted _
  refine ⟨?_, by rw [start0_filling]; simp, ?_, rfl, rfl, rfl⟩
  · rw [start0_filling]
    intro r hr
    simp only [List.mem_cons, List.not_mem_nil, or_false] at hr
    rcases hr with rfl | rfl
    · exact ⟨s1, s2, by decide +kernel, by decide +kernel⟩
    · exact ⟨s3, s4, by decide +kernel, by decide +kernel⟩
  · have h : touches left0 right0 = false := by decide +kernel
    rw [start0_filling]
    simp [h]

theorem fine0 {t : Slab} {b : Block} {zi : Nat} {filled : List Region} (hb : b ∈ over filled start0.filling zi t) : Fine edge0 b := by
  obtain ⟨-, ⟨r, hr, hx, hy⟩, -⟩ := over_slab hb
  rw [start0_filling] at hr
  have key : ∀ r ∈ [left0, right0], (∀ x ∈ pairs r.xs, x.1 < x.2 ∧ -edge0 ≤ x.1 ∧ x.2 ≤ edge0 ∧ ¬ (x.1 = -edge0 ∧ x.2 = edge0)) ∧
      ∀ y ∈ pairs r.ys, y.1 < y.2 ∧ -edge0 ≤ y.1 ∧ y.2 ≤ edge0 := by decide +kernel
  obtain ⟨k1, k2⟩ := key r hr
  have kx := k1 _ hx
  have ky := k2 _ hy
  exact ⟨kx.1, ky.1, kx.2.1, kx.2.2.1, ky.2.1, ky.2.2, kx.2.2.2⟩

/-- The first round of the program. -/
theorem round0 {c : Setup} (hS : c.step = 16) (he : c.edge = edge0) {s : State} (hf : s.filling = [left0, right0])
    (hd : s.delta = 2 * (4 * 256)) {s' : State} (hr : round c s = .ok s') :
    s'.filled = [left1, right1] ∧ s'.filling = [rect (2 * 13) (2 * 8) 4096] ∧ s'.delta = 4096 := by
  obtain ⟨sl, g, -, e2, e3, e4, -, -⟩ := round_ok hr
  rw [hf, hd, he, thinOut0] at e2
  obtain ⟨f1, f2⟩ := Prod.mk.inj (Res.ok.inj e2)
  rw [← f1, ← f2, hS, he, growAll0] at e3
  obtain rfl := Res.ok.inj e3
  rw [merge0] at e4
  exact ⟨f1.symm, e4, f2.symm⟩

/-- The loop of the program ends, whatever the stops and the layers, with the square up to the edge. -/
theorem program_end {c : Setup} (hS : c.step = 16) (he : c.edge = edge0)
    (hsl : ∀ zi, ∃ sl, slabs c.bots zi 0 1 c.top c.below = .ok sl) :
    ∃ fuel s', run c fuel start0 = some (.ok s') ∧ s'.filled = [rect 16 16 (65536)] ∧ ∀ b ∈ s'.mesh, Fine edge0 b := by
  have hS' : c.step = ((2 * 8 : Nat) : Int) := by rw [hS]; rfl
  obtain ⟨sl, h1⟩ := hsl start0.zi
  have hround : ∃ t, round c start0 = .ok t := by
    have hd : start0.delta = 2 * (4 * 256) := rfl
    refine ⟨⟨[left1, right1], [rect (2 * 13) (2 * 8) 4096], 4096, start0.zi + 1,
      start0.mesh ++ sl.flatMap (over start0.filled start0.filling start0.zi)⟩, ?_⟩
    unfold round
    rw [h1, Res.ok_bind, hd, he]
    conv_lhs => rw [start0_filling, thinOut0, Res.ok_bind]
    dsimp only
    rw [hS, growAll0, Res.ok_bind, merge0, start0_filling]
  obtain ⟨t, ht⟩ := hround
  obtain ⟨t1, t2, t3⟩ := round0 hS he start0_filling rfl ht
  have go0 : goesOn c start0 = true := by
    have : listXp start0.filled < c.edge := by rw [he]; decide
    simp [goesOn, this]
  have ht1 : listXp t.filled < c.edge := by rw [t1, he]; decide +kernel
  have go1 : goesOn c t = true := by simp [goesOn, ht1]
  obtain ⟨u, u1, u2, u3, u4, -⟩ := round_rect (a := 13) (b := 8) hS' (d := 4096) (by norm_num)
    (by rw [he]; decide) (by norm_num) (by norm_num) hsl t2 t3
  have hu : listXp u.filled < c.edge := by rw [u2, listXp_rect _ _ (by norm_num), he]; decide
  obtain ⟨fuel, s', k1, k2⟩ := run_square (h := 8) hS' (by norm_num) hsl 3 (d := 2 * 4096) (by norm_num)
    (by rw [he]; decide) u3 u4 hu
  have hrun := run_step go0 ht (run_step go1 u1 k1)
  refine ⟨_, s', hrun, by rw [k2]; norm_num, ?_⟩
  have step := run_mesh (c := c) (I := fun s => (s.filling = [left0, right0] ∧ s.delta = 2 * (4 * 256)) ∨ Shaped c 8 s)
    (P := Fine edge0) ?_ (Or.inl ⟨start0_filling, rfl⟩) (by simp [start0, start]) hrun
  · exact step.2
  · intro s s' hI hr
    rcases hI with ⟨i1, i2⟩ | hI
    · obtain ⟨-, j2, j3⟩ := round0 hS he i1 i2 hr
      refine ⟨Or.inr ⟨13, 8, 4096, j2, j3, by norm_num, Or.inl ⟨by norm_num, by norm_num, 3, by rw [he]; decide⟩⟩, ?_⟩
      intro sl _ t _ b hb
      rw [i1, ← start0_filling] at hb
      exact fine0 hb
    · refine ⟨Or.inr (shaped_round (by norm_num) hS' hI hr), ?_⟩
      intro sl _ t _ b hb
      rw [← he]
      exact shaped_fine (by norm_num) hI hb

theorem over_square (x y : ℚ) : Over [rect 16 16 65536] x y ↔ (-(edge0 : ℚ) ≤ x ∧ x < edge0) ∧ (-(edge0 : ℚ) ≤ y ∧ y < edge0) := by
  rw [over_iff (by intro r hr; rw [List.mem_singleton.mp hr]; exact rect_sound (by norm_num) (by norm_num) (by norm_num))]
  have e1 : ((16 : Nat) : Int) * 65536 = edge0 := by decide
  unfold InL InR Region.xm Region.xp Region.ym Region.yp
  simp only [List.mem_singleton, exists_eq_left, rect, grid_first, grid_last, e1, Int.le_floor, Int.floor_lt]
  push_cast
  rfl

/-- The stops below: a point is above the last stop. -/
def Deep (c : Setup) (z : ℚ) : Prop := (c.top : ℚ) ≤ z ∧ ∃ a ∈ c.below, z < (a.1 : ℚ)

/-- **C120** The mesh of the program, for all stops in order within the layers and levels that do not go up: the loop ends, every point up to
4096 to every side and down to the last stop is in exactly one element, no other point is in any, and there is exactly one infinite element on
every part of the four sides and one at every depth of each of the four corners. -/
theorem C120_program {c : Setup} (hS : c.step = 16) (he : c.edge = 4096 * 256) (hc : Ordered c) {i : Nat} {d : Int}
    (hi : c.bots.length = i + 1) (hd : c.bots[i]? = some d) (hz : ∀ a ∈ c.below, a.1 ≤ d) :
    ∃ fuel s', run c fuel (start 32 (4 * 256) [(-160 * 256, 0), (160 * 256, 0)]) = some (.ok s') ∧
      (∀ x y z : ℚ, (-4096 * 256 ≤ x ∧ x < 4096 * 256) ∧ (-4096 * 256 ≤ y ∧ y < 4096 * 256) ∧ Deep c z →
        s'.mesh.countP (fun b => covers b x y z) = 1) ∧
      (∀ x y z : ℚ, ¬ ((-4096 * 256 ≤ x ∧ x < 4096 * 256) ∧ (-4096 * 256 ≤ y ∧ y < 4096 * 256) ∧ Deep c z) →
        s'.mesh.countP (fun b => covers b x y z) = 0) ∧
      (∀ e ∈ [-4096 * 256, 4096 * 256], ∀ t z : ℚ, -4096 * 256 ≤ t ∧ t < 4096 * 256 → Deep c z →
        (outside c.edge s'.mesh).countP (onX e t z) = 1 ∧ (outside c.edge s'.mesh).countP (onY e t z) = 1) ∧
      ∀ ex ∈ [-4096 * 256, 4096 * 256], ∀ ey ∈ [-4096 * 256, 4096 * 256], ∀ z : ℚ, Deep c z →
        (outside c.edge s'.mesh).countP (onCorner ex ey z) = 1 := by
  have he' : c.edge = edge0 := by rw [he]; rfl
  have hsl : ∀ zi, ∃ sl, slabs c.bots zi 0 1 c.top c.below = .ok sl := fun zi =>
    slabs_total (by omega) (by rw [hi, Nat.add_sub_cancel]; exact hd) hz zi 1 c.top
  obtain ⟨fuel, s', h1, h2, h3⟩ := program_end hS he' hsl
  have once := C120_once hc fresh0 h1
  rw [h2] at once
  have eq : (edge0 : ℚ) = 4096 * 256 := by norm_num [edge0]
  have conv : ∀ x y z : ℚ, (Over [rect 16 16 65536] x y ∧ (c.top : ℚ) ≤ z ∧ (∃ a ∈ c.below, z < (a.1 : ℚ))) ↔
      ((-4096 * 256 ≤ x ∧ x < 4096 * 256) ∧ (-4096 * 256 ≤ y ∧ y < 4096 * 256) ∧ Deep c z) := by
    intro x y z
    rw [over_square, eq, and_assoc, neg_mul]
    rfl
  have one : ∀ x y z : ℚ, (-4096 * 256 ≤ x ∧ x < 4096 * 256) ∧ (-4096 * 256 ≤ y ∧ y < 4096 * 256) ∧ Deep c z →
      s'.mesh.countP (fun b => covers b x y z) = 1 := fun x y z h => (once x y z).1 ((conv x y z).mpr h)
  -- in units
  have oneI : ∀ (p q : Int) (z : ℚ), (-edge0 ≤ p ∧ p < edge0) → (-edge0 ≤ q ∧ q < edge0) → Deep c z →
      s'.mesh.countP (fun b => hasXY b p q && hasZ b.slab ⌊z⌋) = 1 := by
    intro p q z hp hq hz
    have := one p q z ⟨?_, ?_, hz⟩
    · simpa only [covers_eq, Int.floor_intCast] using this
    · rw [neg_mul, ← eq]
      exact ⟨by exact_mod_cast hp.1, by exact_mod_cast hp.2⟩
    · rw [neg_mul, ← eq]
      exact ⟨by exact_mod_cast hq.1, by exact_mod_cast hq.2⟩
  have pos : (1 : Int) < edge0 := by decide
  have rng : ∀ t : ℚ, -4096 * 256 ≤ t ∧ t < 4096 * 256 → -edge0 ≤ ⌊t⌋ ∧ ⌊t⌋ < edge0 := by
    intro t ht
    rw [neg_mul, ← eq] at ht
    rw [Int.le_floor, Int.floor_lt]
    push_cast
    exact ht
  have sideR : ∀ right : Bool, -edge0 ≤ (if right then edge0 - 1 else -edge0) ∧ (if right then edge0 - 1 else -edge0) < edge0 := by
    intro right
    cases right <;> simp <;> omega
  have ends : ∀ e ∈ [-4096 * 256, 4096 * 256], ∃ right : Bool, e = if right then edge0 else -edge0 := by
    intro e hm
    simp only [List.mem_cons, List.not_mem_nil, or_false] at hm
    rcases hm with rfl | rfl
    · exact ⟨false, by decide⟩
    · exact ⟨true, by decide⟩
  refine ⟨fuel, s', h1, one, fun x y z h => (once x y z).2 (fun k => h ((conv x y z).mp k)), ?_, ?_⟩
  · intro e hm t z ht hz
    obtain ⟨right, rfl⟩ := ends e hm
    rw [he']
    constructor
    · rw [count_outside (fun b hb => face_x (h3 b hb) right t z)]
      exact oneI _ _ z (sideR right) (rng t ht) hz
    · rw [count_outside (fun b hb => face_y (h3 b hb) right t z)]
      exact oneI _ _ z (rng t ht) (sideR right) hz
  · intro ex hx ey hy z hz
    obtain ⟨right, rfl⟩ := ends ex hx
    obtain ⟨up, rfl⟩ := ends ey hy
    rw [he', count_outside (fun b hb => line_corner (h3 b hb) right up z)]
    exact oneI _ _ z (sideR right) (sideR up) hz

/-! ## Where it goes wrong -/

def leftW : Region := square 32 (4 * 256) (-152 * 256) 0
def rightW : Region := square 32 (4 * 256) (152 * 256) 0
def leftW1 : Region := ⟨coarsen leftW.xs, coarsen leftW.ys⟩
def rightW1 : Region := ⟨coarsen rightW.xs, coarsen rightW.ys⟩
def leftW2 : Region := ⟨(List.range 34).map fun k : Nat => (-424 + 16 * (k : Int)) * 256, (List.range 33).map fun k : Nat => (-256 + 16 * (k : Int)) * 256⟩
def rightW2 : Region := ⟨(List.range 34).map fun k : Nat => (-104 + 16 * (k : Int)) * 256, (List.range 33).map fun k : Nat => (-256 + 16 * (k : Int)) * 256⟩

/-- **C120** The same loads 8 closer to each side: in the second round there is an even number of stops and an assertion fails, for all stops and
layers. -/
theorem C120_position_wrong {c : Setup} (hS : c.step = 16) (he : c.edge = 4096 * 256) {i : Nat} {d : Int}
    (hi : c.bots.length = i + 1) (hd : c.bots[i]? = some d) (hz : ∀ a ∈ c.below, a.1 ≤ d) (fuel : Nat) :
    run c (fuel + 2) (start 32 (4 * 256) [(-152 * 256, 0), (152 * 256, 0)]) = some .throw := by
  have he' : c.edge = edge0 := by rw [he]; rfl
  have hsl : ∀ zi, ∃ sl, slabs c.bots zi 0 1 c.top c.below = .ok sl := fun zi =>
    slabs_total (by omega) (by rw [hi, Nat.add_sub_cancel]; exact hd) hz zi 1 c.top
  set s := start 32 (4 * 256) [(-152 * 256, 0), (152 * 256, 0)] with hs
  have f0 : s.filling = [leftW, rightW] := by
    have h : touches leftW rightW = false := by decide +kernel
    have : s.filling = merge [leftW, rightW] := rfl
    rw [this]
    simp [merge, absorb, h]
  have e1 : thinOut edge0 (2 * (4 * 256)) [leftW, rightW] = .ok ([leftW1, rightW1], 4096) := by decide +kernel
  have e2 : growAll 16 4096 edge0 [leftW1, rightW1] = .ok [leftW2, rightW2] := by decide +kernel
  have e3 : merge [leftW2, rightW2] = [join leftW2 rightW2] := by
    have h : touches leftW2 rightW2 = true := by decide +kernel
    simp [merge, absorb, h]
  have e4 : thinOut edge0 4096 [join leftW2 rightW2] = .throw := by decide +kernel
  obtain ⟨sl, h1⟩ := hsl s.zi
  have hround : round c s = .ok ⟨[leftW1, rightW1], [join leftW2 rightW2], 4096, s.zi + 1,
      s.mesh ++ sl.flatMap (over s.filled s.filling s.zi)⟩ := by
    have hdl : s.delta = 2 * (4 * 256) := rfl
    unfold round
    rw [h1, Res.ok_bind, hdl, he']
    conv_lhs => rw [f0, e1, Res.ok_bind]
    dsimp only
    rw [hS, e2, Res.ok_bind, e3, f0]
  have go0 : goesOn c s = true := by
    have : listXp s.filled < c.edge := by rw [he']; decide
    simp [goesOn, this]
  have lx : listXp [leftW1, rightW1] < edge0 := by decide +kernel
  rw [run, if_pos go0, hround]
  dsimp only
  rw [run, if_pos (by simp [goesOn, he', lx])]
  obtain ⟨sl', h2⟩ := hsl (s.zi + 1)
  unfold round
  dsimp only
  rw [h2, Res.ok_bind, he', e4, Res.throw_bind]

/-- **C120** An element that reaches from one edge to the other has no infinite element at its right side. -/
theorem C120_span_wrong {edge : Int} (he : 0 < edge) {b : Block} (h1 : b.x1 = -edge) (h2 : b.x2 = edge) :
    ∀ f ∈ infinite edge b, ¬ (f.1 = edge ∧ f.2.1 = edge) := by
  obtain ⟨x1, x2, y1, y2, s⟩ := b
  dsimp only at h1 h2
  subst h1 h2
  intro f hf
  simp only [infinite, if_true, List.mem_append, List.mem_ite_nil_right, List.mem_singleton] at hf
  rcases hf with (((⟨-, rfl⟩ | ⟨-, rfl⟩) | rfl) | ⟨-, rfl⟩) | ⟨-, rfl⟩ <;> dsimp only <;> omega

/-- **C120** Regions that overlap, as `merge` can leave them (`C111_merge_wrong`): what they share is filled twice. -/
theorem C120_overlap_wrong {r t : Region} (hr : Sound r) (ht : Sound t) {x y : ℚ} (h1 : Over [r] x y) (h2 : Over [t] x y)
    (zi : Nat) {s : Slab} (hs : s.level = zi) {z : ℚ} (hz : (s.top : ℚ) ≤ z ∧ z < s.bot) (filled : List Region) :
    (over filled [r, t] zi s).countP (fun b => covers b x y z) = 2 := by
  have one : ∀ r : Region, Sound r → Over [r] x y → (over filled [r] zi s).countP (fun b => covers b x y z) = 1 := by
    intro r hr h
    have e : over filled [r] zi s = over [] [r] zi s := by
      unfold over
      simp only [hs, lt_irrefl, decide_false, Bool.and_false, Bool.false_eq_true, if_false]
    have F : Fits [] [r] := ⟨by simpa using hr, by simp, by simp, by simp⟩
    have k := over_count F zi s ⌊x⌋ ⌊y⌋
    rw [if_pos ⟨(over_iff (by simpa using hr) x y).mp h, by simp [InL]⟩] at k
    rw [e, ← k]
    refine List.countP_congr fun b hb => ?_
    rw [covers_eq, (over_slab hb).1]
    have : hasZ s ⌊z⌋ = true := by
      simp only [hasZ, Bool.and_eq_true, decide_eq_true_eq, Int.le_floor, Int.floor_lt]
      exact hz
    rw [this, Bool.and_true]
  have e : over filled [r, t] zi s = over filled [r] zi s ++ over filled [t] zi s := by
    simp [over]
  rw [e, List.countP_append, one r hr h1, one t ht h2]

/-! ## Examples -/

/-- A pavement with three stops of which the last is reached in the second round. -/
def setup0 : Setup := ⟨16, 4096 * 256, 0, [(100, 0), (200, 0), (512, 1)], [200, 512]⟩

example : Ordered setup0 := ⟨by decide, by decide⟩

example : setup0.bots.length = 1 + 1 ∧ setup0.bots[1]? = some 512 ∧ ∀ a ∈ setup0.below, a.1 ≤ 512 := by decide

example : Deep setup0 300 := ⟨by norm_num [setup0], (512, 1), by simp [setup0], by norm_num⟩

/-- A small mesh: a square of four elements, and around it. -/
def small : Setup := ⟨2, 4, 0, [(1, 0), (2, 1)], [2]⟩

def small0 : State := ⟨[], [rect 2 2 1], 1, 0, []⟩

example : Fresh small0 :=
  ⟨by intro r hr; rw [List.mem_singleton.mp hr]; exact rect_sound (by norm_num) (by norm_num) (by norm_num), by decide, by simp [small0],
    rfl, rfl, rfl⟩

/-- Levels as in the theorem: the second stop is reached before the first. -/
example : (⟨2, 4, 0, [(1, 1), (2, 0)], [2]⟩ : Setup).below[1]? = some (2, 0) ∧ (0 : Nat) < 1 := by decide

example : ∃ b, Stops.thin (10 : ℚ) 2 0 [0, 5, 10, 20] [0, 0, 1, 1] = .ok (2, [0, 5, 10, 13, 20], b) := by
  exact ⟨[0, 0, 1, 0, 1], by decide +kernel⟩

end OP.Fem.Outward
