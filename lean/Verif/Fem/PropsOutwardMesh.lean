import Verif.Fem.PropsOutwardGrid
/-!
# C120, continued: the infinite elements, and the mesh of the program
-/
namespace OP.Fem.Outward
open OP.Fem.Region

/-- The infinite elements of a mesh, each with the stop of the element it was added with. -/
def outside (edge : Int) (mesh : List Block) : List ((Int × Int × Int × Int) × Slab) :=
  mesh.flatMap fun b => (infinite edge b).map fun f => (f, b.slab)

/-- The infinite element is on a face in the plane `x = e` over the point `y`, `z`. -/
def onX (e : Int) (y z : ℚ) (f : (Int × Int × Int × Int) × Slab) : Bool :=
  f.1.1 == e && f.1.2.1 == e && decide ((f.1.2.2.1 : ℚ) ≤ y) && decide (y < f.1.2.2.2) && decide ((f.2.top : ℚ) ≤ z)
    && decide (z < f.2.bot)

/-- The infinite element is on a face in the plane `y = e` over the point `x`, `z`. -/
def onY (e : Int) (x z : ℚ) (f : (Int × Int × Int × Int) × Slab) : Bool :=
  f.1.2.2.1 == e && f.1.2.2.2 == e && decide ((f.1.1 : ℚ) ≤ x) && decide (x < f.1.2.1) && decide ((f.2.top : ℚ) ≤ z)
    && decide (z < f.2.bot)

/-- The infinite element is on a line at a corner. -/
def onCorner (ex ey : Int) (z : ℚ) (f : (Int × Int × Int × Int) × Slab) : Bool :=
  f.1 == (ex, ex, ey, ey) && decide ((f.2.top : ℚ) ≤ z) && decide (z < f.2.bot)

/-- An element within the edges that does not reach from one side to the other. -/
structure Fine (edge : Int) (b : Block) : Prop where
  x : b.x1 < b.x2
  y : b.y1 < b.y2
  xm : -edge ≤ b.x1
  xp : b.x2 ≤ edge
  ym : -edge ≤ b.y1
  yp : b.y2 ≤ edge
  part : ¬ (b.x1 = -edge ∧ b.x2 = edge)

theorem count_outside {edge : Int} {mesh : List Block} {P : (Int × Int × Int × Int) × Slab → Bool} {Q : Block → Bool}
    (h : ∀ b ∈ mesh, ((infinite edge b).map fun f => (f, b.slab)).countP P = if Q b then 1 else 0) :
    (outside edge mesh).countP P = mesh.countP Q := by
  unfold outside
  rw [count_flatMap h, sum_ite, mul_one]

theorem dec_le (a : Int) (t : ℚ) : decide ((a : ℚ) ≤ t) = decide (a ≤ ⌊t⌋) := decide_eq_decide.mpr Int.le_floor.symm
theorem dec_lt (a : Int) (t : ℚ) : decide (t < (a : ℚ)) = decide (⌊t⌋ < a) := decide_eq_decide.mpr Int.floor_lt.symm

/-- The faces at both ends in `x`. -/
theorem face_x {edge : Int} {b : Block} (hb : Fine edge b) (right : Bool) (y z : ℚ) :
    ((infinite edge b).map fun f => (f, b.slab)).countP (onX (if right then edge else -edge) y z) =
      if hasXY b (if right then edge - 1 else -edge) ⌊y⌋ && hasZ b.slab ⌊z⌋ then 1 else 0 := by
  obtain ⟨x1, x2, y1, y2, s⟩ := b
  obtain ⟨h1, h2, h3, h4, h5, h6, h7⟩ := hb
  dsimp only at h1 h2 h3 h4 h5 h6 h7 ⊢
  have hz : ∀ a : Bool, (a && decide (s.top ≤ ⌊z⌋) && decide (⌊z⌋ < s.bot)) = (a && hasZ s ⌊z⌋) := by
    intro a; simp [hasZ, Bool.and_assoc]
  have no : ∀ a : Int, (decide (a ≤ ⌊y⌋) && decide (⌊y⌋ < a)) = false := by
    intro a; rw [← Bool.not_eq_true]; simp
  have no' : ∀ (a : Int) (c : Bool), (c && decide (a ≤ ⌊y⌋) && decide (⌊y⌋ < a)) = false := by
    intro a c; rw [Bool.and_assoc, no, Bool.and_false]
  have corner : ∀ e a c : Int, onX e y z ((a, a, c, c), s) = false := by
    intro e a c
    simp only [onX, dec_le, dec_lt, no', Bool.false_and]
  have sides : ∀ e c : Int, onX e y z ((x1, x2, c, c), s) = false := by
    intro e c
    simp only [onX, dec_le, dec_lt, no', Bool.false_and]
  have face : ∀ e a : Int, onX e y z ((a, a, y1, y2), s) =
      (decide (a = e) && (decide (y1 ≤ ⌊y⌋) && decide (⌊y⌋ < y2)) && hasZ s ⌊z⌋) := by
    intro e a
    simp only [onX, dec_le, dec_lt, hz]
    rw [Bool.eq_iff_iff]
    simp only [Bool.and_eq_true, beq_iff_eq, decide_eq_true_eq]
    tauto
  have cnt0 : ∀ (P : Prop) [Decidable P] (e : Int) (t : Int × Int × Int × Int), onX e y z (t, s) = false →
      (((if P then [t] else []).map fun f => (f, s)).countP (onX e y z)) = 0 := by
    intro P _ e t h
    by_cases hP : P <;> simp [hP, h]
  unfold infinite
  dsimp only
  rw [List.map_append, List.map_append, List.countP_append, List.countP_append, cnt0 _ _ _ (sides _ _), cnt0 _ _ _ (sides _ _),
    Nat.add_zero]
  by_cases hl : x1 = -edge
  · rw [if_pos hl, List.map_append, List.map_append, List.countP_append, List.countP_append, cnt0 _ _ _ (corner _ _ _),
      cnt0 _ _ _ (corner _ _ _)]
    simp only [List.map_cons, List.map_nil, List.countP_cons, List.countP_nil, Nat.zero_add, face]
    cases right
    · simp only [Bool.false_eq_true, if_false]
      have e : hasXY ⟨x1, x2, y1, y2, s⟩ (-edge) ⌊y⌋ = (decide (y1 ≤ ⌊y⌋) && decide (⌊y⌋ < y2)) := by
        simp only [hasXY]
        rw [decide_eq_true (by omega), decide_eq_true (by omega)]
        simp
      rw [e, decide_eq_true hl, Bool.true_and]
    · simp only [if_true]
      have e : hasXY ⟨x1, x2, y1, y2, s⟩ (edge - 1) ⌊y⌋ = false := by
        simp only [hasXY]
        rw [decide_eq_false (show ¬ edge - 1 < x2 by omega)]
        simp
      rw [e, decide_eq_false (by omega)]
      simp
  · rw [if_neg hl]
    by_cases hr : x2 = edge
    · rw [if_pos hr, List.map_append, List.map_append, List.countP_append, List.countP_append, cnt0 _ _ _ (corner _ _ _),
        cnt0 _ _ _ (corner _ _ _)]
      simp only [List.map_cons, List.map_nil, List.countP_cons, List.countP_nil, Nat.zero_add, face]
      cases right
      · simp only [Bool.false_eq_true, if_false]
        have e : hasXY ⟨x1, x2, y1, y2, s⟩ (-edge) ⌊y⌋ = false := by
          simp only [hasXY]
          rw [decide_eq_false (show ¬ x1 ≤ -edge by omega)]
          simp
        rw [e, decide_eq_false (by omega)]
        simp
      · simp only [if_true]
        have e : hasXY ⟨x1, x2, y1, y2, s⟩ (edge - 1) ⌊y⌋ = (decide (y1 ≤ ⌊y⌋) && decide (⌊y⌋ < y2)) := by
          simp only [hasXY]
          rw [decide_eq_true (by omega), decide_eq_true (by omega)]
          simp
        rw [e, decide_eq_true hr, Bool.true_and]
    · rw [if_neg hr]
      have e : hasXY ⟨x1, x2, y1, y2, s⟩ (if right = true then edge - 1 else -edge) ⌊y⌋ = false := by
        simp only [hasXY]
        cases right
        · simp only [Bool.false_eq_true, if_false]
          rw [decide_eq_false (show ¬ x1 ≤ -edge by omega)]
          simp
        · simp only [if_true]
          rw [decide_eq_false (show ¬ edge - 1 < x2 by omega)]
          simp
      rw [e]
      simp

/-- The faces at both ends in `y`. -/
theorem face_y {edge : Int} {b : Block} (hb : Fine edge b) (right : Bool) (x z : ℚ) :
    ((infinite edge b).map fun f => (f, b.slab)).countP (onY (if right then edge else -edge) x z) =
      if hasXY b ⌊x⌋ (if right then edge - 1 else -edge) && hasZ b.slab ⌊z⌋ then 1 else 0 := by
  obtain ⟨x1, x2, y1, y2, s⟩ := b
  obtain ⟨h1, h2, h3, h4, h5, h6, h7⟩ := hb
  dsimp only at h1 h2 h3 h4 h5 h6 h7 ⊢
  have hz : ∀ a : Bool, (a && decide (s.top ≤ ⌊z⌋) && decide (⌊z⌋ < s.bot)) = (a && hasZ s ⌊z⌋) := by
    intro a; simp [hasZ, Bool.and_assoc]
  have no : ∀ a : Int, (decide (a ≤ ⌊x⌋) && decide (⌊x⌋ < a)) = false := by
    intro a; rw [← Bool.not_eq_true]; simp
  have no' : ∀ (a : Int) (c : Bool), (c && decide (a ≤ ⌊x⌋) && decide (⌊x⌋ < a)) = false := by
    intro a c; rw [Bool.and_assoc, no, Bool.and_false]
  have flat : ∀ e a c d : Int, onY e x z ((a, a, c, d), s) = false := by
    intro e a c d
    simp only [onY, dec_le, dec_lt, no', Bool.false_and]
  have face : ∀ e a : Int, onY e x z ((x1, x2, a, a), s) =
      (decide (a = e) && (decide (x1 ≤ ⌊x⌋) && decide (⌊x⌋ < x2)) && hasZ s ⌊z⌋) := by
    intro e a
    simp only [onY, dec_le, dec_lt, hz]
    rw [Bool.eq_iff_iff]
    simp only [Bool.and_eq_true, beq_iff_eq, decide_eq_true_eq]
    tauto
  have zero : ∀ (l : List (Int × Int × Int × Int)) (e : Int), (∀ t ∈ l, t.1 = t.2.1) →
      ((l.map fun f => (f, s)).countP (onY e x z)) = 0 := by
    intro l e h
    rw [List.countP_eq_zero]
    intro f hf
    obtain ⟨⟨a, a', c, d⟩, ht, rfl⟩ := List.mem_map.mp hf
    obtain rfl : a = a' := h _ ht
    rw [flat]
    simp
  have first : ∀ t ∈ (if x1 = -edge then
      (if y1 = -edge then [(x1, x1, y1, y1)] else []) ++ (if y2 = edge then [(x1, x1, y2, y2)] else []) ++ [(x1, x1, y1, y2)]
    else if x2 = edge then
      (if y1 = -edge then [(x2, x2, y1, y1)] else []) ++ (if y2 = edge then [(x2, x2, y2, y2)] else []) ++ [(x2, x2, y1, y2)]
    else []), t.1 = t.2.1 := by
    intro t ht
    by_cases c1 : x1 = -edge <;> by_cases c2 : x2 = edge <;> by_cases c3 : y1 = -edge <;> by_cases c4 : y2 = edge <;>
      simp only [c1, c2, c3, c4, if_true, if_false, List.mem_append, List.mem_cons, List.not_mem_nil, or_false, false_or] at ht <;>
      rcases ht with (rfl | rfl) | rfl <;> rfl
  have one : ∀ (P : Prop) [Decidable P] (e a : Int), (((if P then [(x1, x2, a, a)] else []).map fun f => (f, s)).countP (onY e x z)) =
      if P ∧ a = e ∧ (x1 ≤ ⌊x⌋ ∧ ⌊x⌋ < x2) ∧ hasZ s ⌊z⌋ = true then 1 else 0 := by
    intro P _ e a
    by_cases hP : P
    · simp only [hP, if_true, List.map_cons, List.map_nil, List.countP_cons, List.countP_nil, Nat.zero_add, face, true_and,
        Bool.and_eq_true, decide_eq_true_eq, and_assoc]
    · simp [hP]
  unfold infinite
  dsimp only
  rw [List.map_append, List.map_append, List.countP_append, List.countP_append, zero _ _ first, one, one, Nat.zero_add]
  have e : ((hasXY ⟨x1, x2, y1, y2, s⟩ ⌊x⌋ (if right = true then edge - 1 else -edge) && hasZ s ⌊z⌋) = true) ↔
      (x1 ≤ ⌊x⌋ ∧ ⌊x⌋ < x2) ∧ (if right = true then y2 = edge else y1 = -edge) ∧ hasZ s ⌊z⌋ = true := by
    simp only [hasXY, Bool.and_eq_true, decide_eq_true_eq]
    cases right
    · simp only [Bool.false_eq_true, if_false]
      constructor
      · rintro ⟨⟨⟨⟨a, b⟩, c⟩, d⟩, f⟩; exact ⟨⟨a, b⟩, by omega, f⟩
      · rintro ⟨⟨a, b⟩, c, f⟩; exact ⟨⟨⟨⟨a, b⟩, by omega⟩, by omega⟩, f⟩
    · simp only [if_true]
      constructor
      · rintro ⟨⟨⟨⟨a, b⟩, c⟩, d⟩, f⟩; exact ⟨⟨a, b⟩, by omega, f⟩
      · rintro ⟨⟨a, b⟩, c, f⟩; exact ⟨⟨⟨⟨a, b⟩, by omega⟩, by omega⟩, f⟩
  by_cases hx : x1 ≤ ⌊x⌋ ∧ ⌊x⌋ < x2
  · by_cases hs : hasZ s ⌊z⌋ = true
    · cases right
      · simp only [Bool.false_eq_true, if_false] at e ⊢
        by_cases c : y1 = -edge
        · rw [if_pos ⟨c, c, hx, hs⟩, if_neg (by omega), if_pos (e.mpr ⟨hx, c, hs⟩)]
        · rw [if_neg (fun h => c h.1), if_neg (by omega), if_neg (fun h => c (e.mp h).2.1)]
      · simp only [if_true] at e ⊢
        by_cases c : y2 = edge
        · rw [if_neg (by omega), if_pos ⟨c, c, hx, hs⟩, if_pos (e.mpr ⟨hx, c, hs⟩)]
        · rw [if_neg (by omega), if_neg (fun h => c h.1), if_neg (fun h => c (e.mp h).2.1)]
    · rw [if_neg (fun h => hs h.2.2.2), if_neg (fun h => hs h.2.2.2), if_neg (fun h => hs (e.mp h).2.2)]
  · rw [if_neg (fun h => hx h.2.2.1), if_neg (fun h => hx h.2.2.1), if_neg (fun h => hx (e.mp h).1)]

/-- The lines at the corners. -/
theorem line_corner {edge : Int} {b : Block} (hb : Fine edge b) (right up : Bool) (z : ℚ) :
    ((infinite edge b).map fun f => (f, b.slab)).countP (onCorner (if right then edge else -edge) (if up then edge else -edge) z) =
      if hasXY b (if right then edge - 1 else -edge) (if up then edge - 1 else -edge) && hasZ b.slab ⌊z⌋ then 1 else 0 := by
  obtain ⟨x1, x2, y1, y2, s⟩ := b
  obtain ⟨h1, h2, h3, h4, h5, h6, h7⟩ := hb
  dsimp only at h1 h2 h3 h4 h5 h6 h7 ⊢
  have val : ∀ ex ey a a' c d : Int, onCorner ex ey z ((a, a', c, d), s) =
      (decide (a = ex ∧ a' = ex ∧ c = ey ∧ d = ey) && hasZ s ⌊z⌋) := by
    intro ex ey a a' c d
    simp only [onCorner, dec_le, dec_lt]
    rw [Bool.eq_iff_iff]
    simp only [Bool.and_eq_true, beq_iff_eq, decide_eq_true_eq, hasZ, Prod.mk.injEq]
    tauto
  by_cases hs : hasZ s ⌊z⌋ = true
  · simp only [hs, Bool.and_true] at val ⊢
    unfold infinite hasXY
    dsimp only
    by_cases c1 : x1 = -edge <;> by_cases c2 : x2 = edge <;> by_cases c3 : y1 = -edge <;> by_cases c4 : y2 = edge <;>
      cases right <;> cases up <;>
      simp only [c1, c2, c3, c4, if_true, if_false, List.map_append, List.map_cons, List.map_nil, List.countP_append,
        List.countP_cons, List.countP_nil, val, Bool.false_eq_true, decide_eq_true_eq, Bool.and_eq_true] <;>
      (simp (disch := omega) only [if_pos, if_neg] <;> first | omega | simp)
  · have hf : hasZ s ⌊z⌋ = false := by simpa using hs
    simp only [hf, Bool.and_false] at val ⊢
    simp only [Bool.false_eq_true, if_false]
    rw [List.countP_eq_zero]
    intro f hf
    obtain ⟨⟨a, a', c, d⟩, ht, rfl⟩ := List.mem_map.mp hf
    rw [val]
    simp

end OP.Fem.Outward
