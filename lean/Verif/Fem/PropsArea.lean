import Verif.Fem.AreaLemmas
import Mathlib.Algebra.BigOperators.Intervals
/-!
# C110: the load on a block

`C110_corner` and `C110_block_partial` say that the area found for a block that does not lie on both sides of an axis
is the area of its part below the load; `C110_total` that blocks between lines through the axes carry the whole load.
The remaining theorems say what is found for other blocks, and that this is wrong.
-/
namespace OP.Fem.Area

open Real MeasureTheory Set

theorem area_strip {x1 x2 : ℝ} (y r : ℝ) (h : x1 ≤ x2) :
    area ((Ico x1 x2 ×ˢ Ici y) ∩ disc r) = area (beyond x1 y r) - area (beyond x2 y r) := by
  have hu : beyond x1 y r = ((Ico x1 x2 ×ˢ Ici y) ∪ (Ici x2 ×ˢ Ici y)) ∩ disc r := by
    rw [← union_prod, Ico_union_Ici_eq_Ici h, beyond]
  rw [hu, area_union]
  · rw [← beyond]
    ring
  · refine Disjoint.set_prod_left ?_ _ _
    rw [Set.disjoint_left]
    intro u hu h2
    exact absurd hu.2 (not_lt.mpr h2)
  · exact measurableSet_Ici.prod measurableSet_Ici

theorem area_cell {x1 x2 y1 y2 : ℝ} (r : ℝ) (hx : x1 ≤ x2) (hy : y1 ≤ y2) :
    area ((Ico x1 x2 ×ˢ Ico y1 y2) ∩ disc r) = area (beyond x1 y1 r) - area (beyond x1 y2 r)
      - area (beyond x2 y1 r) + area (beyond x2 y2 r) := by
  have h1 := area_strip y1 r hx
  have h2 := area_strip y2 r hx
  have hu : (Ico x1 x2 ×ˢ Ici y1) = (Ico x1 x2 ×ˢ Ico y1 y2) ∪ (Ico x1 x2 ×ˢ Ici y2) := by
    rw [← prod_union, Ico_union_Ici_eq_Ici hy]
  rw [hu, area_union] at h1
  · linarith
  · refine Disjoint.set_prod_right ?_ _ _
    rw [Set.disjoint_left]
    intro u hu h2
    exact absurd hu.2 (not_lt.mpr h2)
  · exact measurableSet_Ico.prod measurableSet_Ici

theorem block_ae {x1 x2 y1 y2 : ℝ} (hx : x1 ≤ x2) (hy : y1 ≤ y2) :
    (Ico x1 x2 ×ˢ Ico y1 y2 : Set (ℝ × ℝ)) =ᵐ[volume] block x1 x2 y1 y2 := by
  rw [block, uIcc_of_le hx, uIcc_of_le hy, Measure.volume_eq_prod]
  exact Measure.set_prod_ae_eq Ico_ae_eq_Icc Ico_ae_eq_Icc

theorem area_block {x1 x2 y1 y2 : ℝ} (r : ℝ) (hx : x1 ≤ x2) (hy : y1 ≤ y2) :
    area (block x1 x2 y1 y2 ∩ disc r) = area (beyond x1 y1 r) - area (beyond x1 y2 r)
      - area (beyond x2 y1 r) + area (beyond x2 y2 r) := by
  rw [← area_cell r hx hy, area_congr r (block_ae hx hy)]

/-- The disc is the same when seen in a mirror. -/
theorem area_mirror (s : Set (ℝ × ℝ)) (r : ℝ) :
    area ((Prod.map (fun a => -a) id ⁻¹' s) ∩ disc r) = area (s ∩ disc r) := by
  have hp : MeasurePreserving (Prod.map (fun a : ℝ => -a) (id : ℝ → ℝ)) volume volume :=
    (Measure.measurePreserving_neg volume).prod (MeasurePreserving.id volume)
  have he : MeasurableEmbedding (Prod.map (fun a : ℝ => -a) (id : ℝ → ℝ)) :=
    ((MeasurableEquiv.neg ℝ).prodCongr (MeasurableEquiv.refl ℝ)).measurableEmbedding
  have hd : (Prod.map (fun a : ℝ => -a) (id : ℝ → ℝ)) ⁻¹' disc r = disc r := by
    ext ⟨u, v⟩
    simp [disc]
  have := hp.measure_preimage_emb he (s ∩ disc r)
  rw [preimage_inter, hd] at this
  unfold area
  rw [this]

theorem area_mirror' (s : Set (ℝ × ℝ)) (r : ℝ) :
    area ((Prod.map id (fun a => -a) ⁻¹' s) ∩ disc r) = area (s ∩ disc r) := by
  have hp : MeasurePreserving (Prod.map (id : ℝ → ℝ) (fun a : ℝ => -a)) volume volume :=
    (MeasurePreserving.id volume).prod (Measure.measurePreserving_neg volume)
  have he : MeasurableEmbedding (Prod.map (id : ℝ → ℝ) (fun a : ℝ => -a)) :=
    ((MeasurableEquiv.refl ℝ).prodCongr (MeasurableEquiv.neg ℝ)).measurableEmbedding
  have hd : (Prod.map (id : ℝ → ℝ) (fun a : ℝ => -a)) ⁻¹' disc r = disc r := by
    ext ⟨u, v⟩
    simp [disc]
  have := hp.measure_preimage_emb he (s ∩ disc r)
  rw [preimage_inter, hd] at this
  unfold area
  rw [this]

theorem neg_mem_uIcc (a b u : ℝ) : -u ∈ uIcc a b ↔ u ∈ uIcc (-a) (-b) := by
  rw [mem_uIcc, mem_uIcc]
  constructor
  · rintro (⟨h1, h2⟩ | ⟨h1, h2⟩)
    · exact Or.inr ⟨by linarith, by linarith⟩
    · exact Or.inl ⟨by linarith, by linarith⟩
  · rintro (⟨h1, h2⟩ | ⟨h1, h2⟩)
    · exact Or.inr ⟨by linarith, by linarith⟩
    · exact Or.inl ⟨by linarith, by linarith⟩

theorem area_abs_x {x1 x2 : ℝ} (y1 y2 r : ℝ) (h : 0 ≤ x1 * x2) :
    area (block x1 x2 y1 y2 ∩ disc r) = area (block |x1| |x2| y1 y2 ∩ disc r) := by
  by_cases h0 : 0 ≤ x1 ∧ 0 ≤ x2
  · rw [abs_of_nonneg h0.1, abs_of_nonneg h0.2]
  · have h1 : x1 ≤ 0 ∧ x2 ≤ 0 := by
      rcases mul_nonneg_iff.mp h with h1 | h1
      · exact absurd h1 h0
      · exact h1
    rw [abs_of_nonpos h1.1, abs_of_nonpos h1.2, ← area_mirror (block x1 x2 y1 y2)]
    congr 2
    ext ⟨u, v⟩
    simp only [block, mem_preimage, mem_prod, Prod.map_apply, id_eq, neg_mem_uIcc]

theorem area_abs_y {y1 y2 : ℝ} (x1 x2 r : ℝ) (h : 0 ≤ y1 * y2) :
    area (block x1 x2 y1 y2 ∩ disc r) = area (block x1 x2 |y1| |y2| ∩ disc r) := by
  by_cases h0 : 0 ≤ y1 ∧ 0 ≤ y2
  · rw [abs_of_nonneg h0.1, abs_of_nonneg h0.2]
  · have h1 : y1 ≤ 0 ∧ y2 ≤ 0 := by
      rcases mul_nonneg_iff.mp h with h1 | h1
      · exact absurd h1 h0
      · exact h1
    rw [abs_of_nonpos h1.1, abs_of_nonpos h1.2, ← area_mirror' (block x1 x2 y1 y2)]
    congr 2
    ext ⟨u, v⟩
    simp only [block, mem_preimage, mem_prod, Prod.map_apply, id_eq, neg_mem_uIcc]

/-- All four corners are in the disc (the test of fem3d/fem3d.cpp:2936). -/
def AllIn (x1 x2 y1 y2 r : ℝ) : Prop :=
  x1 ^ 2 + y1 ^ 2 ≤ r ^ 2 ∧ x2 ^ 2 + y1 ^ 2 ≤ r ^ 2 ∧ x1 ^ 2 + y2 ^ 2 ≤ r ^ 2 ∧ x2 ^ 2 + y2 ^ 2 ≤ r ^ 2

/-- All four corners are outside the disc or on its edge (the test of fem3d/fem3d.cpp:2934). -/
def AllOut (x1 x2 y1 y2 r : ℝ) : Prop :=
  r ^ 2 ≤ x1 ^ 2 + y1 ^ 2 ∧ r ^ 2 ≤ x2 ^ 2 + y1 ^ 2 ∧ r ^ 2 ≤ x1 ^ 2 + y2 ^ 2 ∧ r ^ 2 ≤ x2 ^ 2 + y2 ^ 2

theorem out_iff {x1 x2 y1 y2 r : ℝ} (hr : 0 ≤ r) :
    r ≤ min (min (hypot x1 y1) (hypot x2 y1)) (min (hypot x1 y2) (hypot x2 y2)) ↔ AllOut x1 x2 y1 y2 r := by
  simp only [le_min_iff, le_hypot hr, AllOut]
  tauto

theorem in_iff {x1 x2 y1 y2 r : ℝ} (hr : 0 ≤ r) :
    max (max (hypot x1 y1) (hypot x2 y1)) (max (hypot x1 y2) (hypot x2 y2)) ≤ r ↔ AllIn x1 x2 y1 y2 r := by
  simp only [max_le_iff, hypot_le hr, AllIn]
  tauto

theorem sq_between {a b u : ℝ} (h : u ∈ uIcc a b) : u ^ 2 ≤ a ^ 2 ∨ u ^ 2 ≤ b ^ 2 := by
  rcases mem_uIcc.mp h with ⟨h1, h2⟩ | ⟨h1, h2⟩
  · by_cases h0 : 0 ≤ u
    · right; nlinarith
    · left; nlinarith
  · by_cases h0 : 0 ≤ u
    · left; nlinarith
    · right; nlinarith

theorem block_in {x1 x2 y1 y2 r : ℝ} (h : AllIn x1 x2 y1 y2 r) : block x1 x2 y1 y2 ⊆ disc r := by
  rintro ⟨u, v⟩ ⟨hu, hv⟩
  obtain ⟨h1, h2, h3, h4⟩ := h
  simp only [disc, mem_setOf_eq]
  rcases sq_between hu with a | a <;> rcases sq_between hv with b | b <;> linarith

theorem area_full (x1 x2 y1 y2 : ℝ) : area (block x1 x2 y1 y2) = |x1 - x2| * |y1 - y2| := by
  unfold area block
  rw [Measure.volume_eq_prod, Measure.prod_prod, Real.volume_interval, Real.volume_interval, ENNReal.toReal_mul,
    ENNReal.toReal_ofReal (abs_nonneg _), ENNReal.toReal_ofReal (abs_nonneg _), abs_sub_comm x2, abs_sub_comm y2]

/-- **C110** What lies beyond a corner: `circlearea` is the area of the part of the disc beyond the corner. -/
theorem C110_corner (x y : ℝ) {r : ℝ} (hr : 0 ≤ r) :
    circlearea x y r = area {p | |x| ≤ p.1 ∧ |y| ≤ p.2 ∧ p.1 ^ 2 + p.2 ^ 2 ≤ r ^ 2} := by
  rw [circlearea_eq x y hr]
  congr 1
  ext ⟨u, v⟩
  simp [beyond, disc, and_assoc]

theorem sorted_pair (a b : ℝ) : (if b < a then (b, a) else (a, b)) = (min a b, max a b) := by
  by_cases h : b < a
  · rw [if_pos h, min_eq_right h.le, max_eq_left h.le]
  · rw [if_neg h, min_eq_left (not_lt.mp h), max_eq_right (not_lt.mp h)]

theorem block_sorted (x1 x2 y1 y2 : ℝ) : block (min x1 x2) (max x1 x2) (min y1 y2) (max y1 y2) = block x1 x2 y1 y2 := by
  simp only [block, uIcc_of_le min_le_max]
  rfl

/-- **C110** A block that has no axis through its inside gets the area of its part below the load.  Missing: blocks
with an axis through the inside, for which the code is wrong. -/
theorem C110_block_partial {x1 x2 y1 y2 r : ℝ} (hr : 0 ≤ r) (hx : 0 ≤ x1 * x2) (hy : 0 ≤ y1 * y2) :
    blockarea x1 x2 y1 y2 r = area (block x1 x2 y1 y2 ∩ disc r) := by
  have hE : area (block x1 x2 y1 y2 ∩ disc r)
      = area (beyond (min |x1| |x2|) (min |y1| |y2|) r) - area (beyond (min |x1| |x2|) (max |y1| |y2|) r)
      - area (beyond (max |x1| |x2|) (min |y1| |y2|) r) + area (beyond (max |x1| |x2|) (max |y1| |y2|) r) := by
    rw [area_abs_x y1 y2 r hx, area_abs_y |x1| |x2| r hy, ← block_sorted, area_block r min_le_max min_le_max]
  unfold blockarea
  simp only
  by_cases h1 : r ≤ min (min (hypot x1 y1) (hypot x2 y1)) (min (hypot x1 y2) (hypot x2 y2))
  · rw [if_pos h1, hE]
    have ho := (out_iff hr).mp h1
    obtain ⟨a, b, c, d⟩ := ho
    have key : ∀ u v : ℝ, (u = |x1| ∨ u = |x2|) → (v = |y1| ∨ v = |y2|) → area (beyond u v r) = 0 := by
      intro u v hu hv
      have s : ∀ w : ℝ, |w| ^ 2 = w ^ 2 := sq_abs
      rcases hu with rfl | rfl <;> rcases hv with rfl | rfl <;>
        exact area_beyond_out (abs_nonneg _) (abs_nonneg _) (by rw [s, s]; assumption)
    have hmn : ∀ a b : ℝ, min a b = a ∨ min a b = b := fun a b => min_choice a b
    have hmx : ∀ a b : ℝ, max a b = a ∨ max a b = b := fun a b => max_choice a b
    rw [key _ _ (hmn _ _) (hmn _ _), key _ _ (hmn _ _) (hmx _ _), key _ _ (hmx _ _) (hmn _ _),
      key _ _ (hmx _ _) (hmx _ _)]
    ring
  · rw [if_neg h1]
    by_cases h2 : max (max (hypot x1 y1) (hypot x2 y1)) (max (hypot x1 y2) (hypot x2 y2)) ≤ r
    · rw [if_pos h2, inter_eq_left.mpr (block_in ((in_iff hr).mp h2)), area_full]
    · rw [if_neg h2, if_neg (not_lt.mpr hx), if_neg (not_lt.mpr hy), sorted_pair, sorted_pair, hE]
      have n1 : 0 ≤ min |x1| |x2| := le_min (abs_nonneg _) (abs_nonneg _)
      have n2 : 0 ≤ max |x1| |x2| := n1.trans min_le_max
      have n3 : 0 ≤ min |y1| |y2| := le_min (abs_nonneg _) (abs_nonneg _)
      have n4 : 0 ≤ max |y1| |y2| := n3.trans min_le_max
      simp only [circlearea_eq _ _ hr, abs_of_nonneg n1, abs_of_nonneg n2, abs_of_nonneg n3, abs_of_nonneg n4]

/-- **C110** Any block with all corners below the load gets its whole area. -/
theorem C110_inside {x1 x2 y1 y2 r : ℝ} (hr : 0 ≤ r) (h : AllIn x1 x2 y1 y2 r) (ho : ¬ AllOut x1 x2 y1 y2 r) :
    blockarea x1 x2 y1 y2 r = area (block x1 x2 y1 y2 ∩ disc r) := by
  unfold blockarea
  simp only
  rw [if_neg (fun h1 => ho ((out_iff hr).mp h1)), if_pos ((in_iff hr).mpr h), inter_eq_left.mpr (block_in h), area_full]

theorem beyond_neg {a : ℝ} (y r : ℝ) (h : a ≤ 0) :
    area (beyond a y r) = 2 * area (beyond 0 y r) - area (beyond (-a) y r) := by
  have h1 := area_strip y r h
  have h2 := area_strip y r (neg_nonneg.mpr h)
  have h3 : area ((Ico a 0 ×ˢ Ici y) ∩ disc r) = area ((Ico 0 (-a) ×ˢ Ici y) ∩ disc r) := by
    rw [← area_mirror (Ico a 0 ×ˢ Ici y)]
    have e : (Prod.map (fun a : ℝ => -a) (id : ℝ → ℝ)) ⁻¹' (Ico a 0 ×ˢ Ici y) = Ioc 0 (-a) ×ˢ Ici y := by
      ext ⟨u, v⟩
      simp only [mem_preimage, Prod.map_apply, id_eq, mem_prod, mem_Ico, mem_Ici, mem_Ioc]
      constructor
      · rintro ⟨⟨h1, h2⟩, h3⟩
        exact ⟨⟨by linarith, by linarith⟩, h3⟩
      · rintro ⟨⟨h1, h2⟩, h3⟩
        exact ⟨⟨by linarith, by linarith⟩, h3⟩
    rw [e]
    refine area_congr r ?_
    rw [Measure.volume_eq_prod]
    exact Measure.set_prod_ae_eq (Ico_ae_eq_Ioc (a := (0 : ℝ)) (b := -a)).symm (ae_eq_refl _)
  linarith

/-- **C110** What is found for a block on both sides of the `y` axis, partly below the load: the area of what lies
beyond the far side of the block. -/
theorem C110_straddle {x1 x2 y1 y2 r : ℝ} (hr : 0 ≤ r) (hx : x1 * x2 < 0) (hi : ¬ AllIn x1 x2 y1 y2 r)
    (ho : ¬ AllOut x1 x2 y1 y2 r) :
    blockarea x1 x2 y1 y2 r = area ((uIcc x1 x2 ×ˢ Ici (max |y1| |y2|)) ∩ disc r) := by
  unfold blockarea
  simp only
  rw [if_neg (fun h1 => ho ((out_iff hr).mp h1)), if_neg (fun h1 => hi ((in_iff hr).mp h1)), if_pos hx]
  have ny : 0 ≤ max |y1| |y2| := (abs_nonneg y1).trans (le_max_left _ _)
  set y := max |y1| |y2| with hy
  have key : ∀ a b : ℝ, a < 0 → 0 < b → 2 * circlearea 0 y r - circlearea a y r - circlearea b y r
      = area ((Icc a b ×ˢ Ici y) ∩ disc r) := by
    intro a b ha hb
    rw [circlearea_eq _ _ hr, circlearea_eq _ _ hr, circlearea_eq _ _ hr, abs_of_nonneg ny, abs_zero, abs_of_neg ha,
      abs_of_pos hb]
    have h1 := area_strip (x1 := a) (x2 := b) y r (by linarith)
    have h2 := beyond_neg y r ha.le
    have h3 : area ((Ico a b ×ˢ Ici y) ∩ disc r) = area ((Icc a b ×ˢ Ici y) ∩ disc r) := by
      refine area_congr r ?_
      rw [Measure.volume_eq_prod]
      exact Measure.set_prod_ae_eq Ico_ae_eq_Icc (ae_eq_refl _)
    linarith
  rcases mul_neg_iff.mp hx with ⟨h1, h2⟩ | ⟨h1, h2⟩
  · rw [uIcc_of_ge (by linarith), ← key x2 x1 h2 h1]
    ring
  · rw [uIcc_of_le (by linarith), ← key x1 x2 h1 h2]

/-- A block with an axis through its inside that reaches the disc has some area below it. -/
theorem area_pos {x1 x2 y1 y2 r : ℝ} (hr : 0 < r) (h1 : x1 < 0) (h2 : 0 < x2) (hy : y1 < y2) (h3 : y1 < r)
    (h4 : -r < y2) : 0 < area (block x1 x2 y1 y2 ∩ disc r) := by
  have hlt : max y1 (-r) < min y2 r := by
    rw [max_lt_iff, lt_min_iff, lt_min_iff]
    exact ⟨⟨hy, h3⟩, h4, by linarith⟩
  obtain ⟨v, hv1, hv2⟩ := exists_between hlt
  rw [max_lt_iff] at hv1
  rw [lt_min_iff] at hv2
  have hopen : IsOpen {p : ℝ × ℝ | (x1 < p.1 ∧ p.1 < x2) ∧ (y1 < p.2 ∧ p.2 < y2) ∧ p.1 ^ 2 + p.2 ^ 2 < r ^ 2} := by
    refine IsOpen.and (IsOpen.and ?_ ?_) (IsOpen.and (IsOpen.and ?_ ?_) ?_) <;>
      exact isOpen_lt (by fun_prop) (by fun_prop)
  have hpos := hopen.measure_pos volume ⟨(0, v), ⟨h1, h2⟩, ⟨hv1.1, hv2.1⟩, by
    have := hv1.2
    have := hv2.2
    simp only
    nlinarith⟩
  unfold area
  refine ENNReal.toReal_pos ?_ (inter_fin _ r)
  refine ne_of_gt (hpos.trans_le (measure_mono ?_))
  rintro ⟨a, b⟩ ⟨⟨a1, a2⟩, ⟨b1, b2⟩, c⟩
  refine ⟨⟨?_, ?_⟩, ?_⟩
  · rw [uIcc_of_le (by linarith)]
    exact ⟨a1.le, a2.le⟩
  · rw [uIcc_of_le hy.le]
    exact ⟨b1.le, b2.le⟩
  · exact c.le

/-- **C110** Every block with an axis through it that reaches below the load but has its corners outside gets no load;
among them every block that covers the whole load. -/
theorem C110_covering_wrong {x1 x2 y1 y2 r : ℝ} (hr : 0 < r) (h1 : x1 < 0) (h2 : 0 < x2) (hy : y1 < y2) (h3 : y1 < r)
    (h4 : -r < y2) (ho : AllOut x1 x2 y1 y2 r) :
    blockarea x1 x2 y1 y2 r = 0 ∧ 0 < area (block x1 x2 y1 y2 ∩ disc r) := by
  refine ⟨?_, area_pos hr h1 h2 hy h3 h4⟩
  unfold blockarea
  simp only
  rw [if_pos ((out_iff hr.le).mpr ho)]

/-- **C110** Every block on both sides of the `y` axis that lies across the edge of the load, so that its far side is
outside, gets no load. -/
theorem C110_edge_wrong {x1 x2 y1 y2 r : ℝ} (h1 : x1 < 0) (h2 : 0 < x2) (h0 : 0 ≤ y1) (h3 : y1 < r)
    (h4 : r ≤ y2) (ho : ¬ AllOut x1 x2 y1 y2 r) :
    blockarea x1 x2 y1 y2 r = 0 ∧ 0 < area (block x1 x2 y1 y2 ∩ disc r) := by
  have hr : 0 < r := by linarith
  refine ⟨?_, area_pos hr h1 h2 (by linarith) h3 (by linarith)⟩
  have hi : ¬ AllIn x1 x2 y1 y2 r := by
    rintro ⟨_, _, h, _⟩
    nlinarith [mul_pos_of_neg_of_neg h1 h1]
  unfold blockarea
  simp only
  rw [if_neg (fun h => ho ((out_iff hr.le).mp h)), if_neg (fun h => hi ((in_iff hr.le).mp h)),
    if_pos (mul_neg_of_neg_of_pos h1 h2)]
  have hz : ∀ x : ℝ, circlearea x (max |y1| |y2|) r = 0 := by
    intro x
    rw [circlearea_eq _ _ hr.le]
    refine area_beyond_out (abs_nonneg _) (abs_nonneg _) ?_
    have : r ≤ |(max |y1| |y2|)| := by
      refine le_trans ?_ (le_abs_self _)
      refine le_trans ?_ (le_max_right _ _)
      rw [abs_of_nonneg (by linarith)]
      exact h4
    nlinarith [sq_nonneg |x|]
  rw [hz, hz, hz]
  ring

/-- The node at the edge of the load of fem3d/fem3d.cpp:3325-3457 (radius 100, spacing 4) is such a block: its part of
the load is lost. -/
theorem C110_tire_wrong : blockarea (-2) 2 98 102 100 = 0 ∧ 0 < area (block (-2) 2 98 102 ∩ disc 100) :=
  C110_edge_wrong (by norm_num) (by norm_num) (by norm_num) (by norm_num) (by norm_num)
    (by rintro ⟨h, _⟩; norm_num at h)

/-- A block that covers the load. -/
example : blockarea (-2) 2 (-2) 2 1 = 0 ∧ 0 < area (block (-2) 2 (-2) 2 ∩ disc 1) :=
  C110_covering_wrong (by norm_num) (by norm_num) (by norm_num) (by norm_num) (by norm_num) (by norm_num)
    (by simp only [AllOut]; norm_num)

/-- A block as in `C110_straddle`. -/
example : blockarea (-1) 1 3 4 4 = area ((uIcc (-1) 1 ×ˢ Ici (max |(3 : ℝ)| |(4 : ℝ)|)) ∩ disc 4) :=
  C110_straddle (by norm_num) (by norm_num) (by simp only [AllIn]; norm_num) (by simp only [AllOut]; norm_num)

theorem sum_cells (f : ℕ → ℕ → ℝ) (n m : ℕ) :
    ∑ i ∈ Finset.range n, ∑ j ∈ Finset.range m, (f i j - f i (j + 1) - f (i + 1) j + f (i + 1) (j + 1))
      = f 0 0 - f 0 m - f n 0 + f n m := by
  have h1 : ∀ i, ∑ j ∈ Finset.range m, (f i j - f i (j + 1) - f (i + 1) j + f (i + 1) (j + 1))
      = (f i 0 - f i m) - (f (i + 1) 0 - f (i + 1) m) := by
    intro i
    rw [← Finset.sum_range_sub' (fun j => f i j), ← Finset.sum_range_sub' (fun j => f (i + 1) j),
      ← Finset.sum_sub_distrib]
    refine Finset.sum_congr rfl fun j _ => ?_
    ring
  simp only [h1]
  rw [Finset.sum_range_sub' (fun i => f i 0 - f i m)]
  ring

theorem same_side {x : ℕ → ℝ} (hm : Monotone x) {i0 : ℕ} (h0 : x i0 = 0) (i : ℕ) : 0 ≤ x i * x (i + 1) := by
  by_cases h : i < i0
  · have h1 : x i ≤ 0 := h0 ▸ hm (by omega : i ≤ i0)
    have h2 : x (i + 1) ≤ 0 := h0 ▸ hm (by omega : i + 1 ≤ i0)
    exact mul_nonneg_of_nonpos_of_nonpos h1 h2
  · have h1 : 0 ≤ x i := h0 ▸ hm (by omega : i0 ≤ i)
    have h2 : 0 ≤ x (i + 1) := h0 ▸ hm (by omega : i0 ≤ i + 1)
    exact mul_nonneg h1 h2

/-- The blocks between lines, one of them an axis in each direction, share the load of the whole rectangle. -/
theorem grid_total {x y : ℕ → ℝ} (hx : Monotone x) (hy : Monotone y) {i0 j0 : ℕ} (hx0 : x i0 = 0) (hy0 : y j0 = 0)
    (n m : ℕ) {r : ℝ} (hr : 0 ≤ r) :
    ∑ i ∈ Finset.range n, ∑ j ∈ Finset.range m, blockarea (x i) (x (i + 1)) (y j) (y (j + 1)) r
      = area (block (x 0) (x n) (y 0) (y m) ∩ disc r) := by
  rw [area_block r (hx (Nat.zero_le n)) (hy (Nat.zero_le m)),
    ← sum_cells (fun i j => area (beyond (x i) (y j) r)) n m]
  refine Finset.sum_congr rfl fun i _ => Finset.sum_congr rfl fun j _ => ?_
  rw [C110_block_partial hr (same_side hx hx0 i) (same_side hy hy0 j),
    area_block r (hx (Nat.le_succ i)) (hy (Nat.le_succ j))]

theorem area_disc {r : ℝ} (hr : 0 < r) : area (disc r) = π * r ^ 2 := by
  have hm : Monotone fun i : ℕ => ((i : ℝ) - 1) * r := by
    intro i j h
    have : (i : ℝ) ≤ j := by exact_mod_cast h
    simp only
    nlinarith
  have h := grid_total hm hm (i0 := 1) (j0 := 1) (by simp) (by simp) 2 2 hr.le
  have hs : block (-r) r (-r) r ∩ disc r = disc r := by
    refine inter_eq_right.mpr ?_
    have := disc_sub r
    rw [abs_of_pos hr] at this
    rw [block, uIcc_of_le (by linarith)]
    exact this
  have hq : ∀ a b c d : ℝ, 0 ≤ a * b → 0 ≤ c * d → |a| = 0 ∧ |b| = r ∨ |a| = r ∧ |b| = 0 →
      |c| = 0 ∧ |d| = r ∨ |c| = r ∧ |d| = 0 → blockarea a b c d r = π * r ^ 2 / 4 := by
    intro a b c d h1 h2 h3 h4
    have e : area (block 0 r 0 r ∩ disc r) = π * r ^ 2 / 4 := by
      rw [area_block r hr.le hr.le, area_beyond_out le_rfl hr.le (by nlinarith),
        area_beyond_out hr.le le_rfl (by nlinarith), area_beyond_out hr.le hr.le (by nlinarith),
        area_beyond le_rfl le_rfl hr (by nlinarith)]
      simp
      ring
    rw [C110_block_partial hr.le h1 h2, area_abs_x _ _ _ h1, area_abs_y _ _ _ h2, ← e]
    have u : uIcc r 0 = uIcc (0 : ℝ) r := uIcc_comm r 0
    rcases h3 with ⟨h3, h3'⟩ | ⟨h3, h3'⟩ <;> rcases h4 with ⟨h4, h4'⟩ | ⟨h4, h4'⟩ <;>
      simp only [h3, h3', h4, h4', block, u]
  simp only [Finset.sum_range_succ, Finset.sum_range_zero, Nat.cast_zero, Nat.cast_one, Nat.cast_ofNat, Nat.cast_add,
    zero_add, zero_sub, sub_self, zero_mul, one_add_one_eq_two] at h
  rw [show (-1 : ℝ) * r = -r by ring, show ((2 : ℝ) - 1) * r = r by ring, hs] at h
  rw [← h]
  have a1 : |r| = r := abs_of_pos hr
  have a2 : |(-r)| = r := by rw [abs_neg, a1]
  have a3 : |(0 : ℝ)| = 0 := abs_zero
  have w1 : (0 : ℝ) ≤ -r * 0 := by simp
  have w2 : (0 : ℝ) ≤ 0 * r := by simp
  rw [hq _ _ _ _ w1 w1 (Or.inr ⟨a2, a3⟩) (Or.inr ⟨a2, a3⟩), hq _ _ _ _ w1 w2 (Or.inr ⟨a2, a3⟩) (Or.inl ⟨a3, a1⟩),
    hq _ _ _ _ w2 w1 (Or.inl ⟨a3, a1⟩) (Or.inr ⟨a2, a3⟩), hq _ _ _ _ w2 w2 (Or.inl ⟨a3, a1⟩) (Or.inl ⟨a3, a1⟩)]
  ring

/-- **C110** The whole load: blocks between any lines in both directions that include the axes and reach beyond the load
get `π r²` in total. -/
theorem C110_total {x y : ℕ → ℝ} (hx : Monotone x) (hy : Monotone y) {i0 j0 : ℕ} (hx0 : x i0 = 0) (hy0 : y j0 = 0)
    {n m : ℕ} {r : ℝ} (hr : 0 < r) (a1 : x 0 ≤ -r) (a2 : r ≤ x n) (b1 : y 0 ≤ -r) (b2 : r ≤ y m) :
    ∑ i ∈ Finset.range n, ∑ j ∈ Finset.range m, blockarea (x i) (x (i + 1)) (y j) (y (j + 1)) r = π * r ^ 2 := by
  rw [grid_total hx hy hx0 hy0 n m hr.le, ← area_disc hr]
  congr 1
  refine inter_eq_right.mpr fun p hp => ?_
  have := disc_sub r hp
  rw [abs_of_pos hr] at this
  rw [block, uIcc_of_le (by linarith), uIcc_of_le (by linarith)]
  exact ⟨⟨a1.trans this.1.1, this.1.2.trans a2⟩, ⟨b1.trans this.2.1, this.2.2.trans b2⟩⟩

/-- The lines of the check in fem3d/fem3d.cpp:4420-4434: 60 blocks of width 4 in each direction. -/
example : ∑ i ∈ Finset.range 60, ∑ j ∈ Finset.range 60,
    blockarea (((i : ℕ) : ℝ) * 4 - 120) (((i + 1 : ℕ) : ℝ) * 4 - 120) (((j : ℕ) : ℝ) * 4 - 120)
      (((j + 1 : ℕ) : ℝ) * 4 - 120) 100 = π * 100 ^ 2 := by
  have hm : Monotone fun i : ℕ => (i : ℝ) * 4 - 120 := by
    intro i j h
    have : (i : ℝ) ≤ j := by exact_mod_cast h
    simp only
    linarith
  exact C110_total hm hm (i0 := 30) (j0 := 30) (by norm_num) (by norm_num) (by norm_num) (by norm_num) (by norm_num)
    (by norm_num) (by norm_num)

/-- A block as in `C110_block_partial`, with corners on both sides of the edge, and one as in `C110_inside`. -/
example : blockarea (-3) 0 (-4) (-3) 4 = area (block (-3) 0 (-4) (-3) ∩ disc 4) :=
  C110_block_partial (by norm_num) (by norm_num) (by norm_num)

example : blockarea (-3) 1 (-2) 3 5 = area (block (-3) 1 (-2) 3 ∩ disc 5) :=
  C110_inside (by norm_num) (by simp only [AllIn]; norm_num) (by simp only [AllOut]; norm_num)

end OP.Fem.Area
