import Verif.Pave.Point
import Mathlib.Tactic.Linarith
import Mathlib.Tactic.NormNum
import Mathlib.Tactic.Positivity
import Mathlib.Analysis.Real.Pi.Bounds
/-!
# C52: the comparisons of points
-/
namespace OP.Pave

/-! ## Specification -/

/-- A comparison function that describes a total order on the values satisfying `S`: it returns -1, 0 or 1, zero
exactly for equal values, changes sign when the arguments are exchanged, and "less" is transitive. -/
structure IsOrder {α : Type} (S : α → Prop) (cmp : α → α → Int) : Prop where
  range : ∀ p q, S p → S q → cmp p q = -1 ∨ cmp p q = 0 ∨ cmp p q = 1
  zero : ∀ p q, S p → S q → (cmp p q = 0 ↔ p = q)
  anti : ∀ p q, S p → S q → cmp q p = -cmp p q
  trans : ∀ p q s, S p → S q → S s → cmp p q = -1 → cmp q s = -1 → cmp p s = -1

/-! ## Helpers -/

/-- Every comparison that goes by a lexicographic pair and has no ties is an order. -/
theorem isOrder_of_lex {α A B : Type} [LinearOrder A] [LinearOrder B] (S : α → Prop) (f : α → A) (g : α → B)
    (hinj : ∀ p q, S p → S q → f p = f q → g p = g q → p = q) (cmp : α → α → Int)
    (hz : ∀ p, S p → cmp p p = 0)
    (hc : ∀ p q, S p → S q → p ≠ q →
      cmp p q = if f p < f q then -1 else if f q < f p then 1 else if g p < g q then -1 else 1) :
    IsOrder S cmp := by
  classical
  have key : ∀ p q, S p → S q → cmp p q = if p = q then 0 else
      if f p < f q then -1 else if f q < f p then 1 else if g p < g q then -1 else 1 := by
    intro p q hp hq
    by_cases h : p = q
    · subst h; rw [if_pos rfl, hz p hp]
    · rw [if_neg h, hc p q hp hq h]
  have lt : ∀ p q, S p → S q → (cmp p q = -1 ↔ f p < f q ∨ f p = f q ∧ g p < g q) := by
    intro p q hp hq
    rw [key p q hp hq]
    by_cases h : p = q
    · subst h; simp
    · rw [if_neg h]
      rcases lt_trichotomy (f p) (f q) with h1 | h1 | h1
      · simp [h1]
      · rw [h1]; simp
      · simp [h1, not_lt_of_gt h1, ne_of_gt h1]
  refine ⟨?_, ?_, ?_, ?_⟩
  · intro p q hp hq; rw [key p q hp hq]; split_ifs <;> simp
  · intro p q hp hq; rw [key p q hp hq]; split_ifs <;> simp_all
  · intro p q hp hq
    rw [key p q hp hq, key q p hq hp]
    by_cases h : p = q
    · subst h; simp
    · rw [if_neg h, if_neg (Ne.symm h)]
      rcases lt_trichotomy (f p) (f q) with h1 | h1 | h1
      · simp [h1, not_lt_of_gt h1]
      · have h2 : g p ≠ g q := fun e => h (hinj p q hp hq h1 e)
        rw [h1]; simp only [lt_irrefl, if_false]
        rcases lt_or_gt_of_ne h2 with h3 | h3
        · simp [h3, not_lt_of_gt h3]
        · simp [h3, not_lt_of_gt h3]
      · simp [h1, not_lt_of_gt h1]
  · intro p q s hp hq hs h1 h2
    rw [lt p q hp hq] at h1
    rw [lt q s hq hs] at h2
    rw [lt p s hp hs]
    rcases h1 with h1 | ⟨h1, h1'⟩ <;> rcases h2 with h2 | ⟨h2, h2'⟩
    · exact .inl (h1.trans h2)
    · exact .inl (h2 ▸ h1)
    · exact .inl (h1 ▸ h2)
    · exact .inr ⟨h1.trans h2, h1'.trans h2'⟩

theorem hyp_norm (p : P2 ℝ) : hyp p = ‖(⟨p.y, p.x⟩ : ℂ)‖ := by
  rw [Complex.norm_def, Complex.normSq_mk, hyp, add_comm]

theorem polar_inj (p q : P2 ℝ) (h1 : hyp p = hyp q) (h2 : ang p = ang q) : p = q := by
  rw [hyp_norm, hyp_norm] at h1
  have := Complex.ext_norm_arg h1 h2
  have hx := congrArg Complex.im this
  have hy := congrArg Complex.re this
  exact P2.ext hx hy

theorem hyp_lt (p q : P2 ℝ) : hyp p < hyp q ↔ p.x * p.x + p.y * p.y < q.x * q.x + q.y * q.y :=
  Real.sqrt_lt_sqrt_iff (by nlinarith [mul_self_nonneg p.x, mul_self_nonneg p.y])

/-! ## Properties -/

/-- **C52**, points in the plane: `point2d::compare` with exact radius and angle is a total order. -/
theorem C52_point2d : IsOrder (fun _ => True) (cmp2 hyp ang) := by
  refine isOrder_of_lex _ hyp ang (fun p q _ _ => polar_inj p q) _ (fun p _ => by simp [cmp2]) ?_
  intro p q _ _ h
  rw [cmp2, if_neg (fun e => h (P2.ext e.1 e.2))]

/-- **C52** fails for `point2d` as soon as radius and angle are rounded: for every way of rounding that is constant
just above 1 (for the radius) and just below π/2 (for the angle) there are two different points each of which is
greater than the other. -/
theorem C52_point2d_rounded (rnd : ℝ → ℝ)
    (h1 : ∃ d > 0, ∀ t, 1 ≤ t → t < 1 + d → rnd t = rnd 1)
    (h2 : ∃ d > 0, ∀ t, Real.pi / 2 - d < t → t ≤ Real.pi / 2 → rnd t = rnd (Real.pi / 2)) :
    ∃ p q, p ≠ q ∧ cmp2 (fun a => rnd (hyp a)) (fun a => rnd (ang a)) p q = 1 ∧
      cmp2 (fun a => rnd (hyp a)) (fun a => rnd (ang a)) q p = 1 := by
  obtain ⟨d1, hd1, h1⟩ := h1
  obtain ⟨d2, hd2, h2⟩ := h2
  have hang0 : ang ⟨1, 0⟩ = Real.pi / 2 := by
    have : (⟨0, 1⟩ : ℂ) = Complex.I := rfl
    simp only [ang, this, Complex.arg_I]
  have hcont : Filter.Tendsto (fun y : ℝ => ang ⟨1, y⟩) (nhds 0) (nhds (Real.pi / 2)) := by
    rw [← hang0]
    have hs : (⟨0, 1⟩ : ℂ) ∈ Complex.slitPlane := by
      rw [Complex.mem_slitPlane_iff]; right; simp
    have hc := (Complex.continuousAt_arg hs)
    have hm : Continuous (fun y : ℝ => (⟨y, 1⟩ : ℂ)) := by
      have : (fun y : ℝ => (⟨y, 1⟩ : ℂ)) = fun y : ℝ => (y : ℂ) + Complex.I := by
        funext y; apply Complex.ext <;> simp
      rw [this]; fun_prop
    exact Filter.Tendsto.comp (f := fun y : ℝ => (⟨y, 1⟩ : ℂ)) hc (hm.tendsto 0)
  obtain ⟨e, he, hball⟩ := Metric.tendsto_nhds_nhds.1 hcont d2 hd2
  set y := min (e / 2) (min (d1 / 2) 1) with hy
  have hy0 : 0 < y := by rw [hy]; positivity
  have hye : y ≤ e / 2 := min_le_left _ _
  have hyd : y ≤ d1 / 2 := (min_le_right _ _).trans (min_le_left _ _)
  have hy1 : y ≤ 1 := (min_le_right _ _).trans (min_le_right _ _)
  have good : ∀ t, 0 < t → t ≤ y → rnd (hyp ⟨1, t⟩) = rnd 1 ∧ rnd (ang ⟨1, t⟩) = rnd (Real.pi / 2) := by
    intro t ht hty
    constructor
    · apply h1
      · rw [hyp]; apply Real.le_sqrt_of_sq_le; nlinarith
      · rw [hyp, Real.sqrt_lt' (by linarith)]; nlinarith
    · have hb := hball (x := t) (by rw [Real.dist_eq, sub_zero, abs_of_pos ht]; linarith)
      rw [Real.dist_eq, abs_lt] at hb
      apply h2
      · linarith
      · apply (Complex.abs_arg_le_pi_div_two_iff (z := ⟨t, 1⟩)).2 ht.le |> fun h => (abs_le.1 h).2
  have g1 := good y hy0 le_rfl
  have g2 := good (y / 2) (by linarith) (by linarith)
  have hne : y ≠ y / 2 := by intro h; linarith
  refine ⟨⟨1, y⟩, ⟨1, y / 2⟩, fun h => hne (congrArg P2.y h), ?_, ?_⟩
  · simp only [cmp2, g1, g2, lt_irrefl, hne, and_false, if_false]
  · simp only [cmp2, g1, g2, lt_irrefl, hne.symm, and_false, if_false]

/-- The rounding conditions are met by a concrete non-trivial rounding: to the integer above. -/
example : ∃ rnd : ℝ → ℝ, (∃ d > 0, ∀ t, 1 ≤ t → t < 1 + d → rnd t = rnd 1) ∧
    (∃ d > 0, ∀ t, Real.pi / 2 - d < t → t ≤ Real.pi / 2 → rnd t = rnd (Real.pi / 2)) := by
  refine ⟨fun t => (⌊t⌋ : ℤ), ⟨1, one_pos, fun t h h' => ?_⟩, ⟨1 / 2, by norm_num, fun t h h' => ?_⟩⟩
  · have : ⌊t⌋ = 1 := Int.floor_eq_iff.2 ⟨by simpa using h, by push_cast; linarith⟩
    simp [this]
  · have h3 := Real.pi_gt_three
    have h4 := Real.pi_lt_d2
    have a : ⌊t⌋ = 1 := Int.floor_eq_iff.2 ⟨by push_cast; linarith, by push_cast; linarith⟩
    have b : ⌊Real.pi / 2⌋ = 1 := Int.floor_eq_iff.2 ⟨by push_cast; linarith, by push_cast; linarith⟩
    simp [a, b]

/-- **C52** fails for `point2d` on the two zeros: `(-0.0,-1)` and `(0.0,-1)` compare equal, and `(1,0)` lies
strictly between them. -/
theorem C52_point2d_zeros :
    let p : P2 SZ := ⟨⟨0, true⟩, ⟨-1, false⟩⟩
    let q : P2 SZ := ⟨⟨0, false⟩, ⟨-1, false⟩⟩
    let s : P2 SZ := ⟨⟨1, false⟩, ⟨0, false⟩⟩
    cmpS p q = 0 ∧ cmpS p s = -1 ∧ cmpS s q = -1 := by
  have e1 : ang ⟨1, 0⟩ = Real.pi / 2 := by
    have : (⟨0, 1⟩ : ℂ) = Complex.I := rfl
    simp only [ang, this, Complex.arg_I]
  have e2 : ang ⟨0, -1⟩ = Real.pi := by
    have : (⟨-1, 0⟩ : ℂ) = -1 := by apply Complex.ext <;> simp
    simp only [ang, this, Complex.arg_neg_one]
  have hp := Real.pi_pos
  refine ⟨by simp [cmpS], ?_, ?_⟩
  · simp only [cmpS, hyp, e1]
    norm_num
    linarith
  · simp only [cmpS, hyp, e1, e2]
    norm_num
    linarith

/-- **C52** fails for `point3d`: two points one above the other compare as equal one way round and as greater the
other way, whatever `r` and `theta` are. -/
theorem C52_point3d_zero {K R : Type} [Field K] [LinearOrder K] [IsStrictOrderedRing K] [LinearOrder R]
    (r th : P2 K → R) (x y z w : K) (h : z * z < w * w) :
    cmp3 r th ⟨⟨x, y⟩, z⟩ ⟨⟨x, y⟩, w⟩ = 0 ∧ cmp3 r th ⟨⟨x, y⟩, w⟩ ⟨⟨x, y⟩, z⟩ = 1 := by
  have hne : z ≠ w := by rintro rfl; exact lt_irrefl _ h
  constructor
  · simp [cmp3, cmp2, hne, not_lt_of_gt h]
  · simp [cmp3, hne.symm, h]

example : (1 : ℚ) * 1 < 2 * 2 := by norm_num

/-- **C52** fails for `point3d` in the other way as well: with exact radius and angle, (0,1,1) and (1,0,0) are each
greater than the other. -/
theorem C52_point3d_both :
    cmp3 hyp ang ⟨⟨0, 1⟩, 1⟩ ⟨⟨1, 0⟩, 0⟩ = 1 ∧ cmp3 hyp ang ⟨⟨1, 0⟩, 0⟩ ⟨⟨0, 1⟩, 1⟩ = 1 := by
  have h1 : hyp ⟨1, 0⟩ = 1 := by simp [hyp]
  have h2 : hyp ⟨0, 1⟩ = 1 := by simp [hyp]
  have e1 : ang ⟨1, 0⟩ = Real.pi / 2 := by
    have : (⟨0, 1⟩ : ℂ) = Complex.I := rfl
    simp only [ang, this, Complex.arg_I]
  have e2 : ang ⟨0, 1⟩ = 0 := by
    have : (⟨1, 0⟩ : ℂ) = 1 := by apply Complex.ext <;> simp
    simp only [ang, this, Complex.arg_one]
  have hp := Real.pi_pos
  refine ⟨by simp only [cmp3]; norm_num, ?_⟩
  simp only [cmp3, cmp2, h1, h2, e1, e2]
  norm_num
  linarith

/-- **C52** restricted to what holds: among points at one depth `point3d::compare` (exact radius and angle) is a
total order.  Missing: points at different depths, see `C52_point3d_zero` and `C52_point3d_both`. -/
theorem C52_point3d_partial (z : ℝ) : IsOrder (fun p : P3 ℝ => p.z = z) (cmp3 hyp ang) := by
  refine isOrder_of_lex _ (fun p => hyp p.toP2) (fun p => ang p.toP2) ?_ _ (fun p _ => by simp [cmp3]) ?_
  · intro p q hp hq h1 h2
    have := polar_inj _ _ h1 h2
    exact P3.ext (congrArg P2.x this) (congrArg P2.y this) (hp.trans hq.symm)
  · intro p q hp hq h
    have hxy : ¬ (p.x = q.x ∧ p.y = q.y) := fun e => h (P3.ext e.1 e.2 (hp.trans hq.symm))
    rw [cmp3, if_neg (fun e => hxy ⟨e.1, e.2.1⟩), hp, hq, cmp2, if_neg hxy]
    simp only [← hyp_lt, gt_iff_lt, add_lt_add_iff_right]
    split_ifs <;> rfl

example : (⟨⟨1, 2⟩, 5⟩ : P3 ℝ).z = 5 ∧ (⟨⟨3, 4⟩, 5⟩ : P3 ℝ).z = 5 := ⟨rfl, rfl⟩

/-- **C52** fails for `pavepoint`: equality is not transitive.  A point without a layer equals the same point in
every layer, and these differ from one another. -/
theorem C52_pavepoint_eq {K R : Type} [Field K] [LinearOrder K] [LinearOrder R] (r th : P2 K → R)
    (c : P3 K) (a b : Nat) (h : a < b) :
    cmpP r th ⟨c, some a⟩ ⟨c, none⟩ = 0 ∧ cmpP r th ⟨c, none⟩ ⟨c, some b⟩ = 0 ∧
      cmpP r th ⟨c, some a⟩ ⟨c, some b⟩ = -1 ∧ eqP ⟨c, some a⟩ (⟨c, none⟩ : PP K) ∧
      eqP ⟨c, none⟩ (⟨c, some b⟩ : PP K) ∧ ¬ eqP ⟨c, some a⟩ (⟨c, some b⟩ : PP K) := by
  simp [cmpP, eqP, h, h.ne]

example : (0 : Nat) < 1 := by decide

/-- **C52** restricted to what holds: among pavement points that all have a layer, and where points of one layer
are at one depth, `pavepoint::compare` is a total order.  Missing: points without a layer (`C52_pavepoint_eq`) and
several depths in one layer (`C52_point3d_zero`). -/
theorem C52_pavepoint_partial (depth : Nat → ℝ) :
    IsOrder (fun p : PP ℝ => ∃ l, p.il = some l ∧ p.z = depth l) (cmpP hyp ang) := by
  have h3 := fun l => C52_point3d_partial (depth l)
  have key : ∀ (p q : P3 ℝ) (a b : Nat), p.z = depth a → q.z = depth b →
      cmpP hyp ang ⟨p, some a⟩ ⟨q, some b⟩ =
        if a < b then -1 else if b < a then 1 else cmp3 hyp ang p q := by
    intro p q a b hp hq
    rw [cmpP]
    by_cases he : eqP (⟨p, some a⟩ : PP ℝ) ⟨q, some b⟩
    · rw [if_pos he]
      simp only [eqP, decide_eq_true_eq, Option.some.injEq, reduceCtorEq, or_self, or_false] at he
      obtain ⟨e1, e2, e3, e4⟩ := he
      subst e4
      have : p = q := P3.ext e1 e2 e3
      subst this
      simp [cmp3]
    · rw [if_neg he]
  refine ⟨?_, ?_, ?_, ?_⟩
  · rintro ⟨p, _⟩ ⟨q, _⟩ ⟨a, rfl, hp⟩ ⟨b, rfl, hq⟩
    dsimp only at hp hq
    rw [key p q a b hp hq]
    split_ifs with h1 h2
    · simp
    · simp
    · have : a = b := by omega
      subst this
      exact (h3 a).range p q hp hq
  · rintro ⟨p, _⟩ ⟨q, _⟩ ⟨a, rfl, hp⟩ ⟨b, rfl, hq⟩
    dsimp only at hp hq
    rw [key p q a b hp hq]
    split_ifs with h1 h2
    · simp [h1.ne]
    · simp [h2.ne']
    · have : a = b := by omega
      subst this
      rw [(h3 a).zero p q hp hq]; simp
  · rintro ⟨p, _⟩ ⟨q, _⟩ ⟨a, rfl, hp⟩ ⟨b, rfl, hq⟩
    dsimp only at hp hq
    rw [key p q a b hp hq, key q p b a hq hp]
    rcases lt_trichotomy a b with h | h | h
    · simp [h, not_lt_of_gt h]
    · subst h; simp [(h3 a).anti p q hp hq]
    · simp [h, not_lt_of_gt h]
  · rintro ⟨p, _⟩ ⟨q, _⟩ ⟨s, _⟩ ⟨a, rfl, hp⟩ ⟨b, rfl, hq⟩ ⟨c, rfl, hs⟩
    dsimp only at hp hq hs
    rw [key p q a b hp hq, key q s b c hq hs, key p s a c hp hs]
    intro h1 h2
    by_cases ac : a < c
    · rw [if_pos ac]
    · have hab : ¬ b < a := fun h => by rw [if_neg (by omega), if_pos h] at h1; simp at h1
      have hbc : ¬ c < b := fun h => by rw [if_neg (by omega), if_pos h] at h2; simp at h2
      have e1 : a = b := by omega
      have e2 : b = c := by omega
      subst e1; subst e2
      simp only [lt_irrefl, if_false] at h1 h2 ⊢
      exact (h3 a).trans p q s hp hq hs h1 h2

example : ∃ l, (⟨⟨⟨1, 2⟩, 5⟩, some 0⟩ : PP ℝ).il = some l ∧ (5 : ℝ) = (fun _ => 5) l := ⟨0, rfl, rfl⟩

/-- **C52**, depth and layer: `zpoint::compare`, the order of the internal point table, is a total order. -/
theorem C52_zpoint {K : Type} [Field K] [LinearOrder K] : IsOrder (fun _ => True) (cmpZ (K := K)) := by
  refine isOrder_of_lex _ (fun p => p.z) (fun p => p.il) (fun p q _ _ => Z.ext) _ (fun p _ => by simp [cmpZ]) ?_
  intro p q _ _ h
  rw [cmpZ, if_neg (fun e => h (Z.ext e.1 e.2))]

end OP.Pave
