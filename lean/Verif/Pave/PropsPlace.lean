import Verif.Pave.PropsSys
import Mathlib.Algebra.Order.BigOperators.Group.List
import Mathlib.Tactic.NormNum
/-!
# C51: every evaluation point gets the layer that contains it
-/
namespace OP.Pave

set_option linter.unusedSectionVars false

variable {K L R Q : Type} [Field K] [LinearOrder K] [IsStrictOrderedRing K]

/-! ## Specification -/

/-- Depth of the top of layer `i`. -/
def topOf (ls : List (Layer K)) (i : Nat) : K := ((ls.take i).map (·.h)).sum

/-- Depth `z` is in layer `i`: at or below its top and above its bottom, or the layer is infinite. -/
def Inside (ls : List (Layer K)) (i : Nat) (z : K) : Prop :=
  ∃ y, ls[i]? = some y ∧ topOf ls i ≤ z ∧ (y.h = 0 ∨ z < topOf ls i + y.h)

/-- Depth `z` is in layer `i` or on its lower boundary. -/
def InsideClosed (ls : List (Layer K)) (i : Nat) (z : K) : Prop :=
  ∃ y, ls[i]? = some y ∧ topOf ls i ≤ z ∧ (y.h = 0 ∨ z ≤ topOf ls i + y.h)

/-- A pavement that can be calculated: there are layers, loads in every group, and points; every modulus is positive,
slip between 0 and 1, Poisson's ratio above 0 and at most 1/2, thickness positive, or zero for the last layer, which
must then be fully bonded. -/
structure Sound (s : Sys K L R) : Prop where
  layers : s.layers ≠ []
  groups : s.groups ≠ []
  loads : ∀ g ∈ s.groups, g ≠ []
  points : s.points ≠ []
  each : ∀ i y, s.layers[i]? = some y → 0 < y.E ∧ 0 ≤ y.s ∧ y.s ≤ 1 ∧ 0 < y.v ∧ y.v ≤ 1 / 2 ∧ 0 ≤ y.h ∧
    (y.h = 0 → i + 1 = s.layers.length ∧ y.s = 1)

/-! ## Helpers -/

theorem topOf_zero (ls : List (Layer K)) : topOf ls 0 = 0 := by simp [topOf]

theorem topOf_cons (y : Layer K) (ls : List (Layer K)) (i : Nat) : topOf (y :: ls) (i + 1) = y.h + topOf ls i := by
  simp [topOf]

theorem layersOk_iff (fresh : Bool) (ls : List (Layer K)) : layersOk fresh ls = true ↔
    ∀ i y, ls[i]? = some y → layerOk fresh (decide (i + 1 = ls.length)) y = true := by
  induction ls with
  | nil => simp [layersOk]
  | cons x xs ih =>
    rw [layersOk, Bool.and_eq_true, ih]
    have hx : xs.isEmpty = decide (0 + 1 = (x :: xs).length) := by
      cases xs <;> simp
    constructor
    · rintro ⟨h1, h2⟩ i y hy
      cases i with
      | zero =>
        simp only [List.getElem?_cons_zero, Option.some.injEq] at hy
        subst hy; rw [← hx]; exact h1
      | succ i =>
        have := h2 i y (by simpa using hy)
        simpa using this
    · intro h
      refine ⟨by rw [hx]; exact h 0 x rfl, fun i y hy => ?_⟩
      have := h (i + 1) y (by simpa using hy)
      simpa using this

theorem locate_unset (d : PP K) (hd : d.il = none) (ls : List (Layer K)) (k : Nat) (z : K) :
    (∀ r, locate d k z ls = some r → ∃ i y, ls[i]? = some y ∧ r = (k + i, z + topOf ls i, y.h) ∧
      z + topOf ls i ≤ d.z ∧ (y.h = 0 ∨ d.z < z + topOf ls i + y.h)) ∧
    (locate d k z ls = none → ∀ i y, ls[i]? = some y → ¬ (z + topOf ls i ≤ d.z ∧
      (y.h = 0 ∨ d.z < z + topOf ls i + y.h))) := by
  induction ls generalizing k z with
  | nil => simp [locate]
  | cons x xs ih =>
    rw [locate, if_neg (by rw [hd]; simp)]
    by_cases hc : d.il = none ∧ d.z ≥ z ∧ (x.h = 0 ∨ d.z < z + x.h)
    · rw [if_pos hc]
      refine ⟨fun r hr => ⟨0, x, rfl, ?_, ?_, ?_⟩, fun h => by cases h⟩
      · cases hr; simp [topOf_zero]
      · rw [topOf_zero, add_zero]; exact hc.2.1
      · rw [topOf_zero, add_zero]; exact hc.2.2
    · rw [if_neg hc]
      obtain ⟨h1, h2⟩ := ih (k + 1) (z + x.h)
      constructor
      · intro r hr
        obtain ⟨i, y, hy, e, l⟩ := h1 r hr
        refine ⟨i + 1, y, by simpa using hy, ?_, ?_⟩
        · rw [e, topOf_cons, ← add_assoc z]; exact Prod.ext (by show k + 1 + i = k + (i + 1); omega) rfl
        · rw [topOf_cons, ← add_assoc]; exact l
      · intro hr i y hy
        cases i with
        | zero =>
          simp only [List.getElem?_cons_zero, Option.some.injEq] at hy
          subst hy
          rw [topOf_zero, add_zero]
          exact fun h => hc ⟨hd, h⟩
        | succ i =>
          rw [topOf_cons, ← add_assoc]
          exact h2 hr i y (by simpa using hy)

theorem locate_set (d : PP K) (m : Nat) (ls : List (Layer K)) (k : Nat) (z : K) (hd : d.il = some (k + m)) :
    locate d k z ls = (ls[m]?).map fun y => (k + m, z + topOf ls m, y.h) := by
  induction ls generalizing k z m with
  | nil => simp [locate]
  | cons x xs ih =>
    rw [locate]
    cases m with
    | zero => simp [hd, topOf_zero]
    | succ m =>
      rw [if_neg (by rw [hd]; simp), if_neg (by rw [hd]; simp), ih m (k + 1) _ (by rw [hd]; congr 1; omega)]
      simp only [List.getElem?_cons_succ, topOf_cons, add_assoc]
      congr 1
      funext y
      congr 1
      omega

theorem topOf_nonneg (ls : List (Layer K)) (h : ∀ y ∈ ls, 0 ≤ y.h) (i : Nat) : 0 ≤ topOf ls i := by
  apply List.sum_nonneg
  intro x hx
  obtain ⟨y, hy, rfl⟩ := List.mem_map.1 hx
  exact h y (List.mem_of_mem_take hy)

theorem topOf_succ (ls : List (Layer K)) (i : Nat) (y : Layer K) (h : ls[i]? = some y) :
    topOf ls (i + 1) = topOf ls i + y.h := by
  rw [topOf, List.take_add_one, h]
  simp [topOf]

theorem topOf_mono (ls : List (Layer K)) (h : ∀ y ∈ ls, 0 ≤ y.h) (i j : Nat) (hij : i ≤ j) :
    topOf ls i ≤ topOf ls j := by
  induction j, hij using Nat.le_induction with
  | base => exact le_rfl
  | succ j _ ih =>
    refine ih.trans ?_
    cases hy : ls[j]? with
    | none =>
      have : ls.length ≤ j := by simpa using hy
      rw [topOf, topOf, List.take_of_length_le this, List.take_of_length_le (by omega)]
    | some y => rw [topOf_succ ls j y hy]; linarith [h y (List.mem_of_getElem? hy)]

/-- Different layers do not overlap. -/
theorem inside_unique (ls : List (Layer K))
    (h : ∀ i y, ls[i]? = some y → 0 ≤ y.h ∧ (y.h = 0 → i + 1 = ls.length)) (i j : Nat) (z : K)
    (hi : Inside ls i z) (hj : Inside ls j z) : i = j := by
  have hnn : ∀ y ∈ ls, 0 ≤ y.h := by
    intro y hy
    obtain ⟨i, hi⟩ := List.mem_iff_getElem?.1 hy
    exact (h i y hi).1
  have key : ∀ i j, Inside ls i z → Inside ls j z → ¬ i < j := by
    rintro i j ⟨y, hy, h1, h2⟩ ⟨w, hw, h3, h4⟩ hij
    have hjl : j < ls.length := by
      by_contra c
      rw [List.getElem?_eq_none (by omega)] at hw; cases hw
    rcases h2 with h2 | h2
    · have := (h i y hy).2 h2; omega
    · have := topOf_mono ls hnn (i + 1) j hij
      rw [topOf_succ ls i y hy] at this
      linarith
  by_contra hne
  rcases Nat.lt_or_gt_of_ne hne with h' | h'
  · exact key i j hi hj h'
  · exact key j i hj hi h'

theorem layerOk_fresh (b : Bool) (y : Layer K) : layerOk true b y = true ↔
    0 < y.E ∧ 0 ≤ y.s ∧ y.s ≤ 1 ∧ 0 < y.v ∧ y.v ≤ 1 / 2 ∧ 0 ≤ y.h ∧ (y.h = 0 → b = true ∧ y.s = 1) := by
  simp only [layerOk, decide_eq_true_eq, not_or, not_lt, not_le, not_and, gt_iff_lt, forall_const, not_not]
  constructor
  · rintro ⟨h1, ⟨h2, h3⟩, h4, ⟨h5, h6⟩, h7, h8⟩
    exact ⟨h1, h2, h3, h5, h6, h7, fun e => ⟨h8 e, h4 e (h8 e)⟩⟩
  · rintro ⟨h1, h2, h3, h4, h5, h6, h7⟩
    exact ⟨h1, ⟨h2, h3⟩, fun e _ => (h7 e).2, ⟨h4, h5⟩, h6, fun e => (h7 e).1⟩

theorem struct_iff (s : Sys K L R) : (s.layers ≠ [] ∧ s.groups ≠ [] ∧ (∀ g ∈ s.groups, g.isEmpty = false) ∧
    s.points ≠ []) ∧ layersOk true s.layers = true ↔ Sound s := by
  rw [layersOk_iff]
  have hemp : (∀ g ∈ s.groups, g.isEmpty = false) ↔ ∀ g ∈ s.groups, g ≠ [] := by
    constructor
    · intro h g hg e; have := h g hg; rw [e] at this; simp at this
    · intro h g hg; cases g with
      | nil => exact absurd rfl (h [] hg)
      | cons _ _ => rfl
  rw [hemp]
  constructor
  · rintro ⟨⟨h1, h2, h3, h4⟩, h5⟩
    refine ⟨h1, h2, h3, h4, fun i y hy => ?_⟩
    have := h5 i y hy
    rw [layerOk_fresh] at this
    simpa only [decide_eq_true_eq] using this
  · rintro ⟨h1, h2, h3, h4, h5⟩
    refine ⟨⟨h1, h2, h3, h4⟩, fun i y hy => ?_⟩
    rw [layerOk_fresh]
    simpa only [decide_eq_true_eq] using h5 i y hy

theorem Sound.thick {s : Sys K L R} (h : Sound s) :
    ∀ i y, s.layers[i]? = some y → 0 ≤ y.h ∧ (y.h = 0 → i + 1 = s.layers.length) :=
  fun i y hy => ⟨(h.each i y hy).2.2.2.2.2.1, fun e => ((h.each i y hy).2.2.2.2.2.2 e).1⟩

theorem Sound.nonneg {s : Sys K L R} (h : Sound s) : ∀ y ∈ s.layers, 0 ≤ y.h := by
  intro y hy
  obtain ⟨i, hi⟩ := List.mem_iff_getElem?.1 hy
  exact (h.thick i y hi).1

theorem place_unset (ls : List (Layer K)) (hnn : ∀ y ∈ ls, 0 ≤ y.h) (d : PP K) (hd : d.il = none) :
    ((placePoint ls d).1 = true ↔ ∃ i, Inside ls i d.z) ∧
    ((placePoint ls d).1 = true → ∃ i, Inside ls i d.z ∧ (placePoint ls d).2 = { d with il := some i }) := by
  obtain ⟨h1, h2⟩ := locate_unset d hd ls 0 0
  have hneg : d.z < 0 → ¬ ∃ i, Inside ls i d.z := by
    rintro hz ⟨i, y, _, h, _⟩
    linarith [topOf_nonneg ls hnn i]
  by_cases hz : d.z < 0
  · simp only [placePoint, if_pos hz]
    refine ⟨⟨fun h => (Bool.false_ne_true h).elim, fun h => (hneg hz h).elim⟩, fun h => (Bool.false_ne_true h).elim⟩
  · simp only [placePoint, if_neg hz]
    cases hl : locate d 0 0 ls with
    | none =>
      refine ⟨⟨fun h => (Bool.false_ne_true h).elim, ?_⟩, fun h => (Bool.false_ne_true h).elim⟩
      rintro ⟨i, y, hy, h⟩
      exact absurd (by simpa using h) (h2 hl i y hy)
    | some r =>
      obtain ⟨i, y, hy, e, h3, h4⟩ := h1 r hl
      rw [zero_add] at h3 h4
      have hin : Inside ls i d.z := ⟨y, hy, h3, h4⟩
      have hok : ¬ d.z < topOf ls i ∧ ¬ (y.h > 0 ∧ d.z > topOf ls i + y.h) := by
        refine ⟨not_lt.2 h3, fun ⟨hp, hgt⟩ => ?_⟩
        rcases h4 with h4 | h4
        · rw [h4] at hp; exact lt_irrefl _ hp
        · exact absurd (h4.trans hgt) (lt_irrefl _)
      subst e
      simp only [zero_add]
      refine ⟨⟨fun _ => ⟨i, hin⟩, fun _ => decide_eq_true hok⟩, fun _ => ⟨i, hin, rfl⟩⟩

theorem place_set (ls : List (Layer K)) (hnn : ∀ y ∈ ls, 0 ≤ y.h) (d : PP K) (i : Nat) (hd : d.il = some i) :
    ((placePoint ls d).1 = true ↔ InsideClosed ls i d.z) ∧ (placePoint ls d).2 = d := by
  have hloc := locate_set d i ls 0 0 (by rw [hd, Nat.zero_add])
  rw [Nat.zero_add, zero_add] at hloc
  by_cases hz : d.z < 0
  · simp only [placePoint, if_pos hz]
    refine ⟨⟨fun h => (Bool.false_ne_true h).elim, ?_⟩, trivial⟩
    rintro ⟨y, _, h, _⟩
    linarith [topOf_nonneg ls hnn i]
  · simp only [placePoint, if_neg hz, hloc]
    cases hy : ls[i]? with
    | none =>
      refine ⟨⟨fun h => (Bool.false_ne_true h).elim, ?_⟩, rfl⟩
      rintro ⟨y, hy', _⟩
      rw [hy] at hy'; cases hy'
    | some y =>
      have hy0 := hnn y (List.mem_of_getElem? hy)
      simp only [Option.map_some, decide_eq_true_eq, not_lt, not_and]
      refine ⟨⟨fun ⟨h1, h2⟩ => ⟨y, hy, h1, ?_⟩, ?_⟩, by cases d; simp_all⟩
      · rcases hy0.lt_or_eq with h | h
        · exact .inr (h2 h)
        · exact .inl h.symm
      · rintro ⟨w, hw, h1, h2⟩
        rw [hy] at hw; cases hw
        refine ⟨h1, fun h => ?_⟩
        rcases h2 with h2 | h2
        · rw [h2] at h; exact absurd h (lt_irrefl _)
        · exact h2

/-! ## Properties -/

/-- **C51**, acceptance: the check of a system without cached results succeeds exactly if the pavement is sound, every
point without a layer is in one, and every point with a layer is in that layer or on its boundary. -/
theorem C51_check (zero : R) (s : Sys K L R) (hs : s.state = .empty) :
    (Sys.check zero s).1 = true ↔ Sound s ∧ ∀ p ∈ s.points, match p.il with
      | none => ∃ i, Inside s.layers i p.z
      | some i => InsideClosed s.layers i p.z := by
  have hpts : Sound s → ((s.points.all fun d => (placePoint s.layers d).1) = true ↔ ∀ p ∈ s.points, match p.il with
      | none => ∃ i, Inside s.layers i p.z
      | some i => InsideClosed s.layers i p.z) := by
    intro hsnd
    rw [List.all_eq_true]
    refine forall_congr' fun p => forall_congr' fun _ => ?_
    cases hil : p.il with
    | none => exact (place_unset s.layers hsnd.nonneg p hil).1
    | some i => exact (place_set s.layers hsnd.nonneg p i hil).1
  simp only [Sys.check, hs, reduceCtorEq, if_false, decide_true, forall_const, Bool.true_eq_false, false_or]
  split_ifs with h1
  · dsimp only
    rw [Bool.and_eq_true, decide_eq_true_eq, struct_iff]
    rw [Bool.and_eq_false_iff] at h1
    constructor
    · intro hsnd
      exfalso
      have h := (struct_iff s).2 hsnd
      rcases h1 with (h1 | h1) | h1
      · exact absurd h.1 (by simpa using h1)
      · rw [h.2] at h1; cases h1
      · exact h.1.1 h1
    · exact fun h => h.1
  · dsimp only
    rw [not_or, Bool.not_eq_false, Bool.and_eq_true, decide_eq_true_eq, struct_iff] at h1
    rw [hpts h1.1]
    exact ⟨fun h => ⟨h1.1, h⟩, fun h => h.2⟩

/-- **C51**, assignment: after a successful check of a system without cached results every point that had no layer has
the one and only layer containing it; points that had a layer keep it.  Missing for the full property: a point that an
earlier check gave a layer counts as a point with a layer from then on, see `C51_kept_layer`. -/
theorem C51_assign_partial (zero : R) (s : Sys K L R) (hs : s.state = .empty) (hc : (Sys.check zero s).1 = true)
    (k : Nat) (p : PP K) (hp : s.points[k]? = some p) : match p.il with
      | none => ∃ i, (Sys.check zero s).2.points[k]? = some { p with il := some i } ∧ Inside s.layers i p.z ∧
          ∀ j, Inside s.layers j p.z → j = i
      | some i => (Sys.check zero s).2.points[k]? = some p ∧ InsideClosed s.layers i p.z := by
  have hacc := (C51_check zero s hs).1 hc
  rw [check_empty zero s hs hc]
  simp only [List.getElem?_map, hp, Option.map_some]
  have hm := List.mem_of_getElem? hp
  cases hil : p.il with
  | none =>
    have hok := hacc.2 p hm
    rw [hil] at hok
    have h := place_unset s.layers hacc.1.nonneg p hil
    obtain ⟨i, hi, e⟩ := h.2 (h.1.2 hok)
    exact ⟨i, by rw [e], hi, fun j hj => inside_unique s.layers hacc.1.thick j i p.z hj hi⟩
  | some i =>
    have h := place_set s.layers hacc.1.nonneg p i hil
    have hok := hacc.2 p hm
    rw [hil] at hok
    exact ⟨by rw [h.2], hok⟩

/-- Non-vacuity: a point on the boundary of two layers goes to the lower one. -/
example : (Sys.check () (⟨[⟨1, 100, 1 / 3, 1⟩, ⟨0, 50, 1 / 3, 1⟩], [[()]], [⟨⟨⟨0, 0⟩, 1⟩, none⟩], [], 0, .empty, 0, none⟩ :
    Sys ℚ Unit Unit)).1 = true := by decide +kernel

/-- **C51** fails after an edit (wrong layer): a point at depth 1, added without a layer, is placed in layer 1 of layers of
thickness 1, 1, infinite; after both are made 1/2 thick the calculation succeeds with the point still in layer 1, although
layer 2 contains it. -/
theorem C51_kept_layer : ∃ s, run (fun _ _ _ _ _ _ => ()) () (Sys.init ℚ Unit Unit)
    ([.addlayer ⟨1, 100, 1 / 3, 1⟩ none, .addlayer ⟨1, 80, 1 / 3, 1⟩ none, .addlayer ⟨0, 50, 1 / 3, 1⟩ none, .addload 0 (),
      .addpoint ⟨⟨⟨0, 0⟩, 1⟩, none⟩, .calculate 0 (), .thickness 0 (1 / 2), .thickness 1 (1 / 2), .calculate 0 ()] :
      List (Op ℚ Unit Unit)) = .ok s ∧
    s.results = 1 ∧ s.points = [⟨⟨⟨0, 0⟩, 1⟩, some 1⟩] ∧ Inside s.layers 2 1 ∧ ¬ Inside s.layers 1 1 := by
  refine ⟨⟨[⟨1 / 2, 100, 1 / 3, 1⟩, ⟨1 / 2, 80, 1 / 3, 1⟩, ⟨0, 50, 1 / 3, 1⟩], [[()]], [⟨⟨⟨0, 0⟩, 1⟩, some 1⟩],
    [[(⟨⟨⟨0, 0⟩, 1⟩, some 1⟩, ())]], 0, .all, 0, some ⟨[1 / 2, 1 / 2, 0], [⟨⟨⟨0, 0⟩, 1⟩, some 1⟩], [[()]]⟩⟩,
    by decide +kernel, by decide +kernel, rfl, ?_, ?_⟩
  · exact ⟨_, rfl, by norm_num [topOf], by norm_num⟩
  · rintro ⟨y, hy, h1, h2⟩
    simp only [List.getElem?_cons_succ, List.getElem?_cons_zero, Option.some.injEq] at hy
    subst hy
    norm_num [topOf] at h2

/-- **C51** fails after an edit (rejected point): the same point, after the top layer is made 2 thick, makes the
calculation fail, although layer 0 contains it and it was added without a layer. -/
theorem C51_rejected : ∃ s, run (fun _ _ _ _ _ _ => ()) () (Sys.init ℚ Unit Unit)
    ([.addlayer ⟨1, 100, 1 / 3, 1⟩ none, .addlayer ⟨1, 80, 1 / 3, 1⟩ none, .addlayer ⟨0, 50, 1 / 3, 1⟩ none, .addload 0 (),
      .addpoint ⟨⟨⟨0, 0⟩, 1⟩, none⟩, .calculate 0 (), .thickness 0 2, .calculate 0 ()] :
      List (Op ℚ Unit Unit)) = .ok s ∧ s.results = 0 ∧ Inside s.layers 0 1 := by
  refine ⟨⟨[⟨2, 100, 1 / 3, 1⟩, ⟨1, 80, 1 / 3, 1⟩, ⟨0, 50, 1 / 3, 1⟩], [[()]], [⟨⟨⟨0, 0⟩, 1⟩, some 1⟩],
    [[(⟨⟨⟨0, 0⟩, 1⟩, some 1⟩, ())]], 0, .empty, failure, none⟩,
    by decide +kernel, by decide +kernel, ?_⟩
  exact ⟨_, rfl, by norm_num [topOf], by norm_num [topOf]⟩

end OP.Pave
