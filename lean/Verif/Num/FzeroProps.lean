import Verif.Num.Fzero
import Mathlib.Order.Interval.Set.OrdConnected
import Mathlib.Order.Interval.Set.UnorderedInterval
import Mathlib.Tactic.Linarith
import Mathlib.Tactic.FieldSimp
import Mathlib.Tactic.NormNum
import Mathlib.Tactic.Ring
import Mathlib.Algebra.Order.Ring.Rat
/-!
# C58: root finding stays in its limits and returns a sign change

The specification needs only the function: where it was looked at is stated by what happens if it is changed elsewhere.
-/
namespace OP.Num
variable {K : Type} [Field K] [LinearOrder K]

/-! ## Specification -/

/-- `x` is a root, or there is a change of sign in `S` so close that the search stops. -/
def RootNear (f : K → K) (v : Env K) (S : Set K) (x : K) : Prop :=
  f x = 0 ∨ ∃ c ∈ S, |c - x| ≤ 4 * v.eps (max |x| (1 / 1000000)) ∧ (0 < f x ↔ ¬ 0 < f c)

/-- Between the limits; a missing limit is infinite. -/
def Within (ll lr : Option K) : Set K := { x | (∀ l ∈ ll, l ≤ x) ∧ ∀ r ∈ lr, x ≤ r }

/-! ## The second loop -/

/-- The bracket of the second loop: values belong to points, the ends are in `S` and on different sides. -/
structure Bracketed (f : K → K) (S : Set K) (s : Hunt K) : Prop where
  hX : s.X = f s.x
  hC : s.C = f s.c
  hx : s.x ∈ S
  hc : s.c ∈ S
  side : sameSide s.X s.C = false
  hd : s.d ≠ 0

theorem sameSide_iff {X C : K} : sameSide X C = true ↔ (0 < X ↔ 0 < C) := by
  unfold sameSide; by_cases h1 : 0 < X <;> by_cases h2 : 0 < C <;> simp [h1, h2]

theorem sameSide_false {X C : K} : sameSide X C = false ↔ (0 < X ↔ ¬ 0 < C) := by
  unfold sameSide; by_cases h1 : 0 < X <;> by_cases h2 : 0 < C <;> simp [h1, h2]

theorem Bracketed.ne {f : K → K} {S : Set K} {s : Hunt K} (h : Bracketed f S s) : s.c ≠ s.x := by
  intro e
  have := h.side
  rw [h.hX, h.hC, e, sameSide_false] at this
  tauto

variable [IsStrictOrderedRing K]

theorem between_mem {S : Set K} (hS : S.OrdConnected) {x c t : K} (hx : x ∈ S) (hc : c ∈ S) (h0 : 0 ≤ t) (h1 : t ≤ 1) :
    x + t * (c - x) ∈ S := by
  rcases le_total x c with h | h
  · refine hS.out hx hc ⟨?_, ?_⟩
    · have := mul_nonneg h0 (sub_nonneg.2 h); linarith
    · have := mul_le_mul_of_nonneg_right h1 (sub_nonneg.2 h); linarith
  · refine hS.out hc hx ⟨?_, ?_⟩
    · have := mul_le_mul_of_nonneg_right h1 (sub_nonneg.2 h); linarith
    · have := mul_nonneg h0 (sub_nonneg.2 h); linarith

theorem half_mem {S : Set K} (hS : S.OrdConnected) {x c : K} (hx : x ∈ S) (hc : c ∈ S) : x + 1 / 2 * (c - x) ∈ S :=
  between_mem hS hx hc (by norm_num) (by norm_num)

/-- A step stays inside the bracket and is not 0. -/
theorem propose_spec (v : Env K) (s : Hunt K) (hne : s.c ≠ s.x) :
    (propose v s).1 ≠ 0 ∧ ∃ t, 0 ≤ t ∧ t ≤ 1 ∧ (propose v s).1 = t * (s.c - s.x) := by
  have hm : s.c - s.x ≠ 0 := sub_ne_zero.2 hne
  unfold propose
  dsimp only
  generalize fit v s = r
  split_ifs with h1 h2 h3
  all_goals first
    | exact ⟨mul_ne_zero (by norm_num) hm, 1 / 2, by norm_num, by norm_num, rfl⟩
    | skip
  · obtain ⟨hp, hq, hb, _⟩ := h2
    have ha := abs_nonneg (tol v s.x * -r.1.2)
    have hp' : 0 < r.1.1 := h1
    refine ⟨div_ne_zero hp hq, r.1.1 / ((s.c - s.x) * -r.1.2), ?_, ?_, by field_simp⟩
    · apply div_nonneg hp'.le; linarith
    · rw [div_le_one] <;> linarith
  · obtain ⟨hp, hq, hb, _⟩ := h3
    have ha := abs_nonneg (tol v s.x * r.1.2)
    have hp' : 0 < -r.1.1 := by
      rcases lt_trichotomy r.1.1 0 with h | h | h
      · linarith
      · simp [h] at hp
      · exact absurd h h1
    refine ⟨div_ne_zero hp hq, -r.1.1 / ((s.c - s.x) * r.1.2), ?_, ?_, by field_simp⟩
    · apply div_nonneg hp'.le; linarith
    · rw [div_le_one] <;> linarith

/-- One iteration keeps the bracket, and looks at the function only in `S`. -/
theorem move_spec {f : K → K} {v : Env K} {S : Set K} (hS : S.OrdConnected) {s : Hunt K} (h : Bracketed f S s) :
    Bracketed f S (other (move f v s)) ∧ ∀ g, Set.EqOn f g S → move g v s = move f v s := by
  obtain ⟨hd, t, h0, h1, ht⟩ := propose_spec v s h.ne
  have hm : s.c - s.x ≠ 0 := sub_ne_zero.2 h.ne
  have hxd : s.x + (propose v s).1 ∈ S := by rw [ht]; exact between_mem hS h.hx h.hc h0 h1
  have hxm := half_mem hS h.hx h.hc
  have key : ∀ (x' d' : K), x' ∈ S → d' ≠ 0 → ∀ u : Hunt K, u.x = x' → u.X = f x' → u.d = d' → u.c = s.c → u.C = s.C →
      u.y = s.x → u.Y = s.X → Bracketed f S (other u) := by
    intro x' d' hx' hd' u e1 e2 e3 e4 e5 e6 e7
    unfold other
    by_cases hs : sameSide u.X u.C = true
    · rw [if_pos hs]
      have hside : sameSide s.X u.X = false := by
        have h1 := h.side
        rw [sameSide_false] at h1 ⊢
        rw [sameSide_iff, e5] at hs
        rw [hs]; exact h1
      have hne : x' ≠ s.x := by
        intro e
        rw [h.hX, e2, e, sameSide_false] at hside
        tauto
      split_ifs
      · refine ⟨?_, ?_, ?_, ?_, ?_, ?_⟩
        · dsimp only; rw [e7, e6]; exact h.hX
        · dsimp only; rw [e1, e2]
        · dsimp only; rw [e6]; exact h.hx
        · dsimp only; rw [e1]; exact hx'
        · dsimp only; rw [e7]; exact hside
        · dsimp only; rw [e1, e6]; exact sub_ne_zero.2 hne
      · refine ⟨?_, ?_, ?_, ?_, ?_, ?_⟩
        · dsimp only; rw [e1, e2]
        · dsimp only; rw [e7, e6]; exact h.hX
        · dsimp only; rw [e1]; exact hx'
        · dsimp only; rw [e6]; exact h.hx
        · dsimp only; rw [e7]; rw [sameSide_false] at hside ⊢; tauto
        · dsimp only; rw [e1, e6]; exact sub_ne_zero.2 hne.symm
    · rw [if_neg hs]
      exact ⟨by rw [e1, e2], by rw [e5, e4]; exact h.hC, by rw [e1]; exact hx', by rw [e4]; exact h.hc,
        by simpa using hs, by rw [e3]; exact hd'⟩
  refine ⟨?_, fun g hg => ?_⟩
  · unfold move
    dsimp only
    split_ifs
    · exact key _ _ hxm (mul_ne_zero (by norm_num) hm) _ rfl rfl rfl rfl rfl rfl rfl
    · exact key _ _ hxd hd _ rfl rfl rfl rfl rfl rfl rfl
  · unfold move
    dsimp only
    rw [hg hxd, hg hxm]

/-- What the second loop returns. -/
def Found (f : K → K) (v : Env K) (S : Set K) : Out K → Prop
  | .root x => x ∈ S ∧ RootNear f v S x
  | .noConvergence => True
  | _ => False

theorem hunt_spec {f : K → K} {v : Env K} {S : Set K} (hS : S.OrdConnected) : ∀ (n : Nat) (s : Hunt K),
    Bracketed f S s → Found f v S (hunt f v n s) ∧ ∀ g, Set.EqOn f g S → hunt g v n s = hunt f v n s := by
  intro n
  induction n with
  | zero =>
    intro s h
    unfold hunt
    by_cases h0 : s.X = 0 ∨ s.d = 0
    · rw [if_pos h0]
      refine ⟨⟨h.hx, .inl ?_⟩, fun g hg => by rw [if_pos h0]⟩
      rw [← h.hX]; exact h0.resolve_right h.hd
    · rw [if_neg h0]
      exact ⟨trivial, fun g hg => by rw [if_neg h0]⟩
  | succ n ih =>
    intro s h
    unfold hunt
    by_cases h0 : s.X = 0 ∨ s.d = 0
    · rw [if_pos h0]
      refine ⟨⟨h.hx, .inl ?_⟩, fun g hg => by rw [if_pos h0]⟩
      rw [← h.hX]; exact h0.resolve_right h.hd
    · rw [if_neg h0]
      dsimp only
      by_cases h1 : |s.c - s.x| ≤ 2 * tol v s.x
      · rw [if_pos h1]
        refine ⟨⟨h.hx, .inr ⟨s.c, h.hc, ?_, ?_⟩⟩, fun g hg => by rw [if_neg h0, if_pos h1]⟩
        · unfold tol at h1; linarith
        · rw [← h.hX, ← h.hC, ← sameSide_false]; exact h.side
      · rw [if_neg h1]
        obtain ⟨hb, hg⟩ := move_spec (v := v) hS h
        have hs : ¬ sameSide (other (move f v s)).X (other (move f v s)).C = true := by
          rw [hb.side]; decide
        obtain ⟨i1, i2⟩ := ih _ hb
        rw [if_neg hs]
        exact ⟨i1, fun g hgf => by rw [if_neg h0, if_neg h1, hg g hgf, if_neg hs, i2 g hgf]⟩

/-! ## The first loop -/

/-- What the whole search returns. -/
def Searched (f : K → K) (v : Env K) (S : Set K) : Out K → Prop
  | .root x => x ∈ S ∧ RootNear f v S x
  | .noConvergence => True
  | .noBracket => True
  | .left => True
  | _ => False

theorem within_ordConnected (ll lr : Option K) : (Within ll lr).OrdConnected :=
  ⟨fun _ hx _ hy _ hz => ⟨fun l hl => (hx.1 l hl).trans hz.1, fun r hr => hz.2.trans (hy.2 r hr)⟩⟩

theorem not_left {x : K} {ll lr : Option K} (h : ¬ (below x ll || above x lr) = true) : x ∈ Within ll lr := by
  simp at h
  obtain ⟨h1, h2⟩ := h
  refine ⟨fun l hl => ?_, fun r hr => ?_⟩
  · rw [Option.mem_def] at hl; subst hl
    simp [below] at h1; exact h1
  · rw [Option.mem_def] at hr; subst hr
    simp [above] at h2; exact h2

/-- Two points on different sides start the second loop. -/
theorem bracketed_start {f : K → K} {S : Set K} {x y z Z : K} (hx : x ∈ S) (hy : y ∈ S)
    (h : sameSide (f y) (f x) = false) : Bracketed f S ⟨x, y, z, y, f x, f y, Z, f y, x - y, x - y, false⟩ where
  hX := rfl
  hC := rfl
  hx := hx
  hc := hy
  side := by rw [sameSide_false] at h ⊢; dsimp only; tauto
  hd := by
    dsimp only
    refine sub_ne_zero.2 fun e => ?_
    rw [e, sameSide_false] at h; tauto

theorem search_spec {f : K → K} {v : Env K} {ll lr : Option K} : ∀ (n : Nat) (x y z Z : K),
    x ∈ Within ll lr → y ∈ Within ll lr →
    Searched f v (Within ll lr) (search f v ll lr n x y z (f x) (f y) Z) ∧
      ∀ g, Set.EqOn f g (Within ll lr) → search g v ll lr n x y z (f x) (f y) Z = search f v ll lr n x y z (f x) (f y) Z := by
  intro n
  have fin : ∀ o : Out K, Found f v (Within ll lr) o → Searched f v (Within ll lr) o := by
    intro o h; cases o <;> first | exact h | exact trivial
  induction n with
  | zero =>
    intro x y z Z hx hy
    have body : ∀ x y : K, x ∈ Within ll lr → y ∈ Within ll lr →
        Searched f v (Within ll lr) (if !sameSide (f y) (f x) then
          hunt f v (90 + 0) ⟨x, y, z, y, f x, f y, Z, f y, x - y, x - y, false⟩ else .noBracket) ∧
        ∀ g, Set.EqOn f g (Within ll lr) → (if !sameSide (f y) (f x) then
          hunt g v (90 + 0) ⟨x, y, z, y, f x, f y, Z, f y, x - y, x - y, false⟩ else .noBracket) =
          (if !sameSide (f y) (f x) then
          hunt f v (90 + 0) ⟨x, y, z, y, f x, f y, Z, f y, x - y, x - y, false⟩ else .noBracket) := by
      intro x y hx hy
      by_cases hs : (!sameSide (f y) (f x)) = true
      · rw [if_pos hs]
        obtain ⟨a, b⟩ := hunt_spec (v := v) (within_ordConnected ll lr) (90 + 0) _
          (bracketed_start (z := z) (Z := Z) hx hy (by simpa using hs))
        exact ⟨fin _ a, fun g hg => by rw [if_pos hs]; exact b g hg⟩
      · rw [if_neg hs]
        exact ⟨trivial, fun g _ => by rw [if_neg hs]⟩
    unfold search
    by_cases hsw : |f y| < |f x|
    · simp only [if_pos hsw]; exact body y x hy hx
    · simp only [if_neg hsw]; exact body x y hx hy
  | succ n ih =>
    intro x y z Z hx hy
    have body : ∀ x y : K, x ∈ Within ll lr → y ∈ Within ll lr →
        Searched f v (Within ll lr) (if !sameSide (f y) (f x) then
          hunt f v (90 + (n + 1)) ⟨x, y, z, y, f x, f y, Z, f y, x - y, x - y, false⟩ else
          if below (further v x y (f x) (f y) ll lr) ll || above (further v x y (f x) (f y) ll lr) lr then .left
          else search f v ll lr n (further v x y (f x) (f y) ll lr) x y (f (further v x y (f x) (f y) ll lr)) (f x) (f y)) ∧
        ∀ g, Set.EqOn f g (Within ll lr) → (if !sameSide (f y) (f x) then
          hunt g v (90 + (n + 1)) ⟨x, y, z, y, f x, f y, Z, f y, x - y, x - y, false⟩ else
          if below (further v x y (f x) (f y) ll lr) ll || above (further v x y (f x) (f y) ll lr) lr then .left
          else search g v ll lr n (further v x y (f x) (f y) ll lr) x y (g (further v x y (f x) (f y) ll lr)) (f x) (f y)) =
          (if !sameSide (f y) (f x) then
          hunt f v (90 + (n + 1)) ⟨x, y, z, y, f x, f y, Z, f y, x - y, x - y, false⟩ else
          if below (further v x y (f x) (f y) ll lr) ll || above (further v x y (f x) (f y) ll lr) lr then .left
          else search f v ll lr n (further v x y (f x) (f y) ll lr) x y (f (further v x y (f x) (f y) ll lr)) (f x)
            (f y)) := by
      intro x y hx hy
      by_cases hs : (!sameSide (f y) (f x)) = true
      · rw [if_pos hs]
        obtain ⟨a, b⟩ := hunt_spec (v := v) (within_ordConnected ll lr) (90 + (n + 1)) _
          (bracketed_start (z := z) (Z := Z) hx hy (by simpa using hs))
        exact ⟨fin _ a, fun g hg => by rw [if_pos hs]; exact b g hg⟩
      · rw [if_neg hs]
        generalize further v x y (f x) (f y) ll lr = x'
        by_cases hl : (below x' ll || above x' lr) = true
        · rw [if_pos hl]
          exact ⟨trivial, fun g _ => by rw [if_neg hs, if_pos hl]⟩
        · rw [if_neg hl]
          have hx' := not_left hl
          obtain ⟨a, b⟩ := ih x' x y (f y) hx' hx
          exact ⟨a, fun g hg => by rw [if_neg hs, if_neg hl, ← hg hx']; exact b g hg⟩
    unfold search
    by_cases hsw : |f y| < |f x|
    · simp only [if_pos hsw]; exact body y x hy hx
    · simp only [if_neg hsw]; exact body x y hx hy

/-! ## Properties -/

/-- C58: a search that starts inside its limits returns only a point inside the limits that is a root or next to a change
of sign, and otherwise one of three exceptions; never "oops". -/
theorem C58_root (f : K → K) (v : Env K) {x y : K} {ll lr : Option K} (hx : x ∈ Within ll lr) (hy : y ∈ Within ll lr) :
    (∃ r, core f v x y ll lr = .root r ∧ r ∈ Within ll lr ∧ RootNear f v (Within ll lr) r) ∨ core f v x y ll lr = .noBracket ∨
      core f v x y ll lr = .left ∨ core f v x y ll lr = .noConvergence := by
  have h := (search_spec (f := f) (v := v) 10 x y y (f y) hx hy).1
  unfold core
  revert h
  cases search f v ll lr 10 x y y (f x) (f y) (f y) with
  | root r => exact fun h => .inl ⟨r, rfl, h⟩
  | noBracket => exact fun _ => .inr (.inl rfl)
  | left => exact fun _ => .inr (.inr (.inl rfl))
  | noConvergence => exact fun _ => .inr (.inr (.inr rfl))
  | oops => exact fun h => h.elim
  | invalid => exact fun h => h.elim
  | infinite => exact fun h => h.elim

/-- C58: a search that starts inside its limits looks at the function only inside the limits: changing it elsewhere changes
nothing. -/
theorem C58_limits {f g : K → K} (v : Env K) {x y : K} {ll lr : Option K} (hx : x ∈ Within ll lr)
    (hy : y ∈ Within ll lr) (hg : ∀ t ∈ Within ll lr, f t = g t) : core g v x y ll lr = core f v x y ll lr := by
  have h := (search_spec (f := f) (v := v) 10 x y y (f y) hx hy).2 g hg
  unfold core
  rw [← hg x hx, ← hg y hy]; exact h

/-- C58: between two points on different sides, a root or change of sign between them is returned unless 100 iterations
are used up, whatever the limits are, and the function is looked at only between the points. -/
theorem C58_bracket (f : K → K) (v : Env K) {x y : K} (ll lr : Option K) (hs : 0 < f x ↔ ¬ 0 < f y) :
    ((∃ r, core f v x y ll lr = .root r ∧ r ∈ Set.uIcc x y ∧ RootNear f v (Set.uIcc x y) r) ∨ core f v x y ll lr = .noConvergence) ∧
      ∀ g, (∀ t ∈ Set.uIcc x y, f t = g t) → core g v x y ll lr = core f v x y ll lr := by
  have body : ∀ x' y' : K, x' ∈ Set.uIcc x y → y' ∈ Set.uIcc x y → (0 < f x' ↔ ¬ 0 < f y') →
      ((∃ r, hunt f v (90 + 10) ⟨x', y', y, y', f x', f y', f y, f y', x' - y', x' - y', false⟩ = .root r ∧
        r ∈ Set.uIcc x y ∧ RootNear f v (Set.uIcc x y) r) ∨
        hunt f v (90 + 10) ⟨x', y', y, y', f x', f y', f y, f y', x' - y', x' - y', false⟩ = .noConvergence) ∧
      ∀ g, Set.EqOn f g (Set.uIcc x y) →
        hunt g v (90 + 10) ⟨x', y', y, y', f x', f y', f y, f y', x' - y', x' - y', false⟩ =
        hunt f v (90 + 10) ⟨x', y', y, y', f x', f y', f y, f y', x' - y', x' - y', false⟩ := by
    intro x' y' hx' hy' hs'
    obtain ⟨a, b⟩ := hunt_spec (v := v) (Set.ordConnected_uIcc (a := x) (b := y)) (90 + 10) _
      (bracketed_start (f := f) (z := y) (Z := f y) hx' hy' (by rw [sameSide_false]; tauto))
    refine ⟨?_, b⟩
    revert a
    cases hunt f v (90 + 10) ⟨x', y', y, y', f x', f y', f y, f y', x' - y', x' - y', false⟩ with
    | root r => exact fun h => .inl ⟨r, rfl, h⟩
    | noConvergence => exact fun _ => .inr rfl
    | noBracket => exact fun h => h.elim
    | left => exact fun h => h.elim
    | oops => exact fun h => h.elim
    | invalid => exact fun h => h.elim
    | infinite => exact fun h => h.elim
  have e1 : (!sameSide (f y) (f x)) = true := by
    have : sameSide (f y) (f x) = false := by rw [sameSide_false]; tauto
    rw [this]; rfl
  have e2 : (!sameSide (f x) (f y)) = true := by
    have : sameSide (f x) (f y) = false := by rw [sameSide_false]; tauto
    rw [this]; rfl
  have red : ∀ g : K → K, g x = f x → g y = f y → core g v x y ll lr = if |f y| < |f x| then
      hunt g v (90 + 10) ⟨y, x, y, x, f y, f x, f y, f x, y - x, y - x, false⟩ else
      hunt g v (90 + 10) ⟨x, y, y, y, f x, f y, f y, f y, x - y, x - y, false⟩ := by
    intro g hx hy
    unfold core
    unfold search
    rw [hx, hy]
    by_cases h : |f y| < |f x|
    · simp only [if_pos h, if_pos e2]
    · simp only [if_neg h, if_pos e1]
  rw [red f rfl rfl]
  split_ifs with h
  · obtain ⟨a, b⟩ := body y x Set.right_mem_uIcc Set.left_mem_uIcc (by tauto)
    exact ⟨a, fun g hg => by
      rw [red g (hg x Set.left_mem_uIcc).symm (hg y Set.right_mem_uIcc).symm, if_pos h]; exact b g hg⟩
  · obtain ⟨a, b⟩ := body x y Set.left_mem_uIcc Set.right_mem_uIcc hs
    exact ⟨a, fun g hg => by
      rw [red g (hg x Set.left_mem_uIcc).symm (hg y Set.right_mem_uIcc).symm, if_neg h]; exact b g hg⟩

/-- What is assumed of `std::nextafter`: it moves towards the second number, and not past it. -/
def NextOk (v : Env K) : Prop := ∀ a b : K, (a < b → a < v.next a b ∧ v.next a b ≤ b) ∧ (b < a → b ≤ v.next a b ∧ v.next a b < a)

/-- C58: with a start strictly between two limits, given as value, limit, limit or as limit, value, limit, the search looks
at the function only strictly between the limits, and returns only a point strictly between them.
Partial: for other starts see `C58_start_outside_wrong` and `C58_step_outside_wrong`. -/
theorem C58_fzero_partial (f : K → K) (v : Env K) (hv : NextOk v) {b l r : K} (hl : l < b) (hr : b < r) :
    ∀ o, (o = fzero f v (some b) (some l) (some r) ∨ o = fzero f v (some l) (some b) (some r)) →
      ((∃ x, o = .root x ∧ l < x ∧ x < r ∧ RootNear f v (Set.Ioo l r) x) ∨ o = .noBracket ∨ o = .left ∨ o = .noConvergence ∨
        o = .invalid) ∧
      ∀ g : K → K, (∀ t, l < t → t < r → f t = g t) →
        (o = fzero g v (some b) (some l) (some r) ∧ o = fzero g v (some l) (some b) (some r)) := by
  obtain ⟨hl1, hl2⟩ := (hv l b).1 hl
  obtain ⟨hr1, hr2⟩ := (hv r b).2 hr
  have same : ∀ g : K → K, fzero g v (some l) (some b) (some r) = fzero g v (some b) (some l) (some r) := by
    intro g
    unfold fzero arrange
    simp only [gt_iff_lt, if_pos hl, if_neg (not_lt.2 hl.le)]
  have red : ∀ g : K → K, fzero g v (some b) (some l) (some r) = if v.next r b ≤ v.next l b then .invalid else
      if b = v.next r b then core g v b (v.next l b) (some (v.next l b)) (some (v.next r b))
      else core g v b (v.next r b) (some (v.next l b)) (some (v.next r b)) := by
    intro g
    unfold fzero arrange
    simp only [gt_iff_lt, if_neg (not_lt.2 hl.le), tighten]
    rw [if_pos ⟨hl, hr⟩]
    unfold start
    simp only [Option.getD_some, decide_eq_true_eq]
  have mem : ∀ {t : K}, t ∈ Within (some (v.next l b)) (some (v.next r b)) ↔ v.next l b ≤ t ∧ t ≤ v.next r b := by
    intro t; simp [Within]
  have hb : b ∈ Within (some (v.next l b)) (some (v.next r b)) := mem.2 ⟨hl2, hr1⟩
  have h1 : v.next l b ∈ Within (some (v.next l b)) (some (v.next r b)) := mem.2 ⟨le_refl _, hl2.trans hr1⟩
  have h2 : v.next r b ∈ Within (some (v.next l b)) (some (v.next r b)) := mem.2 ⟨hl2.trans hr1, le_refl _⟩
  have one : ∀ y, y ∈ Within (some (v.next l b)) (some (v.next r b)) → ∀ o,
      o = core f v b y (some (v.next l b)) (some (v.next r b)) →
      ((∃ x, o = .root x ∧ l < x ∧ x < r ∧ RootNear f v (Set.Ioo l r) x) ∨ o = .noBracket ∨ o = .left ∨ o = .noConvergence ∨
        o = .invalid) ∧
      ∀ g : K → K, (∀ t, l < t → t < r → f t = g t) → o = core g v b y (some (v.next l b)) (some (v.next r b)) := by
    rintro y hy o rfl
    refine ⟨?_, fun g hg => (C58_limits v hb hy fun t ht => ?_).symm⟩
    · rcases C58_root f v hb hy with ⟨x, e, hx, hn⟩ | e | e | e
      · rw [mem] at hx
        exact .inl ⟨x, e, lt_of_lt_of_le hl1 hx.1, lt_of_le_of_lt hx.2 hr2, hn.imp id fun ⟨c, hc, h⟩ =>
          ⟨c, ⟨lt_of_lt_of_le hl1 (mem.1 hc).1, lt_of_le_of_lt (mem.1 hc).2 hr2⟩, h⟩⟩
      · exact .inr (.inl e)
      · exact .inr (.inr (.inl e))
      · exact .inr (.inr (.inr (.inl e)))
    · rw [mem] at ht
      exact hg t (lt_of_lt_of_le hl1 ht.1) (lt_of_le_of_lt ht.2 hr2)
  have main : ∀ o, o = fzero f v (some b) (some l) (some r) →
      ((∃ x, o = .root x ∧ l < x ∧ x < r ∧ RootNear f v (Set.Ioo l r) x) ∨ o = .noBracket ∨ o = .left ∨ o = .noConvergence ∨
        o = .invalid) ∧
      ∀ g : K → K, (∀ t, l < t → t < r → f t = g t) → o = fzero g v (some b) (some l) (some r) := by
    intro o ho
    simp only [red] at ho ⊢
    split_ifs at ho ⊢ with h3 h4
    · exact ⟨.inr (.inr (.inr (.inr ho))), fun _ _ => ho⟩
    · exact one _ h1 o ho
    · exact one _ h2 o ho
  intro o ho
  have ho' : o = fzero f v (some b) (some l) (some r) := by
    rcases ho with ho | ho
    · exact ho
    · rw [ho, same]
  obtain ⟨a, b⟩ := main o ho'
  exact ⟨a, fun g hg => ⟨b g hg, by rw [same]; exact b g hg⟩⟩

/-- Exact arithmetic with a fixed small `eps`, for examples. -/
def exEnv : Env ℚ where
  eps _ := 1 / 1000000000000
  sqrt x := x
  next a b := a + (b - a) / 1000000000000

/-- C58 does not hold: a start beyond the upper limit is not rejected.  The search for a root of `t - 3` between 0 and 1
from 5 returns 3. -/
theorem C58_start_outside_wrong : fzero (fun t : ℚ => t - 3) exEnv (some 5) (some 0) (some 1) = .root 3 := by
  decide +kernel

/-- C58 does not hold: with only a lower limit below -1, the second point is below the limit.  The search for a root of
`t + 41/2` above -20 returns a root below it. -/
theorem C58_step_outside_wrong : fzero (fun t : ℚ => t + 41 / 2) exEnv none (some (-20)) none = .root (-41 / 2) := by
  decide +kernel

/-- C58 does not hold: the second point is below the lower limit whenever there is no upper limit and the start is the
lower limit, -1 or less. -/
theorem C58_second_point_wrong (f : K → K) (v : Env K) {l : K} (hl : l ≤ -1) :
    ∃ y, y < l ∧ fzero f v none (some l) none = core f v l y (some l) none := by
  refine ⟨l + l / 20, by linarith, ?_⟩
  have : ¬ |l| < 1 := by rw [abs_of_nonpos (by linarith)]; linarith
  unfold fzero arrange tighten start
  simp [this]

/-! ## Examples -/

/-- The hypotheses of `C58_root`, `C58_limits` and `C58_bracket`. -/
example : (0 : ℚ) ∈ Within (some (-1)) none ∧ (2 : ℚ) ∈ Within (some (-1)) none ∧
    ((0 : ℚ) < (fun t : ℚ => t * t - 2) 0 ↔ ¬ 0 < (fun t : ℚ => t * t - 2) 2) := by
  refine ⟨by simp [Within], by simp [Within]; norm_num, by norm_num⟩
/-- The hypotheses of `C58_fzero_partial`. -/
example : NextOk exEnv := by
  intro a b
  constructor
  · intro h; constructor <;> simp only [exEnv] <;> linarith
  · intro h; constructor <;> simp only [exEnv] <;> linarith
/-- A root found from a start between limits, where the first loop has to look for a bracket. -/
example : fzero (fun t : ℚ => 2 * t - 3) exEnv (some 0) (some (-10)) (some 10) = .root (3 / 2) := by decide +kernel

end OP.Num
