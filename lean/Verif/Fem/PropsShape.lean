import Verif.Fem.Shape
import Mathlib.Algebra.Order.Ring.Rat
import Mathlib.Analysis.Calculus.Deriv.Add
import Mathlib.Analysis.Calculus.Deriv.Mul
import Mathlib.Analysis.Calculus.Deriv.Inv
import Mathlib.Analysis.Calculus.Deriv.Pow
import Mathlib.Tactic.Linarith
import Mathlib.Tactic.FieldSimp
import Mathlib.Tactic.NormNum
import Mathlib.Tactic.Ring
import Mathlib.Tactic.IntervalCases
/-!
# C60: one-dimensional shape functions
-/
namespace OP.Fem

/-! ## Specification -/

/-- The local coordinates of the nodes. -/
def nodes {K : Type} [Field K] : Shape → List K
  | .linear => [-1, 1]
  | .absolute => [-1, 0, 1]
  | .quadratic => [-1, 0, 1]
  | .cubic => [-1, -1 / 3, 1 / 3, 1]
  | .infPos => [-1, 0]
  | .infNeg => [0, 1]

/-- Where the functions are used: not at the infinite end. -/
def Finite {K : Type} [Field K] : Shape → K → Prop
  | .infPos, r => r ≠ 1
  | .infNeg, r => r ≠ -1
  | _, _ => True

/-- Elements without an infinite end. -/
def Shape.bounded (s : Shape) : Prop := s ≠ .infPos ∧ s ≠ .infNeg

variable {K : Type} [Field K] [LinearOrder K] [IsStrictOrderedRing K]

/-! ## Properties -/

/-- C60: there is one function for each node, with the value 1 at its node and 0 at the others. -/
theorem C60_nodes (s : Shape) (map : Bool) :
    (nodes (K := K) s).length = getn s ∧
    ∀ m (r : K), (nodes s)[m]? = some r → ∀ n < getn s, getN s n r map = if n = m then 1 else 0 := by
  refine ⟨by cases s <;> rfl, fun m r hm n hn => ?_⟩
  have hm' : m < 4 := by
    obtain ⟨h, _⟩ := List.getElem?_eq_some_iff.1 hm
    revert h; cases s <;> simp [nodes] <;> omega
  cases s <;> cases map <;> simp only [getn] at hn <;> interval_cases m <;> simp [nodes] at hm <;> subst hm <;>
    interval_cases n <;> norm_num [getN, N2, N3, N4, NA, Mpi, Mni]

/-- C60: the functions add up to 1 and their derivatives to 0; for an infinite end, the mapping functions do. -/
theorem C60_sum (s : Shape) (map : Bool) (h : s.bounded ∨ map = true) {r : K} (hr : Finite s r) :
    ((List.range (getn s)).map fun n => getN s n r map).sum = 1 ∧
    ((List.range (getn s)).map fun n => getdN s n r map).sum = 0 := by
  cases s
  case linear => simp [getn, List.range_succ, getN, getdN, N2, dN2]; constructor <;> ring
  case quadratic => simp [getn, List.range_succ, getN, getdN, N3, dN3]; constructor <;> ring
  case cubic => simp [getn, List.range_succ, getN, getdN, N4, dN4]; constructor <;> ring
  case absolute =>
    simp only [getn, List.range_succ, List.range_zero, List.nil_append, List.cons_append, List.map_cons, List.map_nil,
      List.sum_cons, List.sum_nil, getN, getdN, NA, dNA]
    rcases lt_trichotomy r 0 with h | h | h
    · have h2 : ¬ r > 0 := not_lt.2 h.le
      simp only [if_pos h, if_neg h2, abs_of_neg h]; constructor <;> ring
    · subst h; norm_num
    · have h2 : ¬ r < 0 := not_lt.2 h.le
      simp only [if_pos h, if_neg h2, abs_of_pos h]; constructor <;> ring
  case infPos =>
    have hm : map = true := by rcases h with h | h; exact absurd rfl h.1; exact h
    subst hm
    have h1 : 1 - r ≠ 0 := sub_ne_zero.2 (Ne.symm hr)
    simp [getn, List.range_succ, getN, getdN, Mpi, dMpi]
    constructor
    · field_simp; ring
    · ring
  case infNeg =>
    have hm : map = true := by rcases h with h | h; exact absurd rfl h.2; exact h
    subst hm
    have h1 : 1 + r ≠ 0 := fun e => hr (by linarith)
    simp [getn, List.range_succ, getN, getdN, Mni, dMni]
    constructor
    · field_simp; ring
    · ring

/-- C60: without an infinite end the functions reproduce the coordinate; linear, quadratic and cubic functions reproduce
all its powers below the number of nodes. -/
theorem C60_reproduce (s : Shape) (map : Bool) (h : s.bounded) (r : K) (k : Nat)
    (hk : k < if s = .absolute then 2 else getn s) :
    ((List.range (getn s)).map fun n => getN s n r map * ((nodes s)[n]?.getD 0) ^ k).sum = r ^ k := by
  cases s
  case linear =>
    simp [getn] at hk
    interval_cases k <;> simp [getn, List.range_succ, getN, N2, nodes] <;> ring
  case quadratic =>
    simp [getn] at hk
    interval_cases k <;> simp [getn, List.range_succ, getN, N3, nodes] <;> ring
  case cubic =>
    simp [getn] at hk
    interval_cases k <;> simp [getn, List.range_succ, getN, N4, nodes] <;> ring
  case absolute =>
    simp at hk
    have key : ∀ a b c : K, (List.range (getn .absolute)).map (fun n => getN .absolute n r map * ([a, b, c][n]?.getD 0)) =
        [NA 0 r * a, NA 1 r * b, NA 2 r * c] := fun a b c => rfl
    interval_cases k
    · simpa using (C60_sum .absolute map (.inl h) (r := r) trivial).1
    · simp only [pow_one, nodes, key]
      simp only [List.sum_cons, List.sum_nil, NA]
      rcases lt_trichotomy r 0 with h | h | h
      · have h2 : ¬ r > 0 := not_lt.2 h.le
        simp only [if_pos h, if_neg h2]; ring
      · subst h; norm_num
      · have h2 : ¬ r < 0 := not_lt.2 h.le
        simp only [if_pos h, if_neg h2]; ring
  case infPos => exact absurd rfl h.1
  case infNeg => exact absurd rfl h.2

/-- C60: the mapping towards an infinite end is strictly increasing, meets the nodes, and reaches every point on that
side. -/
theorem C60_infinite {a b : K} (hab : a < b) :
    (∀ r r' : K, -1 ≤ r → r < r' → r' < 1 →
      a * getN .infPos 0 r true + b * getN .infPos 1 r true < a * getN .infPos 0 r' true + b * getN .infPos 1 r' true) ∧
    (∀ x, a ≤ x → ∃ r : K, -1 ≤ r ∧ r < 1 ∧ a * getN .infPos 0 r true + b * getN .infPos 1 r true = x) ∧
    (∀ r r' : K, -1 < r → r < r' → r' ≤ 1 →
      a * getN .infNeg 0 r true + b * getN .infNeg 1 r true < a * getN .infNeg 0 r' true + b * getN .infNeg 1 r' true) ∧
    (∀ x, x ≤ b → ∃ r : K, -1 < r ∧ r ≤ 1 ∧ a * getN .infNeg 0 r true + b * getN .infNeg 1 r true = x) := by
  have hp : ∀ r : K, r < 1 → a * getN .infPos 0 r true + b * getN .infPos 1 r true = a + (b - a) * (2 / (1 - r) - 1) := by
    intro r hr
    have : 1 - r ≠ 0 := by linarith
    simp [getN, Mpi]; field_simp; ring
  have hn : ∀ r : K, -1 < r → a * getN .infNeg 0 r true + b * getN .infNeg 1 r true = b - (b - a) * (2 / (1 + r) - 1) := by
    intro r hr
    have : 1 + r ≠ 0 := by linarith
    simp [getN, Mni]; field_simp; ring
  have hd : 0 < b - a := sub_pos.2 hab
  refine ⟨fun r r' h1 h2 h3 => ?_, fun x hx => ?_, fun r r' h1 h2 h3 => ?_, fun x hx => ?_⟩
  · rw [hp r (h2.trans h3), hp r' h3]
    have := div_lt_div_of_pos_left (a := (2 : K)) (c := 1 - r') (b := 1 - r) two_pos (by linarith) (by linarith)
    have := mul_lt_mul_of_pos_left (sub_lt_sub_right this 1) hd
    linarith
  · have hq : 0 < x - a + (b - a) := by linarith
    have hr : 1 - (1 - 2 * (b - a) / (x - a + (b - a))) = 2 * (b - a) / (x - a + (b - a)) := by ring
    have hpos : 0 < 2 * (b - a) / (x - a + (b - a)) := div_pos (by linarith) hq
    have hle : 2 * (b - a) / (x - a + (b - a)) ≤ 2 := (div_le_iff₀ hq).2 (by linarith)
    refine ⟨1 - 2 * (b - a) / (x - a + (b - a)), by linarith, by linarith, ?_⟩
    rw [hp _ (by linarith), hr]
    have := hd.ne'
    have := hq.ne'
    field_simp
    ring
  · rw [hn r h1, hn r' (h1.trans h2)]
    have := div_lt_div_of_pos_left (a := (2 : K)) (c := 1 + r) (b := 1 + r') two_pos (by linarith) (by linarith)
    have := mul_lt_mul_of_pos_left (sub_lt_sub_right this 1) hd
    linarith
  · have hq : 0 < b - x + (b - a) := by linarith
    have hr : 1 + (2 * (b - a) / (b - x + (b - a)) - 1) = 2 * (b - a) / (b - x + (b - a)) := by ring
    have hpos : 0 < 2 * (b - a) / (b - x + (b - a)) := div_pos (by linarith) hq
    have hle : 2 * (b - a) / (b - x + (b - a)) ≤ 2 := (div_le_iff₀ hq).2 (by linarith)
    refine ⟨2 * (b - a) / (b - x + (b - a)) - 1, by linarith, by linarith, ?_⟩
    rw [hn _ (by linarith), hr]
    have := hd.ne'
    have := hq.ne'
    field_simp
    ring

/-- C60: towards an infinite end the shape functions vanish; so their sum is not 1 but falls to 0. -/
theorem C60_infinite_shape :
    (∀ n < 2, getN .infPos n (1 : K) false = 0 ∧ getN .infNeg n (-1 : K) false = 0) ∧
    ∀ r : K, getN .infPos 0 r false + getN .infPos 1 r false = 1 - r * (r + 1) / 2 ∧
      getN .infNeg 0 r false + getN .infNeg 1 r false = 1 - r * (r - 1) / 2 := by
  refine ⟨fun n hn => ?_, fun r => ?_⟩
  · interval_cases n <;> norm_num [getN, N3]
  · simp [getN, N3]; constructor <;> ring

theorem hasDeriv_poly (a b c d r : ℝ) :
    HasDerivAt (fun t : ℝ => a + b * t + c * t ^ 2 + d * t ^ 3) (b + c * (2 * r) + d * (3 * r ^ 2)) r := by
  have h1 := (hasDerivAt_id r).const_mul b
  have h2 := (hasDerivAt_pow 2 r).const_mul c
  have h3 := (hasDerivAt_pow 3 r).const_mul d
  have h : HasDerivAt (fun t : ℝ => a + b * t + c * t ^ 2 + d * t ^ 3) _ r :=
    HasDerivAt.add (HasDerivAt.add (HasDerivAt.const_add a h1) h2) h3
  exact h.congr_deriv (by simp)

/-- C60: away from the kink of the absolute value function, the second table holds the derivatives of the first. -/
theorem C60_deriv (s : Shape) (map : Bool) (n : Nat) {r : ℝ} (hr : Finite s r) (h0 : s = .absolute → r ≠ 0) :
    HasDerivAt (fun t => getN s n t map) (getdN s n r map) r := by
  have hz : HasDerivAt (fun _ : ℝ => (0 : ℝ)) 0 r := hasDerivAt_const r 0
  have d2 : ∀ n, HasDerivAt (fun t : ℝ => N2 n t) (dN2 n r) r := by
    intro n
    match n with
    | 0 => convert hasDeriv_poly (1/2) (-1/2) 0 0 r using 1 <;> first | (funext t; simp only [N2]; ring) | (simp only [dN2]; ring)
    | 1 => convert hasDeriv_poly (1/2) (1/2) 0 0 r using 1 <;> first | (funext t; simp only [N2]; ring) | (simp only [dN2]; ring)
    | n + 2 => exact hz
  have d3 : ∀ n, HasDerivAt (fun t : ℝ => N3 n t) (dN3 n r) r := by
    intro n
    match n with
    | 0 => convert hasDeriv_poly 0 (-1/2) (1/2) 0 r using 1 <;> first | (funext t; simp only [N3]; ring) | (simp only [dN3]; ring)
    | 1 => convert hasDeriv_poly 1 0 (-1) 0 r using 1 <;> first | (funext t; simp only [N3]; ring) | (simp only [dN3]; ring)
    | 2 => convert hasDeriv_poly 0 (1/2) (1/2) 0 r using 1 <;> first | (funext t; simp only [N3]; ring) | (simp only [dN3]; ring)
    | n + 3 => exact hz
  have d4 : ∀ n, HasDerivAt (fun t : ℝ => N4 n t) (dN4 n r) r := by
    intro n
    match n with
    | 0 => convert hasDeriv_poly (-1/16) (1/16) (9/16) (-9/16) r using 1 <;> first | (funext t; simp only [N4]; ring) | (simp only [dN4]; ring)
    | 1 => convert hasDeriv_poly (9/16) (-27/16) (-9/16) (27/16) r using 1 <;> first | (funext t; simp only [N4]; ring) | (simp only [dN4]; ring)
    | 2 => convert hasDeriv_poly (9/16) (27/16) (-9/16) (-27/16) r using 1 <;> first | (funext t; simp only [N4]; ring) | (simp only [dN4]; ring)
    | 3 => convert hasDeriv_poly (-1/16) (-1/16) (9/16) (9/16) r using 1 <;> first | (funext t; simp only [N4]; ring) | (simp only [dN4]; ring)
    | n + 4 => exact hz
  cases s
  case linear => exact d2 n
  case quadratic => exact d3 n
  case cubic => exact d4 n
  case absolute =>
    have hr0 := h0 rfl
    have hid := hasDerivAt_id r
    have hev : ∀ {g : ℝ → ℝ} {d : ℝ}, HasDerivAt g d r → (∀ t, 0 < t * r → NA n t = g t) →
        HasDerivAt (fun t => NA n t) d r := by
      intro g d hg he
      refine hg.congr_of_eventuallyEq ?_
      have : ∀ᶠ t in nhds r, 0 < t * r :=
        (continuous_id.mul continuous_const).continuousAt.eventually (lt_mem_nhds (mul_self_pos.2 hr0))
      exact this.mono he
    show HasDerivAt (fun t => NA n t) (dNA n r) r
    rcases lt_or_gt_of_ne hr0 with h | h
    · have h2 : ¬ r > 0 := not_lt.2 h.le
      have ht : ∀ t, 0 < t * r → t < 0 := fun t ht => by
        by_contra hc; exact absurd ht (not_lt.2 (mul_nonpos_of_nonneg_of_nonpos (not_lt.1 hc) h.le))
      match n with
      | 0 => simp only [dNA, if_pos h]; exact hev hid.neg fun t h => by simp [NA, ht t h]
      | 1 => simp only [dNA, if_pos h]; exact hev (hid.const_add 1) fun t h => by simp [NA, abs_of_neg (ht t h)]
      | 2 => simp only [dNA, if_pos h]; exact hev hz fun t h => by simp [NA, (ht t h).le]
      | n + 3 => exact hz
    · have h2 : ¬ r < 0 := not_lt.2 h.le
      have ht : ∀ t, 0 < t * r → 0 < t := fun t ht => by
        by_contra hc; exact absurd ht (not_lt.2 (mul_nonpos_of_nonpos_of_nonneg (not_lt.1 hc) h.le))
      match n with
      | 0 => simp only [dNA, if_neg h2, if_pos h]; exact hev hz fun t h => by simp [NA, (ht t h).le]
      | 1 => simp only [dNA, if_neg h2, if_pos h]; exact hev (hid.const_sub 1) fun t h => by simp [NA, abs_of_pos (ht t h)]
      | 2 => simp only [dNA, if_neg h2, if_pos h]; exact hev hid fun t h => by simp [NA, ht t h]
      | n + 3 => exact hz
  case infPos =>
    cases map
    · exact d3 n
    · have h1 : 1 - r ≠ 0 := sub_ne_zero.2 (Ne.symm hr)
      have hi := (hasDerivAt_id r).const_sub 1
      show HasDerivAt (fun t => Mpi n t) (dMpi n r) r
      match n with
      | 0 =>
        refine HasDerivAt.congr_deriv (((hasDerivAt_id r).const_mul (-2)).div hi h1) ?_
        simp only [dMpi, id]; field_simp; ring
      | 1 =>
        refine HasDerivAt.congr_deriv (((hasDerivAt_id r).const_add 1).div hi h1) ?_
        simp only [dMpi, id]; field_simp; ring
      | n + 2 => exact hz
  case infNeg =>
    cases map
    · exact d3 (n + 1)
    · have h1 : 1 + r ≠ 0 := fun e => hr (by linarith)
      have hi := (hasDerivAt_id r).const_add 1
      show HasDerivAt (fun t => Mni n t) (dMni n r) r
      match n with
      | 0 =>
        refine HasDerivAt.congr_deriv (((hasDerivAt_id r).const_sub 1).div hi h1) ?_
        simp only [dMni, id]; field_simp; ring
      | 1 =>
        refine HasDerivAt.congr_deriv (((hasDerivAt_id r).const_mul 2).div hi h1) ?_
        simp only [dMni, id]; field_simp; ring
      | n + 2 => exact hz

/-- C60: at the kink the table holds the mean of the derivatives on both sides. -/
theorem C60_kink (n : Nat) : ∃ l u : ℝ, HasDerivWithinAt (fun t => getN .absolute n t true) l (Set.Iic 0) 0 ∧
    HasDerivWithinAt (fun t => getN .absolute n t true) u (Set.Ici 0) 0 ∧ getdN .absolute n (0 : ℝ) true = (l + u) / 2 := by
  have hid := hasDerivAt_id (0 : ℝ)
  have hz : HasDerivAt (fun _ : ℝ => (0 : ℝ)) 0 0 := hasDerivAt_const 0 0
  have hl : ∀ {g : ℝ → ℝ} {d : ℝ}, HasDerivAt g d 0 → (∀ t ≤ 0, NA n t = g t) →
      HasDerivWithinAt (fun t => NA n t) d (Set.Iic 0) 0 := fun hg he =>
    hg.hasDerivWithinAt.congr (fun t ht => he t ht) (he 0 le_rfl)
  have hu : ∀ {g : ℝ → ℝ} {d : ℝ}, HasDerivAt g d 0 → (∀ t ≥ 0, NA n t = g t) →
      HasDerivWithinAt (fun t => NA n t) d (Set.Ici 0) 0 := fun hg he =>
    hg.hasDerivWithinAt.congr (fun t ht => he t ht) (he 0 le_rfl)
  match n with
  | 0 =>
    refine ⟨-1, 0, hl hid.neg fun t ht => ?_, hu hz fun t ht => ?_, by norm_num [getdN, dNA]⟩
    · rcases ht.lt_or_eq with h | h
      · simp [NA, h]
      · simp [NA, h]
    · simp [NA, ht]
  | 1 =>
    refine ⟨1, -1, hl (hid.const_add 1) fun t ht => ?_, hu (hid.const_sub 1) fun t ht => ?_, by norm_num [getdN, dNA]⟩
    · simp [NA, abs_of_nonpos ht]
    · simp [NA, abs_of_nonneg ht]
  | 2 =>
    refine ⟨0, 1, hl hz fun t ht => ?_, hu hid fun t ht => ?_, by norm_num [getdN, dNA]⟩
    · simp [NA, ht]
    · rcases ht.lt_or_eq with h | h
      · simp [NA, h]
      · simp [NA, ← h]
  | n + 3 => exact ⟨0, 0, hz.hasDerivWithinAt, hz.hasDerivWithinAt, by simp [getdN, dNA]⟩

/-! ## Examples -/

/-- A point between the nodes of a cubic element. -/
example : (List.range (getn .cubic)).map (fun n => getN .cubic n (1 / 2 : ℚ) true) = [5 / 128, -27 / 128, 135 / 128, 15 / 128] := by
  decide +kernel

example : Finite .infPos (1 / 2 : ℚ) := by norm_num [Finite]

end OP.Fem
