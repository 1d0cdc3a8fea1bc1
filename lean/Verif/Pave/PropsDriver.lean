import Verif.Pave.Driver
import Mathlib.Analysis.InnerProductSpace.PiL2
import Verif.Pave.PropsKalman
import Verif.Pave.PropsSimplex
import Verif.Pave.PropsDeflGrad
import Mathlib.Tactic.Linarith
/-!
# C101: the driver of the back-calculation
-/
namespace OP.Pave.Back

open Finset

variable {S : Type}

/-- The steps keep the logarithms between one and nine. -/
structure Env.Bounded (e : Env S) : Prop where
  dg : ∀ P Q i, i < e.nl → 1 ≤ (e.dg P Q).1 i ∧ (e.dg P Q).1 i ≤ 9
  dsm : ∀ P P', e.dsm P = some P' → ∀ i < e.nl, 1 ≤ P' i ∧ P' i ≤ 9
  seed : ∀ i < e.nl, 1 ≤ e.seed i ∧ e.seed i ≤ 9

/-- The moduli at the start are all positive, and the test step is shorter than the tolerance. -/
def Env.Settled (e : Env S) (E : Nat → ℝ) : Prop :=
  (∀ i < e.nl, 0 < E i) ∧
    (e.bowl fun i => Real.logb 10 (E i)).step 1 (e.inv ((e.bowl fun i => Real.logb 10 (E i)).S 1)) < e.tol

/-- The logarithms are where a step of at most the tolerance ends. -/
def Env.Arrived (e : Env S) (P : Nat → ℝ) : Prop :=
  (∃ P0 Q, P = (e.dg P0 Q).1 ∧ (e.dg P0 Q).2.2 ≤ e.tol) ∨
  ∃ P0 k, P = (e.bowl P0).kalman (kwt k) (e.inv ((e.bowl P0).S (kwt k))) P0 ∧
    (e.bowl P0).step (kwt k) (e.inv ((e.bowl P0).S (kwt k))) ≤ e.tol

theorem settled_iff (e : Env S) (E : Nat → ℝ) : e.Settled E ↔
    ((∀ i < e.nl, ¬E i ≤ 0) ∧ (e.bowl fun i => Real.logb 10 (E i)).step 1 (e.inv ((e.bowl fun i => Real.logb 10 (E i)).S 1)) < e.tol) := by
  simp only [Env.Settled, not_le]

theorem backcalc_settled (e : Env S) (E : Nat → ℝ) (h : e.Settled E) : backcalc e E = some (True, E) := by
  obtain ⟨h1, h2⟩ := (settled_iff e E).1 h
  simp only [backcalc, if_pos h1]
  rw [if_pos ⟨h1, h2⟩]

theorem finish_cases (bowl : (Nat → ℝ) → Bowl) (inv : (Nat → Nat → ℝ) → Nat → Nat → ℝ) (wt : Nat → ℝ) (tol : ℝ) :
    ∀ (n k : Nat) (step : ℝ) (P : Nat → ℝ), ∃ P', (finish bowl inv wt tol n k step P).2 = (fun i => 10 ^ P' i) ∧
      ((P' = P ∧ n = 0 ∧ ((finish bowl inv wt tol n k step P).1 ↔ step ≤ tol)) ∨
      ∃ P0 j, P' = (bowl P0).kalman (wt j) (inv ((bowl P0).S (wt j))) P0 ∧
        ((finish bowl inv wt tol n k step P).1 ↔ (bowl P0).step (wt j) (inv ((bowl P0).S (wt j))) ≤ tol))
  | 0, k, step, P => ⟨P, rfl, Or.inl ⟨rfl, rfl, Iff.rfl⟩⟩
  | n + 1, k, step, P => by
    simp only [finish]
    by_cases h : (bowl P).step (wt k) (inv ((bowl P).S (wt k))) < tol
    · rw [if_pos h]
      exact ⟨_, rfl, Or.inr ⟨P, k, rfl, Iff.rfl⟩⟩
    · rw [if_neg h]
      obtain ⟨P', h1, h2⟩ := finish_cases bowl inv wt tol n (k + 1) ((bowl P).step (wt k) (inv ((bowl P).S (wt k))))
        ((bowl P).kalman (wt k) (inv ((bowl P).S (wt k))) P)
      refine ⟨P', h1, ?_⟩
      rcases h2 with ⟨a, b, c⟩ | h2
      · exact Or.inr ⟨P, k, a, c⟩
      · exact Or.inr h2

theorem grads_bounded (e : Env S) (hb : e.Bounded) (O : Nat → ℝ) : ∀ (m : Nat) (P : Nat → ℝ) (Q : S) (s t : ℝ),
    (∀ i < e.nl, 1 ≤ P i ∧ P i ≤ 9) → ∀ i < e.nl, 1 ≤ (grads e O m P Q s t).1 i ∧ (grads e O m P Q s t).1 i ≤ 9
  | 0, _, _, _, _, h => h
  | m + 1, P, Q, s, t, h => by
    simp only [grads]
    by_cases h1 : s < 0.1 ∧ s < (e.dg P Q).2.2 ∧ e.tol ≤ (e.dg P Q).2.2
    · rw [if_pos h1]; exact h
    · rw [if_neg h1]
      split_ifs
      · exact hb.dg P Q
      · exact grads_bounded e hb O m _ _ _ _ (hb.dg P Q)

/-- What the first loop ends with: the length is that of a step made; the logarithms are where it ended, unless it is dropped. -/
theorem grads_last (e : Env S) (O : Nat → ℝ) : ∀ (m : Nat) (P : Nat → ℝ) (Q : S) (s t : ℝ), 0 < m →
    ∃ P0 Q0, (grads e O m P Q s t).2.1 = (e.dg P0 Q0).2.2 ∧
      ((grads e O m P Q s t).1 = (e.dg P0 Q0).1 ∨ (grads e O m P Q s t).1 = P0 ∧ e.tol ≤ (e.dg P0 Q0).2.2)
  | 0, _, _, _, _, h => absurd h (lt_irrefl 0)
  | m + 1, P, Q, s, t, _ => by
    simp only [grads]
    by_cases h1 : s < 0.1 ∧ s < (e.dg P Q).2.2 ∧ e.tol ≤ (e.dg P Q).2.2
    · rw [if_pos h1]; exact ⟨P, Q, rfl, Or.inr ⟨rfl, h1.2.2⟩⟩
    · rw [if_neg h1]
      split_ifs
      · exact ⟨P, Q, rfl, Or.inl rfl⟩
      · rcases Nat.eq_zero_or_pos m with rfl | hm
        · exact ⟨P, Q, rfl, Or.inl rfl⟩
        · exact grads_last e O m _ _ _ _ hm

/-! ## C101 -/

/-- **C101**, start: moduli that the test step changes by less than the tolerance are kept as they are, and success is reported. -/
theorem C101_settled (e : Env S) (E : Nat → ℝ) (h : e.Settled E) : backcalc e E = some (True, E) := backcalc_settled e E h

/-- **C101**, bounds: all other moduli that are returned are between `10` and `10^9`, whether success is reported or not. -/
theorem C101_bounds (e : Env S) (hb : e.Bounded) (E : Nat → ℝ) (h : ¬e.Settled E) (ok : Prop) (E' : Nat → ℝ)
    (hr : backcalc e E = some (ok, E')) : ∀ i < e.nl, 10 ≤ E' i ∧ E' i ≤ 10 ^ 9 := by
  have key : ∀ P : Nat → ℝ, ∀ i, 1 ≤ P i ∧ P i ≤ 9 → (10 : ℝ) ≤ 10 ^ P i ∧ (10 : ℝ) ^ P i ≤ 10 ^ 9 := fun P i hP => by
    constructor
    · conv_lhs => rw [← Real.rpow_one (10 : ℝ)]
      exact Real.rpow_le_rpow_of_exponent_le (by norm_num) hP.1
    · rw [show (10 : ℝ) ^ 9 = (10 : ℝ) ^ (9 : ℝ) by norm_num]
      exact Real.rpow_le_rpow_of_exponent_le (by norm_num) hP.2
  intro i hi
  simp only [backcalc] at hr
  rw [if_neg (fun hc => h ((settled_iff e E).2 ⟨hc.1, by rw [if_pos hc.1] at hc; exact hc.2⟩))] at hr
  obtain ⟨P, hP, hf⟩ := Option.map_eq_some_iff.1 hr
  set step := if ∀ i < e.nl, ¬E i ≤ 0 then (e.bowl fun i => Real.logb 10 (E i)).step 1 (e.inv ((e.bowl fun i => Real.logb 10 (E i)).S 1)) else 1
    with hstep
  have hPb : ∀ i < e.nl, 1 ≤ P i ∧ P i ≤ 9 := by
    split_ifs at hP
    all_goals first
      | exact hb.dsm _ _ hP
      | (cases hP
         refine grads_bounded e hb _ _ _ _ _ _ ?_
         first
          | exact hb.seed
          | exact fun j _ => C70_bounds _ _ _ _ j)
  obtain ⟨P', h1, h2⟩ := finish_cases e.bowl e.inv kwt e.tol _ 0 _ P
  rw [hf] at h1
  have h1 : E' = fun i => 10 ^ P' i := h1
  rw [h1]
  refine key P' i ?_
  rcases h2 with ⟨h2, -⟩ | ⟨P0, j, h2, -⟩
  · rw [h2]; exact hPb i hi
  · rw [h2]; exact C70_bounds _ _ _ _ _

/-- **C101**, success: unless the moduli of the start are kept, success means that the moduli are where a step ended that was at most as
long as the tolerance, or that a last gradient step of exactly the tolerance was dropped. -/
theorem C101_success (e : Env S) (htol : e.tol < 0.1) (hm : 0 < e.maxsteps * e.nl) (E : Nat → ℝ) (h : ¬e.Settled E) (ok : Prop) (E' : Nat → ℝ)
    (hr : backcalc e E = some (ok, E')) (hok : ok) :
    ∃ P, E' = (fun i => 10 ^ P i) ∧ (e.Arrived P ∨ ∃ Q, (e.dg P Q).2.2 = e.tol) := by
  simp only [backcalc] at hr
  rw [if_neg (fun hc => h ((settled_iff e E).2 ⟨hc.1, by rw [if_pos hc.1] at hc; exact hc.2⟩))] at hr
  obtain ⟨P, hP, hf⟩ := Option.map_eq_some_iff.1 hr
  generalize hg : grads e _ _ _ _ _ _ = g at hP hf
  have hl : ∃ P0 Q0, g.2.1 = (e.dg P0 Q0).2.2 ∧ (g.1 = (e.dg P0 Q0).1 ∨ g.1 = P0 ∧ e.tol ≤ (e.dg P0 Q0).2.2) := by
    rw [← hg]; exact grads_last e _ _ _ _ _ _ hm
  obtain ⟨P', h1, h2⟩ := finish_cases e.bowl e.inv kwt e.tol g.2.2 0 g.2.1 P
  rw [hf] at h1 h2
  refine ⟨P', h1, ?_⟩
  rcases h2 with ⟨h2, h0, h3⟩ | ⟨P0, j, h2, h3⟩
  · have h3 := h3.1 hok
    rw [if_neg (by linarith)] at hP
    cases hP
    obtain ⟨P0, Q0, q1, q2⟩ := hl
    rcases q2 with q2 | ⟨q2, q3⟩
    · exact Or.inl (Or.inl ⟨P0, Q0, h2.trans q2, q1 ▸ h3⟩)
    · exact Or.inr ⟨Q0, by rw [h2, q2]; exact le_antisymm (q1 ▸ h3) q3⟩
  · exact Or.inl (Or.inr ⟨P0, j, h2, h3.1 hok⟩)

/-- **C101** fails (exact fit): if the test step leads to moduli that give the measured deflections exactly, and the gradient step stays
there, they are lost: success is reported with all moduli equal to `10`.  (The last step divides zero by zero, see C70.) -/
theorem C101_lost (e : Env S) (htol : 0 < e.tol) (hm : 2 ≤ e.maxsteps * e.nl) (E P : Nat → ℝ) (hE : ∀ i < e.nl, 0 < E i)
    (b : Bowl) (hb : b = e.bowl fun i => Real.logb 10 (E i)) (hs1 : e.tol ≤ b.step 1 (e.inv (b.S 1))) (hs2 : b.step 1 (e.inv (b.S 1)) ≤ 0.5)
    (hP : P = b.kalman 1 (e.inv (b.S 1)) fun i => Real.logb 10 (E i))
    (hfit : ∀ j < (e.bowl P).dl, (e.bowl P).measured j = (e.bowl P).defl ((e.bowl P).lg j) j)
    (hstay : (e.dg P e.Q0).1 = P ∧ (e.dg P e.Q0).2.2 = 0) :
    ∃ ok E', backcalc e E = some (ok, E') ∧ ok ∧ ∀ i, E' i = 10 := by
  have hse : ∀ i < e.nl, ¬E i ≤ 0 := fun i hi => not_le.2 (hE i hi)
  obtain ⟨m, hm'⟩ : ∃ m, e.maxsteps * e.nl = m + 1 + 1 := ⟨e.maxsteps * e.nl - 2, by omega⟩
  have hr := C70_exact_fit_result e.bowl e.inv kwt e.tol htol m 0 0 P hfit
  refine ⟨_, _, ?_, hr⟩
  simp only [backcalc, if_pos hse]
  have hc : ¬((¬∀ i < e.nl, ¬E i ≤ 0) ∨ 0.5 < b.step 1 (e.inv (b.S 1))) := fun h => h.elim (fun h => h hse) fun h => absurd h (not_lt.2 hs2)
  rw [← hb, if_neg (fun h => absurd h.2 (not_lt.2 hs1))]
  simp only [if_neg hc]
  rw [hm', grads]
  dsimp only
  rw [← hP, hstay.1, hstay.2, if_neg (fun h => absurd (h.2.1.trans_le le_rfl) (not_lt.2 (htol.le.trans hs1))),
    if_pos (Or.inl (by linarith)), if_neg (show ¬(0.1 : ℝ) ≤ 0 by norm_num)]
  rfl

/-- **C101**, the steps of the code keep the logarithms between one and nine. -/
theorem C101_code_bounded (nl dl maxsteps : Nat) (tol precision : ℝ) (measured : Nat → ℝ) (bowl : (Nat → ℝ) → Bowl)
    (inv : (Nat → Nat → ℝ) → Nat → Nat → ℝ) (x : Extra) : (Env.real nl dl maxsteps tol precision measured bowl inv x).Bounded := by
  refine ⟨fun P Q i hi => ?_, fun P P' h i hi => ?_, fun i hi => ?_⟩
  · obtain ⟨h1, h2, -⟩ := Grad.C96_bounds Real.sqrt
      ⟨nl, dl, x.pg P Q, fun j => (bowl P).defl ((bowl P).lg j) j, measured, precision⟩ P Q x.D0 x.G0 i hi
    exact ⟨h1, h2⟩
  · obtain ⟨⟨Q, len, s⟩, h1, h2⟩ := Option.map_eq_some_iff.1 h
    obtain rfl : Q = P' := h2
    exact Simplex.C95_bounds _ _ _ _ _ _ _ _ _ h1 i hi
  · show 1 ≤ seed dl measured x.loads ∧ seed dl measured x.loads ≤ 9
    simp only [seed]
    split_ifs
    · norm_num
    · generalize (∑ j ∈ range dl, _) / (dl : ℝ) = y
      have h1 : (1e3 : ℝ) ≤ min (max 1e3 y) 1e6 := le_min (le_max_left _ _) (by norm_num)
      have h2 : min (max 1e3 y) (1e6 : ℝ) ≤ 1e6 := min_le_right _ _
      have h0 : 0 < min (max 1e3 y) (1e6 : ℝ) := lt_of_lt_of_le (by norm_num) h1
      constructor
      · rw [Real.le_logb_iff_rpow_le (by norm_num) h0, Real.rpow_one]
        exact le_trans (by norm_num) h1
      · rw [Real.logb_le_iff_le_rpow (by norm_num) h0]
        refine h2.trans ?_
        rw [show (9 : ℝ) = ((9 : ℕ) : ℝ) by norm_num, Real.rpow_natCast]; norm_num

/-- **C101**, seeds: for deflections of a half-space of modulus `E₀`, the seed is its logarithm, for all layers. -/
theorem C101_seed (dl : Nat) (hdl : 0 < dl) (measured : Nat → ℝ) (loads : Nat → List (ℝ × ℝ)) (E₀ : ℝ) (h1 : 1e3 ≤ E₀) (h2 : E₀ ≤ 1e6)
    (hm : ∀ j < dl, 1e-4 ≤ measured j) (hd : ∀ j < dl, measured j = ((loads j).map fun l => l.1 * l.2).sum / E₀) :
    seed dl measured loads = Real.logb 10 E₀ := by
  have hE : 0 < E₀ := lt_of_lt_of_le (by norm_num) h1
  have hpos : ∀ j < dl, 0 < measured j := fun j hj => lt_of_lt_of_le (by norm_num) (hm j hj)
  simp only [seed]
  rw [if_neg (by rintro ⟨j, hj, h⟩; exact absurd h (not_le.2 (hpos j hj)))]
  have : ∀ j ∈ range dl, (if measured j ≤ 0 then 0 else ((loads j).map fun l => l.1 * l.2 / max (measured j) 1e-4).sum) = E₀ := fun j hj => by
    have hj := mem_range.1 hj
    have h0 := hpos j hj
    have e : ((loads j).map fun l => l.1 * l.2 / measured j).sum = ((loads j).map fun l => l.1 * l.2).sum / measured j := by
      generalize loads j = L
      induction L with
      | nil => simp
      | cons a L ih => simp only [List.map_cons, List.sum_cons, ih]; ring
    have h3 : ((loads j).map fun l => l.1 * l.2).sum = measured j * E₀ := by rw [hd j hj]; field_simp
    rw [if_neg (not_le.2 h0), max_eq_left (hm j hj), e, h3]
    field_simp
  rw [sum_congr rfl this, sum_const, card_range, nsmul_eq_mul, mul_div_cancel_left₀ _ (by exact_mod_cast hdl.ne'), max_eq_right h1, min_eq_left h2]

/-- **C101**, error: the error is zero only if all deflections are as measured. -/
theorem C101_error (dl : Nat) (hdl : 0 < dl) (measured calculated : Nat → ℝ) :
    bowlerror dl measured calculated = 0 ↔ ∀ j < dl, measured j = calculated j := by
  have h0 : 0 ≤ ∑ j ∈ range dl, (measured j - calculated j) ^ 2 := sum_nonneg fun j _ => sq_nonneg _
  have hd : (0 : ℝ) < dl := by exact_mod_cast hdl
  rw [bowlerror, Real.sqrt_eq_zero (by positivity), div_eq_zero_iff, or_iff_left hd.ne', sum_eq_zero_iff_of_nonneg fun j _ => sq_nonneg _]
  exact forall_congr' fun j => by rw [mem_range, pow_eq_zero_iff (by norm_num), sub_eq_zero]

/-- **C101**, the way walked: the length of the way from the start is the distance in space, and a round of the first loop that is
followed by another has walked at most six times as far as it is from the start. -/
theorem C101_way (e : Env S) (O P : Nat → ℝ) (Q : S) (m : Nat) (astep tstep : ℝ) :
    away e.nl O (e.dg P Q).1 = dist (WithLp.toLp 2 fun i : Fin e.nl => O i) (WithLp.toLp 2 fun i : Fin e.nl => (e.dg P Q).1 i) ∧
    (6 * dist (WithLp.toLp 2 fun i : Fin e.nl => O i) (WithLp.toLp 2 fun i : Fin e.nl => (e.dg P Q).1 i) < tstep + (e.dg P Q).2.2 →
      0 ≤ tstep → 0 ≤ (e.dg P Q).2.2 → (grads e O (m + 1) P Q astep tstep).2.2 = m) := by
  have h1 : away e.nl O (e.dg P Q).1
      = dist (WithLp.toLp 2 fun i : Fin e.nl => O i) (WithLp.toLp 2 fun i : Fin e.nl => (e.dg P Q).1 i) := by
    rw [EuclideanSpace.dist_eq, away, Finset.sum_range]
    congr 1
    refine Finset.sum_congr rfl fun i _ => ?_
    simp only [Real.dist_eq, sq_abs]
    ring
  refine ⟨h1, fun h h2 h3 => ?_⟩
  rw [← h1] at h
  rw [grads]
  dsimp only
  by_cases hc : astep < 0.1 ∧ astep < (e.dg P Q).2.2 ∧ e.tol ≤ (e.dg P Q).2.2
  · rw [if_pos hc]
  · rw [if_neg hc, if_pos]
    have h0 : 0 ≤ away e.nl O (e.dg P Q).1 := Real.sqrt_nonneg _
    rcases h0.eq_or_lt with h0 | h0
    · exact Or.inr (Or.inr (Or.inl h0.symm))
    · refine Or.inr (Or.inr (Or.inr ?_))
      rwa [lt_div_iff₀ h0]

/-! ## A concrete back-calculation -/

/-- One layer, one deflection, which is the logarithm of the modulus less two. -/
noncomputable def lineBowl (P : Nat → ℝ) : Bowl :=
  { nl := 1, dl := 1, defl := fun _ _ => P 0 - 2, grad := fun _ _ _ => 1, lg := fun _ => 0, measured := fun _ => 1, clg := 0, noise := 0
    precision := 0 }

noncomputable def lineEnv : Env (Nat → ℝ) :=
  Env.real 1 1 5 1e-6 0 (fun _ => 1) lineBowl (fun M _ _ => 1 / M 0 0) ⟨fun _ _ _ => 1, fun _ => [(1, 1000)], fun _ => 0, fun _ => 0, 10⟩

theorem deflgrad_stay (b : Grad.In ℝ) (P Q D0 G0 : Nat → ℝ) (hP : ∀ i < b.nl, 1 ≤ P i ∧ P i ≤ 9) (hp : 0 ≤ b.precision)
    (hfit : ∀ j < b.dl, b.CD j = b.MD j) :
    (Grad.deflgrad Real.sqrt b P Q D0 G0).1 = P ∧ (Grad.deflgrad Real.sqrt b P Q D0 G0).2.2 = 0 := by
  have hD : ∀ i, Lin.loop 0 b.dl (fun j d => d - 2 * (b.CD j - b.MD j) * b.PG (j * b.nl + i) / b.DG Real.sqrt j) 0 = 0 := fun i =>
    Lin.loop_rule (fun _ d => d = 0) (Nat.zero_le _) rfl fun j d _ hj h => by rw [h, hfit j hj]; simp
  have hg : Lin.loop 0 b.nl (fun i (r : ℝ) => r + 0 * 0) 0 = 0 :=
    Lin.loop_rule (fun _ d => d = 0) (Nat.zero_le _) rfl fun j d _ hj h => by rw [h]; simp
  have hs : (Grad.solve Real.sqrt b Q D0 G0).W = fun _ => 0 := by
    rw [Grad.solve, Grad.rounds]
    simp only [if_true, Grad.slope, hD, hg, if_pos hp]
    rfl
  simp only [Grad.deflgrad, hs]
  refine ⟨funext fun i => ?_, ?_⟩
  · by_cases hi : i < b.nl
    · rw [if_pos hi, add_zero, max_eq_right (hP i hi).1, min_eq_left (hP i hi).2]
    · rw [if_neg hi]
  · rw [hg, Real.sqrt_zero]

/-- Starting from a modulus of `10^3.2`, the modulus `10^3` that explains the deflection is found at once, but `10` is returned. -/
example : ∃ ok E', backcalc lineEnv (fun _ => 10 ^ (3.2 : ℝ)) = some (ok, E') ∧ ok ∧ ∀ i, E' i = 10 := by
  have hl : Real.logb 10 ((10 : ℝ) ^ (3.2 : ℝ)) = 3.2 := Real.logb_rpow (by norm_num) (by norm_num)
  have hS : ∀ P i j, (lineBowl P).S 1 i j = 1 + if i = j then 0 else 0 := fun P i j => by simp [Bowl.S, lineBowl, Bowl.H]
  have hW : ∀ i, (lineBowl fun _ => 3.2).W 1 (fun _ _ => 1) i = -0.2 := fun i => by
    simp [Bowl.W, lineBowl, Bowl.H, Bowl.Y]; norm_num
  have hstep : (lineBowl fun _ => 3.2).step 1 (fun _ _ => 1) = 0.2 := by
    rw [Bowl.step]
    simp only [hW]
    rw [show (lineBowl fun _ => 3.2).nl = 1 from rfl, sum_range_one, show (-0.2 * -0.2 : ℝ) = 0.2 * 0.2 by norm_num]
    exact Real.sqrt_mul_self (by norm_num)
  have hinv : lineEnv.inv ((lineBowl fun _ => 3.2).S 1) = fun _ _ => 1 := by
    funext i j
    show 1 / (lineBowl fun _ => 3.2).S 1 0 0 = 1
    rw [hS]; norm_num
  have hb : (lineBowl fun _ => 3.2) = lineEnv.bowl fun _ => Real.logb 10 (10 ^ (3.2 : ℝ)) := by rw [hl]; rfl
  have hk : ∀ i, (lineBowl fun _ => 3.2).kalman 1 (fun _ _ => 1) (fun _ => Real.logb 10 (10 ^ (3.2 : ℝ))) i = 3 := fun i => by
    simp only [Bowl.kalman, hstep, hl, hW]
    norm_num [xdiv, xadd, cmax, cmin]
  refine C101_lost lineEnv (by norm_num [lineEnv, Env.real]) (by norm_num [lineEnv, Env.real]) _ (fun _ => 3) (fun _ _ => by positivity)
    _ hb ?_ ?_ ?_ ?_ ?_
  · rw [hinv, hstep]; norm_num [lineEnv, Env.real]
  · rw [hinv, hstep]; norm_num
  · rw [hinv]; exact funext fun i => (hk i).symm
  · intro j _
    show (1 : ℝ) = 3 - 2
    norm_num
  · exact deflgrad_stay _ _ _ _ _ (fun i _ => by norm_num) le_rfl fun j _ => by
      show (3 : ℝ) - 2 = 1
      norm_num

/-- Moduli that are kept. -/
example : lineEnv.Settled fun _ => 10 ^ (3 : ℝ) := by
  have hl : Real.logb 10 ((10 : ℝ) ^ (3 : ℝ)) = 3 := Real.logb_rpow (by norm_num) (by norm_num)
  refine ⟨fun _ _ => by positivity, ?_⟩
  simp only [hl]
  have hW : ∀ inv i, (lineBowl fun _ => 3).W 1 inv i = 0 := fun inv i => by
    simp [Bowl.W, lineBowl, Bowl.H, Bowl.Y]; norm_num
  show (lineBowl fun _ => 3).step 1 _ < 1e-6
  rw [Bowl.step]
  simp only [hW]
  norm_num

/-- A half-space of modulus `10^4`. -/
example : seed 1 (fun _ => 1) (fun _ => [(100, 60), (100, 40)]) = 4 := by
  rw [C101_seed 1 (by norm_num) (fun _ => 1) (fun _ => [(100, 60), (100, 40)]) 10000 (by norm_num) (by norm_num) (fun _ _ => by norm_num)
    (fun _ _ => by norm_num), show (10000 : ℝ) = 10 ^ (4 : ℝ) by norm_num, Real.logb_rpow (by norm_num) (by norm_num)]

end OP.Pave.Back
