import Verif.Pave.PropsGauss
import Mathlib.Analysis.Calculus.Deriv.MeanValue
/-!
# C100: the searches near any zero
-/
namespace OP.Pave.Gauss
open Polynomial Set

/-- A step from above a zero, where the slope grows: it does not pass the zero, and is long enough. -/
theorem step_local {n : Nat} {a w σ : ℝ} (ha : (legendre n a).1 = 0) (ha1 : -1 < a) (hw : a < w) (hw1 : w < 1) (hs : ∀ x ∈ Icc a w, 0 < σ * slope n x)
    (hm : ∀ x ∈ Icc a w, ∀ y ∈ Icc a w, x ≤ y → σ * slope n x ≤ σ * slope n y) :
    0 ≤ (legendre n w).1 / slope n w ∧ (legendre n w).1 / slope n w ≤ w - a ∧ (w - a) * (σ * slope n a) ≤ (legendre n w).1 / slope n w * (σ * slope n w) := by
  have hd : ∀ x, a ≤ x → x ≤ w → HasDerivAt (fun x => (legendre n x).1) (slope n x) x := fun x h1 h2 => C100_newton n x (by nlinarith)
  obtain ⟨c, hc, e⟩ := exists_hasDerivAt_eq_slope (fun x => (legendre n x).1) (slope n) hw
    (fun x hx => (hd x hx.1 hx.2).continuousAt.continuousWithinAt) (fun x hx => hd x hx.1.le hx.2.le)
  have hwa : 0 < w - a := sub_pos.2 hw
  rw [ha, sub_zero, eq_div_iff hwa.ne'] at e
  have ia : a ∈ Icc a w := ⟨le_rfl, hw.le⟩
  have iw : w ∈ Icc a w := ⟨hw.le, le_rfl⟩
  have ic : c ∈ Icc a w := ⟨hc.1.le, hc.2.le⟩
  have h1 := hm a ia c ic ic.1
  have h2 := hm c ic w iw ic.2
  have hsw := hs w iw
  have hne : slope n w ≠ 0 := fun h => by rw [h, mul_zero] at hsw; exact lt_irrefl _ hsw
  have hq : (legendre n w).1 / slope n w * (σ * slope n w) = (w - a) * (σ * slope n c) := by
    rw [← e]
    field_simp
  refine ⟨?_, ?_, ?_⟩
  · have : 0 ≤ (legendre n w).1 / slope n w * (σ * slope n w) := by rw [hq]; exact mul_nonneg hwa.le (hs c ic).le
    exact nonneg_of_mul_nonneg_left this hsw
  · refine le_of_mul_le_mul_right ?_ hsw
    rw [hq]
    exact mul_le_mul_of_nonneg_left h2 hwa.le
  · rw [hq]
    exact mul_le_mul_of_nonneg_left h1 hwa.le

/-- **C100** (any point): from a start above a zero, with a slope that keeps its sign and does not decrease in size in between, the search ends at that zero for every
tolerance, and not below it. -/
theorem C100_local {eps : ℝ} (he : 0 < eps) {n : Nat} {a z σ : ℝ} (ha : (legendre n a).1 = 0) (hz : a ≤ z) (hz1 : z < 1) (hs : ∀ x ∈ Icc a z, 0 < σ * slope n x)
    (hm : ∀ x ∈ Icc a z, ∀ y ∈ Icc a z, x ≤ y → σ * slope n x ≤ σ * slope n y) :
    ∃ fuel r, newton eps n fuel z = some r ∧ a ≤ r.1 ∧ r.1 ≤ z ∧ r.1 - a ≤ eps * (slope n z / slope n a) := by
  have ha1 : -1 < a := by
    rw [legendre_eval] at ha
    nlinarith [(root_simple n a ha).2]
  have iz : z ∈ Icc a z := ⟨hz, le_rfl⟩
  have ia : a ∈ Icc a z := ⟨le_rfl, hz⟩
  have hsa := hs a ia
  have hσ : σ ≠ 0 := fun h => by rw [h, zero_mul] at hsa; exact lt_irrefl _ hsa
  have er : slope n z / slope n a = (σ * slope n z) / (σ * slope n a) := (mul_div_mul_left _ _ hσ).symm
  rw [er]
  have key : ∀ (k : Nat) (w : ℝ), a ≤ w → w ≤ z → w - a ≤ k * eps →
      ∃ fuel r, newton eps n fuel w = some r ∧ a ≤ r.1 ∧ r.1 ≤ w ∧ r.1 - a ≤ eps * ((σ * slope n z) / (σ * slope n a)) := by
    have base : ∃ fuel r, newton eps n fuel a = some r ∧ a ≤ r.1 ∧ r.1 ≤ a ∧ r.1 - a ≤ eps * ((σ * slope n z) / (σ * slope n a)) := by
      refine ⟨1, _, C100_fixed eps he.le n 0 a ha, le_rfl, le_rfl, ?_⟩
      rw [sub_self]
      exact mul_nonneg he.le (div_nonneg (hs z iz).le hsa.le)
    intro k
    induction k with
    | zero =>
      intro w h1 h2 h3
      rw [Nat.cast_zero, zero_mul] at h3
      obtain rfl : w = a := by linarith
      exact base
    | succ k ih =>
      intro w h1 h2 h3
      rcases h1.eq_or_lt with rfl | h1
      · exact base
      obtain ⟨s0, s1, s2⟩ := step_local ha ha1 h1 (by linarith) (fun x hx => hs x ⟨hx.1, hx.2.trans h2⟩)
        (fun x hx y hy => hm x ⟨hx.1, hx.2.trans h2⟩ y ⟨hy.1, hy.2.trans h2⟩)
      by_cases hc : eps < |(legendre n w).1 / slope n w|
      · have hc' := hc
        rw [abs_of_nonneg s0] at hc'
        push_cast at h3
        obtain ⟨fuel, r, f1, f2, f3, f4⟩ := ih (w - (legendre n w).1 / slope n w) (by linarith) (by linarith) (by linarith)
        refine ⟨fuel + 1, r, ?_, f2, by linarith, f4⟩
        rw [newton]
        rw [if_pos hc]
        exact f1
      · refine ⟨1, (w - (legendre n w).1 / slope n w, slope n w), ?_, ?_, ?_, ?_⟩
        · rw [newton]
          rw [if_neg hc]
        · show a ≤ w - _
          linarith
        · show w - _ ≤ w
          linarith
        · rw [not_lt, abs_of_nonneg s0] at hc
          show w - _ - a ≤ _
          have iw : w ∈ Icc a z := ⟨h1.le, h2⟩
          have h5 : (w - a) * (σ * slope n a) ≤ eps * (σ * slope n z) :=
            s2.trans ((mul_le_mul_of_nonneg_right hc (hs w iw).le).trans (mul_le_mul_of_nonneg_left (hm w iw z iz h2) he.le))
          rw [← mul_div_assoc]
          refine le_trans ?_ ((le_div_iff₀ hsa).2 h5)
          linarith
  obtain ⟨k, hk⟩ := exists_nat_gt ((z - a) / eps)
  rw [div_lt_iff₀ he] at hk
  exact key k z hz le_rfl hk.le

/-- **C100** (any point): every zero above zero has such starts: all numbers between it and some larger one. -/
theorem C100_local_exists {n : Nat} {a : ℝ} (ha : (legendre n a).1 = 0) (ha0 : 0 < a) : ∃ b σ, a < b ∧ b < 1 ∧ (∀ x ∈ Icc a b, 0 < σ * slope n x) ∧
    ∀ x ∈ Icc a b, ∀ y ∈ Icc a b, x ≤ y → σ * slope n x ≤ σ * slope n y := by
  have ha' : (LP n).1.eval a = 0 := by rw [legendre_eval] at ha; exact ha
  obtain ⟨hd, h1⟩ := root_simple n a ha'
  obtain ⟨D, hD⟩ : ∃ D, D = derivative (LP n).1 := ⟨_, rfl⟩
  rw [← hD] at hd
  have hode : (1 - a ^ 2) * (derivative D).eval a = 2 * a * D.eval a := by
    have := congrArg (eval a) (rec_ode n)
    rw [← hD] at this
    simp only [derivative_mul, derivative_sub, derivative_X_pow, derivative_one, eval_add, eval_mul, eval_sub, eval_pow, eval_X, eval_one, eval_C, ha'] at this
    norm_num at this
    linarith
  obtain ⟨σ, hσ⟩ : ∃ σ, σ = D.eval a := ⟨_, rfl⟩
  have p1 : 0 < (C σ * D).eval a := by
    rw [eval_mul, eval_C, hσ]
    exact mul_self_pos.2 hd
  have p2 : 0 < (derivative (C σ * D)).eval a := by
    rw [derivative_C_mul, eval_mul, eval_C]
    have h2 : 0 < (1 - a ^ 2) * (σ * (derivative D).eval a) := by
      have : (1 - a ^ 2) * (σ * (derivative D).eval a) = 2 * a * (σ * D.eval a) := by linear_combination σ * hode
      rw [this, hσ]
      exact mul_pos (by linarith) (mul_self_pos.2 hd)
    exact pos_of_mul_pos_right h2 (by linarith)
  have e1 := (C σ * D).continuous.continuousAt.eventually (lt_mem_nhds p1)
  have e2 := (derivative (C σ * D)).continuous.continuousAt.eventually (lt_mem_nhds p2)
  have e3 : ∀ᶠ x in nhds a, x < 1 := gt_mem_nhds (by nlinarith)
  obtain ⟨δ, hδ, hb⟩ := Metric.eventually_nhds_iff.1 (e1.and (e2.and e3))
  have hin : ∀ x ∈ Icc a (a + δ / 2), 0 < (C σ * D).eval x ∧ 0 < (derivative (C σ * D)).eval x ∧ x < 1 := fun x hx => hb (by
    rw [Real.dist_eq, abs_of_nonneg (by linarith [hx.1])]
    linarith [hx.2])
  have hsl : ∀ x ∈ Icc a (a + δ / 2), σ * slope n x = (C σ * D).eval x := fun x hx => by
    rw [slope_eval n x (by nlinarith [(hin x hx).2.2, hx.1]), eval_mul, eval_C, hD]
  refine ⟨a + δ / 2, σ, by linarith, (hin _ ⟨by linarith, le_rfl⟩).2.2, fun x hx => by rw [hsl x hx]; exact (hin x hx).1, fun x hx y hy hxy => ?_⟩
  rw [hsl x hx, hsl y hy]
  refine monotoneOn_of_deriv_nonneg (convex_Icc a (a + δ / 2)) (C σ * D).continuous.continuousOn (C σ * D).differentiable.differentiableOn (fun w hw => ?_) hx hy hxy
  rw [Polynomial.deriv]
  exact (hin w (interior_subset hw)).2.1.le

/-- So there is a start above every zero of every table from which it is found. -/
example {n : Nat} {z : Nat → ℝ} (hz : Found n z) {i : Nat} (hi : 2 * i + 1 < n) : ∃ b, z i < b ∧ ∀ eps : ℝ, 0 < eps →
    ∃ fuel r, newton eps n fuel b = some r ∧ z i ≤ r.1 ∧ r.1 - z i ≤ eps * (slope n b / slope n (z i)) := by
  obtain ⟨b, σ, h1, h2, h3, h4⟩ := C100_local_exists (hz.zero i hi.le) (hz.pos i hi)
  refine ⟨b, h1, fun eps he => ?_⟩
  obtain ⟨fuel, r, g1, g2, -, g4⟩ := C100_local he (hz.zero i hi.le) h1.le h2 h3 h4
  exact ⟨fuel, r, g1, g2, g4⟩

end OP.Pave.Gauss
