import Verif.Stat.InvTail
import Mathlib.Analysis.Complex.ExponentialBounds

/-!
The first value of `stdnormal_inv` in the tail: how far it is from the inverse.
-/

namespace OP.Stat

open Filter Topology

theorem end_near : |Phi (uT 38.6) - Real.exp (-38.6 ^ 2 / 2)| ≤ 23 / 10 ^ 6 * Real.exp (-38.6 ^ 2 / 2) := by
  obtain ⟨h0, h1, h2⟩ := tail_end
  have hu := tail_upper _ h0
  have hl := tail_lower _ h0
  have hE := ET_near 38.6 (by norm_num) le_rfl
  have he := exp_uT 38.6 (by norm_num) le_rfl
  have hn := uTD_neg 38.6 (by norm_num) le_rfl
  have hp : 1 - Phi (-uT 38.6) = Phi (uT 38.6) := by rw [Phi_neg]; ring
  rw [hp] at hu hl
  have hPp := Phi_pos (uT 38.6)
  have hk1 := kap_lo
  have hk2 := kap_hi
  have hk := kap_gt
  have hQ := Real.exp_pos (-(38.6 : ℝ) ^ 2 / 2)
  have hX := Real.exp_pos (-uT 38.6 ^ 2 / 2)
  simp only [withExp, neg_sq] at hu hl
  generalize Real.exp (-(38.6 : ℝ) ^ 2 / 2) = Q at *
  generalize Real.exp (-uT 38.6 ^ 2 / 2) = X at *
  generalize tail (-uT 38.6) = y at *
  generalize Phi (uT 38.6) = P at *
  have hd : 0 < -uTD 38.6 := by linarith
  generalize -uTD 38.6 = d at *
  generalize ET 38.6 = E at *
  generalize uT 38.6 = u at *
  rw [abs_le] at hE
  obtain ⟨hE1, hE2⟩ := hE
  have hE1' : 1 - 2211 / 10 ^ 8 ≤ E := by linarith
  have hE2' : E ≤ 1 + 2211 / 10 ^ 8 := by linarith
  have hE0 : 0 < E := by norm_num at *; linarith
  have hk0 : 0 < kap := by norm_num at *; linarith
  have hW : y * X * (kap * d) = y * 38.6 * (Q * E) := by
    calc y * X * (kap * d) = y * (kap * d * X) := by ring
      _ = _ := by rw [he]; ring
  have hQE : 0 < Q * E := by positivity
  have r1 : rootK ≤ kap * (1 + 1 / 10 ^ 18) := by norm_num at *; linarith
  have r2 : kap * (1 - 1 / 10 ^ 18) ≤ rootK := by norm_num at *; linarith
  have w1 : y * X ≤ (1 + 1 / 10 ^ 18) * (1 + 1 / 10 ^ 7) * (Q * E) := by
    refine le_of_mul_le_mul_right ?_ (mul_pos hk0 hd)
    rw [hW]
    calc y * 38.6 * (Q * E) ≤ rootK * (1 + 1 / 10 ^ 7) * d * (Q * E) := mul_le_mul_of_nonneg_right h2 hQE.le
      _ ≤ kap * (1 + 1 / 10 ^ 18) * (1 + 1 / 10 ^ 7) * d * (Q * E) := by gcongr
      _ = _ := by ring
  have w2 : (1 - 1 / 10 ^ 18) * (1 - 1 / 10 ^ 7) * (Q * E) ≤ y * X := by
    refine le_of_mul_le_mul_right ?_ (mul_pos hk0 hd)
    rw [hW]
    calc (1 - 1 / 10 ^ 18) * (1 - 1 / 10 ^ 7) * (Q * E) * (kap * d)
        = kap * (1 - 1 / 10 ^ 18) * (1 - 1 / 10 ^ 7) * d * (Q * E) := by ring
      _ ≤ rootK * (1 - 1 / 10 ^ 7) * d * (Q * E) := by gcongr
      _ ≤ y * 38.6 * (Q * E) := mul_le_mul_of_nonneg_right h1 hQE.le
  have q1 : Q * E ≤ Q * (1 + 2211 / 10 ^ 8) := mul_le_mul_of_nonneg_left hE2' hQ.le
  have q2 : Q * (1 - 2211 / 10 ^ 8) ≤ Q * E := mul_le_mul_of_nonneg_left hE1' hQ.le
  generalize Q * E = Z at *
  generalize y * X = W at *
  clear h1 h2 hW he r1 r2
  rw [abs_le]
  constructor <;> norm_num at * <;> linarith

theorem tail_near (t : ℝ) (h0 : 2.7 ≤ t) (h1 : t ≤ 38.6) :
    |Phi (uT t) - Real.exp (-t ^ 2 / 2)| ≤ 23 / 10 ^ 6 * Real.exp (-t ^ 2 / 2) := by
  have hd : ∀ x ∈ Set.Icc t 38.6, HasDerivAt (fun x => Phi (uT x)) (-(x * Real.exp (-x ^ 2 / 2) * ET x)) x := by
    intro x hx
    have hx0 : 2.7 ≤ x := h0.trans hx.1
    have h := (hasDerivAt_Phi (uT x)).comp x (hasDerivAt_uT x (jD_pos x (le_trans (by norm_num) hx0)).ne')
    refine h.congr_deriv ?_
    rw [phi_eq, ← exp_uT x hx0 hx.2]; ring
  have hq : ∀ x : ℝ, HasDerivAt (fun x : ℝ => Real.exp (-x ^ 2 / 2)) (-(x * Real.exp (-x ^ 2 / 2))) x := by
    intro x
    have h := (((hasDerivAt_id x).fun_pow 2).fun_neg.div_const 2).exp
    refine h.congr_deriv ?_
    simp; ring
  have e := end_near
  rw [abs_le] at e ⊢
  have hpos : ∀ x ∈ Set.Icc t 38.6, 0 ≤ x * Real.exp (-x ^ 2 / 2) := fun x hx =>
    mul_nonneg (le_trans (by norm_num) (h0.trans hx.1)) (Real.exp_pos _).le
  have a := up_of_deriv (f := fun x => Phi (uT x) - (1 + 23 / 10 ^ 6) * Real.exp (-x ^ 2 / 2))
    (fun x hx => (hd x hx).fun_sub ((hq x).const_mul _)) (fun x hx => by
      have h2 := ET_near x (h0.trans hx.1) hx.2
      rw [abs_le] at h2
      have h3 : 0 ≤ 1 + 23 / 10 ^ 6 - ET x := by norm_num at *; linarith
      have := mul_nonneg (hpos x hx) h3
      linarith) h1
  have b := up_of_deriv (f := fun x => (1 - 23 / 10 ^ 6) * Real.exp (-x ^ 2 / 2) - Phi (uT x))
    (fun x hx => ((hq x).const_mul _).fun_sub (hd x hx)) (fun x hx => by
      have h2 := ET_near x (h0.trans hx.1) hx.2
      rw [abs_le] at h2
      have h3 : 0 ≤ ET x - (1 - 23 / 10 ^ 6) := by norm_num at *; linarith
      have := mul_nonneg (hpos x hx) h3
      linarith) h1
  constructor <;> linarith [e.1, e.2]

theorem start_range {q : ℝ} (h0 : (1 / 2) ^ 1074 ≤ q) (h1 : q ≤ 0.02425) :
    2.7 ≤ √(-2 * Real.log q) ∧ √(-2 * Real.log q) ≤ 38.6 ∧ Real.exp (-√(-2 * Real.log q) ^ 2 / 2) = q := by
  have hq : 0 < q := lt_of_lt_of_le (by positivity) h0
  have a : Real.log q ≤ -3.645 := by
    rw [Real.log_le_iff_le_exp hq]
    have e1 : Real.exp 3.645 ≤ 41 := by
      rw [show (3.645 : ℝ) = 1 + 1 + 1 + 0.645 by norm_num, Real.exp_add, Real.exp_add, Real.exp_add]
      have h1 := Real.exp_one_lt_d9
      have h2 : Real.exp 0.645 ≤ 2 := by
        rw [← Real.le_log_iff_exp_le (by norm_num)]
        have := Real.log_two_gt_d9
        norm_num at *; linarith
      have h3 := Real.exp_pos 1
      have h4 := Real.exp_pos 0.645
      calc Real.exp 1 * Real.exp 1 * Real.exp 1 * Real.exp 0.645 ≤ 2.7182818286 * 2.7182818286 * 2.7182818286 * 2 := by
            gcongr
        _ ≤ 41 := by norm_num
    rw [Real.exp_neg]
    refine h1.trans (le_trans ?_ ((inv_le_inv₀ (by norm_num) (Real.exp_pos _)).2 e1))
    norm_num
  have b : -744.98 ≤ Real.log q := by
    have h := Real.log_le_log (by positivity) h0
    rw [Real.log_pow, one_div, Real.log_inv] at h
    have := Real.log_two_lt_d9
    norm_num at *; linarith
  have c : 0 ≤ -2 * Real.log q := by norm_num at *; linarith
  refine ⟨?_, ?_, ?_⟩
  · apply Real.le_sqrt_of_sq_le; norm_num at *; linarith
  · rw [Real.sqrt_le_left (by norm_num)]; norm_num at *; linarith
  · rw [Real.sq_sqrt c, show -(-2 * Real.log q) / 2 = Real.log q by ring, Real.exp_log hq]

theorem start_tail (q : ℝ) (h0 : (1 / 2) ^ 1074 ≤ q) (h1 : q ≤ 0.02425) :
    |Phi (invStart q) - q| ≤ 23 / 10 ^ 6 * q ∧ invStart q ≤ 0 := by
  obtain ⟨r0, r1, r2⟩ := start_range h0 h1
  have e : invStart q = uT (√(-2 * Real.log q)) := by
    rw [invStart, if_neg (by linarith)]
    dsimp only
    rw [hor_sc, hor_sd, div_div_div_cancel_right₀ (by norm_num), uT]
  have h := tail_near _ r0 r1
  rw [r2] at h
  rw [e]
  refine ⟨h, ?_⟩
  rw [← Phi_strictMono.le_iff_le, Phi_zero]
  rw [abs_le] at h
  norm_num at *; linarith

theorem start_near (q : ℝ) (h0 : (1 / 2) ^ 1074 ≤ q) (h1 : q ≤ 0.5) :
    |Phi (invStart q) - q| ≤ 23 / 10 ^ 6 * q ∧ invStart q ≤ 0 := by
  by_cases h : 0.02425 < q
  · exact start_central q h h1
  · exact start_tail q h0 (not_lt.1 h)

end OP.Stat
