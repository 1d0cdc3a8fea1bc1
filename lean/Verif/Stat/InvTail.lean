import Verif.Stat.InvProof

/-!
The first value of `stdnormal_inv` in the tail.
-/

namespace OP.Stat

open Filter Topology

noncomputable def uT (t : ℝ) : ℝ := ev jC t / ev jD t
noncomputable def uTD (t : ℝ) : ℝ := ev jW t / ev jD t ^ 2
noncomputable def uTR (t : ℝ) : ℝ := ev (derl jW) t / ev jW t - 2 * ev (derl jD) t / ev jD t

theorem jD_pos (t : ℝ) (h : 0 ≤ t) : 0 < ev jD t := ev_pos _ _ (by decide) (by decide) t h

theorem jW_neg (t : ℝ) (h0 : 2.7 ≤ t) (h1 : t ≤ 38.6) : ev jW t < 0 := by
  have h := nonneg_of_pieces 16 43 _ _ _ _ rfl (by norm_num) jW_check (by decide) 618 (by simp) t
    (by push_cast; norm_num at *; linarith) (by push_cast; norm_num at *; linarith)
  rw [ev_addl, ev_smul, ev_smul, ev_mull] at h
  have := jD_pos t (le_trans (by norm_num) h0)
  push_cast at h
  nlinarith

theorem hasDerivAt_uT (t : ℝ) (hD : ev jD t ≠ 0) : HasDerivAt uT (uTD t) t := by
  refine ((hasDerivAt_ev jC t).fun_div (hasDerivAt_ev jD t) hD).congr_deriv ?_
  simp only [uTD, jW, wron, ev_addl, ev_smul, ev_mull]
  push_cast; ring

theorem hasDerivAt_uTD (t : ℝ) (hD : ev jD t ≠ 0) (hW : ev jW t ≠ 0) : HasDerivAt uTD (uTD t * uTR t) t := by
  refine ((hasDerivAt_ev jW t).fun_div ((hasDerivAt_ev jD t).fun_pow 2) (pow_ne_zero 2 hD)).congr_deriv ?_
  simp only [uTD, uTR]
  push_cast
  field_simp

theorem rhoT (t : ℝ) (h0 : 2.7 ≤ t) (h1 : t ≤ 38.6) :
    |uTR t - 1 / t - uT t * uTD t + t| ≤ 14 / 10 ^ 8 + 14 / 10 ^ 4 / t ^ 6 + 8 / 10 ^ 16 * t ^ 6 := by
  have ht : 0 < t := lt_of_lt_of_le (by norm_num) h0
  have hD := jD_pos t ht.le
  have hW := jW_neg t h0 h1
  have hlo : ((43 : ℕ) : ℝ) ≤ (16 : ℕ) * t := by push_cast; norm_num at *; linarith
  have hhi : ((16 : ℕ) : ℝ) * t ≤ (618 : ℕ) := by push_cast; norm_num at *; linarith
  have hp := nonneg_of_pieces 16 43 _ _ _ _ rfl (by norm_num) posJ_check (by decide) 618 (by simp) t hlo hhi
  have hn := nonneg_of_pieces 16 43 _ _ _ _ rfl (by norm_num) negJ_check (by decide) 618 (by simp) t hlo hhi
  have h0' : ∀ l, ev (0 :: l) t = t * ev l t := by intro l; simp [ev]
  rw [← ev_of_samel posJ_eq, ev_addl, ev_smul] at hp
  rw [← ev_of_samel negJ_eq, ev_addl, ev_smul] at hn
  simp only [h0'] at hp hn
  have e2 : ev numJ t = t * (ev jW t * ev jD t ^ 3) * (uTR t - 1 / t - uT t * uTD t + t) := by
    simp only [numJ, uTR, uT, uTD, cub, ev_addl, ev_smul, ev_mull, h0']
    clear hp hn
    have hD' := hD.ne'
    have hW' := hW.ne
    generalize ev jD t = b at *
    generalize ev jW t = w at *
    push_cast
    field_simp
    ring
  have e3 : ev bndJ t = (14 * 10 ^ 12 + 14 * 10 ^ 8 * t ^ 6 + 8 * t ^ 12) * -(ev jW t * ev jD t ^ 3) := by
    have : ev [14 * 10 ^ 12, 0, 0, 0, 0, 0, 14 * 10 ^ 8, 0, 0, 0, 0, 0, 8] t =
        14 * 10 ^ 12 + 14 * 10 ^ 8 * t ^ 6 + 8 * t ^ 12 := by
      simp only [ev]; push_cast; ring
    simp only [bndJ, cub, ev_smul, ev_mull, this]
    push_cast
    ring
  have hX : 0 < -(ev jW t * ev jD t ^ 3) := by
    have : 0 < ev jD t ^ 3 := by positivity
    nlinarith
  rw [e2, e3] at hp hn
  have e4 : ev jW t * ev jD t ^ 3 = - -(ev jW t * ev jD t ^ 3) := by ring
  rw [e4] at hp hn
  simp only [neg_neg (-(ev jW t * ev jD t ^ 3))] at hp hn
  generalize -(ev jW t * ev jD t ^ 3) = X at *
  generalize uTR t - 1 / t - uT t * uTD t + t = r at *
  push_cast at hp hn
  have hp3 : 0 ≤ X * ((14 * 10 ^ 12 + 14 * 10 ^ 8 * t ^ 6 + 8 * t ^ 12) - 10 ^ 16 * t ^ 6 * r) := by
    calc (0 : ℝ) ≤ _ := hp
      _ = _ := by ring
  have hn3 : 0 ≤ X * ((14 * 10 ^ 12 + 14 * 10 ^ 8 * t ^ 6 + 8 * t ^ 12) + 10 ^ 16 * t ^ 6 * r) := by
    calc (0 : ℝ) ≤ _ := hn
      _ = _ := by ring
  have hp4 := nonneg_of_mul_nonneg_right hp3 hX
  have hn4 := nonneg_of_mul_nonneg_right hn3 hX
  have e5 : 14 / 10 ^ 8 + 14 / 10 ^ 4 / t ^ 6 + 8 / 10 ^ 16 * t ^ 6 =
      (14 * 10 ^ 12 + 14 * 10 ^ 8 * t ^ 6 + 8 * t ^ 12) / (10 ^ 16 * t ^ 6) := by
    field_simp; ring
  rw [e5, le_div_iff₀ (by positivity), ← abs_of_pos (show (0 : ℝ) < 10 ^ 16 * t ^ 6 by positivity), ← abs_mul, abs_le]
  constructor <;> linarith

noncomputable def LT (t : ℝ) : ℝ := Real.log (-uTD t) - Real.log t - uT t ^ 2 / 2 + t ^ 2 / 2
noncomputable def GT (t : ℝ) : ℝ := 14 / 10 ^ 8 * t - 28 / 10 ^ 5 / t ^ 5 + 8 / 10 ^ 16 / 7 * t ^ 7

theorem uTD_neg (t : ℝ) (h0 : 2.7 ≤ t) (h1 : t ≤ 38.6) : uTD t < 0 := by
  have := jD_pos t (le_trans (by norm_num) h0)
  exact div_neg_of_neg_of_pos (jW_neg t h0 h1) (by positivity)

theorem LT_near (t : ℝ) (h0 : 2.7 ≤ t) (h1 : t ≤ 38.6) : |LT t - LT 2.7| ≤ GT t - GT 2.7 := by
  refine abs_le_of_deriv (f' := fun t => uTR t - 1 / t - uT t * uTD t + t)
    (g' := fun t => 14 / 10 ^ 8 + 14 / 10 ^ 4 / t ^ 6 + 8 / 10 ^ 16 * t ^ 6) (fun x hx => ?_) (fun x hx => ?_)
    (fun x hx => rhoT x hx.1 (hx.2.trans h1)) h0
  · have hx1 := hx.2.trans h1
    have hx0 : 0 < x := lt_of_lt_of_le (by norm_num) hx.1
    have hn := uTD_neg x hx.1 hx1
    have hD := (jD_pos x hx0.le).ne'
    have hW := (jW_neg x hx.1 hx1).ne
    refine (((((hasDerivAt_uTD x hD hW).fun_neg).log (by linarith)).fun_sub (Real.hasDerivAt_log hx0.ne')).fun_sub
      (((hasDerivAt_uT x hD).fun_pow 2).div_const 2) |>.fun_add (((hasDerivAt_id x).fun_pow 2).div_const 2)).congr_deriv ?_
    have hn' := hn.ne
    simp only [id]
    push_cast
    field_simp
  · have hx0 : 0 < x := lt_of_lt_of_le (by norm_num) hx.1
    refine ((((hasDerivAt_id x).const_mul (14 / 10 ^ 8)).fun_sub
      ((hasDerivAt_const x (28 / 10 ^ 5 : ℝ)).fun_div ((hasDerivAt_id x).fun_pow 5) (by simp; positivity))).fun_add
      (((hasDerivAt_id x).fun_pow 7).const_mul (8 / 10 ^ 16 / 7))).congr_deriv ?_
    simp only [id]
    push_cast
    field_simp
    ring

theorem uT_start :
    |uT 2.7 + 1.941127459707448| ≤ 1 / 10 ^ 14 ∧ |uTD 2.7 + 1.163203804909917| ≤ 1 / 10 ^ 14 := by
  refine ⟨?_, ?_⟩
  · rw [abs_le]; constructor <;> · simp only [uT, ev, jC, jD]; norm_num
  · rw [abs_le]
    constructor <;>
    · simp only [uTD, jW, wron, ev_addl, ev_smul, ev_mull]
      simp only [ev, jC, jD, derl, addl]; norm_num

theorem exp_start : |Real.exp 0.88050604629 - 2.41212004201| ≤ 1 / 10 ^ 9 := by
  have h := Real.exp_bound (x := 0.88050604629) (by rw [abs_le]; constructor <;> norm_num) (n := 15) (by norm_num)
  rw [abs_le] at h ⊢
  simp only [Finset.sum_range_succ, Finset.sum_range_zero, Nat.factorial] at h
  rw [abs_of_pos (by norm_num : (0 : ℝ) < 0.88050604629)] at h
  norm_num at h ⊢
  constructor <;> linarith [h.1, h.2]

theorem LT_start : |LT 2.7 + Real.log kap| ≤ 5 / 10 ^ 7 := by
  obtain ⟨h1, h2⟩ := uT_start
  have h3 := exp_start
  have k1 := kap_lo
  have k2 := kap_hi
  have hk : 0 < kap := by have := kap_gt; norm_num at *; linarith
  rw [abs_le] at h1 h2 h3
  have hu : 0 < -uTD 2.7 := by norm_num at *; linarith
  have hE := Real.exp_pos 0.88050604629
  have hY : LT 2.7 + Real.log kap = Real.log (-uTD 2.7 / 2.7 * kap * Real.exp 0.88050604629 ^ 2) +
      ((2.7 ^ 2 - uT 2.7 ^ 2) / 2 - 2 * 0.88050604629) := by
    rw [Real.log_mul (by positivity) (by positivity), Real.log_mul (by positivity) (by positivity),
      Real.log_div (by positivity) (by norm_num), Real.log_pow, Real.log_exp, LT]
    push_cast
    ring
  have hd : |(2.7 ^ 2 - uT 2.7 ^ 2) / 2 - 2 * 0.88050604629| ≤ 1 / 10 ^ 10 := by
    have : uT 2.7 ^ 2 = (uT 2.7 + 1.941127459707448) ^ 2 - 2 * 1.941127459707448 * (uT 2.7 + 1.941127459707448) +
        1.941127459707448 ^ 2 := by ring
    rw [this]
    generalize uT 2.7 + 1.941127459707448 = x at *
    rw [abs_le]
    constructor <;> norm_num at * <;> nlinarith
  have hE2 : 5.81832309 ≤ Real.exp 0.88050604629 ^ 2 ∧ Real.exp 0.88050604629 ^ 2 ≤ 5.81832311 := by
    generalize Real.exp 0.88050604629 = e at *
    constructor <;> norm_num at * <;> nlinarith
  have hk1 : 0.3989422804 ≤ kap ∧ kap ≤ 0.3989422805 := by constructor <;> norm_num [rootK] at * <;> linarith
  have ha : 1.1632038049 ≤ -uTD 2.7 ∧ -uTD 2.7 ≤ 1.1632038050 := by constructor <;> norm_num at * <;> linarith
  have hak : 1.1632038049 * 0.3989422804 ≤ -uTD 2.7 * kap ∧ -uTD 2.7 * kap ≤ 1.1632038050 * 0.3989422805 :=
    ⟨mul_le_mul ha.1 hk1.1 (by norm_num) hu.le, mul_le_mul ha.2 hk1.2 hk.le (by norm_num)⟩
  have hakp : 0 ≤ -uTD 2.7 * kap := by positivity
  have he0 : 0 ≤ Real.exp 0.88050604629 ^ 2 := by positivity
  have hy : 1.1632038049 * 0.3989422804 * 5.81832309 ≤ -uTD 2.7 * kap * Real.exp 0.88050604629 ^ 2 ∧
      -uTD 2.7 * kap * Real.exp 0.88050604629 ^ 2 ≤ 1.1632038050 * 0.3989422805 * 5.81832311 :=
    ⟨mul_le_mul hak.1 hE2.1 (by norm_num) hakp, mul_le_mul hak.2 hE2.2 he0 (by norm_num)⟩
  have eY : -uTD 2.7 / 2.7 * kap * Real.exp 0.88050604629 ^ 2 =
      -uTD 2.7 * kap * Real.exp 0.88050604629 ^ 2 / 2.7 := by ring
  rw [hY, eY]
  generalize -uTD 2.7 * kap * Real.exp 0.88050604629 ^ 2 = y at *
  have hy0 : 0 < y / 2.7 := by norm_num at *; linarith
  have l1 := Real.log_le_sub_one_of_pos hy0
  have l2 := Real.one_sub_inv_le_log_of_pos hy0
  have l3 : (y / 2.7)⁻¹ ≤ 1 + 4 / 10 ^ 7 := by
    rw [inv_le_comm₀ hy0 (by norm_num)]
    norm_num at *; linarith
  rw [abs_le] at hd ⊢
  clear hY eY
  constructor <;> norm_num at * <;> linarith

theorem GT_small (t : ℝ) (h0 : 2.7 ≤ t) (h1 : t ≤ 38.6) : GT t - GT 2.7 ≤ 216 / 10 ^ 7 := by
  have ht : 0 < t := lt_of_lt_of_le (by norm_num) h0
  have h7 : t ^ 7 ≤ 38.6 ^ 7 := pow_le_pow_left₀ ht.le h1 7
  have h5 : 0 ≤ 28 / 10 ^ 5 / t ^ 5 := by positivity
  simp only [GT]
  norm_num at *; linarith

theorem exp_near2 {x : ℝ} (h : |x| ≤ 221 / 10 ^ 7) : |Real.exp x - 1| ≤ 2211 / 10 ^ 8 := by
  have h1 := Real.abs_exp_sub_one_sub_id_le (h.trans (by norm_num))
  have h2 : x ^ 2 ≤ (221 / 10 ^ 7) ^ 2 := by
    rw [← sq_abs x]; exact pow_le_pow_left₀ (abs_nonneg x) h 2
  rw [abs_le] at *
  constructor <;> norm_num at * <;> linarith

/-- The ratio between the densities, which is 1 for the inverse. -/
noncomputable def ET (t : ℝ) : ℝ := Real.exp (LT t + Real.log kap)

theorem ET_near (t : ℝ) (h0 : 2.7 ≤ t) (h1 : t ≤ 38.6) : |ET t - 1| ≤ 2211 / 10 ^ 8 := by
  refine exp_near2 ?_
  have a := LT_near t h0 h1
  have b := LT_start
  have c := GT_small t h0 h1
  calc |LT t + Real.log kap| = |(LT t - LT 2.7) + (LT 2.7 + Real.log kap)| := by congr 1; ring
    _ ≤ |LT t - LT 2.7| + |LT 2.7 + Real.log kap| := abs_add_le _ _
    _ ≤ _ := by norm_num at *; linarith

theorem exp_uT (t : ℝ) (h0 : 2.7 ≤ t) (h1 : t ≤ 38.6) :
    kap * -uTD t * Real.exp (-uT t ^ 2 / 2) = t * Real.exp (-t ^ 2 / 2) * ET t := by
  have hn := uTD_neg t h0 h1
  have ht : 0 < t := lt_of_lt_of_le (by norm_num) h0
  have hk : 0 < kap := by have := kap_gt; norm_num at *; linarith
  have hn' : 0 < -uTD t := by linarith
  rw [ET, LT, Real.exp_add, Real.exp_log hk, Real.exp_add, Real.exp_sub, Real.exp_sub, Real.exp_log hn',
    Real.exp_log ht, show -uT t ^ 2 / 2 = -(uT t ^ 2 / 2) by ring, Real.exp_neg,
    show -t ^ 2 / 2 = -(t ^ 2 / 2) by ring, Real.exp_neg]
  have e1 := Real.exp_pos (t ^ 2 / 2)
  have e2 := Real.exp_pos (uT t ^ 2 / 2)
  field_simp

/-- At the end of the range of the doubles. -/
theorem tail_end : 5.6568 ≤ -uT 38.6 ∧
    rootK * (1 - 1 / 10 ^ 7) * -uTD 38.6 ≤ tail (-uT 38.6) * 38.6 ∧
    tail (-uT 38.6) * 38.6 ≤ rootK * (1 + 1 / 10 ^ 7) * -uTD 38.6 := by
  have h1 : uT 38.6 = (-38.48142965554307271 : ℝ) + (uT 38.6 + 38.48142965554307271) := by ring
  refine ⟨?_, ?_, ?_⟩
  · simp only [uT, ev, jC, jD]; norm_num
  all_goals
    simp only [tail, hor, cp, cq, List.foldl, rootK, uT, uTD, jW, wron, ev_addl, ev_smul, ev_mull]
    simp only [ev, jC, jD, derl, addl]
    norm_num

end OP.Stat
