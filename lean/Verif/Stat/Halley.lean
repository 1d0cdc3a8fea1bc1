import Verif.Stat.InvStart

/-!
The step of Halley's method in `stdnormal_inv`.
-/

namespace OP.Stat

open Filter Topology

theorem hasDerivAt_phi (x : ℝ) : HasDerivAt phi (-(x * phi x)) x := by
  have h := ((((hasDerivAt_id x).fun_pow 2).fun_neg.div_const 2).exp).div_const (√(2 * Real.pi))
  refine h.congr_deriv ?_
  simp [phi]; ring

theorem hasDerivAt_Q (x : ℝ) : HasDerivAt (fun x => 1 - Phi x) (-phi x) x := (hasDerivAt_Phi x).const_sub 1

theorem Q_tendsto : Tendsto (fun x => 1 - Phi x) atTop (𝓝 0) := by
  simpa using Phi_tendsto.const_sub 1

theorem phi_tendsto : Tendsto phi atTop (𝓝 0) := by
  have h : Tendsto (fun x : ℝ => -x ^ 2 / 2) atTop atBot := by
    have h1 : Tendsto (fun x : ℝ => x ^ 2) atTop atTop := tendsto_pow_atTop (by norm_num)
    have h2 := (tendsto_neg_atTop_atBot.comp h1).atBot_div_const (show (0 : ℝ) < 2 by norm_num)
    exact h2
  have h2 := (Real.tendsto_exp_atBot.comp h).div_const (√(2 * Real.pi))
  rw [zero_div] at h2
  exact h2

theorem mills_one (v : ℝ) (hv : 0 ≤ v) : v * (1 - Phi v) ≤ phi v := by
  rcases hv.eq_or_lt with rfl | hv
  · simpa using (phi_pos 0).le
  have hd : ∀ x : ℝ, 0 < x → HasDerivAt (fun x => (1 - Phi x) - phi x / x) (phi x / x ^ 2) x := by
    intro x hx
    refine ((hasDerivAt_Q x).fun_sub ((hasDerivAt_phi x).fun_div (hasDerivAt_id x) hx.ne')).congr_deriv ?_
    simp; field_simp; ring
  have h : ∀ᶠ b in atTop, (1 - Phi v) - phi v / v ≤ (1 - Phi b) - phi b / b := by
    filter_upwards [eventually_ge_atTop v] with b hb
    exact up_of_deriv (f := fun x => (1 - Phi x) - phi x / x) (fun x hx => hd x (hv.trans_le hx.1))
      (fun x hx => by have := phi_pos x; positivity) hb
  have hl : Tendsto (fun x => (1 - Phi x) - phi x / x) atTop (𝓝 (0 - 0)) :=
    Q_tendsto.sub (phi_tendsto.div_atTop tendsto_id)
  have := ge_of_tendsto hl h
  rw [sub_zero] at this
  have h3 : 1 - Phi v ≤ phi v / v := by linarith
  rw [le_div_iff₀ hv] at h3
  linarith

theorem mills_two (v : ℝ) (hv : 0 ≤ v) : 1 - Phi v ≤ 1.26 * phi v := by
  have hd : ∀ x : ℝ, HasDerivAt (fun x => 1.26 * phi x - (1 - Phi x)) (phi x * (1 - 1.26 * x)) x := by
    intro x
    refine (((hasDerivAt_phi x).const_mul 1.26).fun_sub (hasDerivAt_Q x)).congr_deriv ?_
    ring
  rcases le_total v (1 / 1.26) with h | h
  · have := up_of_deriv (f := fun x => 1.26 * phi x - (1 - Phi x)) (fun x _ => hd x) (fun x hx => by
      have h1 := phi_pos x
      have h2 : 0 ≤ 1 - 1.26 * x := by have := hx.2.trans h; norm_num at *; linarith
      positivity) hv
    have e : phi 0 = kap := by rw [phi_eq]; simp
    rw [Phi_zero, e] at this
    have := kap_gt
    norm_num at *; linarith
  · have h : ∀ᶠ b in atTop, (1 - Phi v) - 1.26 * phi v ≤ (1 - Phi b) - 1.26 * phi b := by
      filter_upwards [eventually_ge_atTop v] with b hb
      exact up_of_deriv (f := fun x => (1 - Phi x) - 1.26 * phi x)
        (fun x hx => (hasDerivAt_Q x).fun_sub ((hasDerivAt_phi x).const_mul 1.26))
        (fun x hx => by
          have h1 := phi_pos x
          have h2 : 0 ≤ 1.26 * x - 1 := by have := h.trans hx.1; norm_num at *; linarith
          have := mul_nonneg h1.le h2
          linarith) hb
    have hl : Tendsto (fun x => (1 - Phi x) - 1.26 * phi x) atTop (𝓝 (0 - 1.26 * 0)) :=
      Q_tendsto.sub (phi_tendsto.const_mul _)
    have := ge_of_tendsto hl h
    rw [mul_zero, sub_zero] at this
    linarith

theorem mills (u : ℝ) (hu : u ≤ 0) : |u| * Phi u ≤ phi u ∧ Phi u ≤ 1.26 * phi u := by
  have h1 := mills_one (-u) (by linarith)
  have h2 := mills_two (-u) (by linarith)
  rw [Phi_neg, phi_neg] at h1 h2
  rw [abs_of_nonpos hu]
  constructor <;> linarith

/-- The distribution function close to a point, to the third order. -/
theorem Phi_taylor (u d : ℝ) (hd : |d| ≤ 1 / 10 ^ 4) (hud : |u * d| ≤ 1 / 10 ^ 4) :
    |Phi (u + d) - Phi u - phi u * (d - u * d ^ 2 / 2)| ≤ phi u * (u ^ 2 + 0.51) * |d| ^ 3 / 3 := by
  have hp := phi_pos u
  have hf : ∀ x ∈ Set.Icc (0 : ℝ) 1, HasDerivAt
      (fun s => Phi (u + s * d) - phi u * (s * d - u * (s * d) ^ 2 / 2))
      (d * (phi u * (Real.exp (-u * (x * d) - (x * d) ^ 2 / 2) - 1 + u * (x * d)))) x := by
    intro x _
    have h1 : HasDerivAt (fun s : ℝ => s * d) d x := by simpa using (hasDerivAt_id x).mul_const d
    have h2 := (hasDerivAt_Phi (u + x * d)).comp x (h1.const_add u)
    have h3 := (h1.fun_sub (((h1.fun_pow 2).const_mul u).div_const 2)).const_mul (phi u)
    refine (h2.fun_sub h3).congr_deriv ?_
    have e : phi (u + x * d) = phi u * Real.exp (-u * (x * d) - (x * d) ^ 2 / 2) := by
      rw [phi_eq, phi_eq, mul_assoc, ← Real.exp_add]
      congr 2; ring
    rw [e]; push_cast; ring
  have hg : ∀ x ∈ Set.Icc (0 : ℝ) 1, HasDerivAt (fun s : ℝ => phi u * (u ^ 2 + 0.51) * |d| ^ 3 / 3 * s ^ 3)
      (phi u * (u ^ 2 + 0.51) * |d| ^ 3 * x ^ 2) x := by
    intro x _
    refine (((hasDerivAt_id x).fun_pow 3).const_mul _).congr_deriv ?_
    simp; ring
  have h := abs_le_of_deriv hf hg (fun x hx => ?_) zero_le_one
  · simp only [one_mul, zero_mul, add_zero] at h
    convert h using 1
    · congr 1; ring
    · ring
  · obtain ⟨hx0, hx1⟩ := hx
    have e1 : |x * d| ≤ 1 / 10 ^ 4 := by
      rw [abs_mul, abs_of_nonneg hx0]
      calc x * |d| ≤ 1 * |d| := mul_le_mul_of_nonneg_right hx1 (abs_nonneg d)
        _ ≤ _ := by rw [one_mul]; exact hd
    have e2 : |u * (x * d)| ≤ 1 / 10 ^ 4 := by
      rw [show u * (x * d) = x * (u * d) by ring, abs_mul, abs_of_nonneg hx0]
      calc x * |u * d| ≤ 1 * |u * d| := mul_le_mul_of_nonneg_right hx1 (abs_nonneg _)
        _ ≤ _ := by rw [one_mul]; exact hud
    have e3 : |d| ^ 3 * x ^ 2 = |d| * (x * d) ^ 2 := by
      rw [show |d| ^ 3 = |d| * |d| ^ 2 by ring, sq_abs]; ring
    rw [abs_mul, abs_mul, abs_of_pos hp, mul_assoc _ (|d| ^ 3), e3]
    generalize x * d = z at *
    have hy : |-u * z - z ^ 2 / 2| ≤ 1 := by
      rw [abs_le] at *
      constructor <;> norm_num at * <;> nlinarith
    have hb := Real.abs_exp_sub_one_sub_id_le hy
    have hq : (-u * z - z ^ 2 / 2) ^ 2 ≤ (u ^ 2 + 0.005) * z ^ 2 := by
      have : (-u * z - z ^ 2 / 2) ^ 2 = (u ^ 2 + u * z + z ^ 2 / 4) * z ^ 2 := by ring
      rw [this]
      refine mul_le_mul_of_nonneg_right ?_ (sq_nonneg z)
      have : z ^ 2 ≤ (1 / 10 ^ 4) ^ 2 := by rw [← sq_abs]; exact pow_le_pow_left₀ (abs_nonneg z) e1 2
      have := (abs_le.mp e2).2
      norm_num at *; linarith
    have hc : |Real.exp (-u * z - z ^ 2 / 2) - 1 + u * z| ≤ (u ^ 2 + 0.51) * z ^ 2 := by
      generalize Real.exp (-u * z - z ^ 2 / 2) = E at *
      have hz := sq_nonneg z
      rw [abs_le] at hb ⊢
      constructor <;> norm_num at * <;> linarith [hb.1, hb.2]
    calc |d| * (phi u * |Real.exp (-u * z - z ^ 2 / 2) - 1 + u * z|)
        ≤ |d| * (phi u * ((u ^ 2 + 0.51) * z ^ 2)) := by gcongr
      _ = _ := by ring

theorem rootL_near : |rootL * kap - 1| ≤ 1 / 10 ^ 19 := by
  have h1 := kap_lo
  have h2 := kap_hi
  have a : rootL * (rootK - 1 / 10 ^ 20) ≤ rootL * kap := mul_le_mul_of_nonneg_left h1 (by norm_num [rootL])
  have b : rootL * kap ≤ rootL * (rootK + 1 / 10 ^ 20) := mul_le_mul_of_nonneg_left h2 (by norm_num [rootL])
  rw [abs_le]
  constructor <;> norm_num [rootL, rootK] at * <;> linarith

theorem cdfR_near (u : ℝ) : |cdfR u - Phi u| ≤ 5 / 10 ^ 16 * min (Phi u) (1 - Phi u) := by
  rw [cdfR_eq]
  rcases lt_or_ge u 0 with h | h
  · have h1 := upper_near (-u) (by linarith)
    rw [Phi_neg] at h1
    have h2 := Phi_strictMono h
    rw [Phi_zero] at h2
    rw [if_pos h, min_eq_left (by linarith)]
    simpa using h1
  · have h1 := upper_near u h
    have h2 := Phi_strictMono.monotone h
    rw [Phi_zero] at h2
    rw [if_neg (not_lt.2 h), min_eq_right (by linarith), show 1 - upper u - Phi u = -(upper u - (1 - Phi u)) by ring,
      abs_neg]
    exact h1

/-- The algebra of the step. -/
theorem halley_alg {u t w : ℝ} (hw : w = 1 + u * t / 2) (h : w ≠ 0) :
    -(t / w) - u * (-(t / w)) ^ 2 / 2 = -t + t * ((u * t) ^ 2 / (4 * w ^ 2)) := by
  have hu : u * t = 2 * (w - 1) := by rw [hw]; ring
  have : u * (-(t / w)) ^ 2 = (u * t) * t / w ^ 2 := by field_simp
  rw [this, hu]
  field_simp
  ring

theorem halley_near (u q : ℝ) (hq : 0 < q) (hu : u ≤ 0) (h : |Phi u - q| ≤ 23 / 10 ^ 6 * q) :
    |Phi (halley u q) - q| ≤ 12 / 10 ^ 15 * q := by
  obtain ⟨m1, m2⟩ := mills u hu
  have hp := phi_pos u
  have hP := Phi_pos u
  have hP2 : Phi u ≤ (1 + 23 / 10 ^ 6) * q := by linarith [(abs_le.mp h).2]
  have hP3 : (1 - 23 / 10 ^ 6) * q ≤ Phi u := by linarith [(abs_le.mp h).1]
  have hc : |cdfR u - Phi u| ≤ 5 / 10 ^ 16 * Phi u :=
    (cdfR_near u).trans (mul_le_mul_of_nonneg_left (min_le_left _ _) (by norm_num))
  -- the residual
  have h0 : |cdfR u - q| ≤ 2301 / 10 ^ 8 * q := by
    have : |cdfR u - q| ≤ |cdfR u - Phi u| + |Phi u - q| := abs_sub_le _ _ _
    norm_num at *; linarith
  have hphi : phi u * (rootL * Real.exp (u * u / 2)) = rootL * kap := by
    rw [phi_eq]
    have : Real.exp (-u ^ 2 / 2) * Real.exp (u * u / 2) = 1 := by rw [← Real.exp_add]; simp; ring
    calc _ = rootL * kap * (Real.exp (-u ^ 2 / 2) * Real.exp (u * u / 2)) := by ring
      _ = _ := by rw [this, mul_one]
  simp only [halley]
  set t0 := cdfR u - q with ht0
  set t := t0 * (rootL * Real.exp (u * u / 2)) with ht
  have hpt : phi u * t = t0 * (rootL * kap) := by rw [← hphi, ht]; ring
  have hr := rootL_near
  have hr2 : |rootL * kap| ≤ 1 + 1 / 10 ^ 19 := by
    have := abs_add_le (rootL * kap - 1) 1
    simp only [sub_add_cancel, abs_one] at this
    linarith
  have hpt2 : phi u * |t| ≤ 23011 / 10 ^ 9 * q := by
    rw [← abs_of_pos hp, ← abs_mul, hpt, abs_mul]
    calc |t0| * |rootL * kap| ≤ (2301 / 10 ^ 8 * q) * (1 + 1 / 10 ^ 19) := mul_le_mul h0 hr2 (abs_nonneg _) (by positivity)
      _ ≤ _ := by norm_num at *; linarith
  have hpt3 : phi u * |t| ≤ 23012 / 10 ^ 9 * Phi u := by norm_num at *; linarith
  have ht1 : |t| ≤ 29 / 10 ^ 6 := by
    refine le_of_mul_le_mul_left ?_ hp
    norm_num at *; linarith
  have hut : |u * t| ≤ 23012 / 10 ^ 9 := by
    refine le_of_mul_le_mul_left ?_ hp
    rw [abs_mul]
    calc phi u * (|u| * |t|) = |u| * (phi u * |t|) := by ring
      _ ≤ |u| * (23012 / 10 ^ 9 * Phi u) := mul_le_mul_of_nonneg_left hpt3 (abs_nonneg u)
      _ = 23012 / 10 ^ 9 * (|u| * Phi u) := by ring
      _ ≤ 23012 / 10 ^ 9 * phi u := mul_le_mul_of_nonneg_left m1 (by norm_num)
      _ = _ := by ring
  set w := 1 + u * t / 2 with hw
  have hw1 : 0.9999 ≤ w := by have := (abs_le.mp hut).1; norm_num at *; linarith
  have hw0 : 0 < w := lt_of_lt_of_le (by norm_num) hw1
  have hiw : w⁻¹ ≤ 1.00011 := by
    rw [inv_le_comm₀ hw0 (by norm_num)]
    exact le_trans (by norm_num) hw1
  have hiw0 : 0 < w⁻¹ := by positivity
  have hd1 : |-(t / w)| ≤ 1.00011 * |t| := by
    rw [abs_neg, abs_div, abs_of_pos hw0, div_eq_mul_inv, mul_comm]
    exact mul_le_mul_of_nonneg_right hiw (abs_nonneg t)
  have hd2 : |u * -(t / w)| ≤ 1.00011 * |u * t| := by
    rw [show u * -(t / w) = -((u * t) * w⁻¹) by field_simp, abs_neg, abs_mul, abs_of_pos hiw0, mul_comm]
    exact mul_le_mul_of_nonneg_right hiw (abs_nonneg _)
  have hd3 : |u| * |-(t / w)| ≤ 1.00011 * (23012 / 10 ^ 9) := by
    rw [← abs_mul]
    exact hd2.trans (mul_le_mul_of_nonneg_left hut (by norm_num))
  have ht := Phi_taylor u (-(t / w)) (hd1.trans (by norm_num at *; linarith)) (hd2.trans (by norm_num at *; linarith))
  rw [halley_alg hw hw0.ne'] at ht
  rw [← sub_eq_add_neg] at ht
  -- the remainder
  have hR : phi u * (u ^ 2 + 0.51) * |-(t / w)| ^ 3 / 3 ≤ 1.00011 * (23011 / 10 ^ 9 * q) * (33 / 10 ^ 11) := by
    have a1 : (u ^ 2 + 0.51) * |-(t / w)| ^ 2 / 3 ≤ 33 / 10 ^ 11 := by
      have b1 : u ^ 2 * |-(t / w)| ^ 2 ≤ (1.00011 * (23012 / 10 ^ 9)) ^ 2 := by
        rw [← sq_abs u, ← mul_pow]
        exact pow_le_pow_left₀ (by positivity) hd3 2
      have b2 : |-(t / w)| ^ 2 ≤ (1.00011 * (29 / 10 ^ 6)) ^ 2 :=
        pow_le_pow_left₀ (abs_nonneg _) (hd1.trans (mul_le_mul_of_nonneg_left ht1 (by norm_num))) 2
      clear ht
      norm_num at *; linarith
    have a2 : phi u * |-(t / w)| ≤ 1.00011 * (23011 / 10 ^ 9 * q) := by
      calc phi u * |-(t / w)| ≤ phi u * (1.00011 * |t|) := mul_le_mul_of_nonneg_left hd1 hp.le
        _ = 1.00011 * (phi u * |t|) := by ring
        _ ≤ _ := mul_le_mul_of_nonneg_left hpt2 (by norm_num)
    calc phi u * (u ^ 2 + 0.51) * |-(t / w)| ^ 3 / 3
        = (phi u * |-(t / w)|) * ((u ^ 2 + 0.51) * |-(t / w)| ^ 2 / 3) := by ring
      _ ≤ _ := mul_le_mul a2 a1 (by positivity) (by positivity)
  have hS : |phi u * (t * ((u * t) ^ 2 / (4 * w ^ 2)))| ≤ 23011 / 10 ^ 9 * q * (14 / 10 ^ 11) := by
    rw [show phi u * (t * ((u * t) ^ 2 / (4 * w ^ 2))) = phi u * t * ((u * t) ^ 2 / (4 * w ^ 2)) by ring, abs_mul]
    refine mul_le_mul ?_ ?_ (abs_nonneg _) (by positivity)
    · rw [abs_mul, abs_of_pos hp]; exact hpt2
    · have e : (u * t) ^ 2 / (4 * w ^ 2) = (|u * t|) ^ 2 * (w⁻¹) ^ 2 / 4 := by rw [sq_abs]; field_simp
      rw [abs_of_nonneg (by positivity), e]
      have b1 := pow_le_pow_left₀ (abs_nonneg _) hut 2
      have b2 := pow_le_pow_left₀ hiw0.le hiw 2
      have b3 := mul_le_mul b1 b2 (by positivity) (by positivity)
      clear ht
      norm_num at *; linarith
  have hT : |t0 * (rootL * kap) - t0| ≤ 1 / 10 ^ 19 * (2301 / 10 ^ 8 * q) := by
    rw [show t0 * (rootL * kap) - t0 = (rootL * kap - 1) * t0 by ring, abs_mul]
    exact mul_le_mul hr h0 (abs_nonneg _) (by norm_num)
  have key : Phi (u - t / w) - q =
      (Phi (u - t / w) - Phi u - phi u * (-t + t * ((u * t) ^ 2 / (4 * w ^ 2)))) +
      phi u * (t * ((u * t) ^ 2 / (4 * w ^ 2))) - (t0 * (rootL * kap) - t0) - (cdfR u - Phi u) := by
    rw [← hpt, ht0]; ring
  rw [key]
  have hq' : 0 ≤ 1.00011 * (23011 / 10 ^ 9 * q) * (33 / 10 ^ 11) := by positivity
  have x1 := abs_le.mp (ht.trans hR)
  have x2 := abs_le.mp hS
  have x3 := abs_le.mp hT
  have x4 := abs_le.mp hc
  generalize Phi (u - t / w) - Phi u - phi u * (-t + t * ((u * t) ^ 2 / (4 * w ^ 2))) = y1 at *
  generalize phi u * (t * ((u * t) ^ 2 / (4 * w ^ 2))) = y2 at *
  generalize t0 * (rootL * kap) - t0 = y3 at *
  clear ht hR hS hT hc key
  rw [abs_le]
  obtain ⟨x11, x12⟩ := x1
  obtain ⟨x21, x22⟩ := x2
  obtain ⟨x31, x32⟩ := x3
  obtain ⟨x41, x42⟩ := x4
  constructor <;> norm_num at * <;> linarith

theorem invR_near (p : ℝ) (h0 : (1 / 2) ^ 1074 ≤ p) (h1 : (1 / 2) ^ 1074 ≤ 1 - p) :
    |Phi (invR p) - p| ≤ 12 / 10 ^ 15 * min p (1 - p) := by
  have hm : (1 / 2) ^ 1074 ≤ min p (1 - p) := le_min h0 h1
  have hm0 : 0 < min p (1 - p) := lt_of_lt_of_le (by positivity) hm
  have hm1 : min p (1 - p) ≤ 0.5 := by
    rcases le_total p (1 - p) with h | h
    · rw [min_eq_left h]; norm_num at *; linarith
    · rw [min_eq_right h]; norm_num at *; linarith
  obtain ⟨a, b⟩ := start_near _ hm hm1
  have h := halley_near _ _ hm0 b a
  simp only [invR]
  rcases lt_or_ge 0.5 p with hp | hp
  · have e : min p (1 - p) = 1 - p := min_eq_right (by norm_num at *; linarith)
    rw [if_pos hp, Phi_neg]
    rw [e] at h ⊢
    rw [show 1 - Phi (halley (invStart (1 - p)) (1 - p)) - p =
      -(Phi (halley (invStart (1 - p)) (1 - p)) - (1 - p)) by ring, abs_neg]
    exact h
  · have e : min p (1 - p) = p := min_eq_left (by norm_num at *; linarith)
    rw [if_neg (not_lt.2 hp)]
    rw [e] at h ⊢
    exact h

end OP.Stat
