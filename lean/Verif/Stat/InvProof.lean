import Verif.Stat.InvCert
import Mathlib.Analysis.SpecialFunctions.Log.Deriv

/-!
How far the first value of `stdnormal_inv` is from the inverse of the distribution function, and what the step of
Halley's method leaves.
-/

namespace OP.Stat

open Filter Topology

/-! Central region. -/

noncomputable def uC (s : ℝ) : ℝ := s * (ev kA (s * s) / ev kB (s * s))
noncomputable def uCD (s : ℝ) : ℝ := ev kW (s * s) / ev kB (s * s) ^ 2
noncomputable def uCR (s : ℝ) : ℝ :=
  2 * s * (ev (derl kW) (s * s) / ev kW (s * s) - 2 * ev (derl kB) (s * s) / ev kB (s * s))

theorem sq_le_c {s : ℝ} (h0 : 0 ≤ s) (h1 : s ≤ 0.4758) : 4096 * (s * s) ≤ 928 := by
  have : s * s ≤ 0.4758 * 0.4758 := mul_le_mul h1 h1 h0 (by norm_num)
  norm_num at *; linarith

theorem kB_pos {s : ℝ} (h0 : 0 ≤ s) (h1 : s ≤ 0.4758) : 0 < ev kB (s * s) := by
  have h := nonneg_of_pieces 4096 0 _ _ _ _ rfl (by norm_num) kB_check (by decide) 928 (by simp) (s * s)
    (by push_cast; nlinarith [mul_self_nonneg s]) (by push_cast; exact sq_le_c h0 h1)
  rw [ev_addl, ev_smul] at h
  have : ev [-10 ^ 15] (s * s) = -10 ^ 15 := by simp only [ev]; push_cast; ring
  rw [this] at h
  push_cast at h
  norm_num at h
  linarith

theorem kW_pos {s : ℝ} (h0 : 0 ≤ s) (h1 : s ≤ 0.4758) : 0 < ev kW (s * s) := by
  have h := nonneg_of_pieces 4096 0 _ _ _ _ rfl (by norm_num) kW_check (by decide) 928 (by simp) (s * s)
    (by push_cast; nlinarith [mul_self_nonneg s]) (by push_cast; exact sq_le_c h0 h1)
  rw [ev_addl, ev_smul, ev_mull] at h
  have := kB_pos h0 h1
  push_cast at h
  nlinarith

theorem hasDerivAt_sq (s : ℝ) : HasDerivAt (fun s : ℝ => s * s) (2 * s) s := by
  refine ((hasDerivAt_id s).fun_mul (hasDerivAt_id s)).congr_deriv ?_
  simp only [id]; ring

theorem hasDerivAt_ev_sq (l : List ℤ) (s : ℝ) :
    HasDerivAt (fun s => ev l (s * s)) (ev (derl l) (s * s) * (2 * s)) s :=
  HasDerivAt.comp (h := fun u : ℝ => u * u) s (hasDerivAt_ev l (s * s)) (hasDerivAt_sq s)

theorem hasDerivAt_uC (s : ℝ) (hB : ev kB (s * s) ≠ 0) : HasDerivAt uC (uCD s) s := by
  refine ((hasDerivAt_id s).fun_mul ((hasDerivAt_ev_sq kA s).fun_div (hasDerivAt_ev_sq kB s) hB)).congr_deriv ?_
  have h0 : ∀ l, ev (0 :: l) (s * s) = s * s * ev l (s * s) := by intro l; simp [ev]
  simp only [uCD, kW, wron, ev_addl, ev_smul, ev_mull, id, h0]
  push_cast
  field_simp
  ring

theorem hasDerivAt_uCD (s : ℝ) (hB : ev kB (s * s) ≠ 0) (hW : ev kW (s * s) ≠ 0) :
    HasDerivAt uCD (uCD s * uCR s) s := by
  refine ((hasDerivAt_ev_sq kW s).fun_div ((hasDerivAt_ev_sq kB s).fun_pow 2) (pow_ne_zero 2 hB)).congr_deriv ?_
  simp only [uCD, uCR]
  generalize ev kB (s * s) = b at *
  generalize ev kW (s * s) = w at *
  push_cast
  field_simp

theorem rhoC (s : ℝ) (h0 : 0 ≤ s) (h1 : s ≤ 0.4758) :
    |uCR s - uC s * uCD s| ≤ s * (3 / 10 ^ 6 + 16384 / 10 ^ 12 / (1 - 4 * (s * s)) ^ 5) := by
  have hB := kB_pos h0 h1
  have hW := kW_pos h0 h1
  have ha : (0 : ℝ) ≤ 4096 * (s * s) := by nlinarith [mul_self_nonneg s]
  have hp := nonneg_of_pieces 4096 0 _ _ _ _ rfl (by norm_num) posI_check (by decide) 928 (by simp) (s * s)
    (by push_cast; exact ha) (by push_cast; exact sq_le_c h0 h1)
  have hn := nonneg_of_pieces 4096 0 _ _ _ _ rfl (by norm_num) negI_check (by decide) 928 (by simp) (s * s)
    (by push_cast; exact ha) (by push_cast; exact sq_le_c h0 h1)
  rw [← ev_of_samel posI_eq, ev_addl, ev_smul, ev_mull] at hp
  rw [← ev_of_samel negI_eq, ev_addl, ev_smul, ev_mull] at hn
  have hq : 0 < 1 - 4 * (s * s) := by have := sq_le_c h0 h1; linarith
  have e1 : ev kq (s * s) = (1 - 4 * (s * s)) ^ 5 := by simp only [kq, ev]; push_cast; ring
  have e2 : ev numI (s * s) * s = ev kW (s * s) * ev kB (s * s) ^ 3 * (uCR s - uC s * uCD s) := by
    simp only [numI, uCR, uC, uCD, cub, ev_addl, ev_smul, ev_mull]
    clear hp hn
    generalize ev kB (s * s) = b at *
    generalize ev kW (s * s) = w at *
    push_cast
    field_simp
    ring
  have e3 : ev bndI (s * s) = (3 * 10 ^ 9 * (1 - 4 * (s * s)) ^ 5 + 16384000) * (ev kW (s * s) * ev kB (s * s) ^ 3) := by
    have : ev [16384000] (s * s) = 16384000 := by simp [ev]
    simp only [bndI, cub, ev_addl, ev_smul, ev_mull, this, e1]
    push_cast
    ring
  have hX : 0 < ev kW (s * s) * ev kB (s * s) ^ 3 := by positivity
  rw [e1, e3] at hp hn
  generalize ev kW (s * s) * ev kB (s * s) ^ 3 = X at *
  generalize uCR s - uC s * uCD s = r at *
  generalize ev numI (s * s) = n at *
  generalize 1 - 4 * (s * s) = y at *
  push_cast at hp hn
  have hy : 0 < y ^ 5 := by positivity
  have hp2 := mul_nonneg hp h0
  have hn2 := mul_nonneg hn h0
  have hp3 : 0 ≤ X * ((3 * 10 ^ 9 * y ^ 5 + 16384000) * s + 10 ^ 15 * y ^ 5 * r) := by
    calc (0 : ℝ) ≤ _ := hp2
      _ = _ := by linear_combination (10 ^ 15 * y ^ 5) * e2
  have hn3 : 0 ≤ X * ((3 * 10 ^ 9 * y ^ 5 + 16384000) * s - 10 ^ 15 * y ^ 5 * r) := by
    calc (0 : ℝ) ≤ _ := hn2
      _ = _ := by linear_combination (-10 ^ 15 * y ^ 5) * e2
  have hp4 := nonneg_of_mul_nonneg_right hp3 hX
  have hn4 := nonneg_of_mul_nonneg_right hn3 hX
  have e5 : s * (3 / 10 ^ 6 + 16384 / 10 ^ 12 / y ^ 5) = (3 * 10 ^ 9 * y ^ 5 + 16384000) * s / (10 ^ 15 * y ^ 5) := by
    field_simp; ring
  rw [e5, abs_le, le_div_iff₀ (by positivity), neg_le_iff_add_nonneg, ← sub_nonneg]
  constructor
  · have : 0 ≤ ((3 * 10 ^ 9 * y ^ 5 + 16384000) * s + 10 ^ 15 * y ^ 5 * r) / (10 ^ 15 * y ^ 5) := by positivity
    calc (0 : ℝ) ≤ _ := this
      _ = _ := by field_simp; ring
  · linarith

theorem abs_le_of_deriv {f f' g g' : ℝ → ℝ} {a b : ℝ} (hf : ∀ x ∈ Set.Icc a b, HasDerivAt f (f' x) x)
    (hg : ∀ x ∈ Set.Icc a b, HasDerivAt g (g' x) x) (h : ∀ x ∈ Set.Icc a b, |f' x| ≤ g' x) (hab : a ≤ b) :
    |f b - f a| ≤ g b - g a := by
  have h1 := up_of_deriv (f := fun x => g x - f x) (fun x hx => (hg x hx).fun_sub (hf x hx))
    (fun x hx => by have := (abs_le.mp (h x hx)).2; linarith) hab
  have h2 := up_of_deriv (f := fun x => g x + f x) (fun x hx => (hg x hx).fun_add (hf x hx))
    (fun x hx => by have := (abs_le.mp (h x hx)).1; linarith) hab
  rw [abs_le]
  constructor <;> linarith

noncomputable def LC (s : ℝ) : ℝ := Real.log (uCD s) - uC s ^ 2 / 2
noncomputable def GC (s : ℝ) : ℝ := 15 / 10 ^ 7 * s ^ 2 + 512 / 10 ^ 12 / (1 - 4 * (s * s)) ^ 4

theorem uCD_pos {s : ℝ} (h0 : 0 ≤ s) (h1 : s ≤ 0.4758) : 0 < uCD s := by
  have := kB_pos h0 h1
  have := kW_pos h0 h1
  unfold uCD; positivity

theorem LC_near (s : ℝ) (h0 : 0 ≤ s) (h1 : s ≤ 0.4758) : |LC s - LC 0| ≤ GC s - GC 0 := by
  refine abs_le_of_deriv (f' := fun s => uCR s - uC s * uCD s)
    (g' := fun s => s * (3 / 10 ^ 6 + 16384 / 10 ^ 12 / (1 - 4 * (s * s)) ^ 5)) (fun x hx => ?_) (fun x hx => ?_)
    (fun x hx => rhoC x hx.1 (hx.2.trans h1)) h0
  · have hx1 := hx.2.trans h1
    have hp := uCD_pos hx.1 hx1
    have hB := (kB_pos hx.1 hx1).ne'
    have hW := (kW_pos hx.1 hx1).ne'
    refine (((hasDerivAt_uCD x hB hW).log hp.ne').fun_sub (((hasDerivAt_uC x hB).fun_pow 2).div_const 2)).congr_deriv ?_
    push_cast
    field_simp
  · have hq : 0 < 1 - 4 * (x * x) := by have := sq_le_c hx.1 (hx.2.trans h1); linarith
    have hy : HasDerivAt (fun s : ℝ => 1 - 4 * (s * s)) (-(4 * (2 * x))) x :=
      ((hasDerivAt_sq x).const_mul 4).const_sub 1
    refine ((((hasDerivAt_id x).fun_pow 2).const_mul (15 / 10 ^ 7)).fun_add
      ((hasDerivAt_const x (512 / 10 ^ 12 : ℝ)).fun_div (hy.fun_pow 4) (by positivity))).congr_deriv ?_
    simp only [id]
    push_cast
    field_simp
    ring

theorem LC_zero : |LC 0 + Real.log kap| ≤ 2 / 10 ^ 9 := by
  have h0 : uCD 0 = 2.506628277459239 := by
    simp only [uCD, kW, wron, ev_addl, ev_smul, ev_mull]
    simp only [ev, kA, kB, derl, addl]
    norm_num
  have h1 : uC 0 = 0 := by simp [uC]
  have hk := kap_gt
  have hlo := kap_lo
  have hhi := kap_hi
  rw [LC, h0, h1]
  rw [show Real.log 2.506628277459239 - (0 : ℝ) ^ 2 / 2 + Real.log kap = Real.log (2.506628277459239 * kap) by
    rw [Real.log_mul (by norm_num) (by norm_num at hk; linarith)]; ring]
  have hp : 0 < 2.506628277459239 * kap := by norm_num at *; linarith
  have a := Real.log_le_sub_one_of_pos hp
  have b := Real.one_sub_inv_le_log_of_pos hp
  have c : (2.506628277459239 * kap)⁻¹ ≤ 1 + 2 / 10 ^ 9 := by
    rw [inv_le_comm₀ hp (by norm_num)]
    norm_num [rootK] at *; linarith
  rw [abs_le]
  constructor
  · linarith
  · norm_num [rootK] at *; linarith

/-- The derivative of the distribution function along the first value. -/
theorem phi_uC (s : ℝ) (h0 : 0 ≤ s) (h1 : s ≤ 0.4758) :
    phi (uC s) * uCD s = Real.exp (LC s + Real.log kap) := by
  have hp := uCD_pos h0 h1
  have hk : 0 < kap := by have := kap_gt; norm_num at *; linarith
  rw [Real.exp_add, Real.exp_log hk, LC, Real.exp_sub, Real.exp_log hp, phi_eq,
    show -uC s ^ 2 / 2 = -(uC s ^ 2 / 2) by ring, Real.exp_neg]
  field_simp

noncomputable def HC (s : ℝ) : ℝ := 1 / 10 ^ 6 * s ^ 3 + 172 / 10 ^ 12 / (1 - 4 * (s * s)) ^ 3 + 74 / 10 ^ 10 * s

theorem HC_deriv (s : ℝ) (h0 : 0 ≤ s) (h1 : s ≤ 0.4758) : ∃ d, HasDerivAt HC d s ∧ 2 * (2 / 10 ^ 9 + GC s) ≤ d := by
  have hq : 0 < 1 - 4 * (s * s) := by have := sq_le_c h0 h1; linarith
  have hy : HasDerivAt (fun s : ℝ => 1 - 4 * (s * s)) (-(4 * (2 * s))) s :=
    ((hasDerivAt_sq s).const_mul 4).const_sub 1
  refine ⟨3 / 10 ^ 6 * s ^ 2 + 172 / 10 ^ 12 * 24 * s / (1 - 4 * (s * s)) ^ 4 + 74 / 10 ^ 10, ?_, ?_⟩
  · refine (((((hasDerivAt_id s).fun_pow 3).const_mul (1 / 10 ^ 6)).fun_add
      ((hasDerivAt_const s (172 / 10 ^ 12 : ℝ)).fun_div (hy.fun_pow 3) (by positivity))).fun_add
      ((hasDerivAt_id s).const_mul (74 / 10 ^ 10))).congr_deriv ?_
    simp only [id]
    push_cast
    field_simp
    ring
  · rw [GC]
    have hy4 : 0 < (1 - 4 * (s * s)) ^ 4 := by positivity
    by_cases hs : s < 0.25
    · have : (0.75 : ℝ) ^ 4 ≤ (1 - 4 * (s * s)) ^ 4 := by
        refine pow_le_pow_left₀ (by norm_num) ?_ 4
        norm_num at *; nlinarith
      have h2 : 512 / 10 ^ 12 / (1 - 4 * (s * s)) ^ 4 ≤ 17 / 10 ^ 10 := by
        rw [div_le_iff₀ hy4]
        norm_num at *; linarith
      have h3 : 0 ≤ 172 / 10 ^ 12 * 24 * s / (1 - 4 * (s * s)) ^ 4 := by positivity
      norm_num at *; linarith
    · have h2 : 2 * (512 / 10 ^ 12 / (1 - 4 * (s * s)) ^ 4) ≤ 172 / 10 ^ 12 * 24 * s / (1 - 4 * (s * s)) ^ 4 := by
        rw [← mul_div_assoc]
        refine div_le_div_of_nonneg_right ?_ hy4.le
        norm_num at *; linarith
      norm_num at *; linarith

theorem GC_small (s : ℝ) (h0 : 0 ≤ s) (h1 : s ≤ 0.4758) : GC s ≤ 1 / 10 ^ 4 := by
  have hq : 0.09 ≤ 1 - 4 * (s * s) := by have := sq_le_c h0 h1; norm_num at *; linarith
  have h4 : (0.09 : ℝ) ^ 4 ≤ (1 - 4 * (s * s)) ^ 4 := pow_le_pow_left₀ (by norm_num) hq 4
  have h5 : 512 / 10 ^ 12 / (1 - 4 * (s * s)) ^ 4 ≤ 2 / 10 ^ 5 := by
    rw [div_le_iff₀ (by positivity)]
    norm_num at *; linarith
  have := sq_le_c h0 h1
  rw [GC]
  norm_num at *; nlinarith

theorem exp_near {x l : ℝ} (h : |x| ≤ l) (hl : l ≤ 1) : |Real.exp x - 1| ≤ 2 * l := by
  have h1 := Real.abs_exp_sub_one_le (h.trans hl)
  linarith

theorem GC_zero : 0 ≤ GC 0 := by norm_num [GC]

theorem central_start (s : ℝ) (h0 : 0 ≤ s) (h1 : s ≤ 0.4758) : |Phi (uC s) - (1 / 2 + s)| ≤ HC s := by
  have hd : ∀ x, x ∈ Set.Icc 0 s → ∃ d, HasDerivAt HC d x ∧ 2 * (2 / 10 ^ 9 + GC x) ≤ d :=
    fun x hx => HC_deriv x hx.1 (hx.2.trans h1)
  have h := abs_le_of_deriv (f := fun s => Phi (uC s) - (1 / 2 + s)) (f' := fun s => phi (uC s) * uCD s - 1)
    (g := HC) (g' := deriv HC) (a := 0) (b := s) (fun x hx => by
      have hB := (kB_pos hx.1 (hx.2.trans h1)).ne'
      refine ((HasDerivAt.comp x (hasDerivAt_Phi (uC x)) (hasDerivAt_uC x hB)).fun_sub
        ((hasDerivAt_id x).const_add (1 / 2))))
    (fun x hx => by obtain ⟨d, hd, _⟩ := hd x hx; rw [hd.deriv]; exact hd)
    (fun x hx => by
      obtain ⟨d, hd, hle⟩ := hd x hx
      rw [hd.deriv]
      refine le_trans ?_ hle
      have hx1 := hx.2.trans h1
      rw [phi_uC x hx.1 hx1]
      refine exp_near ?_ ?_
      · have a := LC_near x hx.1 hx1
        have b := LC_zero
        have c := GC_zero
        calc |LC x + Real.log kap| = |(LC x - LC 0) + (LC 0 + Real.log kap)| := by congr 1; ring
          _ ≤ |LC x - LC 0| + |LC 0 + Real.log kap| := abs_add_le _ _
          _ ≤ _ := by linarith
      · have := GC_small x hx.1 hx1
        norm_num at *; linarith) h0
  have e0 : Phi (uC 0) - (1 / 2 + 0) = 0 := by simp [uC, Phi_zero]
  simp only [e0, sub_zero] at h
  have : 0 ≤ HC 0 := by norm_num [HC]
  linarith

theorem HC_small (s : ℝ) (h0 : 0 ≤ s) (h1 : s ≤ 0.47575) : HC s ≤ 35 / 10 ^ 8 := by
  have hs : s * s ≤ 0.47575 * 0.47575 := mul_le_mul h1 h1 h0 (by norm_num)
  have hs3 : s ^ 3 ≤ 0.47575 ^ 3 := pow_le_pow_left₀ h0 h1 3
  have hq : 0.094 ≤ 1 - 4 * (s * s) := by norm_num at *; linarith
  have h4 : (0.094 : ℝ) ^ 3 ≤ (1 - 4 * (s * s)) ^ 3 := pow_le_pow_left₀ (by norm_num) hq 3
  have h5 : 172 / 10 ^ 12 / (1 - 4 * (s * s)) ^ 3 ≤ 21 / 10 ^ 8 := by
    rw [div_le_iff₀ (by positivity)]
    norm_num at *; linarith
  rw [HC]
  norm_num at *; linarith

theorem start_central (q : ℝ) (h0 : 0.02425 < q) (h1 : q ≤ 0.5) :
    |Phi (invStart q) - q| ≤ 23 / 10 ^ 6 * q ∧ invStart q ≤ 0 := by
  have hs0 : 0 ≤ 0.5 - q := by linarith
  have hs1 : 0.5 - q ≤ 0.47575 := by norm_num at *; linarith
  have e : invStart q = -uC (0.5 - q) := by
    rw [invStart, if_pos h0]
    dsimp only
    rw [hor_sa, hor_sb, mul_div_assoc, div_div_div_cancel_right₀ (by norm_num), uC]
    have : (q - 0.5) * (q - 0.5) = (0.5 - q) * (0.5 - q) := by ring
    rw [this]; ring
  have h := central_start (0.5 - q) hs0 (hs1.trans (by norm_num))
  have h2 := HC_small (0.5 - q) hs0 hs1
  rw [e]
  constructor
  · rw [Phi_neg, show 1 - Phi (uC (0.5 - q)) - q = -(Phi (uC (0.5 - q)) - (1 / 2 + (0.5 - q))) by norm_num; ring, abs_neg]
    norm_num at *; linarith
  · have hu := up_of_deriv (f := uC) (f' := uCD) (a := 0) (b := 0.5 - q)
      (fun x hx => hasDerivAt_uC x (kB_pos hx.1 (hx.2.trans (hs1.trans (by norm_num)))).ne')
      (fun x hx => (uCD_pos hx.1 (hx.2.trans (hs1.trans (by norm_num)))).le) hs0
    have : uC 0 = 0 := by simp [uC]
    linarith

end OP.Stat
