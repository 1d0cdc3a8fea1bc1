import Verif.Pave.AbcdSpec
import Verif.Pave.Energy
/-!
# Existence and uniqueness for the boundary value problem
-/
namespace OP.Pave

theorem kernels_lin (l : Lim) (m v E z x y : ℝ) (a b : V4) :
    kvse l m v z (fun i => a i * x + b i * y) = kvse l m v z a * x + kvse l m v z b * y ∧
    ksse l m v z (fun i => a i * x + b i * y) = ksse l m v z a * x + ksse l m v z b * y ∧
    kvdp l m v E z (fun i => a i * x + b i * y) = kvdp l m v E z a * x + kvdp l m v E z b * y ∧
    krdp l m v E z (fun i => a i * x + b i * y) = krdp l m v E z a * x + krdp l m v E z b * y := by
  have hT : buildT l m z (fun i => a i * x + b i * y) = fun i => buildT l m z a i * x + buildT l m z b i * y := by
    funext i
    fin_cases i <;> simp [buildT] <;> ring
  simp only [kvse, ksse, kvdp, krdp, hT]
  refine ⟨by ring, by ring, by ring, by ring⟩

theorem Valid.top_nonneg {p : Pav} (hp : Valid p) : ∀ i, i < p.nl → 0 ≤ top p i
  | 0, _ => by simp [top]
  | i + 1, h => by
    have h1 := hp.top_nonneg i (by omega)
    have h2 := hp.h i h
    simp only [top, Nat.succ_ne_zero, if_false, Nat.add_sub_cancel]
    linarith

theorem InRange.lt {l : Lim} {p : Pav} {m : ℝ} (hr : InRange l p m) {i : Nat} (hi : i < p.nl) (h0 : 0 ≤ p.h i) :
    m * p.h i < l.maxExp := by
  have h1 := hr.e i hi
  have := mul_nonneg hr.pos.le h0
  linarith

/-- The two columns of the last layer satisfy the condition at the base. -/
theorem last_base (l : Lim) (m z v E s : ℝ) (hm : m ≠ 0) (hz : z > 0) (hl : m * z < l.maxExp) (hv : 1 + v ≠ 0) (hE : E ≠ 0)
    (hd : 2 * m * E * (1 - s) * (v - 1) / (v + 1) + s * (3 - 4 * v) ≠ 0) (c : V4)
    (hc : c = (last m z v E s).1 ∨ c = (last m z v E s).2) :
    kvdp l m v E z c = 0 ∧ s * krdp l m v E z c = m * (1 - s) * ksse l m v z c := by
  have he : Real.exp (m * z) ≠ 0 := (Real.exp_pos _).ne'
  have hx : Real.exp (-2 * m * z) = 1 / (Real.exp (m * z) * Real.exp (m * z)) := by
    rw [← Real.exp_add, one_div, ← Real.exp_neg]; congr 1; ring
  have hv' : v + 1 ≠ 0 := by rwa [add_comm]
  have ht : (2 * m * E * (1 - s) * (v - 1) / (v + 1)) * (v + 1) = 2 * m * E * (1 - s) * (v - 1) := by field_simp
  simp only [last, if_pos hz, hx] at hc
  generalize 2 * m * E * (1 - s) * (v - 1) / (v + 1) = t at *
  simp only [kvdp, krdp, ksse, buildT_eq l m z hl]
  generalize Real.exp (m * z) = e at *
  generalize hk : t + s * (3 - 4 * v) = k at *
  rcases hc with rfl | rfl
  · simp
    refine ⟨Or.inl ?_, ?_⟩
    · field_simp
      linear_combination m * hk
    · field_simp
      rw [← hk]
      linear_combination (-2 * s) * ht
  · simp
    refine ⟨Or.inl ?_, ?_⟩
    · field_simp
      rw [← hk]
      ring
    · field_simp
      rw [← hk]
      linear_combination (2 * s * (1 - m * z)) * ht


/-- The base condition of the code's last layer never divides by zero for fixed or frictionless bases. -/
theorem base_div (m v E s : ℝ) (hm : 0 < m) (hE : 0 < E) (hv : 0 < v ∧ v ≤ 1 / 2) (hs : s = 1 ∨ s = 0) :
    2 * m * E * (1 - s) * (v - 1) / (v + 1) + s * (3 - 4 * v) ≠ 0 := by
  rcases hs with rfl | rfl
  · have : 3 - 4 * v ≠ 0 := fun h => by linarith [hv.2]
    simpa using this
  · have h1 : v - 1 ≠ 0 := fun h => by linarith [hv.2]
    have h2 : v + 1 ≠ 0 := fun h => by linarith [hv.1]
    have : 2 * m * E * (v - 1) / (v + 1) ≠ 0 := by positivity
    simpa using this

/-- Any combination of the two columns satisfies all conditions except those at the surface. -/
theorem cols_conditions (l : Lim) (p : Pav) (m x y : ℝ) (hp : Valid p) (hb : Bonded p) (hr : InRange l p m)
    (c : Nat → V4) (hc : ∀ i, c i = fun j => (cols l p m (p.nl - 1 - i)).1 j * x + (cols l p m (p.nl - 1 - i)).2 j * y) :
    (∀ i, i + 1 < p.nl →
      kvse l m (p.v i) (p.h i) (c i) = kvse l m (p.v (i + 1)) (p.h i) (c (i + 1)) ∧
      ksse l m (p.v i) (p.h i) (c i) = ksse l m (p.v (i + 1)) (p.h i) (c (i + 1)) ∧
      kvdp l m (p.v i) (p.E i) (p.h i) (c i) = kvdp l m (p.v (i + 1)) (p.E (i + 1)) (p.h i) (c (i + 1)) ∧
      krdp l m (p.v i) (p.E i) (p.h i) (c i) = krdp l m (p.v (i + 1)) (p.E (i + 1)) (p.h i) (c (i + 1))) ∧
    (let n := p.nl - 1
     if p.h n > 0 then kvdp l m (p.v n) (p.E n) (p.h n) (c n) = 0 ∧
      p.f n * krdp l m (p.v n) (p.E n) (p.h n) (c n) = m * (1 - p.f n) * ksse l m (p.v n) (p.h n) (c n)
     else c n 0 = 0 ∧ c n 1 = 0) := by
  constructor
  · intro i hi
    have hstep : c i = up l m (p.h i) (p.v i) (p.v (i + 1)) (p.E i) (p.E (i + 1)) 1 (c (i + 1)) := by
      rw [hc i, hc (i + 1), up_lin]
      obtain ⟨k, hk⟩ : ∃ k, p.nl - 1 - i = k + 1 := ⟨p.nl - 1 - (i + 1), by omega⟩
      have hk' : p.nl - 1 - (i + 1) = k := by omega
      have hil : p.nl - 1 - k = i + 1 := by omega
      rw [hk, hk']
      simp only [cols, hil, Nat.add_sub_cancel, hb.f i hi]
    have h0 : 0 ≤ p.h i := (hp.top_nonneg i (by omega)).trans (hp.h i hi).le
    have hv1 := hp.v i (by omega)
    have hv2 := hp.v (i + 1) hi
    rw [hstep]
    exact up_continuous l m _ _ _ _ _ _ hr.pos.ne' (hr.lt (by omega) h0) (hr.e i (by omega)) (by linarith) (by linarith)
      (by linarith) (hp.E i (by omega)).ne' (hp.E (i + 1) hi).ne'
  · intro n
    have hn : n < p.nl := by have := hp.pos; omega
    have hcn : c n = fun j => (last m (p.h n) (p.v n) (p.E n) (p.f n)).1 j * x +
        (last m (p.h n) (p.v n) (p.E n) (p.f n)).2 j * y := by
      rw [hc n, Nat.sub_self]
      rfl
    split_ifs with h
    · have hs := hb.base.resolve_left h.ne'
      have hd := base_div m (p.v n) (p.E n) (p.f n) hr.pos (hp.E n hn) (hp.v n hn) hs
      have hv := hp.v n hn
      obtain ⟨-, k2, k3, k4⟩ := kernels_lin l m (p.v n) (p.E n) (p.h n) x y
        (last m (p.h n) (p.v n) (p.E n) (p.f n)).1 (last m (p.h n) (p.v n) (p.E n) (p.f n)).2
      have a := last_base l m (p.h n) (p.v n) (p.E n) (p.f n) hr.pos.ne' h (hr.lt hn h.le) (by linarith) (hp.E n hn).ne' hd
      obtain ⟨a1, a2⟩ := a _ (Or.inl rfl)
      obtain ⟨b1, b2⟩ := a _ (Or.inr rfl)
      rw [hcn, k2, k3, k4, a1, b1]
      exact ⟨by ring, by linear_combination x * a2 + y * b2⟩
    · rw [hcn, last, if_neg h]
      simp

/-- Without surface tractions only the zero solution is left. -/
theorem solves_zero (l : Lim) (p : Pav) (m : ℝ) (hp : Valid p) (hb : Bonded p) (hr : InRange l p m) (c : Nat → V4)
    (hs : Solves l p m 0 c) : ∀ i, i < p.nl → c i = 0 := by
  have hfac : ∀ i, i < p.nl → 0 < (p.v i + 1) / p.E i := fun i hi =>
    div_pos (by linarith [(hp.v i hi).1]) (hp.E i hi)
  have hE : ∀ i z, z ≤ p.h i → 0 ≤ z → i < p.nl → work l m (p.v i) (p.E i) z (c i) = fW m (p.v i) (c i) z * ((p.v i + 1) / p.E i) := by
    intro i z h1 h2 hi
    refine work_eq _ _ _ _ _ _ (lt_of_le_of_lt (mul_le_mul_of_nonneg_left h1 hr.pos.le) (hr.lt hi (h2.trans h1)))
  -- Upwards: the work at the top of a layer is not positive, and negative unless the layers below are at rest.
  have hup : ∀ k, k < p.nl → (work l m (p.v (p.nl - 1 - k)) (p.E (p.nl - 1 - k)) (top p (p.nl - 1 - k)) (c (p.nl - 1 - k)) ≤ 0 ∧
      (work l m (p.v (p.nl - 1 - k)) (p.E (p.nl - 1 - k)) (top p (p.nl - 1 - k)) (c (p.nl - 1 - k)) = 0 →
        ∀ j, p.nl - 1 - k ≤ j → j < p.nl → c j = 0)) := by
    intro k
    induction k with
    | zero =>
      intro _
      rw [Nat.sub_zero]
      have hb' := hs.base
      simp only at hb'
      have hn : p.nl - 1 < p.nl := by have := hp.pos; omega
      have ht := hp.top_nonneg _ hn
      have hv := hp.v _ hn
      have hj : ∀ j, p.nl - 1 ≤ j → j < p.nl → j = p.nl - 1 := fun j h1 h2 => by omega
      split_ifs at hb' with h
      · have hlt := hp.hl.resolve_left h.ne'
        have hz : work l m (p.v (p.nl - 1)) (p.E (p.nl - 1)) (p.h (p.nl - 1)) (c (p.nl - 1)) = 0 := by
          rw [work, hb'.1]
          rcases hb.base.resolve_left h.ne' with e | e
          · rw [e] at hb'
            have : krdp l m (p.v (p.nl - 1)) (p.E (p.nl - 1)) (p.h (p.nl - 1)) (c (p.nl - 1)) = 0 := by linarith [hb'.2]
            rw [this]; ring
          · rw [e] at hb'
            have h1 := hb'.2
            have : ksse l m (p.v (p.nl - 1)) (p.h (p.nl - 1)) (c (p.nl - 1)) = 0 := by
              have : m * ksse l m (p.v (p.nl - 1)) (p.h (p.nl - 1)) (c (p.nl - 1)) = 0 := by linarith
              exact (mul_eq_zero.1 this).resolve_left hr.pos.ne'
            rw [this]; ring
        rw [hE _ _ le_rfl h.le hn] at hz
        have hz' := (mul_eq_zero.1 hz).resolve_right (hfac _ hn).ne'
        rw [hE _ _ hlt.le ht hn]
        by_cases h0 : c (p.nl - 1) = 0
        · refine ⟨?_, fun _ j h1 h2 => by rw [hj j h1 h2, h0]⟩
          have := fW_mono m (p.v (p.nl - 1)) (c (p.nl - 1)) hr.pos hv.2 hlt.le
          exact mul_nonpos_of_nonpos_of_nonneg (by linarith) (hfac _ hn).le
        · have := fW_strict m (p.v (p.nl - 1)) (c (p.nl - 1)) hr.pos hv.2 h0 hlt
          have hneg : fW m (p.v (p.nl - 1)) (c (p.nl - 1)) (top p (p.nl - 1)) * ((p.v (p.nl - 1) + 1) / p.E (p.nl - 1)) < 0 :=
            mul_neg_of_neg_of_pos (by linarith) (hfac _ hn)
          exact ⟨hneg.le, fun h => absurd h hneg.ne⟩
      · have hw : work l m (p.v (p.nl - 1)) (p.E (p.nl - 1)) (top p (p.nl - 1)) (c (p.nl - 1)) =
            fW m (p.v (p.nl - 1)) (c (p.nl - 1)) (top p (p.nl - 1)) * ((p.v (p.nl - 1) + 1) / p.E (p.nl - 1)) := by
          simp only [work, kvse, ksse, kvdp, krdp, buildT, fW, fP, fN, fS, fM, hb'.1, hb'.2]
          simp
          ring
        rw [hw]
        by_cases h0 : c (p.nl - 1) = 0
        · refine ⟨?_, fun _ j h1 h2 => by rw [hj j h1 h2, h0]⟩
          rw [h0]
          simp [fW, fP, fN, fS, fM]
        · have := fW_half m (p.v (p.nl - 1)) (c (p.nl - 1)) hb'.1 hb'.2 hr.pos h0 hv.2 (top p (p.nl - 1))
          have hneg := mul_neg_of_neg_of_pos this (hfac _ hn)
          exact ⟨hneg.le, fun h => absurd h hneg.ne⟩
    | succ k ih =>
      intro hk
      obtain ⟨ih1, ih2⟩ := ih (by omega)
      obtain ⟨i, hi⟩ : ∃ i, p.nl - 1 - k = i + 1 := ⟨p.nl - 1 - (k + 1), by omega⟩
      have hi' : p.nl - 1 - (k + 1) = i := by omega
      rw [hi] at ih1 ih2
      rw [hi']
      have hin : i + 1 < p.nl := by omega
      have hlt := hp.h i hin
      have ht := hp.top_nonneg i (by omega)
      have hv := hp.v i (by omega)
      obtain ⟨e1, e2, e3, e4⟩ := hs.inter i hin
      have hcont : work l m (p.v i) (p.E i) (p.h i) (c i) =
          work l m (p.v (i + 1)) (p.E (i + 1)) (top p (i + 1)) (c (i + 1)) := by
        simp only [top, Nat.succ_ne_zero, if_false, Nat.add_sub_cancel]
        rw [work, work, e1, e2, e3, e4]
      rw [← hcont, hE _ _ le_rfl (ht.trans hlt.le) (by omega)] at ih1 ih2
      rw [hE _ _ hlt.le ht (by omega)]
      have hf := hfac i (by omega)
      have hmono := mul_le_mul_of_nonneg_right (fW_mono m (p.v i) (c i) hr.pos hv.2 hlt.le) hf.le
      refine ⟨hmono.trans ih1, fun h => ?_⟩
      have hz : fW m (p.v i) (c i) (p.h i) * ((p.v i + 1) / p.E i) = 0 := le_antisymm ih1 (by linarith)
      have hc0 : c i = 0 := by
        by_contra h0
        have := mul_lt_mul_of_pos_right (fW_strict m (p.v i) (c i) hr.pos hv.2 h0 hlt) hf
        linarith
      intro j h1 h2
      rcases Nat.lt_or_eq_of_le h1 with h3 | h3
      · exact ih2 hz j h3 h2
      · rw [← h3, hc0]
  have h0 := (hup (p.nl - 1) (by have := hp.pos; omega)).2
  rw [Nat.sub_self] at h0
  have hw : work l m (p.v 0) (p.E 0) (top p 0) (c 0) = 0 := by
    have : top p 0 = 0 := by simp [top]
    rw [work, this, hs.shear, hs.press]
    ring
  exact fun i hi => h0 hw i (Nat.zero_le i) hi

/-- The rows of `B1` are the stresses at the surface. -/
theorem B1_surface (l : Lim) (m v : ℝ) (h0 : 0 < l.maxExp) (c : V4) :
    (∑ i, B1 m v 0 i * c i) = ksse l m v 0 c ∧ (∑ i, B1 m v 1 i * c i) = - kvse l m v 0 c := by
  have hz : m * 0 < l.maxExp := by simpa using h0
  simp only [Fin.sum_univ_four, B1, ksse, kvse, buildT, gexp, if_pos hz]
  simp
  constructor <;> ring

theorem InRange.max_pos {l : Lim} {p : Pav} {m : ℝ} (hr : InRange l p m) (hp : Valid p) : 0 < l.maxExp := by
  have hn : p.nl - 1 < p.nl := by have := hp.pos; omega
  have h1 := hr.e _ hn
  rcases hp.hl with h | h
  · rw [h] at h1; simpa using h1
  · have := mul_nonneg hr.pos.le ((hp.top_nonneg _ hn).trans h.le)
    linarith

theorem det_ne (l : Lim) (p : Pav) (m : ℝ) (hp : Valid p) (hb : Bonded p) (hr : InRange l p m) : det0 l p m ≠ 0 := by
  intro hd
  simp only [det0] at hd
  set r := cols l p m (p.nl - 1) with hrr
  set a := ∑ i, B1 m (p.v 0) 0 i * r.1 i with ha
  set b := ∑ i, B1 m (p.v 0) 0 i * r.2 i with hbb
  set cc := ∑ i, B1 m (p.v 0) 1 i * r.1 i with hcc
  set d := ∑ i, B1 m (p.v 0) 1 i * r.2 i with hdd
  -- A non-zero vector in the kernel.
  obtain ⟨x, y, hxy, h1, h2⟩ : ∃ x y : ℝ, (x ≠ 0 ∨ y ≠ 0) ∧ a * x + b * y = 0 ∧ cc * x + d * y = 0 := by
    by_cases hab : a = 0 ∧ b = 0
    · by_cases hcd : cc = 0 ∧ d = 0
      · exact ⟨1, 0, Or.inl one_ne_zero, by rw [hab.1, hab.2]; ring, by rw [hcd.1, hcd.2]; ring⟩
      · refine ⟨-d, cc, ?_, by rw [hab.1, hab.2]; ring, by ring⟩
        by_contra h
        rw [not_or, not_not, not_not, neg_eq_zero] at h
        exact hcd ⟨h.2, h.1⟩
    · refine ⟨-b, a, ?_, by ring, by linarith⟩
      by_contra h
      rw [not_or, not_not, not_not, neg_eq_zero] at h
      exact hab ⟨h.2, h.1⟩
  let c : Nat → V4 := fun i j => (cols l p m (p.nl - 1 - i)).1 j * x + (cols l p m (p.nl - 1 - i)).2 j * y
  obtain ⟨hi, hba⟩ := cols_conditions l p m x y hp hb hr c (fun _ => rfl)
  have hsum : ∀ k, ∑ i, B1 m (p.v 0) k i * c 0 i =
      (∑ i, B1 m (p.v 0) k i * r.1 i) * x + (∑ i, B1 m (p.v 0) k i * r.2 i) * y := by
    intro k
    simp only [c, Nat.sub_zero, ← hrr, Fin.sum_univ_four]
    ring
  obtain ⟨s1, s2⟩ := B1_surface l m (p.v 0) (hr.max_pos hp) (c 0)
  have hs : Solves l p m 0 c := by
    refine ⟨?_, ?_, hi, hba⟩
    · rw [← s1, hsum]; exact h1
    · have : -kvse l m (p.v 0) 0 (c 0) = 0 := by rw [← s2, hsum]; exact h2
      linarith
  have hz := solves_zero l p m hp hb hr c hs (p.nl - 1) (by have := hp.pos; omega)
  have h2 := congrFun hz 2
  have h3 := congrFun hz 3
  simp only [c, Nat.sub_self, cols, last] at h2 h3
  split_ifs at h2 h3 <;> simp at h2 h3 <;> exact hxy.elim (fun h => h h2) (fun h => h h3)

end OP.Pave
