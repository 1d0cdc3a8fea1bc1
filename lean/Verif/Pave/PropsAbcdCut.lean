import Verif.Pave.PropsAbcd
import Mathlib.Analysis.SpecialFunctions.Log.Basic
/-!
# C48: wave numbers at which an exponential is cut off

`buildabcd` replaces `exp(2mz)` by the largest double where it does not fit.  What is asked of the coefficients are the conditions
with the exponential itself: `Solves l'` for limits `l'` that cut nothing off (`InRange l'`).
-/
namespace OP.Pave

/-- The interfaces at which a cut-off would matter: above an infinite last layer the lowest one does not. -/
structure Inner (l : Lim) (p : Pav) (m : ℝ) : Prop where
  pos : 0 < m
  e : ∀ i, i + 2 < p.nl → 2 * (m * p.h i) < l.maxExp
  last : p.h (p.nl - 1) = 0 ∨ ∀ i, i + 1 < p.nl → 2 * (m * p.h i) < l.maxExp

theorem up_same_zero (l l' : Lim) (m z v1 v2 E1 E2 f : ℝ) (c : V4) (h0 : c 0 = 0) (h1 : c 1 = 0) :
    up l m z v1 v2 E1 E2 f c = up l' m z v1 v2 E1 E2 f c := by
  funext i
  simp only [up, Fin.sum_univ_four, h0, h1, mul_zero, zero_mul, add_zero, zero_add]
  fin_cases i <;> simp [Dm]

theorem up_agree (l l' : Lim) (m z v1 v2 E1 E2 f : ℝ) (c : V4) (h : gexp l (2 * (m * z)) = gexp l' (2 * (m * z))) :
    up l m z v1 v2 E1 E2 f c = up l' m z v1 v2 E1 E2 f c := by
  have hD : Dm l m z = Dm l' m z := by simp only [Dm, h]
  funext i
  simp only [up, hD]

theorem cols_same {l l' : Lim} {p : Pav} {m : ℝ} (hr : Inner l p m) (hr' : InRange l' p m) :
    ∀ k, k < p.nl → cols l p m k = cols l' p m k
  | 0, _ => rfl
  | k + 1, hk => by
    have ih := cols_same hr hr' k (by omega)
    have hle : ∀ i, i + 1 < p.nl → 2 * (m * p.h i) < l.maxExp → gexp l (2 * (m * p.h i)) = gexp l' (2 * (m * p.h i)) := by
      intro i hi h
      simp only [gexp, if_pos h, if_pos (hr'.e i (by omega))]
    simp only [cols, ih]
    by_cases hk0 : k = 0
    · subst hk0
      rcases hr.last with h0 | h
      · have h1 : cols l' p m 0 = (q![0, 0, 1, 0], q![0, 0, 0, 1]) := by
          simp only [cols, last, h0, gt_iff_lt, lt_irrefl, if_false]
        rw [h1]
        exact Prod.ext (up_same_zero _ _ _ _ _ _ _ _ _ _ rfl rfl) (up_same_zero _ _ _ _ _ _ _ _ _ _ rfl rfl)
      · have h := hle (p.nl - 1 - 0 - 1) (by omega) (h _ (by omega))
        exact Prod.ext (up_agree _ _ _ _ _ _ _ _ _ _ h) (up_agree _ _ _ _ _ _ _ _ _ _ h)
    · have h := hle (p.nl - 1 - k - 1) (by omega) (hr.e _ (by omega))
      exact Prod.ext (up_agree _ _ _ _ _ _ _ _ _ _ h) (up_agree _ _ _ _ _ _ _ _ _ _ h)

theorem abcd_same {l l' : Lim} {p : Pav} {m : ℝ} (hp : Valid p) (hr : Inner l p m) (hr' : InRange l' p m) (i : Nat) :
    abcd l p m i = abcd l' p m i := by
  have hn := hp.pos
  have h1 := cols_same hr hr' (p.nl - 1) (by omega)
  have h2 := cols_same hr hr' (p.nl - 1 - i) (by omega)
  funext j
  simp only [abcd, CD, det0, h1, h2]

/-- **C48**, with the exponential itself: the coefficients are the only solution of the conditions at the surface, the interfaces and the
base for every wave number that is not cut off at an interface, the lowest interface above an infinite layer excepted.  So one layer, and
two layers of which the lower is infinite, are right for all wave numbers.  `l` are the limits of the code and `l'` any that cut nothing
off. -/
theorem C48_cut_partial {l l' : Lim} {p : Pav} {m : ℝ} (hp : Valid p) (hb : Bonded p) (hr : Inner l p m) (hr' : InRange l' p m) :
    (∀ d ∈ divisors l p m, d ≠ 0) ∧ Solves l' p m (1 / (m * m)) (abcd l p m) ∧
    ∀ c : Nat → V4, Solves l' p m (1 / (m * m)) c → ∀ i, i < p.nl → c i = abcd l p m i := by
  have he : abcd l p m = abcd l' p m := funext fun i => abcd_same hp hr hr' i
  refine ⟨?_, ?_, ?_⟩
  · have h : divisors l p m = divisors l' p m := by
      simp only [divisors, det0, cols_same hr hr' (p.nl - 1) (by have := hp.pos; omega)]
    rw [h]
    exact C48_defined_partial l' p m hp hb hr'
  · rw [he]; exact C48_solution_partial l' p m hp hb hr'
  · rw [he]; exact C48_unique_partial l' p m hp hb hr'

/-- One layer, and two layers of which the lower is infinite: every wave number. -/
theorem C48_two_layers {l l' : Lim} {p : Pav} {m : ℝ} (hp : Valid p) (hb : Bonded p) (hm : 0 < m)
    (hn : p.nl = 1 ∨ p.nl = 2 ∧ p.h 1 = 0) (hr' : InRange l' p m) :
    Solves l' p m (1 / (m * m)) (abcd l p m) := by
  refine (C48_cut_partial hp hb ⟨hm, fun i hi => ?_, ?_⟩ hr').2.1
  · rcases hn with h | h <;> omega
  · rcases hn with h | ⟨h, h1⟩
    · exact .inr fun i hi => by omega
    · left; rw [h]; exact h1

/-- Non-vacuity: the exponential is cut off at the interface. -/
example : Valid demoPav ∧ Bonded demoPav ∧ (0 : ℝ) < 1000 ∧ (demoPav.nl = 2 ∧ demoPav.h 1 = 0) ∧
    InRange ⟨3000, 10 ^ 308⟩ demoPav 1000 ∧ ¬ InRange ⟨709, 10 ^ 308⟩ demoPav 1000 := by
  have hv : Valid demoPav ∧ Bonded demoPav := by
    refine ⟨⟨by decide, ?_, ?_, ?_, ?_⟩, ⟨fun _ _ => rfl, Or.inr (Or.inl rfl)⟩⟩
    · intro i _; simp only [demoPav]; split_ifs <;> norm_num
    · intro i _; simp only [demoPav]; norm_num
    · intro i hi
      have : i = 0 := by simp only [demoPav] at hi; omega
      subst this
      simp [top, demoPav]
    · left; simp [demoPav]
  refine ⟨hv.1, hv.2, by norm_num, ⟨rfl, by simp [demoPav]⟩, ⟨by norm_num, ?_⟩, fun h => ?_⟩
  · intro i _; simp only [demoPav]; split_ifs <;> norm_num
  · have := h.e 0 (by simp [demoPav])
    simp [demoPav] at this
    norm_num at this

/-- **C48**, interface by interface: whatever the wave number, the conditions hold at every interface at which the exponential is not
cut off, and the surface conditions hold unless the determinant that is divided by is zero. -/
theorem C48_interface {l l' : Lim} {p : Pav} {m : ℝ} (hp : Valid p) (hb : Bonded p) (hr' : InRange l' p m) :
    (∀ i, i + 1 < p.nl → 2 * (m * p.h i) < l.maxExp →
      let c := abcd l p m
      kvse l' m (p.v i) (p.h i) (c i) = kvse l' m (p.v (i + 1)) (p.h i) (c (i + 1)) ∧
      ksse l' m (p.v i) (p.h i) (c i) = ksse l' m (p.v (i + 1)) (p.h i) (c (i + 1)) ∧
      kvdp l' m (p.v i) (p.E i) (p.h i) (c i) = kvdp l' m (p.v (i + 1)) (p.E (i + 1)) (p.h i) (c (i + 1)) ∧
      krdp l' m (p.v i) (p.E i) (p.h i) (c i) = krdp l' m (p.v (i + 1)) (p.E (i + 1)) (p.h i) (c (i + 1))) ∧
    (det0 l p m ≠ 0 → ksse l' m (p.v 0) 0 (abcd l p m 0) = 0 ∧ kvse l' m (p.v 0) 0 (abcd l p m 0) = -(1 / (m * m))) := by
  have hm := hr'.pos
  have hc : ∀ i, abcd l p m i = fun j => (cols l p m (p.nl - 1 - i)).1 j * (CD l p m).1 +
      (cols l p m (p.nl - 1 - i)).2 j * (CD l p m).2 := by
    intro i
    funext j
    simp only [abcd, if_neg (not_le.2 hm)]
  constructor
  · intro i hi hcut c
    have hstep : c i = up l' m (p.h i) (p.v i) (p.v (i + 1)) (p.E i) (p.E (i + 1)) 1 (c (i + 1)) := by
      have hg : gexp l' (2 * (m * p.h i)) = gexp l (2 * (m * p.h i)) := by
        simp only [gexp, if_pos hcut, if_pos (hr'.e i (by omega))]
      rw [up_agree l' l _ _ _ _ _ _ _ _ hg]
      simp only [c]
      rw [hc i, hc (i + 1), up_lin]
      obtain ⟨k, hk⟩ : ∃ k, p.nl - 1 - i = k + 1 := ⟨p.nl - 1 - (i + 1), by omega⟩
      have hk' : p.nl - 1 - (i + 1) = k := by omega
      have hil : p.nl - 1 - k = i + 1 := by omega
      rw [hk, hk']
      simp only [cols, hil, Nat.add_sub_cancel, hb.f i hi]
    have h0 : 0 ≤ p.h i := (hp.top_nonneg i (by omega)).trans (hp.h i hi).le
    have hv1 := hp.v i (by omega)
    have hv2 := hp.v (i + 1) hi
    rw [hstep]
    exact up_continuous l' m _ _ _ _ _ _ hm.ne' (hr'.lt (by omega) h0) (hr'.e i (by omega)) (by linarith) (by linarith)
      (by linarith) (hp.E i (by omega)).ne' (hp.E (i + 1) hi).ne'
  · intro hd
    obtain ⟨s1, s2⟩ := B1_surface l' m (p.v 0) (hr'.max_pos hp) (abcd l p m 0)
    have hsum : ∀ k, ∑ i, B1 m (p.v 0) k i * abcd l p m 0 i =
        (∑ i, B1 m (p.v 0) k i * (cols l p m (p.nl - 1)).1 i) * (CD l p m).1 +
        (∑ i, B1 m (p.v 0) k i * (cols l p m (p.nl - 1)).2 i) * (CD l p m).2 := by
      intro k
      rw [hc 0]
      simp only [Nat.sub_zero, Fin.sum_univ_four]
      ring
    constructor
    · rw [← s1, hsum]
      simp only [CD]
      ring
    · have h : -kvse l' m (p.v 0) 0 (abcd l p m 0) = 1 / (m * m) := by
        rw [← s2, hsum]
        simp only [CD]
        have hd' := hd
        simp only [det0] at hd' ⊢
        generalize (∑ i, B1 m (p.v 0) 0 i * (cols l p m (p.nl - 1)).1 i) = a at *
        generalize (∑ i, B1 m (p.v 0) 0 i * (cols l p m (p.nl - 1)).2 i) = b at *
        generalize (∑ i, B1 m (p.v 0) 1 i * (cols l p m (p.nl - 1)).1 i) = cc at *
        generalize (∑ i, B1 m (p.v 0) 1 i * (cols l p m (p.nl - 1)).2 i) = d at *
        have e : ∀ q, cc * (-(b / (m * m)) / q) + d * ((a / (m * m)) / q) = ((a * d - b * cc) / q) / (m * m) := by
          intro q
          ring
        rw [e, div_self hd']
      linarith

/-! ## Three layers -/

/-- What the cut-off changes in one column: the growing part of the layer below, times what is missing. -/
theorem up_cut (l l' : Lim) (m z v1 v2 E1 E2 : ℝ) (c : V4) :
    let K := ((1 + v2) * E1) / ((1 + v1) * E2)
    let g := (gexp l (2 * (m * z)) - gexp l' (2 * (m * z))) * (1 / (4 * v1 - 4))
    up l m z v1 v2 E1 E2 1 c 2 - up l' m z v1 v2 E1 E2 1 c 2 = g * (Xm m z v1 v2 K 2 0 * c 0 + Xm m z v1 v2 K 2 1 * c 1) ∧
    up l m z v1 v2 E1 E2 1 c 3 - up l' m z v1 v2 E1 E2 1 c 3 = g * (Xm m z v1 v2 K 3 0 * c 0 + Xm m z v1 v2 K 3 1 * c 1) := by
  simp only [up, Fin.sum_univ_four, Dm, if_true]
  constructor <;> simp <;> ring

/-- The part of the matrix that takes the growing part of the lower layer to the decaying part of the upper has an inverse. -/
theorem Xm_lower (m z v K : ℝ) (hm : m ≠ 0) (a b : ℝ) (hv : 3 - 4 * v ≠ 0) (hK : K ≠ 1)
    (h2 : Xm m z v v K 2 0 * a + Xm m z v v K 2 1 * b = 0) (h3 : Xm m z v v K 3 0 * a + Xm m z v v K 3 1 * b = 0) :
    a = 0 ∧ b = 0 := by
  have hd : Xm m z v v K 2 0 * Xm m z v v K 3 1 - Xm m z v v K 2 1 * Xm m z v v K 3 0 = (1 - K) ^ 2 * (3 - 4 * v) := by
    simp only [Xm, v4_0, v4_1, v4_2, v4_3]
    field_simp
    ring
  have hne : (1 - K) ^ 2 * (3 - 4 * v) ≠ 0 := mul_ne_zero (pow_ne_zero _ (sub_ne_zero.2 hK.symm)) hv
  constructor
  · have : (Xm m z v v K 2 0 * Xm m z v v K 3 1 - Xm m z v v K 2 1 * Xm m z v v K 3 0) * a = 0 := by
      linear_combination Xm m z v v K 3 1 * h2 - Xm m z v v K 2 1 * h3
    rw [hd] at this
    exact (mul_eq_zero.1 this).resolve_left hne
  · have : (Xm m z v v K 2 0 * Xm m z v v K 3 1 - Xm m z v v K 2 1 * Xm m z v v K 3 0) * b = 0 := by
      linear_combination Xm m z v v K 2 0 * h3 - Xm m z v v K 3 0 * h2
    rw [hd] at this
    exact (mul_eq_zero.1 this).resolve_left hne

/-- The same for the part that takes the decaying part of an infinite layer to the growing part of the one above. -/
theorem Xm_upper (m z v K : ℝ) (hm : m ≠ 0) (a b : ℝ) (hv : 3 - 4 * v ≠ 0) (hK : K ≠ 1)
    (h2 : Xm m z v v K 0 2 * a + Xm m z v v K 0 3 * b = 0) (h3 : Xm m z v v K 1 2 * a + Xm m z v v K 1 3 * b = 0) :
    a = 0 ∧ b = 0 := by
  have hd : Xm m z v v K 0 2 * Xm m z v v K 1 3 - Xm m z v v K 0 3 * Xm m z v v K 1 2 = (1 - K) ^ 2 * (3 - 4 * v) := by
    simp only [Xm, v4_0, v4_1, v4_2, v4_3]
    field_simp
    ring
  have hne : (1 - K) ^ 2 * (3 - 4 * v) ≠ 0 := mul_ne_zero (pow_ne_zero _ (sub_ne_zero.2 hK.symm)) hv
  constructor
  · have : (Xm m z v v K 0 2 * Xm m z v v K 1 3 - Xm m z v v K 0 3 * Xm m z v v K 1 2) * a = 0 := by
      linear_combination Xm m z v v K 1 3 * h2 - Xm m z v v K 0 3 * h3
    rw [hd] at this
    exact (mul_eq_zero.1 this).resolve_left hne
  · have : (Xm m z v v K 0 2 * Xm m z v v K 1 3 - Xm m z v v K 0 3 * Xm m z v v K 1 2) * b = 0 := by
      linear_combination Xm m z v v K 0 2 * h3 - Xm m z v v K 1 2 * h2
    rw [hd] at this
    exact (mul_eq_zero.1 this).resolve_left hne

/-- **C48** fails for wave numbers that are cut off: for three layers with the same Poisson's ratio and different moduli, the
coefficients do not satisfy the conditions for any wave number for which `exp(2mh)` at the upper interface does not fit a
double. -/
theorem C48_cut_wrong {D : ℝ} {l' : Lim} {p : Pav} {m : ℝ} (hD : 0 < D) (hp : Valid p) (hb : Bonded p) (hn : p.nl = 3)
    (hh : p.h 2 = 0) (hv : p.v 0 = p.v 1 ∧ p.v 1 = p.v 2) (h01 : p.E 0 ≠ p.E 1) (h12 : p.E 1 ≠ p.E 2)
    (hr' : InRange l' p m) (hcut : Real.log D < 2 * (m * p.h 0)) :
    ¬ Solves l' p m (1 / (m * m)) (abcd ⟨Real.log D, D⟩ p m) := by
  intro S
  set l : Lim := ⟨Real.log D, D⟩ with hl
  have hm := hr'.pos
  have hu := C48_unique_partial l' p m hp hb hr' _ S
  have v0 := hp.v 0 (by omega)
  have hv3 : 3 - 4 * p.v 0 ≠ 0 := fun h => by linarith [v0.2]
  have hg : gexp l (2 * (m * p.h 0)) - gexp l' (2 * (m * p.h 0)) ≠ 0 := by
    have h1 : gexp l (2 * (m * p.h 0)) = D := by
      simp only [gexp, hl, if_neg (not_lt.2 hcut.le)]
    have h2 : gexp l' (2 * (m * p.h 0)) = Real.exp (2 * (m * p.h 0)) := by
      simp only [gexp, if_pos (hr'.e 0 (by omega))]
    have h3 : D < Real.exp (2 * (m * p.h 0)) := (Real.log_lt_iff_lt_exp hD).1 hcut
    rw [h1, h2]
    exact sub_ne_zero.2 h3.ne
  -- the coefficients layer by layer
  have hl0 : ∀ l : Lim, cols l p m 0 = (q![0, 0, 1, 0], q![0, 0, 0, 1]) := by
    intro l
    simp only [cols, last, hn, Nat.reduceSub, hh, gt_iff_lt, lt_irrefl, if_false]
  have c2 : ∀ l : Lim, abcd l p m 2 = q![0, 0, (CD l p m).1, (CD l p m).2] := by
    intro l
    funext j
    simp only [abcd, if_neg (not_le.2 hm), hn, Nat.reduceSub, hl0]
    fin_cases j <;> simp
  have c1 : ∀ l : Lim, abcd l p m 1 = up l m (p.h 1) (p.v 1) (p.v 2) (p.E 1) (p.E 2) (p.f 1) (abcd l p m 2) := by
    intro l
    have h : abcd l p m 2 = fun j => (cols l p m 0).1 j * (CD l p m).1 + (cols l p m 0).2 j * (CD l p m).2 := by
      funext j
      simp only [abcd, if_neg (not_le.2 hm), hn, Nat.reduceSub]
    rw [h, up_lin]
    funext j
    simp only [abcd, if_neg (not_le.2 hm), hn, Nat.reduceSub, cols]
  have c0 : ∀ l : Lim, abcd l p m 0 = up l m (p.h 0) (p.v 0) (p.v 1) (p.E 0) (p.E 1) (p.f 0) (abcd l p m 1) := by
    intro l
    have h : abcd l p m 1 = fun j => (cols l p m 1).1 j * (CD l p m).1 + (cols l p m 1).2 j * (CD l p m).2 := by
      funext j
      simp only [abcd, if_neg (not_le.2 hm), hn, Nat.reduceSub]
    have h2 : cols l p m 2 = (up l m (p.h 0) (p.v 0) (p.v 1) (p.E 0) (p.E 1) (p.f 0) (cols l p m 1).1,
        up l m (p.h 0) (p.v 0) (p.v 1) (p.E 0) (p.E 1) (p.f 0) (cols l p m 1).2) := by
      rw [show (2 : ℕ) = 1 + 1 from rfl, cols]
      simp only [hn, Nat.reduceSub, Nat.reduceAdd]
    rw [h, up_lin]
    funext j
    simp only [abcd, if_neg (not_le.2 hm), hn, Nat.reduceSub, h2]
  have hK : ∀ a b w : ℝ, 0 < b → 0 < w → a ≠ b → ((1 + w) * a) / ((1 + w) * b) ≠ 1 := by
    intro a b w hb hw hab h
    have hw1 : (1 + w) * b ≠ 0 := mul_ne_zero (by linarith) hb.ne'
    rw [div_eq_one_iff_eq hw1] at h
    exact hab (mul_left_cancel₀ (by linarith) h)
  have e0 := hu 0 (by omega)
  have e1 := hu 1 (by omega)
  -- the growing part of the middle layer
  have k01 := hK (p.E 0) (p.E 1) (p.v 0) (hp.E 1 (by omega)) v0.1 h01
  have hz : abcd l p m 1 0 = 0 ∧ abcd l p m 1 1 = 0 := by
    have hd := up_cut l l' m (p.h 0) (p.v 0) (p.v 0) (p.E 0) (p.E 1) (abcd l p m 1)
    have hf : p.f 0 = 1 := hb.f 0 (by omega)
    have s : up l m (p.h 0) (p.v 0) (p.v 0) (p.E 0) (p.E 1) 1 (abcd l p m 1) =
        up l' m (p.h 0) (p.v 0) (p.v 0) (p.E 0) (p.E 1) 1 (abcd l p m 1) := by
      have a := c0 l
      have b := c0 l'
      rw [hf, ← hv.1] at a b
      rw [← e0, ← e1] at b
      exact a.symm.trans b
    obtain ⟨d2, d3⟩ := hd
    rw [s, sub_self] at d2 d3
    have hgg : (gexp l (2 * (m * p.h 0)) - gexp l' (2 * (m * p.h 0))) * (1 / (4 * p.v 0 - 4)) ≠ 0 :=
      mul_ne_zero hg (one_div_ne_zero (fun h => by linarith [v0.2]))
    exact Xm_lower m (p.h 0) (p.v 0) _ hm.ne' _ _ hv3 k01 ((mul_eq_zero.1 d2.symm).resolve_left hgg)
      ((mul_eq_zero.1 d3.symm).resolve_left hgg)
  -- so the infinite layer has no part, and nothing has
  have k12 := hK (p.E 1) (p.E 2) (p.v 0) (hp.E 2 (by omega)) v0.1 h12
  have hz2 : (CD l p m).1 = 0 ∧ (CD l p m).2 = 0 := by
    have hf : p.f 1 = 1 := hb.f 1 (by omega)
    have a := c1 l
    rw [hf, ← hv.2, ← hv.1, c2 l] at a
    obtain ⟨z0, z1⟩ := hz
    rw [a] at z0 z1
    have ht : (1 : ℝ) / (4 * p.v 0 - 4) ≠ 0 := one_div_ne_zero (fun h => by linarith [v0.2])
    have hx : Real.exp (-(2 * (m * p.h 1))) ≠ 0 := (Real.exp_pos _).ne'
    simp only [up, if_true, Fin.sum_univ_four, Dm, v4_0, v4_1, v4_2, v4_3, mul_zero, zero_mul, add_zero, zero_add] at z0 z1
    refine Xm_upper m (p.h 1) (p.v 0) _ hm.ne' _ _ hv3 k12 ?_ ?_
    · have : Real.exp (-(2 * (m * p.h 1))) * (1 / (4 * p.v 0 - 4)) *
          (Xm m (p.h 1) (p.v 0) (p.v 0) ((1 + p.v 0) * p.E 1 / ((1 + p.v 0) * p.E 2)) 0 2 * (CD l p m).1 +
            Xm m (p.h 1) (p.v 0) (p.v 0) ((1 + p.v 0) * p.E 1 / ((1 + p.v 0) * p.E 2)) 0 3 * (CD l p m).2) = 0 := by
        linear_combination z0
      exact (mul_eq_zero.1 this).resolve_left (mul_ne_zero hx ht)
    · have : Real.exp (-(2 * (m * p.h 1))) * (1 / (4 * p.v 0 - 4)) *
          (Xm m (p.h 1) (p.v 0) (p.v 0) ((1 + p.v 0) * p.E 1 / ((1 + p.v 0) * p.E 2)) 1 2 * (CD l p m).1 +
            Xm m (p.h 1) (p.v 0) (p.v 0) ((1 + p.v 0) * p.E 1 / ((1 + p.v 0) * p.E 2)) 1 3 * (CD l p m).2) = 0 := by
        linear_combination z1
      exact (mul_eq_zero.1 this).resolve_left (mul_ne_zero hx ht)
  have hzero : abcd l p m 0 = 0 := by
    funext j
    simp only [abcd, hz2.1, hz2.2, mul_zero, add_zero, ite_self, Pi.zero_apply]
  have hpr := S.press
  rw [hzero] at hpr
  have hk : kvse l' m (p.v 0) 0 0 = 0 := by simp [kvse, buildT]
  rw [hk] at hpr
  have : 1 / (m * m) ≠ 0 := one_div_ne_zero (mul_ne_zero hm.ne' hm.ne')
  exact this (by linarith)

/-- Non-vacuity: three layers of different moduli. -/
example : let p : Pav := ⟨3, fun i => if i = 2 then 0 else (i : ℝ) + 1, fun _ => 1 / 3, fun i => (i : ℝ) + 1, fun _ => 1⟩
    Valid p ∧ Bonded p ∧ p.nl = 3 ∧ p.h 2 = 0 ∧ (p.v 0 = p.v 1 ∧ p.v 1 = p.v 2) ∧ p.E 0 ≠ p.E 1 ∧ p.E 1 ≠ p.E 2 ∧
    InRange ⟨3000, 10⟩ p 400 ∧ Real.log (Real.exp 709) < 2 * (400 * p.h 0) := by
  intro p
  refine ⟨⟨by decide, ?_, ?_, ?_, ?_⟩, ⟨fun _ _ => rfl, Or.inr (Or.inl rfl)⟩, rfl, ?_, ⟨rfl, rfl⟩, ?_, ?_, ⟨by norm_num, ?_⟩, ?_⟩
  · intro i _; simp only [p]; positivity
  · intro i _; simp only [p]; norm_num
  · intro i hi
    have : i = 0 ∨ i = 1 := by simp only [p] at hi; omega
    rcases this with rfl | rfl <;> simp [top, p]
  · left; simp [p]
  · simp [p]
  · simp [p]
  · simp [p]
  · intro i hi
    have : i = 0 ∨ i = 1 ∨ i = 2 := by simp only [p] at hi; omega
    rcases this with rfl | rfl | rfl <;> simp [p] <;> norm_num
  · rw [Real.log_exp]; simp [p]; norm_num

end OP.Pave
