import Verif.Pave.PropsDirty
import Verif.Pave.PropsAbcd
import Verif.Pave.PropsPanels
import Mathlib.Analysis.Calculus.ContDiff.Basic
import Mathlib.Analysis.Calculus.ContDiff.Operations
import Mathlib.Analysis.Calculus.ContDiff.Deriv
import Mathlib.Analysis.SpecialFunctions.ExpDeriv
import Mathlib.Topology.Order.Compact
/-!
# C121: the error of the interpolation
-/
namespace OP.Pave.Dirty
open List OP.Pave Set

/-- A chord differs from its function by no more than the bound of the second derivative allows. -/
theorem chord_error {f f' f'' : ℝ → ℝ} {lo hi M : ℝ} (hlt : lo < hi) (h1 : ∀ m ∈ Icc lo hi, HasDerivAt f (f' m) m)
    (h2 : ∀ m ∈ Icc lo hi, HasDerivAt f' (f'' m) m) (hM : ∀ m ∈ Icc lo hi, |f'' m| ≤ M) (m : ℝ) (hm : m ∈ Icc lo hi) :
    |f lo + (m - lo) / (hi - lo) * (f hi - f lo) - f m| ≤ M / 2 * ((m - lo) * (hi - m)) := by
  have key : ∀ s : ℝ, (s = 1 ∨ s = -1) →
      s * f m - M / 2 * ((m - lo) * (hi - m)) ≤ s * (f lo + (m - lo) / (hi - lo) * (f hi - f lo)) := by
    intro s hs
    have hd : ∀ x ∈ Icc lo hi, HasDerivAt (fun x => s * f x - M / 2 * ((x - lo) * (hi - x))) (s * f' x - M / 2 * (hi + lo - 2 * x)) x := by
      intro x hx
      have a1 := ((h1 x hx).const_mul s)
      have a2 := ((((hasDerivAt_id x).sub_const lo).mul ((hasDerivAt_const x hi).sub (hasDerivAt_id x)))).const_mul (M / 2)
      refine (a1.sub a2).congr_deriv ?_
      simp only [id, Pi.sub_apply]
      ring
    have hd2 : ∀ x ∈ Icc lo hi, HasDerivAt (fun x => s * f' x - M / 2 * (hi + lo - 2 * x)) (s * f'' x + M) x := by
      intro x hx
      have a1 := ((h2 x hx).const_mul s)
      have a2 := (((hasDerivAt_const x (hi + lo)).sub ((hasDerivAt_id x).const_mul 2))).const_mul (M / 2)
      refine (a1.sub a2).congr_deriv ?_
      ring
    have hc : ConvexOn ℝ (Icc lo hi) (fun x => s * f x - M / 2 * ((x - lo) * (hi - x))) := by
      refine convexOn_of_hasDerivWithinAt2_nonneg (convex_Icc lo hi) (f' := fun x => s * f' x - M / 2 * (hi + lo - 2 * x))
        (f'' := fun x => s * f'' x + M)
        (fun x hx => (hd x hx).continuousAt.continuousWithinAt) ?_ ?_ ?_
      · intro x hx
        exact (hd x (interior_subset hx)).hasDerivWithinAt
      · intro x hx
        exact (hd2 x (interior_subset hx)).hasDerivWithinAt
      · intro x hx
        have := abs_le.1 (hM x (interior_subset hx))
        rcases hs with rfl | rfl <;> linarith
    have hpos : 0 < hi - lo := by linarith
    have hw := hc.2 (left_mem_Icc.2 hlt.le) (right_mem_Icc.2 hlt.le)
      (show 0 ≤ (hi - m) / (hi - lo) from div_nonneg (by linarith [hm.2]) hpos.le)
      (show 0 ≤ (m - lo) / (hi - lo) from div_nonneg (by linarith [hm.1]) hpos.le)
      (by rw [← add_div]; rw [div_eq_one_iff_eq hpos.ne']; ring)
    have he : (hi - m) / (hi - lo) * lo + (m - lo) / (hi - lo) * hi = m := by field_simp; ring
    simp only [smul_eq_mul, he, sub_self, mul_zero, zero_mul, sub_zero] at hw
    refine hw.trans (le_of_eq ?_)
    have : (hi - m) / (hi - lo) = 1 - (m - lo) / (hi - lo) := by field_simp; ring
    rw [this]
    ring
  rw [abs_le]
  constructor
  · have := key 1 (Or.inl rfl)
    linarith
  · have := key (-1) (Or.inr rfl)
    linarith

theorem product_quarter {lo hi m : ℝ} : (m - lo) * (hi - m) ≤ (hi - lo) ^ 2 / 4 := by nlinarith [sq_nonneg (2 * m - lo - hi)]

/-- **C121**: on an interval on which the second derivative of a value is at most `M`, what the procedure uses differs from the value by at
most `M` times an eighth of the square of the length. -/
theorem C121_interval (pts : List ℝ) (a first : ℝ) (T P : ℝ → V4) (hs : pts.Pairwise (· < ·)) (hP : Interpolates pts a first T P)
    (lo hi : ℝ) (h : [lo, hi] <:+: pts) (i : Fin 4) (f' f'' : ℝ → ℝ) (M : ℝ)
    (h1 : ∀ m ∈ Icc lo hi, HasDerivAt (fun m => T m i) (f' m) m) (h2 : ∀ m ∈ Icc lo hi, HasDerivAt f' (f'' m) m)
    (hM : ∀ m ∈ Icc lo hi, |f'' m| ≤ M) (m : ℝ) (hm : m ∈ Icc lo hi) : |P m i - T m i| ≤ M * (hi - lo) ^ 2 / 8 := by
  have hlt : lo < hi := by
    have := hs.sublist h.sublist
    simpa using this
  have hM0 : 0 ≤ M := (abs_nonneg _).trans (hM m hm)
  obtain ⟨p1, p2⟩ := hP lo hi h m hm.1 hm.2
  by_cases hf : hi * a ≤ first
  · rw [p1 hf, sub_self, abs_zero]
    positivity
  · rw [p2 hf i]
    refine (chord_error hlt h1 h2 hM m hm).trans ?_
    have := product_quarter (lo := lo) (hi := hi) (m := m)
    nlinarith [mul_le_mul_of_nonneg_left this (show 0 ≤ M / 2 by linarith)]

/-- The sums are linear in the values: differences of at most `d` in the four values change what a point adds by at most these. -/
theorem C121_point (bs : Bessel) (v : ℝ) (disp : Bool) (a : ℝ) (x : Spot) (S T : V4) (n : ℝ × ℝ) (d : ℝ)
    (h : ∀ i, |S i - T i| ≤ d) :
    let w := |n.2 * (n.1 * bs.j1 (n.1 * a))|
    let w0 := w * |bs.j0 (n.1 * x.r)|
    let w1 := w * |bs.j1 (n.1 * x.r)|
    let e (g : Ax → ℝ) := |g (contribT bs v disp a x S n) - g (contribT bs v disp a x T n)|
    e Ax.vdp ≤ w0 * (4 * |1 - 2 * v| + 2) * d ∧
    e Ax.vse ≤ w0 * |n.1| * (2 * |1 - 2 * v| + 2) * d ∧
    e Ax.rse ≤ w0 * |n.1| * (2 * |1 + 2 * v| + 2) * d ∧
    e Ax.tse ≤ w0 * |n.1| * (4 * |v|) * d ∧
    e Ax.sse ≤ w1 * |n.1| * (4 * |v| + 2) * d ∧
    e Ax.rdp ≤ w1 * 4 * d := by
  intro w w0 w1 e
  have hd : 0 ≤ d := (abs_nonneg _).trans (h 0)
  have hw : 0 ≤ w := abs_nonneg _
  have hw0 : 0 ≤ w0 := mul_nonneg hw (abs_nonneg _)
  have hw1 : 0 ≤ w1 := mul_nonneg hw (abs_nonneg _)
  have tri : ∀ (c1 c2 : ℝ) (u1 u2 u3 u4 : ℝ), |u1| ≤ d → |u2| ≤ d → |u3| ≤ d → |u4| ≤ d →
      |c1 * (u1 + u2) + c2 * (u3 + u4)| ≤ (2 * |c1| + 2 * |c2|) * d := by
    intro c1 c2 u1 u2 u3 u4 g1 g2 g3 g4
    calc |c1 * (u1 + u2) + c2 * (u3 + u4)| ≤ |c1 * (u1 + u2)| + |c2 * (u3 + u4)| := abs_add_le _ _
      _ = |c1| * |u1 + u2| + |c2| * |u3 + u4| := by rw [abs_mul, abs_mul]
      _ ≤ |c1| * (d + d) + |c2| * (d + d) := by
        have e1 := (abs_add_le u1 u2).trans (add_le_add g1 g2)
        have e2 := (abs_add_le u3 u4).trans (add_le_add g3 g4)
        exact add_le_add (mul_le_mul_of_nonneg_left e1 (abs_nonneg _)) (mul_le_mul_of_nonneg_left e2 (abs_nonneg _))
      _ = _ := by ring
  have hn : ∀ i, |-(S i - T i)| ≤ d := fun i => by rw [abs_neg]; exact h i
  have hw0e : w0 = |n.2 * (n.1 * bs.j1 (n.1 * a)) * bs.j0 (n.1 * x.r)| := by simp only [w0, w, abs_mul]
  have hw1e : w1 = |n.2 * (n.1 * bs.j1 (n.1 * a)) * bs.j1 (n.1 * x.r)| := by simp only [w1, w, abs_mul]
  have fin : ∀ (c D y : ℝ) (p : Prop) [Decidable p] (s t : ℝ), 0 ≤ y → s - t = c * D → |c| * |D| ≤ y →
      |(if p then s else 0) - (if p then t else 0)| ≤ y := by
    intro c D y p _ s t hy hst hcd
    by_cases hp : p
    · rw [if_pos hp, if_pos hp, hst, abs_mul]; exact hcd
    · rw [if_neg hp, if_neg hp, sub_self, abs_zero]; exact hy
  refine ⟨?_, ?_, ?_, ?_, ?_, ?_⟩
  · refine fin (n.2 * (n.1 * bs.j1 (n.1 * a)) * bs.j0 (n.1 * x.r))
      (2 * (1 - 2 * v) * ((S 3 - T 3) + -(S 1 - T 1)) + (-1) * ((S 0 - T 0) + (S 2 - T 2))) _ _ _ _ (by positivity) (by ring) ?_
    rw [← hw0e, mul_assoc w0]
    refine mul_le_mul_of_nonneg_left ((tri _ _ _ _ _ _ (h 3) (hn 1) (h 0) (h 2)).trans (le_of_eq ?_)) hw0
    rw [abs_mul, abs_two, abs_neg, abs_one]; ring
  · refine fin (n.2 * (n.1 * bs.j1 (n.1 * a)) * bs.j0 (n.1 * x.r) * n.1)
      ((1 - 2 * v) * ((S 1 - T 1) + (S 3 - T 3)) + 1 * ((S 0 - T 0) + -(S 2 - T 2))) _ _ _ _ (by positivity) (by ring) ?_
    rw [abs_mul (_ * _) n.1, ← hw0e, mul_assoc (w0 * _)]
    refine mul_le_mul_of_nonneg_left ((tri _ _ _ _ _ _ (h 1) (h 3) (h 0) (hn 2)).trans (le_of_eq ?_)) (by positivity)
    rw [abs_one]; ring
  · refine fin (n.2 * (n.1 * bs.j1 (n.1 * a)) * bs.j0 (n.1 * x.r) * n.1)
      ((1 + 2 * v) * ((S 1 - T 1) + (S 3 - T 3)) + (-1) * ((S 0 - T 0) + -(S 2 - T 2))) _ _ _ _ (by positivity) (by ring) ?_
    rw [abs_mul (_ * _) n.1, ← hw0e, mul_assoc (w0 * _)]
    refine mul_le_mul_of_nonneg_left ((tri _ _ _ _ _ _ (h 1) (h 3) (h 0) (hn 2)).trans (le_of_eq ?_)) (by positivity)
    rw [abs_neg, abs_one]; ring
  · refine fin (n.2 * (n.1 * bs.j1 (n.1 * a)) * bs.j0 (n.1 * x.r) * n.1)
      ((2 * v) * ((S 1 - T 1) + (S 3 - T 3)) + 0 * ((S 0 - T 0) + -(S 2 - T 2))) _ _ _ _ (by positivity) (by ring) ?_
    rw [abs_mul (_ * _) n.1, ← hw0e, mul_assoc (w0 * _)]
    refine mul_le_mul_of_nonneg_left ((tri _ _ _ _ _ _ (h 1) (h 3) (h 0) (hn 2)).trans (le_of_eq ?_)) (by positivity)
    rw [abs_zero, abs_mul, abs_two]; ring
  · refine fin (n.2 * (n.1 * bs.j1 (n.1 * a)) * bs.j1 (n.1 * x.r) * n.1)
      ((2 * v) * ((S 3 - T 3) + -(S 1 - T 1)) + 1 * ((S 0 - T 0) + (S 2 - T 2))) _ _ _ _ (by positivity) (by ring) ?_
    rw [abs_mul (_ * _) n.1, ← hw1e, mul_assoc (w1 * _)]
    refine mul_le_mul_of_nonneg_left ((tri _ _ _ _ _ _ (h 3) (hn 1) (h 0) (h 2)).trans (le_of_eq ?_)) (by positivity)
    rw [abs_one, abs_mul, abs_two]; ring
  · refine fin (n.2 * (n.1 * bs.j1 (n.1 * a)) * bs.j1 (n.1 * x.r))
      (1 * ((S 1 - T 1) + (S 3 - T 3)) + (-1) * ((S 0 - T 0) + -(S 2 - T 2))) _ _ _ _ (by positivity) (by ring) ?_
    rw [← hw1e, mul_assoc w1]
    refine mul_le_mul_of_nonneg_left ((tri _ _ _ _ _ _ (h 1) (h 3) (h 0) (hn 2)).trans (le_of_eq ?_)) hw1
    rw [abs_neg, abs_one]; ring

/-! ## The values are smooth -/

theorem gexp_smooth (l : Lim) (c m : ℝ) (h : m * c < l.maxExp) : ContDiffAt ℝ 2 (fun m => gexp l (m * c)) m := by
  have hev : (fun m => gexp l (m * c)) =ᶠ[nhds m] fun m => Real.exp (m * c) := by
    have : ∀ᶠ y in nhds m, y * c < l.maxExp := (continuous_id.mul continuous_const).tendsto m |>.eventually (gt_mem_nhds h) 
    exact this.mono fun y hy => by simp only [gexp, if_pos hy]
  exact ContDiffAt.congr_of_eventuallyEq (by fun_prop) hev

theorem last_smooth (z v E s m : ℝ) (hm : 0 < m) (hd : 2 * m * E * (1 - s) * (v - 1) / (v + 1) + s * (3 - 4 * v) ≠ 0 ∨ ¬ z > 0)
    (i : Fin 4) :
    ContDiffAt ℝ 2 (fun m => (last m z v E s).1 i) m ∧ ContDiffAt ℝ 2 (fun m => (last m z v E s).2 i) m := by
  have hm' := hm.ne'
  by_cases hz : z > 0
  · have hd' := hd.resolve_right (by simpa using hz)
    have h1 : ContDiffAt ℝ 2 (fun m : ℝ => 1 / m) m := contDiffAt_const.div contDiffAt_id hm'
    have ht : ContDiffAt ℝ 2 (fun m : ℝ => 2 * m * E * (1 - s) * (v - 1) / (v + 1)) m := by fun_prop
    have hq : ContDiffAt ℝ 2 (fun m : ℝ => Real.exp (-2 * m * z) *
        (1 / (2 * m * E * (1 - s) * (v - 1) / (v + 1) + s * (3 - 4 * v)))) m :=
      ContDiffAt.mul (by fun_prop) (contDiffAt_const.div (ht.add contDiffAt_const) hd')
    simp only [last, if_pos hz]
    fin_cases i <;> simp only [v4] <;> constructor <;> first | exact contDiffAt_const | skip
    · exact ContDiffAt.mul (ContDiffAt.sub (by fun_prop) ht) hq
    · exact ContDiffAt.mul (ContDiffAt.sub (ContDiffAt.sub (contDiffAt_const.mul h1) (by fun_prop)) (contDiffAt_const.mul ht)) hq
    · exact ContDiffAt.mul (by fun_prop) hq
    · exact ContDiffAt.mul (ContDiffAt.add (by fun_prop) ht) hq
  · simp only [last, if_neg hz]
    exact ⟨contDiffAt_const, contDiffAt_const⟩

theorem X_smooth (z v1 v2 K m : ℝ) (hm : 0 < m) (i j : Fin 4) : ContDiffAt ℝ 2 (fun m => Xm m z v1 v2 K i j) m := by
  have h1 : ContDiffAt ℝ 2 (fun m : ℝ => 1 / m) m := contDiffAt_const.div contDiffAt_id hm.ne'
  fin_cases i <;> fin_cases j <;> simp only [Xm, v4] <;>
    first | fun_prop | exact ContDiffAt.mul (by fun_prop) h1

theorem D_smooth (l : Lim) (z m : ℝ) (h : 2 * (m * z) < l.maxExp) (i j : Fin 4) : ContDiffAt ℝ 2 (fun m => Dm l m z i j) m := by
  have h1 : ContDiffAt ℝ 2 (fun m => gexp l (2 * (m * z))) m := by
    have := gexp_smooth l (2 * z) m (by linarith)
    refine this.congr_of_eventuallyEq (Filter.Eventually.of_forall fun y => ?_)
    show gexp l (2 * (y * z)) = gexp l (y * (2 * z))
    congr 1; ring
  fin_cases i <;> fin_cases j <;> simp only [Dm, v4] <;> first | exact h1 | fun_prop

theorem up_smooth (l : Lim) (z v1 v2 E1 E2 m : ℝ) (hm : 0 < m) (h : 2 * (m * z) < l.maxExp) (c : ℝ → V4)
    (hc : ∀ j, ContDiffAt ℝ 2 (fun m => c m j) m) (i : Fin 4) :
    ContDiffAt ℝ 2 (fun m => up l m z v1 v2 E1 E2 1 (c m) i) m := by
  simp only [up, if_true]
  refine ContDiffAt.sum fun j _ => ?_
  exact ((D_smooth l z m h i j).mul ((X_smooth z v1 v2 _ m hm i j).mul (hc j))).mul contDiffAt_const

theorem cols_smooth (l : Lim) (p : Pav) (m : ℝ) (hp : Valid p) (hb : Bonded p) (hr : InRange l p m) : ∀ k, k < p.nl → ∀ i,
    ContDiffAt ℝ 2 (fun m => (cols l p m k).1 i) m ∧ ContDiffAt ℝ 2 (fun m => (cols l p m k).2 i) m
  | 0, _, i => by
    have hn : p.nl - 1 < p.nl := by have := hp.pos; omega
    refine last_smooth _ _ _ _ m hr.pos ?_ i
    by_cases hz : p.h (p.nl - 1) > 0
    · left; exact base_div m _ _ _ hr.pos (hp.E _ hn) (hp.v _ hn) (hb.base.resolve_left hz.ne')
    · exact Or.inr hz
  | k + 1, hk, i => by
    have ih := cols_smooth l p m hp hb hr k (by omega)
    have hf : p.f (p.nl - 1 - k - 1) = 1 := hb.f _ (by omega)
    have he := hr.e (p.nl - 1 - k - 1) (by omega)
    simp only [cols, hf]
    exact ⟨up_smooth l _ _ _ _ _ m hr.pos he _ (fun j => (ih j).1) i, up_smooth l _ _ _ _ _ m hr.pos he _ (fun j => (ih j).2) i⟩

theorem B1_smooth (v m : ℝ) (i : Fin 2) (j : Fin 4) : ContDiffAt ℝ 2 (fun m => B1 m v i j) m := by
  fin_cases i <;> fin_cases j <;> simp only [B1, v2, v4] <;> fun_prop

theorem abcd_smooth (l : Lim) (p : Pav) (m : ℝ) (hp : Valid p) (hb : Bonded p) (hr : InRange l p m) (il : Nat) (i : Fin 4) :
    ContDiffAt ℝ 2 (fun m => abcd l p m il i) m := by
  have hn : p.nl - 1 < p.nl := by have := hp.pos; omega
  have hc := cols_smooth l p m hp hb hr
  have hs1 : ∀ q, ContDiffAt ℝ 2 (fun m => ∑ i, B1 m (p.v 0) q i * (cols l p m (p.nl - 1)).1 i) m :=
    fun q => ContDiffAt.sum fun i _ => (B1_smooth _ _ _ _).mul (hc _ hn i).1
  have hs2 : ∀ q, ContDiffAt ℝ 2 (fun m => ∑ i, B1 m (p.v 0) q i * (cols l p m (p.nl - 1)).2 i) m :=
    fun q => ContDiffAt.sum fun i _ => (B1_smooth _ _ _ _).mul (hc _ hn i).2
  have hdet : ContDiffAt ℝ 2 (fun m => det0 l p m) m := by
    simp only [det0]
    exact ((hs1 0).mul (hs2 1)).sub ((hs2 0).mul (hs1 1))
  have hd := det_ne l p m hp hb hr
  have hmm : ContDiffAt ℝ 2 (fun m : ℝ => m * m) m := by fun_prop
  have hm2 : m * m ≠ 0 := mul_ne_zero hr.pos.ne' hr.pos.ne'
  have hC : ContDiffAt ℝ 2 (fun m => (CD l p m).1) m := ((hs2 0).div hmm hm2).neg.div hdet hd
  have hD : ContDiffAt ℝ 2 (fun m => (CD l p m).2) m := ((hs1 0).div hmm hm2).div hdet hd
  have hk : p.nl - 1 - il < p.nl := by have := hp.pos; omega
  have := (((hc _ hk i).1.mul hC).add ((hc _ hk i).2.mul hD))
  refine this.congr_of_eventuallyEq ?_
  filter_upwards [lt_mem_nhds hr.pos] with y hy
  simp only [abcd, if_neg (not_le.2 hy)]

theorem T_smooth (l : Lim) (p : Pav) (m z : ℝ) (hp : Valid p) (hb : Bonded p) (hr : InRange l p m) (hz : m * z < l.maxExp)
    (il : Nat) (i : Fin 4) : ContDiffAt ℝ 2 (fun m => buildT l m z (abcd l p m il) i) m := by
  have h := abcd_smooth l p m hp hb hr il
  have hg := gexp_smooth l z m hz
  have he : ContDiffAt ℝ 2 (fun m : ℝ => Real.exp (-(m * z))) m := by fun_prop
  fin_cases i <;> simp only [buildT, v4]
  · exact (contDiffAt_id.mul ((h 2).add ((h 3).mul contDiffAt_const))).mul he
  · exact he.mul (h 3)
  · exact (contDiffAt_id.mul ((h 0).add ((h 1).mul contDiffAt_const))).mul hg
  · exact hg.mul (h 1)

/-- The wave numbers at which no exponential is cut off. -/
def inside (l : Lim) (p : Pav) (z : ℝ) : Set ℝ := {m | InRange l p m ∧ m * z < l.maxExp}

theorem inside_open (l : Lim) (p : Pav) (z : ℝ) : IsOpen (inside l p z) := by
  have : inside l p z = ({m | 0 < m} ∩ ⋂ i ∈ Finset.range p.nl, {m | 2 * (m * p.h i) < l.maxExp}) ∩ {m | m * z < l.maxExp} := by
    ext m
    simp only [inside, mem_setOf_eq, mem_inter_iff, mem_iInter, Finset.mem_range]
    exact ⟨fun h => ⟨⟨h.1.pos, h.1.e⟩, h.2⟩, fun h => ⟨⟨h.1.1, h.1.2⟩, h.2⟩⟩
  rw [this]
  refine ((isOpen_lt continuous_const continuous_id).inter (isOpen_biInter_finset fun i _ => ?_)).inter
    (isOpen_lt (by fun_prop) continuous_const)
  exact isOpen_lt (by fun_prop) continuous_const

theorem inside_between (l : Lim) (p : Pav) (z b c m : ℝ) (hb : 0 < b) (hc : c ∈ inside l p z) (hmax : 0 < l.maxExp) (h1 : b ≤ m)
    (h2 : m ≤ c) : m ∈ inside l p z := by
  have hm : 0 < m := by linarith
  have up : ∀ q : ℝ, c * q < l.maxExp → m * q < l.maxExp := by
    intro q hq
    rcases le_or_gt q 0 with hq0 | hq0
    · exact (mul_nonpos_of_nonneg_of_nonpos hm.le hq0).trans_lt hmax
    · exact (mul_le_mul_of_nonneg_right h2 hq0.le).trans_lt hq
  refine ⟨⟨hm, fun i hi => ?_⟩, up z hc.2⟩
  have := up (2 * p.h i) (by linarith [hc.1.e i hi])
  linarith

/-- **C121**: for every bonded pavement and every range of wave numbers at which nothing is cut off there is one bound for all divisions
into intervals: what the dirty procedure uses instead of the four values differs by at most that bound times the square of the
length of the interval. -/
theorem C121_error (l : Lim) (p : Pav) (z b c : ℝ) (il : Nat) (hp : Valid p) (hbd : Bonded p) (hb : 0 < b) (hc : InRange l p c)
    (hz : c * z < l.maxExp) : ∃ M, 0 ≤ M ∧ ∀ (pts : List ℝ) (a first : ℝ) (P : ℝ → V4), pts.Pairwise (· < ·) →
      Interpolates pts a first (fun m => buildT l m z (abcd l p m il)) P → ∀ lo hi, [lo, hi] <:+: pts → b ≤ lo → hi ≤ c →
        ∀ m, lo ≤ m → m ≤ hi → ∀ i, |P m i - buildT l m z (abcd l p m il) i| ≤ M * (hi - lo) ^ 2 := by
  have hmax := hc.max_pos hp
  have hin : ∀ m, b ≤ m → m ≤ c → m ∈ inside l p z := fun m h1 h2 => inside_between l p z b c m hb ⟨hc, hz⟩ hmax h1 h2
  have one : ∀ i : Fin 4, ∃ (f' f'' : ℝ → ℝ) (M : ℝ), (∀ m, b ≤ m → m ≤ c → HasDerivAt (fun m => buildT l m z (abcd l p m il) i) (f' m) m) ∧
      (∀ m, b ≤ m → m ≤ c → HasDerivAt f' (f'' m) m) ∧ ∀ m, b ≤ m → m ≤ c → |f'' m| ≤ M := by
    intro i
    set f : ℝ → ℝ := fun m => buildT l m z (abcd l p m il) i with hf
    have hU := inside_open l p z
    have hcd : ContDiffOn ℝ 2 f (inside l p z) := fun m hm => (T_smooth l p m z hp hbd hm.1 hm.2 il i).contDiffWithinAt
    obtain ⟨d1, -, d2⟩ := (contDiffOn_succ_iff_deriv_of_isOpen (n := 1) hU).1 hcd
    have d2' : ContDiffOn ℝ (0 + 1) (deriv f) (inside l p z) := d2
    obtain ⟨d3, -, d4⟩ := (contDiffOn_succ_iff_deriv_of_isOpen (n := 0) hU).1 d2'
    have hcont : ContinuousOn (deriv (deriv f)) (Icc b c) := d4.continuousOn.mono fun m hm => hin m hm.1 hm.2
    obtain ⟨M, hM⟩ := isCompact_Icc.exists_bound_of_continuousOn hcont
    refine ⟨deriv f, deriv (deriv f), M, fun m h1 h2 => ?_, fun m h1 h2 => ?_, fun m h1 h2 => ?_⟩
    · exact (d1.differentiableAt (hU.mem_nhds (hin m h1 h2))).hasDerivAt
    · exact (d3.differentiableAt (hU.mem_nhds (hin m h1 h2))).hasDerivAt
    · simpa using hM m ⟨h1, h2⟩
  choose f' f'' M hM using one
  refine ⟨∑ i, |M i|, Finset.sum_nonneg fun i _ => abs_nonneg _, ?_⟩
  intro pts a first P hs hP lo hi h hlo hhi m h1 h2 i
  obtain ⟨g1, g2, g3⟩ := hM i
  have hc1 : ∀ x ∈ Icc lo hi, b ≤ x ∧ x ≤ c := fun x hx => ⟨hlo.trans hx.1, hx.2.trans hhi⟩
  refine (C121_interval pts a first _ P hs hP lo hi h i (f' i) (f'' i) (M i) (fun x hx => g1 x (hc1 x hx).1 (hc1 x hx).2)
    (fun x hx => g2 x (hc1 x hx).1 (hc1 x hx).2) (fun x hx => g3 x (hc1 x hx).1 (hc1 x hx).2) m ⟨h1, h2⟩).trans ?_
  have hle : |M i| ≤ ∑ i, |M i| := Finset.single_le_sum (f := fun i => |M i|) (fun j _ => abs_nonneg _) (Finset.mem_univ i)
  have hsq : 0 ≤ (hi - lo) ^ 2 := sq_nonneg _
  have := mul_le_mul_of_nonneg_right ((le_abs_self (M i)).trans hle) hsq
  have h0 : 0 ≤ (∑ i, |M i|) * (hi - lo) ^ 2 := mul_nonneg (Finset.sum_nonneg fun i _ => abs_nonneg _) hsq
  linarith

/-- **C121**: the points of the procedure (C117) are in order, and the second ends an early interval. -/
theorem C121_points {j0r j1r : Nat → ℝ} {nbz ba : Nat} {qpi a : ℝ} (ha : 0 < a) (hb : 0 < ba) (hp : 0 < qpi)
    (hj : ∀ i ≤ nbz, 0 < j1r i) (h01 : j1r 0 ≤ j1r 1) (rs zs : List ℝ) {ms : List ℝ} (hms : ∀ m ∈ ms, 0 ≤ m) :
    (Panels.points j0r j1r nbz ba qpi a rs zs ms).Pairwise (· < ·) ∧
      ∀ hi, (Panels.points j0r j1r nbz ba qpi a rs zs ms)[1]? = some hi → hi * a ≤ j1r 1 := by
  obtain ⟨⟨M, -, -, hT⟩, h2, -⟩ := Panels.C117_points (j0r := j0r) (nbz := nbz) (ba := ba) ha hb hp (fun i hi => (hj i hi).le) rs zs hms
  have hs := hT.1
  have h0 := hT.2.1
  have hmem := h2 0 (Nat.zero_le _)
  refine ⟨hs, fun hi hhi => ?_⟩
  generalize Panels.points j0r j1r nbz ba qpi a rs zs ms = l at hs h0 hmem hhi
  match l, hs, h0, hmem, hhi with
  | x :: y :: rest, hs, h0, hmem, hhi =>
    simp only [List.head?_cons, Option.some.injEq] at h0
    simp only [List.getElem?_cons_succ, List.getElem?_cons_zero, Option.some.injEq] at hhi
    subst h0 hhi
    have hle : y ≤ j1r 0 / a := by
      rcases List.mem_cons.1 hmem with e | hmem
      · exact absurd e (div_pos (hj 0 (Nat.zero_le _)) ha).ne'
      · rcases List.mem_cons.1 hmem with e | hmem
        · exact e.ge
        · exact ((List.pairwise_cons.1 (List.pairwise_cons.1 hs).2).1 _ hmem).le
    exact ((le_div_iff₀ ha).1 hle).trans h01

/-- Non-vacuity: points in order, of which the second ends an early interval, and a later interval. -/
example : [(0 : ℝ), 1, 2, 4].Pairwise (· < ·) ∧ (∀ hi, [(0 : ℝ), 1, 2, 4][1]? = some hi → hi * 1 ≤ 3) ∧ [(2 : ℝ), 4] <:+: [0, 1, 2, 4] ∧
    ¬ (4 : ℝ) * 1 ≤ 3 := by
  refine ⟨by norm_num, by norm_num, ⟨[0, 1], [], rfl⟩, by norm_num⟩

/-- Non-vacuity: a rule within the interval. -/
example : ∀ g ∈ [((-(1 / 2), 1) : ℝ × ℝ), (1 / 2, 1)], -1 ≤ g.1 ∧ g.1 ≤ 1 := by
  intro g hg
  simp only [mem_cons, not_mem_nil, or_false] at hg
  rcases hg with rfl | rfl <;> norm_num

end OP.Pave.Dirty
