import Verif.Pave.PropsGaussFirst
import Verif.Pave.PropsGaussLocal
import Verif.Stat.Cert
/-!
# C100: all searches of the code

The code makes tables of up to sixteen points.  Every guess but the one in the middle lies above the zero it is meant for, and before the next inflection.  Both are shown
with integers: the polynomials times `n!` have integer coefficients, and the cosine is between two of its Taylor polynomials.
-/
namespace OP.Pave.Gauss
open OP.Stat Set

/-! ## The cosine -/

theorem grow {F F' : ℝ → ℝ} (h : ∀ x, HasDerivAt F (F' x) x) (h0 : F 0 = 0) (hp : ∀ x, 0 ≤ x → 0 ≤ F' x) (x : ℝ) (hx : 0 ≤ x) : 0 ≤ F x := by
  have hd : Differentiable ℝ F := fun x => (h x).differentiableAt
  have := monotoneOn_of_deriv_nonneg (convex_Ici (0 : ℝ)) hd.continuous.continuousOn hd.differentiableOn (fun w hw => by
    rw [(h w).deriv]
    exact hp w (interior_subset hw)) (self_mem_Ici (a := (0 : ℝ))) hx hx
  rwa [h0] at this

theorem trig {A B : ℝ} {T : List ℤ} (h0 : B + ev T 0 = 0) (hp : ∀ x, 0 ≤ x → 0 ≤ A * Real.cos x - B * Real.sin x + ev (derl T) x) (x : ℝ) (hx : 0 ≤ x) :
    0 ≤ A * Real.sin x + B * Real.cos x + ev T x := by
  refine grow (F := fun x => A * Real.sin x + B * Real.cos x + ev T x) (F' := fun x => A * Real.cos x - B * Real.sin x + ev (derl T) x) (fun x => ?_) ?_ hp x hx
  · have := (((Real.hasDerivAt_sin x).const_mul A).add ((Real.hasDerivAt_cos x).const_mul B)).add (hasDerivAt_ev T x)
    refine this.congr_deriv ?_
    ring
  · simp only [Real.sin_zero, Real.cos_zero]
    linarith

/-- Taylor polynomials of the cosine, times `10!`. -/
def T10 : List ℤ := [3628800, 0, -1814400, 0, 151200, 0, -5040, 0, 90, 0, -1]
def T8 : List ℤ := [3628800, 0, -1814400, 0, 151200, 0, -5040, 0, 90]

/-- The polynomial with its sign changed and without its constant part has the derivative of the next step. -/
theorem cos_bounds (x : ℝ) (hx : 0 ≤ x) : ev T10 x ≤ 3628800 * Real.cos x ∧ 3628800 * Real.cos x ≤ ev T8 x := by
  have s1 : ∀ x : ℝ, 0 ≤ x → 0 ≤ (-3628800 : ℝ) * Real.sin x + 0 * Real.cos x + ev [0, 3628800] x := fun x hx => by
    have := Real.sin_le hx
    simp only [ev]
    push_cast
    linarith
  have c2 := fun x hx => trig (A := 0) (B := 3628800) (T := [-3628800, 0, 1814400]) (by simp [ev]) (fun x hx => by
    have := s1 x hx
    simp only [ev, derl, addl] at this ⊢
    push_cast at this ⊢
    linarith) x hx
  have s3 := fun x hx => trig (A := 3628800) (B := 0) (T := [0, -3628800, 0, 604800]) (by simp [ev]) (fun x hx => by
    have := c2 x hx
    simp only [ev, derl, addl] at this ⊢
    push_cast at this ⊢
    linarith) x hx
  have c4 := fun x hx => trig (A := 0) (B := -3628800) (T := [3628800, 0, -1814400, 0, 151200]) (by simp [ev]) (fun x hx => by
    have := s3 x hx
    simp only [ev, derl, addl] at this ⊢
    push_cast at this ⊢
    linarith) x hx
  have s5 := fun x hx => trig (A := -3628800) (B := 0) (T := [0, 3628800, 0, -604800, 0, 30240]) (by simp [ev]) (fun x hx => by
    have := c4 x hx
    simp only [ev, derl, addl] at this ⊢
    push_cast at this ⊢
    linarith) x hx
  have c6 := fun x hx => trig (A := 0) (B := 3628800) (T := [-3628800, 0, 1814400, 0, -151200, 0, 5040]) (by simp [ev]) (fun x hx => by
    have := s5 x hx
    simp only [ev, derl, addl] at this ⊢
    push_cast at this ⊢
    linarith) x hx
  have s7 := fun x hx => trig (A := 3628800) (B := 0) (T := [0, -3628800, 0, 604800, 0, -30240, 0, 720]) (by simp [ev]) (fun x hx => by
    have := c6 x hx
    simp only [ev, derl, addl] at this ⊢
    push_cast at this ⊢
    linarith) x hx
  have c8 := fun x hx => trig (A := 0) (B := -3628800) (T := T8) (by simp [ev, T8]) (fun x hx => by
    have := s7 x hx
    simp only [ev, derl, addl, T8] at this ⊢
    push_cast at this ⊢
    linarith) x hx
  have s9 := fun x hx => trig (A := -3628800) (B := 0) (T := [0, 3628800, 0, -604800, 0, 30240, 0, -720, 0, 10]) (by simp [ev]) (fun x hx => by
    have := c8 x hx
    simp only [ev, derl, addl, T8] at this ⊢
    push_cast at this ⊢
    linarith) x hx
  have c10 := fun x hx => trig (A := 0) (B := 3628800) (T := smul (-1) T10) (by simp [ev, smul, T10]) (fun x hx => by
    have := s9 x hx
    simp only [ev, derl, addl, smul, T10] at this ⊢
    push_cast at this ⊢
    linarith) x hx
  have h1 := c8 x hx
  have h2 := c10 x hx
  rw [ev_smul] at h2
  push_cast at h2
  constructor <;> linarith

/-! ## The polynomials with integer coefficients -/

/-- The polynomial times `n!`, and the one before it times `(n - 1)!`. -/
def LI : Nat → List ℤ × List ℤ
  | 0 => ([1], [])
  | n + 1 => (addl (0 :: smul (2 * n + 1) (LI n).1) (smul (-(n * n)) (LI n).2), (LI n).1)

theorem LI_eval (z : ℝ) : ∀ n : Nat, ev (LI n).1 z = n.factorial * (legendre n z).1 ∧ ev (LI n).2 z * n = n.factorial * (legendre n z).2
  | 0 => by
    rw [legendre_eval]
    simp [LI, LP, ev]
  | n + 1 => by
    obtain ⟨h1, h2⟩ := LI_eval z n
    rw [legendre_eval] at h1 h2 ⊢
    dsimp only at h1 h2 ⊢
    have hr := congrArg (Polynomial.eval z) (rec_C n)
    simp only [Polynomial.eval_mul, Polynomial.eval_sub, Polynomial.eval_C, Polynomial.eval_X] at hr
    rw [Nat.factorial_succ]
    constructor
    · rw [LI]
      simp only [ev_addl, ev, ev_smul]
      push_cast
      linear_combination -(n.factorial : ℝ) * hr + (2 * (n : ℝ) + 1) * z * h1 - (n : ℝ) * h2
    · have e : (LP (n + 1)).2 = (LP n).1 := by rw [LP]
      rw [e]
      show ev (LI n).1 z * _ = _
      push_cast
      linear_combination ((n : ℝ) + 1) * h1

theorem LI_slope (n : Nat) (z : ℝ) (hz : z ^ 2 ≠ 1) : ev (derl (LI n).1) z = n.factorial * slope n z := by
  have h1 := hasDerivAt_ev (LI n).1 z
  have h2 := (C100_newton n z hz).const_mul (n.factorial : ℝ)
  have e : ev (LI n).1 = fun x => (n.factorial : ℝ) * (legendre n x).1 := funext fun x => (LI_eval x n).1
  rw [e] at h1
  exact h1.unique h2

/-! ## The check -/

/-- The polynomial is not negative between `a / m` and `b / m`. -/
def pos (m a b : Nat) (p : List ℤ) : Bool := pieces (scalel m p.length p) a [b]

theorem pos_sound {m a b : Nat} (hm : 0 < m) {p : List ℤ} (h : pos m a b p = true) {y : ℝ} (h0 : (a : ℝ) / m ≤ y) (h1 : y ≤ (b : ℝ) / m) : 0 ≤ ev p y := by
  have hm' : (0 : ℝ) < m := by exact_mod_cast hm
  refine nonneg_of_pieces m a p.length m [b] p rfl hm h (by omega) b (by simp) y ?_ ?_
  · rw [div_le_iff₀ hm'] at h0
    linarith
  · rw [le_div_iff₀ hm'] at h1
    linarith

/-- A number above the value at `a / m`. -/
def above (m a : Nat) (p : List ℤ) : ℤ := (shiftBy a (scalel m p.length p)).headD 0 / m ^ p.length + 1

/-- In millionths: the zero is between `a` and `b`, the guess between `b` and `e`, and there is no inflection between `a` and `e`; the slope less than
doubles. -/
def chk (n i : Nat) (t : Nat × Nat × Nat) : Bool :=
  let p := smul ((-1) ^ i) (LI n).1
  let M := 10000 * (4 * n + 2)
  decide (0 < t.1 ∧ t.1 ≤ t.2.1 ∧ t.2.1 ≤ t.2.2 ∧ t.2.2 < 1000000) &&
    pos 1000000 t.1 t.1 (smul (-1) p) && pos 1000000 t.2.1 t.2.1 p && pos 1000000 t.1 t.1 (addl (derl p) [-1]) && pos 1000000 t.1 t.2.2 (derl (derl p)) &&
    pos M (31416 * (4 * i + 3)) (31416 * (4 * i + 3)) (addl (smul 1000000 T10) [-(3628800 * t.2.1)]) &&
    pos M (31415 * (4 * i + 3)) (31415 * (4 * i + 3)) (addl (smul (-1000000) T8) [3628800 * t.2.2]) &&
    pos 1000000 t.1 t.1 (addl (smul 2 (derl p)) [-above 1000000 t.2.2 (derl p)]) && pos 1000000 t.2.2 t.2.2 (addl (smul (-1) (derl p)) [above 1000000 t.2.2 (derl p)])

/-- The intervals, in millionths. -/
def tab : Nat → List (Nat × Nat × Nat)
  | 2 => [(577350, 587783, 587808)]
  | 3 => [(774596, 781830, 781844)]
  | 4 => [(861136, 866024, 866034), (339981, 342017, 342057)]
  | 5 => [(906179, 909631, 909638), (538469, 540638, 540666)]
  | 6 => [(932469, 935015, 935021), (661209, 663121, 663142), (238619, 239312, 239359)]
  | 7 => [(949107, 951056, 951060), (741531, 743143, 743160), (405845, 406734, 406769)]
  | 8 => [(960289, 961825, 961828), (796666, 798016, 798029), (525532, 526430, 526458), (183434, 183746, 183797)]
  | 9 => [(968160, 969400, 969403), (836031, 837165, 837176), (613371, 614211, 614234), (324253, 324696, 324737)]
  | 10 => [(973906, 974927, 974930), (865063, 866024, 866034), (679409, 680171, 680191), (433395, 433881, 433915), (148874, 149038, 149093)]
  | 11 => [(978228, 979083, 979086), (887062, 887884, 887892), (730152, 730834, 730852), (519096, 519581, 519611), (269543, 269793, 269838)]
  | 12 => [(981560, 982287, 982289), (904117, 904826, 904833), (769902, 770512, 770527), (587317, 587783, 587808), (367831, 368121, 368159), (125233, 125329, 125387)]
  | 13 => [(984183, 984807, 984809), (917598, 918215, 918221), (801578, 802122, 802135), (642349, 642786, 642808), (448492, 448796, 448830), (230458, 230612, 230660)]
  | 14 => [(986283, 986826, 986828), (928434, 928976, 928981), (827201, 827688, 827699), (687292, 687698, 687717), (515248, 515551, 515581), (319112, 319298, 319339), (108054, 108115, 108175)]
  | 15 => [(987992, 988468, 988470), (937273, 937751, 937756), (848206, 848643, 848653), (724417, 724791, 724809), (570972, 571266, 571292), (394151, 394353, 394389), (201194, 201295, 201345)]
  | 16 => [(989400, 989821, 989823), (944575, 945000, 945005), (865631, 866024, 866034), (755404, 755748, 755764), (617876, 618157, 618181), (458016, 458224, 458256), (281603, 281729, 281773), (95012, 95052, 95113)]
  | _ => []

/-- All the checks of one table, and that its intervals are apart. -/
def chkTab (n : Nat) : Bool :=
  decide ((tab n).length = n / 2) && (List.range (n / 2)).all fun i => chk n i ((tab n).getD i (0, 0, 0)) &&
    (List.range i).all fun j => decide (((tab n).getD i (0, 0, 0)).2.1 < ((tab n).getD j (0, 0, 0)).1)

theorem tab_ok : (List.range 17).all chkTab = true := by decide +kernel

/-- What the check shows: the zero, and that the search from the guess ends there. -/
theorem chk_sound {n i : Nat} (hi : 2 * i + 1 < n) {t : Nat × Nat × Nat} (h : chk n i t = true) : ∃ ζ : ℝ, (t.1 : ℝ) / (1000000 : ℕ) ≤ ζ ∧ ζ ≤ (t.2.1 : ℝ) / (1000000 : ℕ) ∧
    (legendre n ζ).1 = 0 ∧ 0 < ζ ∧ ∀ eps : ℝ, 0 < eps →
      ∃ fuel r, newton eps n fuel (guess n i) = some r ∧ ζ ≤ r.1 ∧ r.1 ≤ guess n i ∧ r.1 - ζ ≤ 2 * eps := by
  simp only [chk, Bool.and_eq_true, decide_eq_true_eq] at h
  obtain ⟨⟨⟨⟨⟨⟨⟨⟨⟨ha0, hab, hbe, he1⟩, k1⟩, k2⟩, k3⟩, k4⟩, k5⟩, k6⟩, k7⟩, k8⟩ := h
  obtain ⟨p, hp⟩ : ∃ p, p = smul ((-1) ^ i) (LI n).1 := ⟨_, rfl⟩
  rw [← hp] at k1 k2 k3 k4 k7 k8
  obtain ⟨a, ha⟩ : ∃ a : ℝ, a = (t.1 : ℝ) / (1000000 : ℕ) := ⟨_, rfl⟩
  obtain ⟨b, hb⟩ : ∃ b : ℝ, b = (t.2.1 : ℝ) / (1000000 : ℕ) := ⟨_, rfl⟩
  obtain ⟨e, hee⟩ : ∃ e : ℝ, e = (t.2.2 : ℝ) / (1000000 : ℕ) := ⟨_, rfl⟩
  rw [← ha, ← hb]
  have a0 : 0 < a := by
    rw [ha]
    have : (0 : ℝ) < t.1 := by exact_mod_cast ha0
    positivity
  have e1 : e < 1 := by
    rw [hee, div_lt_one (by norm_num)]
    exact_mod_cast he1
  have ab : a ≤ b := by
    rw [ha, hb]
    have : (t.1 : ℝ) ≤ t.2.1 := by exact_mod_cast hab
    gcongr
  have h1 := pos_sound (by norm_num) k1 (y := a) ha.ge ha.le
  have h2 := pos_sound (by norm_num) k2 (y := b) hb.ge hb.le
  have h3 := pos_sound (by norm_num) k3 (y := a) ha.ge ha.le
  have h4 : ∀ y, a ≤ y → y ≤ e → 0 ≤ ev (derl (derl p)) y := fun y y1 y2 => pos_sound (by norm_num) k4 (by rw [← ha]; exact y1) (by rw [← hee]; exact y2)
  rw [ev_smul] at h1
  push_cast at h1
  rw [ev_addl] at h3
  simp only [ev] at h3
  push_cast at h3
  -- the guess
  have hn : (0 : ℝ) < n + 0.5 := by positivity
  obtain ⟨θ, hθ⟩ : ∃ θ : ℝ, θ = Real.pi * (i + 0.75) / (n + 0.5) := ⟨_, rfl⟩
  have hg : guess n i = Real.cos θ := by rw [hθ, guess]
  have hM : (0 : ℝ) < ((10000 * (4 * n + 2) : ℕ) : ℝ) := by exact_mod_cast (by omega : 0 < 10000 * (4 * n + 2))
  have eθ : θ = Real.pi * 10000 * (4 * i + 3) / ((10000 * (4 * n + 2) : ℕ) : ℝ) := by
    rw [hθ, div_eq_div_iff hn.ne' hM.ne']
    push_cast
    ring
  have hi3 : (0 : ℝ) < 4 * i + 3 := by positivity
  obtain ⟨u, hu⟩ : ∃ u : ℝ, u = ((31416 * (4 * i + 3) : ℕ) : ℝ) / ((10000 * (4 * n + 2) : ℕ) : ℝ) := ⟨_, rfl⟩
  obtain ⟨v, hv⟩ : ∃ v : ℝ, v = ((31415 * (4 * i + 3) : ℕ) : ℝ) / ((10000 * (4 * n + 2) : ℕ) : ℝ) := ⟨_, rfl⟩
  have h5 := pos_sound (by omega) k5 (y := u) hu.ge hu.le
  have h6 := pos_sound (by omega) k6 (y := v) hv.ge hv.le
  have v0 : 0 ≤ v := by rw [hv]; positivity
  have vθ : v ≤ θ := by
    rw [hv, eθ]
    refine div_le_div_of_nonneg_right ?_ hM.le
    push_cast
    have := Real.pi_gt_d4
    nlinarith
  have θu : θ ≤ u := by
    rw [hu, eθ]
    refine div_le_div_of_nonneg_right ?_ hM.le
    push_cast
    have := Real.pi_lt_d4
    nlinarith
  have uπ : u ≤ Real.pi := by
    rw [hu, div_le_iff₀ hM]
    have : (2 * i + 2 : ℝ) ≤ n := by exact_mod_cast hi
    have := Real.pi_gt_d4
    push_cast
    nlinarith
  have c1 : Real.cos u ≤ guess n i := by
    rw [hg]
    exact Real.cos_le_cos_of_nonneg_of_le_pi (v0.trans vθ) uπ θu
  have c2 : guess n i ≤ Real.cos v := by
    rw [hg]
    exact Real.cos_le_cos_of_nonneg_of_le_pi v0 (θu.trans uπ) vθ
  have bg : b ≤ guess n i := by
    have := (cos_bounds u (v0.trans (vθ.trans θu))).1
    rw [ev_addl, ev_smul] at h5
    simp only [ev] at h5
    push_cast at h5
    rw [hb]
    push_cast
    rw [div_le_iff₀ (by norm_num)]
    linarith
  have ge : guess n i ≤ e := by
    have := (cos_bounds v v0).2
    rw [ev_addl, ev_smul] at h6
    simp only [ev] at h6
    push_cast at h6
    rw [hee]
    push_cast
    rw [le_div_iff₀ (by norm_num)]
    linarith
  -- the zero
  have hpc : ContinuousOn (ev p) (Icc a b) := fun x _ => (hasDerivAt_ev p x).continuousAt.continuousWithinAt
  obtain ⟨ζ, hζ, hz⟩ := intermediate_value_Icc ab hpc (show (0 : ℝ) ∈ Icc (ev p a) (ev p b) from ⟨by linarith, h2⟩)
  have hf : (n.factorial : ℝ) ≠ 0 := by exact_mod_cast n.factorial_ne_zero
  have hs1 : ((-1 : ℝ) ^ i) ≠ 0 := pow_ne_zero _ (by norm_num)
  have hz0 : (legendre n ζ).1 = 0 := by
    rw [hp, ev_smul, (LI_eval ζ n).1] at hz
    push_cast at hz
    rcases mul_eq_zero.1 hz with h | h
    · exact absurd h hs1
    · exact (mul_eq_zero.1 h).resolve_left hf
  -- the slope
  have mono : ∀ x ∈ Icc a e, ∀ y ∈ Icc a e, x ≤ y → ev (derl p) x ≤ ev (derl p) y := fun x hx y hy hxy =>
    monotoneOn_of_deriv_nonneg (convex_Icc a e) (fun x _ => (hasDerivAt_ev (derl p) x).continuousAt.continuousWithinAt)
      (fun x _ => (hasDerivAt_ev (derl p) x).differentiableAt.differentiableWithinAt) (fun w hw => by
        rw [(hasDerivAt_ev (derl p) w).deriv]
        exact h4 w (interior_subset hw).1 (interior_subset hw).2) hx hy hxy
  have sl : ∀ x ∈ Icc a e, ev (derl p) x = ((-1) ^ i * n.factorial) * slope n x := fun x hx => by
    have hx2 : x ^ 2 ≠ 1 := by nlinarith [hx.1, hx.2]
    have g1 := hasDerivAt_ev p x
    have g2 := (hasDerivAt_ev (LI n).1 x).const_mul ((-1 : ℝ) ^ i)
    have g3 : ev p = fun x => (-1 : ℝ) ^ i * ev (LI n).1 x := funext fun x => by rw [hp, ev_smul]; push_cast; rfl
    rw [g3] at g1
    rw [g1.unique g2, LI_slope n x hx2, mul_assoc]
  refine ⟨ζ, hζ.1, hζ.2, hz0, a0.trans_le hζ.1, fun eps he => ?_⟩
  have sub : ∀ x ∈ Icc ζ (guess n i), x ∈ Icc a e := fun x hx => ⟨hζ.1.trans hx.1, hx.2.trans ge⟩
  have ia : a ∈ Icc a e := ⟨le_rfl, ab.trans (bg.trans ge)⟩
  have hA : ∀ x ∈ Icc ζ (guess n i), 0 < (-1) ^ i * (n.factorial : ℝ) * slope n x := fun x hx => by
    rw [← sl x (sub x hx)]
    have := mono a ia x (sub x hx) (sub x hx).1
    linarith
  have hB : ∀ x ∈ Icc ζ (guess n i), ∀ y ∈ Icc ζ (guess n i), x ≤ y → (-1) ^ i * (n.factorial : ℝ) * slope n x ≤ (-1) ^ i * (n.factorial : ℝ) * slope n y :=
    fun x hx y hy hxy => by
      rw [← sl x (sub x hx), ← sl y (sub y hy)]
      exact mono x (sub x hx) y (sub y hy) hxy
  obtain ⟨fuel, r, r1, r2, r3, r4⟩ := C100_local he hz0 (hζ.2.trans bg) (ge.trans_lt e1) hA hB
  refine ⟨fuel, r, r1, r2, r3, r4.trans ?_⟩
  have h7 := pos_sound (by norm_num) k7 (y := a) ha.ge ha.le
  have h8 := pos_sound (by norm_num) k8 (y := e) hee.ge hee.le
  rw [ev_addl, ev_smul] at h7 h8
  simp only [ev] at h7 h8
  push_cast at h7 h8
  have ig : guess n i ∈ Icc a e := ⟨ab.trans bg, ge⟩
  have iζ : ζ ∈ Icc a e := ⟨hζ.1, hζ.2.trans (bg.trans ge)⟩
  have m1 := mono _ ig e ⟨ia.2, le_rfl⟩ ge
  have m2 := mono a ia ζ iζ hζ.1
  rw [mul_comm 2 eps]
  refine mul_le_mul_of_nonneg_left ?_ he.le
  rw [← mul_div_mul_left _ _ (mul_ne_zero hs1 hf), ← sl _ ig, ← sl _ iζ, div_le_iff₀ (by linarith)]
  linarith

/-- **C100** (all tables of the code): with up to sixteen points all searches from the guesses of the code end for every tolerance, at different zeros, which are those the
table is to be made of (`Found`).  They end at or above the zero, at most two tolerances from it. -/
theorem C100_searches {n : Nat} (hn : n ≤ 16) : ∃ z, Found n z ∧ ∀ eps : ℝ, 0 < eps → ∀ i, 2 * i + 1 ≤ n →
    ∃ fuel r, newton eps n fuel (guess n i) = some r ∧ z i ≤ r.1 ∧ r.1 ≤ guess n i ∧ r.1 - z i ≤ 2 * eps := by
  have ht := List.all_eq_true.1 tab_ok n (List.mem_range.2 (by omega))
  rw [chkTab, Bool.and_eq_true] at ht
  have ht2 : ∀ i, 2 * i + 1 < n → chk n i ((tab n).getD i (0, 0, 0)) = true ∧ ∀ j < i, ((tab n).getD i (0, 0, 0)).2.1 < ((tab n).getD j (0, 0, 0)).1 := fun i hi => by
    have := List.all_eq_true.1 ht.2 i (List.mem_range.2 (by omega))
    rw [Bool.and_eq_true] at this
    exact ⟨this.1, fun j hj => of_decide_eq_true (List.all_eq_true.1 this.2 j (List.mem_range.2 hj))⟩
  choose! ζ g1 g2 g3 g4 g5 using fun i (hi : 2 * i + 1 < n) => chk_sound hi (ht2 i hi).1
  refine ⟨fun i => if 2 * i + 1 < n then ζ i else 0, ⟨fun i hi => ?_, fun i j hij hj => ?_, fun i hi => ?_, fun i hi => ?_⟩, fun eps he i hi => ?_⟩
  · split_ifs with h
    · exact g3 i h
    · obtain rfl : n = 2 * i + 1 := by omega
      exact (C100_middle zero_le_one i 0).2.1
  · rw [if_pos (show 2 * i + 1 < n by omega)]
    split_ifs with h
    · have h1 := (ht2 j h).2 i hij
      refine (g2 j h).trans_lt (lt_of_lt_of_le ?_ (g1 i (by omega)))
      have : (((tab n).getD j (0, 0, 0)).2.1 : ℝ) < ((tab n).getD i (0, 0, 0)).1 := by exact_mod_cast h1
      exact div_lt_div_of_pos_right this (by norm_num)
    · exact g4 i (by omega)
  · rw [if_pos hi]
    exact g4 i hi
  · rw [if_neg (by omega)]
  · dsimp only
    split_ifs with h
    · exact g5 i h eps he
    · obtain rfl : n = 2 * i + 1 := by omega
      have h0 : guess (2 * i + 1) i = 0 := by
        have := (C100_guess (2 * i + 1)).2.2 i (by omega)
        rw [show 2 * i + 1 - 1 - i = i by omega] at this
        linarith
      refine ⟨1, _, (C100_middle he.le i 0).1, le_rfl, h0.ge, ?_⟩
      rw [sub_self]
      linarith

/-- The table of sixteen points, which the code uses, with a tolerance of a trillionth. -/
example : ∃ z, Found 16 z ∧ ∀ i < 8, ∃ fuel r, newton (1 / 10 ^ 12) 16 fuel (guess 16 i) = some r ∧ |r.1 - z i| ≤ 2 / 10 ^ 12 := by
  obtain ⟨z, h1, h2⟩ := C100_searches (n := 16) le_rfl
  refine ⟨z, h1, fun i hi => ?_⟩
  obtain ⟨fuel, r, g1, g2, -, g4⟩ := h2 (1 / 10 ^ 12) (by positivity) i (by omega)
  refine ⟨fuel, r, g1, ?_⟩
  rw [abs_of_nonneg (by linarith)]
  linarith

end OP.Pave.Gauss
