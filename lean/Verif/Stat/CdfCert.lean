import Verif.Stat.Cert
import Verif.Stat.Normal
import Mathlib.Analysis.Calculus.Deriv.Inv
import Mathlib.Tactic.NormNum

/-!
The rational functions of `stdnormal_cdf` nearly solve the differential equation of the normal distribution.

With `g` the factor before `exp (-u²/2)`, the tail of the distribution is `g u * exp (-u²/2)` exactly if
`g' - u g + 1/√(2π) = 0`.  Here the left hand side is bounded, by checking polynomials with integer coefficients.
-/

namespace OP.Stat

def iA : List ℤ := [320937758913846900000, 18874261884265100000, 2846603853776254000, 39514046798382070,
  1161110663653770]
def iB : List ℤ := [804471660890156300000, 181389368650248500000, 17255147626003750000, 834431643857962000,
  17677669529663690]
def iC : List ℤ := [98427148383839776200000000000, 116026514376473497000000000000, 68481904505362827000000000000,
  24945375852903721400000000000, 5972702763948002480000000000, 935066561321778664000000000,
  88831497943883768200000000, 3989415120881346640000000, 107655767737201917]
def iD : List ℤ := [196854296768599925000000000000, 389120032860932697000000000000,
  349009527211459790000000000000, 186155716408850967000000000000, 64855582982667610800000000000,
  15193775994075547300000000000, 2353879017826249940000000000, 222666880443281165000000000,
  10000000000000000000000000]
def iP : List ℤ := [291128749511687932, 14216191932278933700, 222352778706498104000, 1274011611602473840000,
  2158985340579570030000, 230734417649401738000]
def iQ : List ℤ := [729751555083966178, 37823963320275824500, 659881378689285564000, 4682382124808651120000,
  12842600961449111000000, 10000000000000000000000]

theorem hor_ca (y : ℝ) : hor ca y = ev iA y / 10 ^ 17 := by
  simp only [hor, ca, List.foldl, ev, iA]; push_cast; norm_num; ring
theorem hor_cb (y : ℝ) : hor cb y = ev iB y / 10 ^ 17 := by
  simp only [hor, cb, List.foldl, ev, iB]; push_cast; norm_num; ring
theorem hor_cc (y : ℝ) : hor cc y = ev iC y / 10 ^ 25 := by
  simp only [hor, cc, List.foldl, ev, iC]; push_cast; norm_num; ring
theorem hor_cd (y : ℝ) : hor cd y = ev iD y / 10 ^ 25 := by
  simp only [hor, cd, List.foldl, ev, iD]; push_cast; norm_num; ring
theorem hor_cp (y : ℝ) : hor cp y = ev iP y / 10 ^ 22 := by
  simp only [hor, cp, List.foldl, ev, iP]; push_cast; norm_num; ring
theorem hor_cq (y : ℝ) : hor cq y = ev iQ y / 10 ^ 22 := by
  simp only [hor, cq, List.foldl, ev, iQ]; push_cast; norm_num; ring

/-- A polynomial with positive coefficients is positive on the right. -/
theorem ev_pos (a : ℤ) (l : List ℤ) (ha : 0 < a) (hl : ∀ b ∈ l, 0 ≤ b) (y : ℝ) (hy : 0 ≤ y) : 0 < ev (a :: l) y := by
  have h : ∀ l : List ℤ, (∀ b ∈ l, 0 ≤ b) → 0 ≤ ev l y := by
    intro l
    induction l with
    | nil => simp [ev]
    | cons b l ih =>
      intro hb
      have h1 : (0 : ℝ) ≤ b := by exact_mod_cast hb b (by simp)
      have h2 := ih (fun c hc => hb c (by simp [hc]))
      simp only [ev]; positivity
  have h1 : (0 : ℝ) < a := by exact_mod_cast ha
  have := h l hl
  simp only [ev]; positivity

theorem iB_pos (y : ℝ) (hy : 0 ≤ y) : 0 < ev iB y := ev_pos _ _ (by decide) (by decide) y hy
theorem iC_pos (y : ℝ) (hy : 0 ≤ y) : 0 < ev iC y := ev_pos _ _ (by decide) (by decide) y hy
theorem iD_pos (y : ℝ) (hy : 0 ≤ y) : 0 < ev iD y := ev_pos _ _ (by decide) (by decide) y hy
theorem iQ_pos (y : ℝ) (hy : 0 ≤ y) : 0 < ev iQ y := ev_pos _ _ (by decide) (by decide) y hy

theorem middle_eq (y : ℝ) : middle y = ev iC y / ev iD y := by
  rw [middle, hor_cc, hor_cd, div_div_div_cancel_right₀ (by norm_num)]

theorem central_eq (u : ℝ) : central u = u * (ev iA (u * u) / ev iB (u * u)) := by
  rw [central, hor_ca, hor_cb, mul_div_assoc', mul_div_assoc', div_div_div_cancel_right₀ (by norm_num)]

theorem tail_eq (v : ℝ) : tail v =
    1 / v * (rootK - 1 / v * (1 / v) * (ev iP (1 / v * (1 / v)) / ev iQ (1 / v * (1 / v)))) := by
  simp only [tail]
  rw [hor_cp, hor_cq, div_div_div_cancel_right₀ (by norm_num)]

/-- The constant times `10 ^ 20`. -/
def iK : ℤ := 39894228040143267794

theorem rootK_eq : rootK = iK / 10 ^ 20 := by norm_num [rootK, iK]

/-! The middle. -/

def numM : List ℤ := addl (smul (10 ^ 20) (addl (addl (mull (derl iC) iD) (smul (-1) (mull iC (derl iD))))
  (smul (-1) (mull (0 :: iC) iD)))) (smul iK (mull iD iD))

theorem numM_lo : check 32 21 161 numM = true := by decide +kernel
theorem numM_hi : check 32 21 161 (addl (smul 10000 (mull iD iD)) (smul (-1) numM)) = true := by decide +kernel

noncomputable def middleD (y : ℝ) : ℝ :=
  (ev (derl iC) y * ev iD y - ev iC y * ev (derl iD) y) / ev iD y ^ 2

theorem hasDerivAt_middle (y : ℝ) (hy : 0 ≤ y) : HasDerivAt middle (middleD y) y := by
  have h := (hasDerivAt_ev iC y).fun_div (hasDerivAt_ev iD y) (iD_pos y hy).ne'
  have e : middle = fun y => ev iC y / ev iD y := funext middle_eq
  rw [e]; exact h

theorem numM_eq (y : ℝ) (hy : 0 ≤ y) :
    ev numM y = 10 ^ 20 * ev iD y ^ 2 * (middleD y - y * middle y + rootK) := by
  have hD := (iD_pos y hy).ne'
  rw [middle_eq, middleD, rootK_eq]
  have h0 : ev (0 :: iC) y = y * ev iC y := by simp [ev]
  simp only [numM, ev_addl, ev_smul, ev_mull, h0]
  push_cast
  field_simp
  ring

theorem middle_resid (y : ℝ) (h0 : 0.66 ≤ y) (h1 : y ≤ 5.657) :
    0 ≤ middleD y - y * middle y + rootK ∧ middleD y - y * middle y + rootK ≤ 1 / 10 ^ 16 := by
  have hy : 0 ≤ y := le_trans (by norm_num) h0
  have hD := iD_pos y hy
  have e := numM_eq y hy
  have hp : (0 : ℝ) < 10 ^ 20 * ev iD y ^ 2 := by positivity
  have hl := nonneg_of_check _ _ _ _ (by norm_num) (by norm_num) numM_lo y (by push_cast; linarith)
    (by push_cast; linarith)
  have hh := nonneg_of_check _ _ _ _ (by norm_num) (by norm_num) numM_hi y (by push_cast; linarith)
    (by push_cast; linarith)
  rw [ev_addl, ev_smul, ev_smul, ev_mull, e] at hh
  rw [e] at hl
  constructor
  · exact nonneg_of_mul_nonneg_right hl hp
  · push_cast at hh
    have : 0 ≤ 10 ^ 20 * ev iD y ^ 2 * (1 / 10 ^ 16 - (middleD y - y * middle y + rootK)) := by
      nlinarith
    have := nonneg_of_mul_nonneg_right this hp
    linarith

/-! Far from the middle.  With `w = 1/v²` and `r = P w / Q w` the tail is `(K - w r) / v`. -/

def numT : List ℤ := 0 :: addl (addl (smul (-iK) (mull iQ iQ)) (smul (10 ^ 20) (mull [1, 3] (mull iP iQ))))
  (smul (2 * 10 ^ 20) (0 :: 0 :: addl (mull (derl iP) iQ) (smul (-1) (mull iP (derl iQ)))))

theorem numT_lo : check 2048 0 65 (addl numT (smul 1000 (mull iQ iQ))) = true := by decide +kernel
theorem numT_hi : check 2048 0 65 (addl (smul 1500 (mull iQ iQ)) (smul (-1) numT)) = true := by decide +kernel

noncomputable def tailR (w : ℝ) : ℝ := (ev (derl iP) w * ev iQ w - ev iP w * ev (derl iQ) w) / ev iQ w ^ 2

noncomputable def tailD (v : ℝ) : ℝ :=
  let w := 1 / v * (1 / v)
  let r := ev iP w / ev iQ w
  2 * w ^ 2 * (r + w * tailR w) - w * (rootK - w * r)

theorem hasDerivAt_tail (v : ℝ) (hv : 0 < v) : HasDerivAt tail (tailD v) v := by
  have hw : HasDerivAt (fun v : ℝ => 1 / v * (1 / v)) (-(2 * (1 / v) ^ 3)) v := by
    have h1 : HasDerivAt (fun v : ℝ => 1 / v) (-(1 / v ^ 2)) v := by
      have := hasDerivAt_inv hv.ne'
      simpa [one_div] using this
    refine (h1.fun_mul h1).congr_deriv ?_
    field_simp; ring
  have h1 : HasDerivAt (fun v : ℝ => 1 / v) (-(1 / v ^ 2)) v := by
    have := hasDerivAt_inv hv.ne'
    simpa [one_div] using this
  have hpos : 0 ≤ 1 / v * (1 / v) := by positivity
  have hQ := (iQ_pos _ hpos).ne'
  have hP := (hasDerivAt_ev iP (1 / v * (1 / v))).comp v hw
  have hq := (hasDerivAt_ev iQ (1 / v * (1 / v))).comp v hw
  have h := h1.fun_mul ((hw.fun_mul (hP.fun_div hq hQ)).const_sub rootK)
  have e : tail = fun v => 1 / v * (rootK - 1 / v * (1 / v) *
      ((ev iP ∘ fun v => 1 / v * (1 / v)) v / (ev iQ ∘ fun v => 1 / v * (1 / v)) v)) := by
    funext v; rw [tail_eq]; rfl
  rw [e]
  refine h.congr_deriv ?_
  simp only [tailD, tailR, Function.comp]
  generalize ev iP (1 / v * (1 / v)) = P at *
  generalize ev (derl iP) (1 / v * (1 / v)) = P' at *
  generalize ev (derl iQ) (1 / v * (1 / v)) = Q' at *
  generalize ev iQ (1 / v * (1 / v)) = Q at *
  field_simp
  ring

theorem numT_eq (v : ℝ) (hv : 0 < v) :
    ev numT (1 / v * (1 / v)) = 10 ^ 20 * ev iQ (1 / v * (1 / v)) ^ 2 * (tailD v - v * tail v + rootK) := by
  have hpos : 0 ≤ 1 / v * (1 / v) := by positivity
  have hQ := (iQ_pos _ hpos).ne'
  have hw : v * (1 / v) = 1 := by field_simp
  have e : v * tail v = rootK - 1 / v * (1 / v) * (ev iP (1 / v * (1 / v)) / ev iQ (1 / v * (1 / v))) := by
    rw [tail_eq, ← mul_assoc, hw, one_mul]
  rw [e, tailD, tailR, rootK_eq]
  generalize 1 / v * (1 / v) = w at *
  have h0 : ∀ l, ev (0 :: l) w = w * ev l w := by intro l; simp [ev]
  have h3 : ev [1, 3] w = 1 + 3 * w := by simp [ev]; ring
  simp only [numT, ev_addl, ev_smul, ev_mull, h0, h3]
  push_cast
  field_simp
  ring

theorem tail_resid (v : ℝ) (h : 5.6568 ≤ v) :
    -(1 / 10 ^ 17) ≤ tailD v - v * tail v + rootK ∧ tailD v - v * tail v + rootK ≤ 15 / 10 ^ 18 := by
  have hv : 0 < v := lt_of_lt_of_le (by norm_num) h
  have hpos : 0 ≤ 1 / v * (1 / v) := by positivity
  have hQ := iQ_pos _ hpos
  have e := numT_eq v hv
  have hp : (0 : ℝ) < 10 ^ 20 * ev iQ (1 / v * (1 / v)) ^ 2 := by positivity
  have hle : 1 / v * (1 / v) ≤ 65 / 2048 := by
    have : 1 / v ≤ 1 / 5.6568 := one_div_le_one_div_of_le (by norm_num) h
    have h2 : (0 : ℝ) ≤ 1 / v := by positivity
    calc 1 / v * (1 / v) ≤ 1 / 5.6568 * (1 / 5.6568) := mul_le_mul this this h2 (by norm_num)
      _ ≤ 65 / 2048 := by norm_num
  have hl := nonneg_of_check _ _ _ _ (by norm_num) (by norm_num) numT_lo (1 / v * (1 / v)) (by push_cast; linarith)
    (by push_cast; linarith)
  have hh := nonneg_of_check _ _ _ _ (by norm_num) (by norm_num) numT_hi (1 / v * (1 / v)) (by push_cast; linarith)
    (by push_cast; linarith)
  rw [ev_addl, ev_smul, ev_smul, ev_mull, e] at hh
  rw [ev_addl, ev_smul, ev_mull, e] at hl
  push_cast at hh hl
  constructor
  · have : 0 ≤ 10 ^ 20 * ev iQ (1 / v * (1 / v)) ^ 2 * (1 / 10 ^ 17 + (tailD v - v * tail v + rootK)) := by
      nlinarith
    have := nonneg_of_mul_nonneg_right this hp
    linarith
  · have : 0 ≤ 10 ^ 20 * ev iQ (1 / v * (1 / v)) ^ 2 * (15 / 10 ^ 18 - (tailD v - v * tail v + rootK)) := by
      nlinarith
    have := nonneg_of_mul_nonneg_right this hp
    linarith

/-! Near the middle, where the exponential is replaced by its series. -/

def iT : List ℤ := [1428329123020800, -714164561510400, 178541140377600, -29756856729600, 3719607091200,
  -371960709120, 30996725760, -2214051840, 138378240, -7687680, 384384, -17472, 728, -28, 1]
def iL : ℤ := 1428329123020800

def numC : List ℤ := addl (smul (10 ^ 20 * iL) (addl (mull iA iB)
  (smul 2 (0 :: addl (mull (derl iA) iB) (smul (-1) (mull iA (derl iB))))))) (smul (-iK) (mull (mull iB iB) iT))

theorem numC_lo : check 16 0 8 (addl numC (smul (15000 * iL) (mull iB iB))) = true := by decide +kernel
theorem numC_hi : check 16 0 8 (addl (smul (-9000 * iL) (mull iB iB)) (smul (-1) numC)) = true := by decide +kernel

noncomputable def centralD (u : ℝ) : ℝ :=
  let y := u * u
  ev iA y / ev iB y + 2 * y * ((ev (derl iA) y * ev iB y - ev iA y * ev (derl iB) y) / ev iB y ^ 2)

theorem hasDerivAt_central (u : ℝ) : HasDerivAt central (centralD u) u := by
  have hy : HasDerivAt (fun u : ℝ => u * u) (2 * u) u := by
    refine ((hasDerivAt_id u).fun_mul (hasDerivAt_id u)).congr_deriv ?_
    simp only [id]; ring
  have hB := (iB_pos (u * u) (mul_self_nonneg u)).ne'
  have hA := HasDerivAt.comp (h := fun u : ℝ => u * u) u (hasDerivAt_ev iA (u * u)) hy
  have hb := HasDerivAt.comp (h := fun u : ℝ => u * u) u (hasDerivAt_ev iB (u * u)) hy
  have h := (hasDerivAt_id u).fun_mul (hA.fun_div hb hB)
  have e : central = fun u => id u * ((ev iA ∘ fun u => u * u) u / (ev iB ∘ fun u => u * u) u) := by
    funext u; rw [central_eq]; rfl
  rw [e]
  refine h.congr_deriv ?_
  simp only [centralD, Function.comp, id]
  field_simp

theorem numC_eq (u : ℝ) : ev numC (u * u) =
    10 ^ 20 * iL * ev iB (u * u) ^ 2 * (centralD u - rootK * (ev iT (u * u) / iL)) := by
  have hB := (iB_pos (u * u) (mul_self_nonneg u)).ne'
  rw [centralD, rootK_eq]
  generalize u * u = w at *
  have hL : ((iL : ℤ) : ℝ) ≠ 0 := by norm_num [iL]
  have h0 : ∀ l, ev (0 :: l) w = w * ev l w := by intro l; simp [ev]
  simp only [numC, ev_addl, ev_smul, ev_mull, h0]
  push_cast
  field_simp
  ring

theorem central_resid (u : ℝ) (h : u * u ≤ 0.44) :
    -(15 / 10 ^ 17) ≤ centralD u - rootK * (ev iT (u * u) / iL) ∧
      centralD u - rootK * (ev iT (u * u) / iL) ≤ -(9 / 10 ^ 17) := by
  have hB := iB_pos (u * u) (mul_self_nonneg u)
  have e := numC_eq u
  have hL : (0 : ℝ) < iL := by norm_num [iL]
  have hp : (0 : ℝ) < 10 ^ 20 * iL * ev iB (u * u) ^ 2 := by positivity
  have h00 := mul_self_nonneg u
  have hl := nonneg_of_check _ _ _ _ (by norm_num) (by norm_num) numC_lo (u * u) (by push_cast; linarith)
    (by push_cast; linarith)
  have hh := nonneg_of_check _ _ _ _ (by norm_num) (by norm_num) numC_hi (u * u) (by push_cast; linarith)
    (by push_cast; linarith)
  rw [ev_addl, ev_smul, ev_smul, ev_mull, e] at hh
  rw [ev_addl, ev_smul, ev_mull, e] at hl
  push_cast at hh hl
  generalize centralD u - rootK * (ev iT (u * u) / iL) = r at *
  constructor
  · have : 0 ≤ 10 ^ 20 * iL * ev iB (u * u) ^ 2 * (15 / 10 ^ 17 + r) := by nlinarith
    have := nonneg_of_mul_nonneg_right this hp
    linarith
  · have : 0 ≤ 10 ^ 20 * iL * ev iB (u * u) ^ 2 * (-(9 / 10 ^ 17) - r) := by nlinarith
    have := nonneg_of_mul_nonneg_right this hp
    linarith

end OP.Stat
