import Mathlib.Data.Real.Basic
import Mathlib.Analysis.Calculus.Deriv.Basic
import Mathlib.Analysis.Calculus.Deriv.Mul
import Mathlib.Analysis.Calculus.Deriv.Add
import Mathlib.Tactic.Ring
import Mathlib.Tactic.Linarith
import Mathlib.Tactic.FieldSimp
import Mathlib.Tactic.Positivity

/-!
Polynomials with integer coefficients, as lists starting with the constant, and a check that one is not negative on
an interval.  The check computes with integers only; `nonneg_of_check` says what it shows about the reals.  This is
a tool of the proofs about the normal distribution, not a model of code.
-/

namespace OP.Stat

/-- The value of a polynomial. -/
def ev : List ℤ → ℝ → ℝ
  | [], _ => 0
  | a :: l, x => a + x * ev l x

def addl : List ℤ → List ℤ → List ℤ
  | [], m => m
  | l, [] => l
  | a :: l, b :: m => (a + b) :: addl l m

def smul (k : ℤ) : List ℤ → List ℤ
  | [] => []
  | a :: l => (k * a) :: smul k l

def mull : List ℤ → List ℤ → List ℤ
  | [], _ => []
  | a :: l, m => addl (smul a m) (0 :: mull l m)

/-- The derivative: of `a + x l` it is `l + x l'`. -/
def derl : List ℤ → List ℤ
  | [] => []
  | _ :: l => addl l (0 :: derl l)

/-- `p (x + 1)`. -/
def shiftl : List ℤ → List ℤ
  | [] => []
  | a :: l => let m := shiftl l; addl [a] (addl m (0 :: m))

/-- `m ^ n * p (x / m)`. -/
def scalel (m : ℤ) : Nat → List ℤ → List ℤ
  | _, [] => []
  | n, a :: l => (a * m ^ n) :: scalel m (n - 1) l

/-- The sum of the negative coefficients. -/
def negs : List ℤ → ℤ
  | [] => 0
  | a :: l => min a 0 + negs l

/-- The constant is at least the sum of the negative ones among the others. -/
def unitOk : List ℤ → Bool
  | [] => true
  | a :: l => decide (0 ≤ a + negs l)

def sweep : Nat → List ℤ → Bool
  | 0, _ => true
  | n + 1, p => unitOk p && sweep n (shiftl p)

def skip : Nat → List ℤ → List ℤ
  | 0, p => p
  | n + 1, p => skip n (shiftl p)

/-- `p` is not negative between `a / m` and `(a + n) / m`. -/
def check (m a n : Nat) (p : List ℤ) : Bool := sweep n (skip a (scalel m p.length p))

theorem ev_addl (l m : List ℤ) (x : ℝ) : ev (addl l m) x = ev l x + ev m x := by
  induction l generalizing m with
  | nil => simp [addl, ev]
  | cons a l ih =>
    cases m with
    | nil => simp [addl, ev]
    | cons b m => simp only [addl, ev, ih]; push_cast; ring

theorem ev_smul (k : ℤ) (l : List ℤ) (x : ℝ) : ev (smul k l) x = k * ev l x := by
  induction l with
  | nil => simp [smul, ev]
  | cons a l ih => simp only [smul, ev, ih]; push_cast; ring

theorem ev_mull (l m : List ℤ) (x : ℝ) : ev (mull l m) x = ev l x * ev m x := by
  induction l with
  | nil => simp [mull, ev]
  | cons a l ih => simp only [mull, ev, ev_addl, ev_smul, ih]; push_cast; ring

theorem ev_shiftl (l : List ℤ) (x : ℝ) : ev (shiftl l) x = ev l (x + 1) := by
  induction l with
  | nil => simp [shiftl, ev]
  | cons a l ih => simp only [shiftl, ev, ev_addl, ih]; push_cast; ring

theorem ev_skip (n : Nat) (l : List ℤ) (x : ℝ) : ev (skip n l) x = ev l (x + n) := by
  induction n generalizing l x with
  | zero => simp [skip]
  | succ n ih => rw [skip, ih, ev_shiftl]; push_cast; congr 1; ring

theorem ev_scalel (m : ℤ) (hm : (m : ℝ) ≠ 0) (n : Nat) (l : List ℤ) (h : l.length ≤ n + 1) (x : ℝ) :
    ev (scalel m n l) x = m ^ n * ev l (x / m) := by
  induction l generalizing n with
  | nil => simp [scalel, ev]
  | cons a l ih =>
    cases n with
    | zero =>
      have : l = [] := by simpa using h
      subst this
      simp [scalel, ev]
    | succ n =>
      simp only [scalel, ev, Nat.add_sub_cancel]
      rw [ih n (by simpa using h)]
      push_cast
      rw [pow_succ]
      field_simp

theorem hasDerivAt_ev (l : List ℤ) (x : ℝ) : HasDerivAt (ev l) (ev (derl l) x) x := by
  induction l with
  | nil => exact hasDerivAt_const _ _
  | cons a l ih =>
    have h := ((hasDerivAt_id x).fun_mul ih).const_add (a : ℝ)
    refine h.congr_deriv ?_
    simp only [derl, ev, ev_addl, id]
    push_cast; ring

theorem negs_nonpos (l : List ℤ) : negs l ≤ 0 := by
  induction l with
  | nil => simp [negs]
  | cons a l ih => simp only [negs]; have := min_le_right a 0; omega

theorem negs_le_ev (l : List ℤ) (x : ℝ) (h0 : 0 ≤ x) (h1 : x ≤ 1) : (negs l : ℝ) ≤ ev l x := by
  induction l with
  | nil => simp [negs, ev]
  | cons a l ih =>
    simp only [negs, ev]
    have h := negs_nonpos l
    have h' : (negs l : ℝ) ≤ 0 := by exact_mod_cast h
    have ha : (min a 0 : ℤ) ≤ a := min_le_left _ _
    have ha' : ((min a 0 : ℤ) : ℝ) ≤ a := by exact_mod_cast ha
    push_cast at ha' ⊢
    nlinarith

theorem ev_nonneg_of_unitOk (l : List ℤ) (h : unitOk l = true) (x : ℝ) (h0 : 0 ≤ x) (h1 : x ≤ 1) :
    0 ≤ ev l x := by
  cases l with
  | nil => simp [ev]
  | cons a l =>
    simp only [unitOk, decide_eq_true_eq] at h
    have h2 := negs_le_ev l x h0 h1
    have h3 := negs_nonpos l
    have h' : (negs l : ℝ) ≤ 0 := by exact_mod_cast h3
    have h'' : (0 : ℝ) ≤ a + negs l := by exact_mod_cast h
    simp only [ev]
    nlinarith

theorem sweep_sound (n : Nat) (p : List ℤ) (h : sweep n p = true) (x : ℝ) (h0 : 0 ≤ x) (h1 : x ≤ n)
    (hn : 0 < n) : 0 ≤ ev p x := by
  induction n generalizing p x with
  | zero => omega
  | succ n ih =>
    simp only [sweep, Bool.and_eq_true] at h
    by_cases hx : x ≤ 1
    · exact ev_nonneg_of_unitOk p h.1 x h0 hx
    · rcases Nat.eq_zero_or_pos n with hz | hz
      · subst hz; push_cast at h1; exact absurd (by linarith) hx
      · have := ih (shiftl p) h.2 (x - 1) (by linarith) (by push_cast at h1; linarith) hz
        rwa [ev_shiftl, sub_add_cancel] at this

/-- What a passed check shows. -/
theorem nonneg_of_check (m a n : Nat) (p : List ℤ) (hm : 0 < m) (hn : 0 < n) (h : check m a n p = true) (y : ℝ)
    (h0 : (a : ℝ) ≤ m * y) (h1 : m * y ≤ a + n) : 0 ≤ ev p y := by
  have hm' : (0 : ℝ) < m := by exact_mod_cast hm
  have := sweep_sound n _ h (m * y - a) (by linarith) (by linarith) hn
  rw [ev_skip, sub_add_cancel, ev_scalel _ (by exact_mod_cast hm'.ne') _ _ (by omega)] at this
  have e : (m : ℝ) * y / (m : ℤ) = y := by push_cast; field_simp
  rw [e] at this
  push_cast at this
  exact nonneg_of_mul_nonneg_right this (by positivity)

/-! The same with intervals of different lengths. -/

/-- `c + (x + k) m`. -/
def stepl (k : ℤ) : ℤ → List ℤ → List ℤ
  | c, [] => [c]
  | c, b :: m => (c + k * b) :: stepl k b m

/-- `p (x + k)`. -/
def shiftBy (k : ℤ) : List ℤ → List ℤ
  | [] => []
  | a :: l => stepl k a (shiftBy k l)

/-- A bound from below for `x l` between 0 and `w`. -/
def negsW (w : ℤ) : List ℤ → ℤ
  | [] => 0
  | a :: l => w * (min a 0 + negsW w l)

def okW (w : ℤ) : List ℤ → Bool
  | [] => true
  | a :: l => decide (0 ≤ a + negsW w l)

/-- Intervals from `a` on, ending at the numbers of the list. -/
def pieces (p : List ℤ) : ℕ → List ℕ → Bool
  | _, [] => true
  | a, b :: l => decide (a ≤ b) && okW ((b : ℤ) - a) (shiftBy a p) && pieces p b l

theorem ev_stepl (k c : ℤ) (m : List ℤ) (x : ℝ) : ev (stepl k c m) x = c + (x + k) * ev m x := by
  induction m generalizing c with
  | nil => simp [stepl, ev]
  | cons b m ih => simp only [stepl, ev, ih]; push_cast; ring

theorem ev_shiftBy (k : ℤ) (l : List ℤ) (x : ℝ) : ev (shiftBy k l) x = ev l (x + k) := by
  induction l with
  | nil => simp [shiftBy, ev]
  | cons a l ih => simp only [shiftBy, ev, ev_stepl, ih]

theorem negsW_nonpos (w : ℤ) (hw : 0 ≤ w) (l : List ℤ) : negsW w l ≤ 0 := by
  induction l with
  | nil => simp [negsW]
  | cons a l ih =>
    have := min_le_right a 0
    exact mul_nonpos_of_nonneg_of_nonpos hw (by omega)

theorem negsW_le (w : ℤ) (hw : 0 ≤ w) (l : List ℤ) (x : ℝ) (h0 : 0 ≤ x) (h1 : x ≤ w) :
    (negsW w l : ℝ) ≤ x * ev l x := by
  induction l with
  | nil => simp [negsW, ev]
  | cons a l ih =>
    simp only [negsW, ev]
    have h := negsW_nonpos w hw l
    have h2 := min_le_right a 0
    have h3 : ((min a 0 + negsW w l : ℤ) : ℝ) ≤ 0 := by exact_mod_cast (by omega : min a 0 + negsW w l ≤ 0)
    have h4 : ((min a 0 : ℤ) : ℝ) ≤ a := by exact_mod_cast min_le_left a 0
    push_cast at h3 h4 ⊢
    nlinarith

theorem ev_nonneg_of_okW (w : ℤ) (hw : 0 ≤ w) (l : List ℤ) (h : okW w l = true) (x : ℝ) (h0 : 0 ≤ x) (h1 : x ≤ w) :
    0 ≤ ev l x := by
  cases l with
  | nil => simp [ev]
  | cons a l =>
    simp only [okW, decide_eq_true_eq] at h
    have h2 := negsW_le w hw l x h0 h1
    have h3 : (0 : ℝ) ≤ a + negsW w l := by exact_mod_cast h
    simp only [ev]
    linarith

theorem pieces_sound (p : List ℤ) (a : ℕ) (l : List ℕ) (h : pieces p a l = true) (x : ℝ) (h0 : (a : ℝ) ≤ x)
    (b : ℕ) (hb : b ∈ l) (h1 : x ≤ b) : 0 ≤ ev p x := by
  induction l generalizing a with
  | nil => simp at hb
  | cons c l ih =>
    simp only [pieces, Bool.and_eq_true, decide_eq_true_eq] at h
    obtain ⟨⟨hac, h2⟩, h3⟩ := h
    by_cases hx : x ≤ c
    · have hw : (0 : ℤ) ≤ (c : ℤ) - a := by omega
      have := ev_nonneg_of_okW _ hw _ h2 (x - a) (by linarith) (by push_cast; linarith)
      rw [ev_shiftBy] at this
      simpa using this
    · rcases List.mem_cons.mp hb with e | hb
      · subst e; exact absurd h1 hx
      · exact ih c h3 (not_le.mp hx).le hb

theorem nonneg_of_pieces (m a k : ℕ) (M : ℤ) (l : List ℕ) (p : List ℤ) (hM : M = m) (hm : 0 < m)
    (h : pieces (scalel M k p) a l = true) (hk : p.length ≤ k + 1) (b : ℕ) (hb : b ∈ l) (y : ℝ) (h0 : (a : ℝ) ≤ m * y)
    (h1 : m * y ≤ b) : 0 ≤ ev p y := by
  subst hM
  have hm' : (0 : ℝ) < m := by exact_mod_cast hm
  have := pieces_sound _ a l h (m * y) h0 b hb h1
  rw [ev_scalel _ (by exact_mod_cast hm'.ne') _ _ hk] at this
  have e : (m : ℝ) * y / (m : ℤ) = y := by push_cast; field_simp
  rw [e] at this
  push_cast at this
  exact nonneg_of_mul_nonneg_right this (by positivity)

/-- The same polynomial, with no regard to zeros at the end. -/
def samel (l m : List ℤ) : Bool := (addl l (smul (-1) m)).all (· == 0)

theorem ev_of_samel {l m : List ℤ} (h : samel l m = true) (x : ℝ) : ev l x = ev m x := by
  have hz : ∀ l : List ℤ, l.all (· == 0) = true → ev l x = 0 := by
    intro l
    induction l with
    | nil => simp [ev]
    | cons a l ih =>
      intro h
      simp only [List.all_cons, Bool.and_eq_true, beq_iff_eq] at h
      simp only [ev, h.1, ih h.2]; simp
  have := hz _ h
  rw [ev_addl, ev_smul] at this
  push_cast at this
  linarith

end OP.Stat
