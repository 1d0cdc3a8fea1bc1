import Mathlib.Data.Real.Basic
import Mathlib.Data.Rat.Cast.Order
import Mathlib.Algebra.BigOperators.Ring.Finset
import Mathlib.Tactic.Linarith
import Mathlib.Tactic.Ring
import Mathlib.Tactic.FieldSimp
import Mathlib.Tactic.Positivity
/-!
# Polynomials that are not negative between 0 and 1

A check that can be evaluated, used for the accuracy of polynomials with tabulated coefficients: the interval is cut into parts, and on each part the polynomial is
at least its first coefficient plus the negative ones.
-/
namespace OP.Num

/-- The value of a polynomial with the coefficients `c`. -/
def pev {K : Type} [CommRing K] (c : List K) (x : K) : K := c.foldr (fun a r => a + x * r) 0

def padd : List ℚ → List ℚ → List ℚ
  | [], q => q
  | p, [] => p
  | a :: p, b :: q => (a + b) :: padd p q

def pscale (a : ℚ) (p : List ℚ) : List ℚ := p.map (a * ·)

def pmul : List ℚ → List ℚ → List ℚ
  | [], _ => []
  | a :: p, q => padd (pscale a q) (0 :: pmul p q)

/-- The polynomial in `b * x` -/
def pdil (b : ℚ) : List ℚ → List ℚ
  | [] => []
  | a :: p => a :: pscale b (pdil b p)

/-- The polynomial in `a + h * s` -/
def pshift (a h : ℚ) : List ℚ → List ℚ
  | [] => []
  | c :: p => padd [c] (pmul [a, h] (pshift a h p))

/-- A lower bound between 0 and 1 -/
def plow : List ℚ → ℚ
  | [] => 0
  | c :: p => c + (p.map (min 0)).sum

/-- The check with `n` parts -/
def pcheck (n : Nat) (p : List ℚ) : Bool := (List.range n).all fun k => decide (0 ≤ plow (pshift (k / n) (1 / n) p))

/-- The value for a real number -/
def rev (p : List ℚ) (x : ℝ) : ℝ := pev (p.map (fun q : ℚ => (q : ℝ))) x

theorem rev_nil (x : ℝ) : rev [] x = 0 := rfl
theorem rev_cons (a : ℚ) (p : List ℚ) (x : ℝ) : rev (a :: p) x = a + x * rev p x := rfl

theorem rev_add (x : ℝ) : ∀ p q : List ℚ, rev (padd p q) x = rev p x + rev q x
  | [], q => by rw [padd, rev_nil, zero_add]
  | a :: p, [] => by rw [padd, rev_nil, add_zero]; simp
  | a :: p, b :: q => by rw [padd, rev_cons, rev_cons, rev_cons, rev_add x p q]; push_cast; ring

theorem rev_scale (a : ℚ) (x : ℝ) : ∀ p : List ℚ, rev (pscale a p) x = a * rev p x
  | [] => by simp [pscale, rev_nil]
  | b :: p => by
    have := rev_scale a x p
    unfold pscale at this ⊢
    rw [List.map_cons, rev_cons, rev_cons, this]; push_cast; ring

theorem rev_mul (x : ℝ) : ∀ p q : List ℚ, rev (pmul p q) x = rev p x * rev q x
  | [], q => by rw [pmul, rev_nil, zero_mul]
  | a :: p, q => by rw [pmul, rev_add, rev_scale, rev_cons, rev_cons, rev_mul x p q]; push_cast; ring

theorem rev_dil (b : ℚ) (x : ℝ) : ∀ p : List ℚ, rev (pdil b p) x = rev p (b * x)
  | [] => rfl
  | a :: p => by rw [pdil, rev_cons, rev_cons, rev_scale, rev_dil b x p]; ring

theorem rev_shift (a h : ℚ) (s : ℝ) : ∀ p : List ℚ, rev (pshift a h p) s = rev p (a + h * s)
  | [] => rfl
  | c :: p => by rw [pshift, rev_add, rev_mul, rev_cons, rev_cons, rev_cons, rev_cons, rev_nil, rev_shift a h s p]; ring

theorem rev_low (s : ℝ) (h0 : 0 ≤ s) (h1 : s ≤ 1) : ∀ p : List ℚ, (plow p : ℝ) ≤ rev p s
  | [] => by simp [plow, rev_nil]
  | c :: p => by
    have key : ∀ p : List ℚ, (((p.map (min 0)).sum : ℚ) : ℝ) ≤ s * rev p s := by
      intro p
      induction p with
      | nil => simp [rev_nil]
      | cons a p ih =>
        rw [List.map_cons, List.sum_cons, rev_cons]
        have ha : ((min 0 a : ℚ) : ℝ) ≤ s * a := by
          rcases le_total 0 a with h | h
          · rw [min_eq_left h]
            have : (0 : ℝ) ≤ a := by exact_mod_cast h
            push_cast; positivity
          · rw [min_eq_right h]
            have : (a : ℝ) ≤ 0 := by exact_mod_cast h
            nlinarith
        have hm : (((p.map (min 0)).sum : ℚ) : ℝ) ≤ 0 := by
          have : ∀ p : List ℚ, (p.map (min 0)).sum ≤ 0 := by
            intro p
            induction p with
            | nil => simp
            | cons b p ih => rw [List.map_cons, List.sum_cons]; linarith [min_le_left 0 b]
          exact_mod_cast this p
        push_cast at ha hm ih ⊢
        nlinarith
    have := key p
    rw [plow, rev_cons]
    push_cast at this ⊢
    linarith

/-- A polynomial that passes the check is not negative between 0 and 1. -/
theorem pcheck_sound {n : Nat} (hn : 0 < n) {p : List ℚ} (h : pcheck n p = true) {x : ℝ} (h0 : 0 ≤ x) (h1 : x ≤ 1) : 0 ≤ rev p x := by
  have hn' : (0 : ℝ) < n := by exact_mod_cast hn
  have main : ∀ k : Nat, k < n → (k : ℝ) ≤ n * x → n * x ≤ k + 1 → 0 ≤ rev p x := by
    intro k hk ha hb
    have hc := List.all_eq_true.1 h k (List.mem_range.2 hk)
    have hc' : (0 : ℚ) ≤ plow (pshift (k / n) (1 / n) p) := of_decide_eq_true hc
    have h2 := rev_low (n * x - k) (by linarith) (by linarith) (pshift (k / n) (1 / n) p)
    rw [rev_shift] at h2
    have h3 : (((k / n : ℚ) : ℝ) + ((1 / n : ℚ) : ℝ) * (n * x - k)) = x := by
      push_cast
      field_simp
      ring
    rw [h3] at h2
    exact le_trans (by exact_mod_cast hc') h2
  have : n * x ≤ n := by nlinarith
  have hex : ∀ m : Nat, m ≤ n → n * x ≤ m → 0 ≤ rev p x ∨ n * x = 0 := by
    intro m
    induction m with
    | zero =>
      intro _ h
      right
      have : 0 ≤ n * x := by positivity
      push_cast at h
      linarith
    | succ m ih =>
      intro hm h
      rcases le_total (n * x) m with h' | h'
      · exact ih (by omega) h'
      · exact .inl (main m (by omega) h' (by push_cast at h; linarith))
  rcases hex n le_rfl this with h | h
  · exact h
  · exact main 0 hn (by rw [h]; simp) (by rw [h]; simp)

/-- The polynomial in `x * x` -/
def psq : List ℚ → List ℚ
  | [] => []
  | a :: p => a :: 0 :: psq p

theorem rev_sq (x : ℝ) : ∀ p : List ℚ, rev (psq p) x = rev p (x * x)
  | [] => rfl
  | a :: p => by rw [psq, rev_cons, rev_cons, rev_cons, rev_sq x p]; push_cast; ring

theorem rev_range (x : ℝ) : ∀ (n : Nat) (f : Nat → ℚ), rev ((List.range n).map f) x = ∑ k ∈ Finset.range n, (f k : ℝ) * x ^ k
  | 0, f => by simp [rev_nil]
  | n + 1, f => by
    rw [List.range_succ_eq_map, List.map_cons, rev_cons, List.map_map, rev_range x n, Finset.sum_range_succ', Finset.mul_sum]
    simp only [Function.comp, Nat.succ_eq_add_one, pow_zero, mul_one]
    rw [add_comm]
    congr 1
    exact Finset.sum_congr rfl fun k _ => by ring

/-- Both signs: `|p| ≤ ε` between 0 and 1. -/
theorem pcheck_abs {n : Nat} (hn : 0 < n) {p : List ℚ} {ε : ℚ} (h : (pcheck n (padd [ε] p) && pcheck n (padd [ε] (pscale (-1) p))) = true) {x : ℝ} (h0 : 0 ≤ x)
    (h1 : x ≤ 1) : |rev p x| ≤ ε := by
  rw [Bool.and_eq_true] at h
  have a := pcheck_sound hn h.1 h0 h1
  have b := pcheck_sound hn h.2 h0 h1
  rw [rev_add, rev_cons, rev_nil] at a b
  rw [rev_scale] at b
  push_cast at a b
  rw [abs_le]
  constructor <;> linarith

end OP.Num
