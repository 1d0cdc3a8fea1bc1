import Verif.Thermal.PropsInterp
import Mathlib.Analysis.SpecialFunctions.Integrals.Basic
import Mathlib.MeasureTheory.Integral.IntervalIntegral.Basic
/-!
# C78: the element matrices are integrals of the functions used for interpolation
-/
namespace OP.Thermal

open Lin Finset intervalIntegral

/-! ## Polynomials as lists -/

def ev : List ℝ → ℝ → ℝ
  | [], _ => 0
  | c :: l, x => c + x * ev l x

def ladd : List ℝ → List ℝ → List ℝ
  | [], m => m
  | l, [] => l
  | a :: l, b :: m => (a + b) :: ladd l m

def lmul : List ℝ → List ℝ → List ℝ
  | [], _ => []
  | a :: l, m => ladd (m.map (a * ·)) (0 :: lmul l m)

def lder : List ℝ → List ℝ
  | [] => []
  | _ :: l => ladd l (0 :: lder l)

/-- The integral of `x^k` times the polynomial over `[-1, 1]`. -/
noncomputable def lint : Nat → List ℝ → ℝ
  | _, [] => 0
  | k, c :: l => c * ((1 - (-1) ^ (k + 1)) / (k + 1)) + lint (k + 1) l

theorem ev_add (x : ℝ) : ∀ l m, ev (ladd l m) x = ev l x + ev m x
  | [], m => by simp [ladd, ev]
  | a :: l, [] => by simp [ladd, ev]
  | a :: l, b :: m => by simp only [ladd, ev, ev_add x l m]; ring

theorem ev_smul (x a : ℝ) (m : List ℝ) : ev (m.map (a * ·)) x = a * ev m x := by
  induction m with
  | nil => simp [ev]
  | cons b m ih => simp only [List.map_cons, ev, ih]; ring

theorem ev_mul (x : ℝ) (l m : List ℝ) : ev (lmul l m) x = ev l x * ev m x := by
  induction l with
  | nil => simp [lmul, ev]
  | cons a l ih => simp only [lmul, ev_add, ev_smul, ev, ih]; ring

theorem ev_der (l : List ℝ) : ∀ x, HasDerivAt (ev l) (ev (lder l) x) x := by
  induction l with
  | nil => intro x; exact hasDerivAt_const x 0
  | cons c l ih =>
    intro x
    have := ((hasDerivAt_id x).mul (ih x)).const_add c
    have e : ev (lder (c :: l)) x = 1 * ev l x + id x * ev (lder l) x := by simp only [lder, ev_add, ev, id]; ring
    rw [e]
    exact this

theorem ev_cont (l : List ℝ) : Continuous (ev l) :=
  continuous_iff_continuousAt.2 fun x => (ev_der l x).continuousAt

theorem ev_int (l : List ℝ) : ∀ k, ∫ x in (-1 : ℝ)..1, x ^ k * ev l x = lint k l := by
  induction l with
  | nil => intro k; simp [ev, lint]
  | cons c l ih =>
    intro k
    have e : (fun x : ℝ => x ^ k * ev (c :: l) x) = fun x => c * x ^ k + x ^ (k + 1) * ev l x := by
      funext x; simp only [ev]; ring
    have i1 : IntervalIntegrable (fun x : ℝ => c * x ^ k) MeasureTheory.volume (-1) 1 := (continuous_const.mul (continuous_pow k)).intervalIntegrable _ _
    have i2 : IntervalIntegrable (fun x : ℝ => x ^ (k + 1) * ev l x) MeasureTheory.volume (-1) 1 := ((continuous_pow (k + 1)).mul (ev_cont l)).intervalIntegrable _ _
    rw [e, integral_add i1 i2, ih (k + 1), integral_const_mul, integral_pow]
    simp [lint]

theorem ev_int0 (l : List ℝ) : ∫ x in (-1 : ℝ)..1, ev l x = lint 0 l := by
  rw [← ev_int l 0]; simp

/-! ## The shape functions -/

/-- The function of node `i`: what interpolation over an element gives when the temperature is one at that node and zero at the others. -/
noncomputable def N (w i : Nat) (z : ℝ) : ℝ :=
  match shape w z (fun k => if k = i then 1 else 0) with
  | .ok v => v
  | _ => 0

/-- Their coefficients. -/
noncomputable def Nc (w i : Nat) : List ℝ :=
  match w with
  | 1 => ([[1/2, -1/2], [1/2, 1/2]] : List (List ℝ)).getD i []
  | 2 => ([[0, -1/2, 1/2], [1, 0, -1], [0, 1/2, 1/2]] : List (List ℝ)).getD i []
  | _ => ([[0, 1/6, -1/6, -2/3, 2/3], [0, -4/3, 8/3, 4/3, -8/3], [1, 0, -5, 0, 4], [0, 4/3, 8/3, -4/3, -8/3], [0, -1/6, -1/6, 2/3, 2/3]] : List (List ℝ)).getD i []

theorem N_eq {w i : Nat} (hw : Order w) (hi : i ≤ w) : N w i = ev (Nc w i) := by
  funext z
  rcases hw with rfl | rfl | rfl <;> interval_cases i <;>
    simp [N, Nc, shape, ev] <;> ring

theorem N_deriv {w i : Nat} (hw : Order w) (hi : i ≤ w) : deriv (N w i) = ev (lder (Nc w i)) := by
  funext z
  rw [N_eq hw hi]
  exact (ev_der _ z).deriv

/-- **C78**: for every order and every two nodes, the entry of the matrix of conduction is the integral over the element of the product
of the derivatives of the functions by which temperatures are interpolated, and the entry of the matrix of heat is the integral of the
product of the functions. -/
theorem C78_galerkin {w i k : Nat} (hw : w = 1 ∨ w = 2 ∨ w = 4) (hi : i ≤ w) (hk : k ≤ w) :
    ke w i k = ∫ z in (-1 : ℝ)..1, deriv (N w i) z * deriv (N w k) z ∧ fe w i k = ∫ z in (-1 : ℝ)..1, N w i z * N w k z := by
  rw [N_deriv hw hi, N_deriv hw hk, N_eq hw hi, N_eq hw hk]
  simp only [← ev_mul, ev_int0]
  rcases hw with rfl | rfl | rfl <;> interval_cases i <;> interval_cases k <;>
    (constructor <;> norm_num [ke, fe, Nc, lder, lmul, ladd, lint])

/-- The functions add up to one, so that a uniform temperature is kept between the nodes, and each is one at its node and zero at the
others. -/
theorem C78_functions {w i : Nat} (hw : w = 1 ∨ w = 2 ∨ w = 4) (hi : i ≤ w) :
    (∀ z, ∑ k ∈ range (w + 1), N w k z = 1) ∧ ∀ k, k ≤ w → N w i (znode w k) = if k = i then 1 else 0 := by
  refine ⟨fun z => ?_, fun k hk => ?_⟩
  · rw [sum_congr rfl fun k hk => by rw [N_eq hw (show k ≤ w by have := mem_range.1 hk; omega)]]
    rcases hw with rfl | rfl | rfl <;> simp only [sum_range_succ, sum_range_zero] <;> simp [Nc, ev] <;> ring
  · rw [N_eq hw hi]
    rcases hw with rfl | rfl | rfl <;> interval_cases i <;> interval_cases k <;> norm_num [Nc, ev, znode]

example : fe (K := ℝ) 2 0 2 = -1/15 := by norm_num [fe]

end OP.Thermal
