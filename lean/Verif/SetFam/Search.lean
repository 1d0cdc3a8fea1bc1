import Verif.SetFam.Sort
import Mathlib.Order.Defs.LinearOrder
import Mathlib.Order.Basic
/-!
# Binary search in a sorted array

`oset::findvalue` (include/set.h:428-441), the identical free function in the pavement solver
(src/pavement.cpp:136-152), and the same loop in `iset::findvalue` (include/set.h:750-760) and
`kiset::findkey` (1269-1279), which read through an index.  `unsigned` is exact here: `l + (r-l)/2`
and `i+1` stay within the length.  `UINT_MAX` is `none`.
-/
namespace OP.SetFam

variable {α : Type} [LinearOrder α]

/-- The loop `while (l < r) { i = l + (r-l)/2; if (get(i) < v) l = i+1; else r = i; }`; the final `l`.
`get` reads element `i`. -/
def bsearch (get : Nat → Res α) (v : α) (l r : Nat) : Res Nat :=
  if l < r then
    match get (l + (r - l) / 2) with
    | .ok x => if x < v then bsearch get v (l + (r - l) / 2 + 1) r
               else bsearch get v l (l + (r - l) / 2)
    | .throw => .throw
    | .ub => .ub
  else .ok l
termination_by r - l
decreasing_by all_goals omega

/-- `oset::findvalue` (include/set.h:428-441). -/
def findvalue (a : List α) (v : α) : Res (Option Nat) :=
  bsearch (QS.rd a) v 0 a.length >>= fun l =>
  if l < a.length then
    QS.rd a l >>= fun x => .ok (if x = v then some l else none)
  else .ok none

/-- On any readable nondecreasing sequence `f 0, ..., f (n-1)` the search ends at the number of
elements below `v`. -/
theorem bsearch_ok (get : Nat → Res α) (f : Nat → α) (v : α) (n l r : Nat)
    (hget : ∀ i, i < n → get i = .ok (f i)) (hmono : ∀ i j, i < j → j < n → f i ≤ f j)
    (hlr : l ≤ r) (hr : r ≤ n) (hlo : ∀ i, i < l → f i < v) (hhi : ∀ i, r ≤ i → i < n → v ≤ f i) :
    ∃ k, bsearch get v l r = .ok k ∧ k ≤ n ∧ (∀ i, i < k → f i < v) ∧
      ∀ i, k ≤ i → i < n → v ≤ f i := by
  fun_induction bsearch get v l r with
  | case1 l r h x hx hlt ih =>
    rw [hget _ (by omega)] at hx
    simp only [Res.ok.injEq] at hx
    refine ih (by omega) hr (fun i hi => ?_) hhi
    by_cases he : i = l + (r - l) / 2
    · rw [he, hx]; exact hlt
    · exact lt_of_le_of_lt (hmono i (l + (r - l) / 2) (by omega) (by omega)) (by rw [hx]; exact hlt)
  | case2 l r h x hx hlt ih =>
    rw [hget _ (by omega)] at hx
    simp only [Res.ok.injEq] at hx
    refine ih (by omega) (by omega) hlo (fun i hi hin => ?_)
    have : v ≤ f (l + (r - l) / 2) := by rw [hx]; exact not_lt.mp hlt
    by_cases he : i = l + (r - l) / 2
    · rw [he]; exact this
    · exact le_trans this (hmono _ i (by omega) hin)
  | case3 l r h hx => rw [hget _ (by omega)] at hx; simp at hx
  | case4 l r h hx => rw [hget _ (by omega)] at hx; simp at hx
  | case5 l r h =>
    have : l = r := by omega
    subst this
    exact ⟨l, rfl, hr, hlo, hhi⟩

/-- `bsearch_ok` without a total sequence: only the reads below `n` matter. -/
theorem bsearch_ok' (get : Nat → Res α) (v : α) (n l r : Nat)
    (hget : ∀ i, i < n → ∃ x, get i = .ok x)
    (hmono : ∀ i j x y, i < j → j < n → get i = .ok x → get j = .ok y → x ≤ y)
    (hlr : l ≤ r) (hr : r ≤ n) (hlo : ∀ i x, i < l → get i = .ok x → x < v)
    (hhi : ∀ i x, r ≤ i → i < n → get i = .ok x → v ≤ x) :
    ∃ k, bsearch get v l r = .ok k ∧ k ≤ n ∧ (∀ i x, i < k → get i = .ok x → x < v) ∧
      ∀ i x, k ≤ i → i < n → get i = .ok x → v ≤ x := by
  fun_induction bsearch get v l r with
  | case1 l r h x hx hlt ih =>
    refine ih (by omega) hr (fun i y hi hy => ?_) hhi
    by_cases he : i = l + (r - l) / 2
    · rw [he, hx] at hy
      simp only [Res.ok.injEq] at hy
      rw [← hy]; exact hlt
    · exact lt_of_le_of_lt (hmono i _ y x (by omega) (by omega) hy hx) hlt
  | case2 l r h x hx hlt ih =>
    refine ih (by omega) (by omega) hlo (fun i y hi hin hy => ?_)
    have hv : v ≤ x := not_lt.mp hlt
    by_cases he : i = l + (r - l) / 2
    · rw [he, hx] at hy
      simp only [Res.ok.injEq] at hy
      rw [← hy]; exact hv
    · exact le_trans hv (hmono _ i x y (by omega) hin hx hy)
  | case3 l r h hx => obtain ⟨x, h'⟩ := hget (l + (r - l) / 2) (by omega); rw [hx] at h'; simp at h'
  | case4 l r h hx => obtain ⟨x, h'⟩ := hget (l + (r - l) / 2) (by omega); rw [hx] at h'; simp at h'
  | case5 l r h =>
    have : l = r := by omega
    subst this
    exact ⟨l, rfl, hr, hlo, hhi⟩

end OP.SetFam
