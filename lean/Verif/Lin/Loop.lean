import Verif.Basic
import Mathlib.Algebra.BigOperators.Intervals
import Mathlib.Algebra.Order.Ring.Defs
import Mathlib.Tactic.Ring
import Mathlib.Tactic.Linarith
/-!
# Loops over arrays

The loops of src/linalg.cpp and of the packed index maps of include/linalg.h.  An array is a function from its addresses, so that a
theorem that fixes every address outside the array, and holds whatever is stored there, shows that the code stays inside.
-/
namespace OP.Lin

/-- `for (i = lo; i < lo+m; i++) s = f(i,s)` -/
def loopFrom {S : Type} (f : Nat → S → S) : Nat → Nat → S → S
  | 0, _, s => s
  | m + 1, i, s => loopFrom f m (i + 1) (f i s)

/-- `for (i = lo; i < hi; i++) s = f(i,s)` -/
def loop {S : Type} (lo hi : Nat) (f : Nat → S → S) (s : S) : S := loopFrom f (hi - lo) lo s

/-- `for (i = n; i > 0; i--) s = f(i-1,s)` -/
def down {S : Type} : Nat → (Nat → S → S) → S → S
  | 0, _, s => s
  | n + 1, f, s => down n f (f n s)

/-- The same with a body that may throw. -/
def loopFromM {S : Type} (f : Nat → S → Res S) : Nat → Nat → S → Res S
  | 0, _, s => .ok s
  | m + 1, i, s => f i s >>= fun s => loopFromM f m (i + 1) s

def loopM {S : Type} (lo hi : Nat) (f : Nat → S → Res S) (s : S) : Res S := loopFromM f (hi - lo) lo s

/-- Store into an array. -/
def set {K : Type} (A : Nat → K) (p : Nat) (v : K) : Nat → K := fun q => if q = p then v else A q

@[simp] theorem set_same {K : Type} (A : Nat → K) (p : Nat) (v : K) : set A p v p = v := if_pos rfl
theorem set_ne {K : Type} (A : Nat → K) {p q : Nat} (v : K) (h : q ≠ p) : set A p v q = A q := if_neg h
@[simp] theorem set_set {K : Type} (A : Nat → K) (p : Nat) (v w : K) : set (set A p v) p w = set A p w := by
  funext q; unfold set; split <;> rfl
theorem set_self {K : Type} (A : Nat → K) (p : Nat) : set A p (A p) = A := by
  funext q; unfold set; split
  · rename_i h; rw [h]
  · rfl

/-- `swap(A[p],A[q])` -/
def swp {K : Type} (A : Nat → K) (p q : Nat) : Nat → K := set (set A p (A q)) q (A p)

section Rules
variable {S : Type}

theorem loopFrom_rule {f : Nat → S → S} (P : Nat → S → Prop) : ∀ (m i : Nat) (s : S), P i s →
    (∀ k s, i ≤ k → k < i + m → P k s → P (k + 1) (f k s)) → P (i + m) (loopFrom f m i s)
  | 0, _, _, h, _ => h
  | m + 1, i, s, h, hs => by
    have := loopFrom_rule P m (i + 1) (f i s) (hs i s (Nat.le_refl _) (by omega) h) (fun k s h1 h2 => hs k s (by omega) (by omega))
    rw [show i + (m + 1) = i + 1 + m by omega]; exact this

/-- A property that every round carries from `i` to `i + 1` holds at the end. -/
theorem loop_rule {f : Nat → S → S} (P : Nat → S → Prop) {lo hi : Nat} (hl : lo ≤ hi) {s : S} (h0 : P lo s)
    (hs : ∀ k s, lo ≤ k → k < hi → P k s → P (k + 1) (f k s)) : P hi (loop lo hi f s) := by
  have := loopFrom_rule (f := f) P (hi - lo) lo s h0 (fun k s h1 h2 => hs k s h1 (by omega))
  rw [show lo + (hi - lo) = hi by omega] at this
  exact this

theorem loop_nil {f : Nat → S → S} {lo hi : Nat} (h : hi ≤ lo) (s : S) : loop lo hi f s = s := by
  unfold loop; rw [Nat.sub_eq_zero_of_le h]; rfl

theorem down_rule {f : Nat → S → S} (P : Nat → S → Prop) : ∀ {n : Nat} {s : S}, P n s →
    (∀ k s, k < n → P (k + 1) s → P k (f k s)) → P 0 (down n f s)
  | 0, _, h, _ => h
  | n + 1, s, h, hs => down_rule (n := n) (s := f n s) P (hs n s (by omega) h) (fun k s hk => hs k s (by omega))

theorem loopFromM_rule {f : Nat → S → Res S} (P : Nat → S → Prop) : ∀ (m i : Nat) (s s' : S), P i s →
    (∀ k s s', i ≤ k → k < i + m → P k s → f k s = .ok s' → P (k + 1) s') → loopFromM f m i s = .ok s' → P (i + m) s'
  | 0, _, _, _, h, _, e => by cases e; exact h
  | m + 1, i, s, s', h, hs, e => by
    simp only [loopFromM] at e
    rw [Res.bind_eq_ok] at e
    obtain ⟨s1, e1, e2⟩ := e
    have := loopFromM_rule P m (i + 1) s1 s' (hs i s s1 (Nat.le_refl _) (by omega) h e1) (fun k s s' h1 h2 => hs k s s' (by omega) (by omega)) e2
    rw [show i + (m + 1) = i + 1 + m by omega]; exact this

theorem loopM_rule {f : Nat → S → Res S} (P : Nat → S → Prop) {lo hi : Nat} (hl : lo ≤ hi) {s s' : S} (h0 : P lo s)
    (hs : ∀ k s s', lo ≤ k → k < hi → P k s → f k s = .ok s' → P (k + 1) s') (e : loopM lo hi f s = .ok s') : P hi s' := by
  have := loopFromM_rule (f := f) P (hi - lo) lo s s' h0 (fun k s s' h1 h2 => hs k s s' h1 (by omega)) e
  rw [show lo + (hi - lo) = hi by omega] at this
  exact this

theorem loopFromM_total {f : Nat → S → Res S} (P : Nat → S → Prop) : ∀ (m i : Nat) (s : S), P i s →
    (∀ k s, i ≤ k → k < i + m → P k s → ∃ s', f k s = .ok s' ∧ P (k + 1) s') → ∃ s', loopFromM f m i s = .ok s' ∧ P (i + m) s'
  | 0, _, s, h, _ => ⟨s, rfl, h⟩
  | m + 1, i, s, h, hs => by
    obtain ⟨s1, e1, h1⟩ := hs i s (Nat.le_refl _) (by omega) h
    obtain ⟨s2, e2, h2⟩ := loopFromM_total P m (i + 1) s1 h1 (fun k s h1 h2 => hs k s (by omega) (by omega))
    exact ⟨s2, by simp only [loopFromM, e1, Res.ok_bind, e2], by rw [show i + (m + 1) = i + 1 + m by omega]; exact h2⟩

/-- If no round throws, the loop ends normally. -/
theorem loopM_total {f : Nat → S → Res S} (P : Nat → S → Prop) {lo hi : Nat} (hl : lo ≤ hi) {s : S} (h0 : P lo s)
    (hs : ∀ k s, lo ≤ k → k < hi → P k s → ∃ s', f k s = .ok s' ∧ P (k + 1) s') : ∃ s', loopM lo hi f s = .ok s' ∧ P hi s' := by
  have := loopFromM_total (f := f) P (hi - lo) lo s h0 (fun k s h1 h2 => hs k s h1 (by omega))
  rw [show lo + (hi - lo) = hi by omega] at this
  exact this

theorem loopFromM_no_ub {f : Nat → S → Res S} (P : Nat → S → Prop) : ∀ (m i : Nat) (s : S), P i s →
    (∀ k s, i ≤ k → k < i + m → P k s → f k s ≠ .ub ∧ ∀ s', f k s = .ok s' → P (k + 1) s') → loopFromM f m i s ≠ .ub
  | 0, _, s, _, _ => by simp [loopFromM]
  | m + 1, i, s, h, hs => by
    obtain ⟨h1, h2⟩ := hs i s (Nat.le_refl _) (by omega) h
    unfold loopFromM
    cases e : f i s with
    | ok s1 =>
      simp only [Res.ok_bind]
      exact loopFromM_no_ub P m (i + 1) s1 (h2 s1 e) (fun k s h1 h2 => hs k s (by omega) (by omega))
    | throw => intro h; cases h
    | ub => exact (h1 e).elim

end Rules

section Sums
variable {K : Type} [CommRing K]

open Finset

/-- `for (k = lo; k < hi; k++) s[p] -= t(k,s)` where `t` does not depend on `s[p]`. -/
theorem loop_acc {lo hi : Nat} {t : Nat → (Nat → K) → K} {p : Nat} {s : Nat → K} (hl : lo ≤ hi)
    (ht : ∀ k v, lo ≤ k → k < hi → t k (set s p v) = t k s) :
    loop lo hi (fun k s => set s p (s p - t k s)) s = set s p (s p - ∑ k ∈ Ico lo hi, t k s) := by
  refine loop_rule (fun i a => a = set s p (s p - ∑ k ∈ Ico lo i, t k s)) hl (by simp [set_self]) ?_
  intro k a h1 h2 e
  rw [e, set_set, set_same, ht k _ h1 h2, sum_Ico_succ_top h1]
  congr 1; ring

theorem loop_acc_add {lo hi : Nat} {t : Nat → (Nat → K) → K} {p : Nat} {s : Nat → K} (hl : lo ≤ hi)
    (ht : ∀ k v, lo ≤ k → k < hi → t k (set s p v) = t k s) :
    loop lo hi (fun k s => set s p (s p + t k s)) s = set s p (s p + ∑ k ∈ Ico lo hi, t k s) := by
  refine loop_rule (fun i a => a = set s p (s p + ∑ k ∈ Ico lo i, t k s)) hl (by simp [set_self]) ?_
  intro k a h1 h2 e
  rw [e, set_set, set_same, ht k _ h1 h2, sum_Ico_succ_top h1]
  congr 1; ring

/-- `for (k = lo; k < hi; k++) sum -= t(k)` -/
theorem loop_sub {lo hi : Nat} (t : Nat → K) (v : K) (hl : lo ≤ hi) :
    loop lo hi (fun k v => v - t k) v = v - ∑ k ∈ Ico lo hi, t k := by
  refine loop_rule (fun i a => a = v - ∑ k ∈ Ico lo i, t k) hl (by simp) ?_
  intro k a h1 h2 e
  rw [e, sum_Ico_succ_top h1]; ring

theorem loop_add {lo hi : Nat} (t : Nat → K) (v : K) (hl : lo ≤ hi) :
    loop lo hi (fun k v => v + t k) v = v + ∑ k ∈ Ico lo hi, t k := by
  refine loop_rule (fun i a => a = v + ∑ k ∈ Ico lo i, t k) hl (by simp) ?_
  intro k a h1 h2 e
  rw [e, sum_Ico_succ_top h1]; ring

end Sums

/-! Row-major addresses. -/

theorem addr_inj {n i j k l : Nat} (hj : j < n) (hl : l < n) : i * n + j = k * n + l ↔ i = k ∧ j = l := by
  constructor
  · intro h
    have h1 : (i * n + j) / n = i := by rw [Nat.mul_comm, Nat.mul_add_div (by omega), Nat.div_eq_of_lt hj]; rfl
    have h2 : (k * n + l) / n = k := by rw [Nat.mul_comm, Nat.mul_add_div (by omega), Nat.div_eq_of_lt hl]; rfl
    have : i = k := by rw [← h1, h, h2]
    subst this
    exact ⟨rfl, by omega⟩
  · rintro ⟨rfl, rfl⟩; rfl

theorem addr_lt {m n i j : Nat} (hi : i < m) (hj : j < n) : i * n + j < m * n := by
  have : (i + 1) * n ≤ m * n := Nat.mul_le_mul_right n hi
  have e : (i + 1) * n = i * n + n := by ring
  omega

theorem set_addr {K : Type} (A : Nat → K) {n i j k l : Nat} (v : K) (hj : j < n) (hl : l < n) :
    set A (i * n + j) v (k * n + l) = if k = i ∧ l = j then v else A (k * n + l) := by
  unfold set
  by_cases h : k = i ∧ l = j
  · rw [if_pos h, if_pos (by rw [h.1, h.2])]
  · rw [if_neg h, if_neg (by rw [addr_inj hl hj]; exact h)]

end OP.Lin
