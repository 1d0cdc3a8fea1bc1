import Verif.Thermal.Thermal
import Verif.Lin.PropsChol
import Verif.Lin.PropsPack
/-!
# The assembled matrices: lemmas
-/
namespace OP.Thermal

open Lin Finset

/-! ## Specification -/

section Spec
variable {K : Type} [Field K]

/-- A matrix of order `w+1` put into a large one at row and column `j`. -/
def blk (w j : Nat) (M : Nat → Nat → K) (p q : Nat) : K :=
  if j ≤ p ∧ p ≤ j + w ∧ j ≤ q ∧ q ≤ j + w then M (p - j) (q - j) else 0

/-- The sum of `m` elements of `w+1` nodes each, neighbours sharing a node. -/
def asm (w m : Nat) (c : Nat → K) (M : Nat → Nat → K) (p q : Nat) : K := ∑ e ∈ range m, c e * blk w (e * w) M p q

/-- Row `i` of a matrix of order `n` times a vector. -/
def row (n : Nat) (M : Nat → Nat → K) (x : Nat → K) (i : Nat) : K := ∑ j ∈ range n, M i j * x j

/-- The depth of the bottom of a layer. -/
def Args.bot (a : Args K) (l : Nat) : K := a.nd 0 + ∑ i ∈ range (l + 1), a.lh i
/-- The depth of the top of a layer. -/
def Args.top (a : Args K) (l : Nat) : K := a.nd 0 + ∑ i ∈ range l, a.lh i
/-- The number of elements. -/
def Args.m (a : Args K) : Nat := (a.n - 1) / a.w
/-- The length of an element. -/
def Args.len (a : Args K) (e : Nat) : K := a.nd (e * a.w + a.w) - a.nd (e * a.w)
end Spec

variable {K : Type} [Field K] [LinearOrder K]

theorem Args.lb_eq (a : Args K) (l : Nat) : a.lb l = a.bot l := by
  unfold Args.bot
  induction l with
  | zero => simp [Args.lb]
  | succ l ih => rw [sum_range_succ, Args.lb, ih]; ring

theorem Args.lb_sub (a : Args K) (l : Nat) : a.lb l - a.lh l = a.top l := by
  rw [a.lb_eq]; unfold Args.bot Args.top; rw [sum_range_succ]; ring

/-! ## Adding one element -/

omit [LinearOrder K] in
theorem addElem_at {n w j : Nat} (hj : j + w < n) (hw : w ≤ n) (c : K) (M : Nat → Nat → K) (A : Nat → K) {p q : Nat} (h : InBand n w p q) :
    addElem n w j c M A (bIdx n w p q) = A (bIdx n w p q) + c * blk w j M p q := by
  have hinj := (C39_band_partial (n := n) (w := w) hw).2.1
  unfold addElem
  have key := loop_rule (S := Nat → K) (f := fun i A => loop i (w + 1) (fun k A =>
      let p := bIdx n w (j + i) (j + k)
      set A p (A p + c * M i k)) A)
    (fun i B => ∀ p q, InBand n w p q → B (bIdx n w p q) = A (bIdx n w p q) +
      (if j ≤ p ∧ p < j + i ∧ j ≤ q ∧ q ≤ j + w then c * M (p - j) (q - j) else 0)) (lo := 0) (hi := w + 1) (Nat.zero_le _) (s := A)
    (by intro p q _; rw [if_neg (by omega), add_zero]) ?_ p q h
  · rw [key]
    unfold blk
    obtain ⟨h1, h2, h3⟩ := h
    by_cases hc : j ≤ p ∧ p ≤ j + w ∧ j ≤ q ∧ q ≤ j + w
    · rw [if_pos hc, if_pos (by omega)]
    · rw [if_neg hc, if_neg (by omega), mul_zero]
  · intro i B _ hi hB
    dsimp only
    have key2 := loop_rule (S := Nat → K) (f := fun k A => set A (bIdx n w (j + i) (j + k)) (A (bIdx n w (j + i) (j + k)) + c * M i k))
      (fun k C => ∀ p q, InBand n w p q → C (bIdx n w p q) = A (bIdx n w p q) +
        (if j ≤ p ∧ p < j + i ∧ j ≤ q ∧ q ≤ j + w ∨ p = j + i ∧ p ≤ q ∧ q < j + k then c * M (p - j) (q - j) else 0)) (lo := i) (hi := w + 1) (by omega) (s := B)
      (by
        intro p q h; rw [hB p q h]
        by_cases hc : j ≤ p ∧ p < j + i ∧ j ≤ q ∧ q ≤ j + w
        · rw [if_pos hc, if_pos (Or.inl hc)]
        · rw [if_neg hc, if_neg (by omega)]) ?_
    · intro p q h
      have := key2 p q h
      rw [this]
      obtain ⟨h1, h2, h3⟩ := h
      by_cases hc : j ≤ p ∧ p < j + i ∧ j ≤ q ∧ q ≤ j + w ∨ p = j + i ∧ p ≤ q ∧ q < j + (w + 1)
      · rw [if_pos hc, if_pos (by omega)]
      · rw [if_neg hc, if_neg (by omega)]
    · intro k C hk1 hk2 hC p q h
      have hb : InBand n w (j + i) (j + k) := ⟨by omega, by omega, by omega⟩
      by_cases hpq : p = j + i ∧ q = j + k
      · obtain ⟨rfl, rfl⟩ := hpq
        rw [set_same, hC _ _ hb, if_neg (by omega), if_pos (by omega), add_zero, Nat.add_sub_cancel_left, Nat.add_sub_cancel_left]
      · rw [set_ne _ _ (fun hh => hpq (hinj _ _ _ _ h hb hh)), hC p q h]
        obtain ⟨h1, h2, h3⟩ := h
        by_cases hc : j ≤ p ∧ p < j + i ∧ j ≤ q ∧ q ≤ j + w ∨ p = j + i ∧ p ≤ q ∧ q < j + k
        · rw [if_pos hc, if_pos (by omega)]
        · rw [if_neg hc, if_neg (by omega)]

/-! ## The layers -/

theorem seek_ok (a : Args K) (j : Nat) : ∀ (k il r : Nat), a.seek j k il = .ok r →
    il ≤ r ∧ r < il + k ∧ a.nd j < a.lb r ∧ ∀ i, il ≤ i → i < r → a.lb i ≤ a.nd j
  | 0, _, _, h => by cases h
  | k + 1, il, r, h => by
    unfold Args.seek at h
    by_cases hc : a.lb il ≤ a.nd j
    · rw [if_pos hc] at h
      obtain ⟨h1, h2, h3, h4⟩ := seek_ok a j k (il + 1) r h
      refine ⟨by omega, by omega, h3, fun i hi hi2 => ?_⟩
      rcases Nat.eq_or_lt_of_le hi with e | e
      · exact e ▸ hc
      · exact h4 i e hi2
    · rw [if_neg hc] at h
      cases h
      exact ⟨le_refl _, by omega, lt_of_not_ge hc, fun i hi hi2 => by omega⟩

theorem seek_find (a : Args K) (j : Nat) : ∀ (k il r : Nat), il ≤ r → r < il + k → a.nd j < a.lb r → (∀ i, il ≤ i → i < r → a.lb i ≤ a.nd j) →
    a.seek j k il = .ok r
  | 0, _, _, h1, h2, _, _ => by omega
  | k + 1, il, r, h1, h2, h3, h4 => by
    unfold Args.seek
    by_cases hc : a.lb il ≤ a.nd j
    · rw [if_pos hc]
      refine seek_find a j k (il + 1) r ?_ (by omega) h3 (fun i hi hi2 => h4 i (by omega) hi2)
      rcases Nat.eq_or_lt_of_le h1 with e | e
      · subst e; exact absurd hc (not_le_of_gt h3)
      · exact e
    · rw [if_neg hc]
      rcases Nat.eq_or_lt_of_le h1 with e | e
      · rw [e]
      · exact absurd (h4 il (le_refl _) e) hc

theorem seek_ub (a : Args K) (j : Nat) : ∀ (k il : Nat), (∀ i, il ≤ i → i < il + k → a.lb i ≤ a.nd j) → a.seek j k il = .ub
  | 0, _, _ => rfl
  | k + 1, il, h => by
    unfold Args.seek
    rw [if_pos (h il (le_refl _) (by omega))]
    exact seek_ub a j k (il + 1) (fun i h1 h2 => h i (by omega) (by omega))

/-- An element lies within a layer. -/
def Args.Within (a : Args K) (e l : Nat) : Prop := l < a.nl ∧ a.top l ≤ a.nd (e * a.w) ∧ a.nd (e * a.w) < a.bot l ∧ a.nd (e * a.w + a.w) ≤ a.bot l

/-- Conductivity of an element: that of its layer over half the length. -/
def Args.cond (a : Args K) (lay : Nat → Nat) (e : Nat) : K := a.ld (lay e) * 2 / a.len e

/-- What the element loop leaves. -/
theorem asm_loop {a : Args K} (hw : a.w ≤ a.n) {m : Nat} (hm : m * a.w < a.n) {s : Asm K}
    (h : loopM 0 m (fun e s => a.elem (e * a.w) s) { il := 0, KK := fun _ => 0, FF := fun _ => 0 } = .ok s) :
    ∃ lay : Nat → Nat, (∀ e, e < m → a.Within e (lay e)) ∧ (0 < m → a.w = 1 ∨ a.w = 2 ∨ a.w = 4) ∧
      ∀ p q, InBand a.n a.w p q → s.KK (bIdx a.n a.w p q) = asm a.w m (a.cond lay) (ke a.w) p q ∧
        s.FF (bIdx a.n a.w p q) = asm a.w m (fun e => a.len e / 2) (fe a.w) p q := by
  refine loopM_rule (S := Asm K) (fun k s => ∃ lay : Nat → Nat, (∀ e, e < k → a.Within e (lay e)) ∧ (0 < k → a.w = 1 ∨ a.w = 2 ∨ a.w = 4) ∧
      ∀ p q, InBand a.n a.w p q → s.KK (bIdx a.n a.w p q) = asm a.w k (a.cond lay) (ke a.w) p q ∧
        s.FF (bIdx a.n a.w p q) = asm a.w k (fun e => a.len e / 2) (fe a.w) p q) (Nat.zero_le m) ?_ ?_ h
  · exact ⟨fun _ => 0, fun e he => by omega, fun h => by omega, fun p q _ => ⟨by simp [asm], by simp [asm]⟩⟩
  · rintro k s s' - hk ⟨lay, h1, -, h3⟩ e
    unfold Args.elem at e
    rw [Res.bind_eq_ok] at e
    obtain ⟨il, e1, e2⟩ := e
    by_cases hc : a.lb il - a.lh il > a.nd (k * a.w) ∨ a.lb il < a.nd (k * a.w + a.w)
    · rw [if_pos hc] at e2; cases e2
    rw [if_neg hc] at e2
    dsimp only at e2
    by_cases hww : a.w = 1 ∨ a.w = 2 ∨ a.w = 4
    swap
    · rw [if_neg hww] at e2; cases e2
    rw [if_pos hww] at e2
    obtain ⟨f1, f2, f3, f4⟩ := seek_ok a _ _ _ _ e1
    push Not at hc
    rw [a.lb_sub, a.lb_eq] at hc
    rw [a.lb_eq] at f3
    have hkw : k * a.w + a.w < a.n := lt_of_le_of_lt (by rw [← Nat.succ_mul]; exact Nat.mul_le_mul_right _ hk) hm
    refine ⟨fun e => if e = k then il else lay e, ?_, fun _ => hww, ?_⟩
    · intro e he
      dsimp only
      by_cases hek : e = k
      · subst hek; rw [if_pos rfl]; exact ⟨by omega, hc.1, f3, hc.2⟩
      · rw [if_neg hek]; exact h1 e (by omega)
    · intro p q hb
      cases e2
      dsimp only
      rw [addElem_at hkw hw _ _ _ hb, addElem_at hkw hw _ _ _ hb, (h3 p q hb).1, (h3 p q hb).2]
      unfold asm
      refine ⟨?_, ?_⟩
      · rw [sum_range_succ]
        congr 1
        · refine sum_congr rfl fun e he => ?_
          have : e ≠ k := by have := mem_range.1 he; omega
          simp only [Args.cond, if_neg this]
        · simp only [Args.cond, if_true]; rfl
      · rw [sum_range_succ]; rfl

theorem asm_loop_ok {a : Args K} (hww : a.w = 1 ∨ a.w = 2 ∨ a.w = 4) {m : Nat}
    (hmon : ∀ e, e < m → a.nd (e * a.w) ≤ a.nd (e * a.w + a.w)) (hin : ∀ e, e < m → ∃ l, a.Within e l)
    (hlh : ∀ i, i < a.nl → 0 < a.lh i) [IsStrictOrderedRing K] :
    ∃ s, loopM 0 m (fun e s => a.elem (e * a.w) s) { il := 0, KK := fun _ => 0, FF := fun _ => 0 } = .ok s := by
  have hmono : ∀ i l, i < l → l < a.nl → a.bot i ≤ a.top l := by
    intro i l h1 h2
    unfold Args.bot Args.top
    refine add_le_add_right (sum_le_sum_of_subset_of_nonneg (fun x hx => ?_) (fun x hx _ => ?_)) _
    · rw [mem_range] at hx ⊢; omega
    · exact (hlh x (by have := mem_range.1 hx; omega)).le
  have := loopM_total (S := Asm K) (f := fun e s => a.elem (e * a.w) s)
    (fun k s => k < m → ∀ i, i < s.il → a.lb i ≤ a.nd (k * a.w)) (lo := 0) (hi := m) (Nat.zero_le m)
    (s := { il := 0, KK := fun _ => 0, FF := fun _ => 0 }) (fun _ i hi => by cases hi) ?_
  · obtain ⟨s, e, -⟩ := this; exact ⟨s, e⟩
  · intro k s _ hk hs
    obtain ⟨l, g1, g2, g3, g4⟩ := hin k hk
    have hs := hs hk
    have hil : s.il ≤ l := by
      by_contra hlt
      have := hs l (by omega)
      rw [a.lb_eq] at this
      exact absurd g3 (not_lt_of_ge this)
    have hseek : a.seek (k * a.w) (a.nl - s.il) s.il = .ok l :=
      seek_find a _ _ _ _ hil (by omega) (by rw [a.lb_eq]; exact g3) (fun i _ hi => by rw [a.lb_eq]; exact le_trans (hmono i l hi g1) g2)
    unfold Args.elem
    simp only [hseek, Res.ok_bind]
    rw [if_neg (by rw [a.lb_sub, a.lb_eq]; push Not; exact ⟨g2, g4⟩), if_pos hww]
    refine ⟨_, rfl, fun hk2 i hi => ?_⟩
    rw [a.lb_eq]
    refine le_trans (hmono i l hi g1) (le_trans g2 ?_)
    rw [Nat.succ_mul]
    exact hmon k hk

end OP.Thermal
