import Verif.Lin.SvdUse
import Verif.Lin.PropsSvd
import Verif.Lin.PropsSvdAcc
import Mathlib.Tactic.IntervalCases
/-!
# C94: equations, inverses and orthonormalisation by singular values
-/
namespace OP.Lin
open Finset
variable {K : Type} [Field K] [LinearOrder K]

/-- Largest of the first `n` numbers, or 0 if none is above it. -/
def Top (n : Nat) (W : Nat → K) (M : K) : Prop := 0 ≤ M ∧ (∀ k < n, W k ≤ M) ∧ (M = 0 ∨ ∃ k < n, W k = M)

theorem svdCut_spec (tol : K) (n : Nat) (W : Nat → K) : ∃ M, Top n W M ∧ ∀ k < n, svdCut tol n W k = if W k < M * tol then 0 else W k := by
  refine ⟨loop 0 n (fun i max => if max < W i then W i else max) 0, ?_, ?_⟩
  · have h := loop_rule (f := fun i max => if max < W i then W i else max) (fun i M => Top i W M) (Nat.zero_le n) (s := 0) ⟨le_rfl, fun k h => by omega, Or.inl rfl⟩ (by
      rintro i M - hi ⟨h1, h2, h3⟩
      split
      · rename_i h
        refine ⟨h1.trans h.le, fun k hk => ?_, Or.inr ⟨i, by omega, rfl⟩⟩
        rcases Nat.lt_succ_iff_lt_or_eq.1 hk with hk | hk
        · exact (h2 k hk).trans h.le
        · rw [hk]
      · rename_i h
        refine ⟨h1, fun k hk => ?_, h3.imp id fun ⟨k, hk, e⟩ => ⟨k, by omega, e⟩⟩
        rcases Nat.lt_succ_iff_lt_or_eq.1 hk with hk | hk
        · exact h2 k hk
        · rw [hk]; exact not_lt.1 h)
    exact h
  · unfold svdCut
    obtain ⟨M, hM⟩ : ∃ M, M = loop 0 n (fun i max => if max < W i then W i else max) 0 := ⟨_, rfl⟩
    rw [← hM]
    have h := loop_rule (f := fun i W => if W i < M * tol then set W i 0 else W) (fun i W' => ∀ k < n, W' k = if k < i ∧ W k < M * tol then 0 else W k) (Nat.zero_le n) (s := W)
      (fun k _ => by rw [if_neg (by omega)]) (by
      intro i W' _ hi h k hk
      have hWi : W' i = W i := by rw [h i hi, if_neg (by omega)]
      rw [hWi]
      by_cases hc : W i < M * tol
      · rw [if_pos hc]
        by_cases hki : k = i
        · rw [hki, set_same, if_pos ⟨by omega, hc⟩]
        · rw [set_ne _ _ hki, h k hk]
          by_cases hk2 : k < i ∧ W k < M * tol
          · rw [if_pos hk2, if_pos ⟨by omega, hk2.2⟩]
          · rw [if_neg hk2, if_neg (fun e => hk2 ⟨by omega, e.2⟩)]
      · rw [if_neg hc, h k hk]
        by_cases hk2 : k < i ∧ W k < M * tol
        · rw [if_pos hk2, if_pos ⟨by omega, hk2.2⟩]
        · rw [if_neg hk2, if_neg]
          rintro ⟨e1, e2⟩
          by_cases hki : k = i
          · exact hc (hki ▸ e2)
          · exact hk2 ⟨by omega, e2⟩)
    intro k hk
    rw [h k hk]
    by_cases hc : W k < M * tol
    · rw [if_pos ⟨hk, hc⟩, if_pos hc]
    · rw [if_neg (fun e => hc e.2), if_neg hc]

theorem svdCoef_congr {m n : Nat} {U W W' b b' : Nat → K} {p c : Nat} (hW : ∀ k < n, W k = W' k) (hb : ∀ s < m, b (s * p + c) = b' (s * p + c)) :
    ∀ k < n, svdCoef m n U W b p c k = svdCoef m n U W' b' p c k := by
  intro k hk
  unfold svdCoef
  rw [hW k hk, sum_congr rfl fun s hs => by rw [hb s (mem_range.1 hs)]]

omit [LinearOrder K] in
theorem app_congr' {n : Nat} (V : Nat → K) {u u' : Nat → K} (h : ∀ k < n, u k = u' k) (r : Nat) : app n V u r = app n V u' r :=
  sum_congr rfl fun k hk => by rw [h k (mem_range.1 hk)]

omit [LinearOrder K] in
/-- The product of the matrix and `V u`. -/
theorem svd_mul {n : Nat} {A U W V : Nat → K} (hV : ∀ a < n, ∀ k < n, colDot n V a k = if a = k then 1 else 0)
    (hA : ∀ r < n, ∀ s < n, A (r * n + s) = ∑ k ∈ range n, U (r * n + k) * W k * V (s * n + k)) (u : Nat → K) :
    ∀ r < n, ∑ s ∈ range n, A (r * n + s) * app n V u s = app n U (fun k => W k * u k) r := by
  intro r hr
  rw [sum_congr rfl fun s hs => by rw [hA r hr s (mem_range.1 hs), sum_mul], sum_comm]
  refine sum_congr rfl fun k hk => ?_
  dsimp only
  rw [← orth_coord hV u k (mem_range.1 hk), mul_sum, mul_sum]
  exact sum_congr rfl fun s _ => by ring

/-- `equ_svd` without its refinement, which changes nothing in exact arithmetic. -/
theorem equRest_eq {tol : K} {n : Nat} (hn : 0 < n) {A U W V : Nat → K} (hU : ∀ a < n, ∀ k < n, colDot n U a k = if a = k then 1 else 0)
    (hV : ∀ a < n, ∀ k < n, colDot n V a k = if a = k then 1 else 0) (hA : ∀ r < n, ∀ s < n, A (r * n + s) = ∑ k ∈ range n, U (r * n + k) * W k * V (s * n + k))
    (b x g1 g2 r : Nat → K) : ∀ j, equRest tol n A b x U W V g1 g2 r j = if j < n then app n V (svdCoef n n U (svdCut tol n W) b 1 0) j else x j := by
  unfold equRest
  obtain ⟨M, -, hc⟩ := svdCut_spec tol n W
  obtain ⟨W', hW'⟩ : ∃ W', W' = svdCut tol n W := ⟨_, rfl⟩
  rw [← hW'] at hc ⊢
  obtain ⟨u, hu⟩ : ∃ u, u = svdCoef n n U W' b 1 0 := ⟨_, rfl⟩
  rw [← hu]
  obtain ⟨x1, hx1⟩ : ∃ x1, x1 = bksubSvd n n U W' V (fun i => if i < n then b i else x i) 1 0 g1 := ⟨_, rfl⟩
  rw [← hx1]
  have e1 : ∀ j, x1 j = if j < n then app n V u j else x j := by
    intro j
    have := bksubSvd_spec (n := n) hn Nat.one_pos U W' V (fun i => if i < n then b i else x i) g1 j 0 Nat.one_pos
    rw [Nat.mul_one, Nat.add_zero, ← hx1] at this
    rw [this]
    by_cases h : j < n
    · rw [if_pos ⟨rfl, h⟩, if_pos h, hu]
      refine app_congr' V (svdCoef_congr (fun _ _ => rfl) fun s hs => ?_) j
      rw [if_pos (by omega)]
    · rw [if_neg (fun e => h e.2), if_neg h, if_neg h]
  obtain ⟨r1, hr1⟩ : ∃ r1, r1 = loop 0 n (fun i r => loop 0 n (fun j r => set r i (r i + A (i * n + j) * x1 j)) (set r i (-b i))) r := ⟨_, rfl⟩
  rw [← hr1]
  have e2 : ∀ i < n, r1 i = app n U (fun k => W k * u k) i - b i := by
    have h := loop_rule (f := fun i r => loop 0 n (fun j r => set r i (r i + A (i * n + j) * x1 j)) (set r i (-b i)))
      (fun l r => ∀ i < l, r i = app n U (fun k => W k * u k) i - b i) (Nat.zero_le n) (s := r) (fun i h => by omega) (by
      intro l r _ hl h i hi
      rw [loop_acc_add (t := fun j _ => A (l * n + j) * x1 j) (Nat.zero_le n) fun _ _ _ _ => rfl, set_same, set_set]
      by_cases hil : i = l
      · rw [hil, set_same, ← svd_mul hV hA u l hl, ← range_eq_Ico, sum_congr rfl fun s hs => by rw [e1 s, if_pos (mem_range.1 hs)]]
        ring
      · rw [set_ne _ _ hil]; exact h i (by omega))
    rw [← hr1] at h
    exact h
  have e3 : ∀ k < n, svdCoef n n U W' r1 1 0 k = 0 := by
    intro k hk
    unfold svdCoef
    by_cases hk0 : W' k ≠ 0
    · rw [if_pos hk0]
      have hWW : W' k = W k := by
        rw [hc k hk] at hk0 ⊢
        by_cases h : W k < M * tol
        · rw [if_pos h] at hk0; exact absurd rfl hk0
        · rw [if_neg h]
      have : ∑ s ∈ range n, U (s * n + k) * r1 (s * 1 + 0) = 0 := by
        rw [sum_congr rfl fun s hs => by rw [Nat.mul_one, Nat.add_zero, e2 s (mem_range.1 hs), mul_sub], sum_sub_distrib, orth_coord hU _ k hk, hu]
        unfold svdCoef
        rw [if_pos hk0, hWW, mul_div_cancel₀ _ (hWW ▸ hk0), sub_eq_zero]
        exact sum_congr rfl fun s _ => by rw [Nat.mul_one, Nat.add_zero]
      rw [this, zero_div]
    · rw [if_neg hk0]
  obtain ⟨r2, hr2⟩ : ∃ r2, r2 = bksubSvd n n U W' V r1 1 0 g2 := ⟨_, rfl⟩
  rw [← hr2]
  have e4 : ∀ j < n, r2 j = 0 := by
    intro j hj
    have := bksubSvd_spec (n := n) hn Nat.one_pos U W' V r1 g2 j 0 Nat.one_pos
    rw [Nat.mul_one, Nat.add_zero, ← hr2, if_pos ⟨rfl, hj⟩] at this
    rw [this]
    exact sum_eq_zero fun k hk => by rw [e3 k (mem_range.1 hk), mul_zero]
  have h := loop_rule (f := fun i x => set x i (x i - r2 i)) (fun _ y => y = x1) (Nat.zero_le n) (s := x1) rfl (by
    intro i y _ hi h
    rw [h, e4 i hi, sub_zero, set_self])
  rw [h]
  exact e1

theorem invRest_eq {tol : K} {n : Nat} (A U W V : Nat → K) : ∀ i < n, ∀ j < n, invRest tol n A U W V (i * n + j) = app n V (svdCoef n n U (svdCut tol n W) (vunit j) 1 0) i := by
  unfold invRest
  obtain ⟨W', hW'⟩ : ∃ W', W' = svdCut tol n W := ⟨_, rfl⟩
  rw [← hW']
  have cell : ∀ i j (A : Nat → K), loop 0 n (fun k A => if W' k ≠ 0 then set A (i * n + j) (A (i * n + j) + V (i * n + k) * U (j * n + k) / W' k) else A) (set A (i * n + j) 0) =
      set A (i * n + j) (∑ k ∈ range n, if W' k ≠ 0 then V (i * n + k) * U (j * n + k) / W' k else 0) := by
    intro i j A
    refine loop_rule (fun l B => B = set A (i * n + j) (∑ k ∈ range l, if W' k ≠ 0 then V (i * n + k) * U (j * n + k) / W' k else 0)) (Nat.zero_le n) (by rw [range_zero, sum_empty]) ?_
    intro l B _ _ h
    rw [h, sum_range_succ, set_same, set_set]
    by_cases h0 : W' l ≠ 0
    · rw [if_pos h0, if_pos h0]
    · rw [if_neg h0, if_neg h0, add_zero]
  obtain ⟨X, hX⟩ : ∃ X : Nat → Nat → K, X = fun i j => ∑ k ∈ range n, if W' k ≠ 0 then V (i * n + k) * U (j * n + k) / W' k else 0 := ⟨_, rfl⟩
  have cell' : ∀ i j (A : Nat → K), loop 0 n (fun k A => if W' k ≠ 0 then set A (i * n + j) (A (i * n + j) + V (i * n + k) * U (j * n + k) / W' k) else A) (set A (i * n + j) 0) =
      set A (i * n + j) (X i j) := by rw [hX]; exact cell
  simp only [cell']
  have row : ∀ i (A : Nat → K), ∀ r, ∀ c < n, loop 0 n (fun j A => set A (i * n + j) (X i j)) A (r * n + c) = if r = i then X i c else A (r * n + c) := by
    intro i A
    have h := loop_rule (f := fun j A => set A (i * n + j) (X i j)) (fun l B => ∀ r, ∀ c < n, B (r * n + c) = if r = i ∧ c < l then X i c else A (r * n + c)) (Nat.zero_le n) (s := A)
      (fun r c _ => by rw [if_neg (by omega)]) (by
      intro l B _ hl h r c hc
      rw [set_addr _ _ hl hc, h r c hc]
      by_cases h1 : r = i ∧ c = l
      · rw [if_pos h1, if_pos (by omega), h1.2]
      · rw [if_neg h1]
        by_cases h2 : r = i ∧ c < l
        · rw [if_pos h2, if_pos (by omega)]
        · rw [if_neg h2, if_neg (by omega)])
    intro r c hc
    rw [h r c hc]
    by_cases h1 : r = i
    · rw [if_pos ⟨h1, hc⟩, if_pos h1]
    · rw [if_neg (fun e => h1 e.1), if_neg h1]
  have h := loop_rule (f := fun i A => loop 0 n (fun j A => set A (i * n + j) (X i j)) A) (fun l B => ∀ r < l, ∀ c < n, B (r * n + c) = X r c) (Nat.zero_le n) (s := A) (fun r h => by omega) (by
    intro l B _ hl h r hr c hc
    rw [row l B r c hc]
    by_cases h1 : r = l
    · rw [if_pos h1, h1]
    · rw [if_neg h1]; exact h r (by omega) c hc)
  intro i hi j hj
  rw [h i hi j hj, hX]
  unfold app svdCoef
  refine sum_congr rfl fun k hk => ?_
  by_cases h0 : W' k ≠ 0
  · rw [if_pos h0, if_pos h0, sum_eq_single j]
    · unfold vunit; rw [if_pos (by omega), mul_one, mul_div_assoc]
    · intro s _ hs; unfold vunit; rw [if_neg (by omega), mul_zero]
    · intro h; exact absurd (mem_range.2 hj) h
  · rw [if_neg h0, if_neg h0, mul_zero]

variable [IsStrictOrderedRing K]

/-- The best that can be done with the equations `A y = b`: what is left of them is least, and among all such `y` it is the shortest. -/
def Best (n : Nat) (A : Nat → Nat → K) (b x : Nat → K) : Prop :=
  (∀ y : Nat → K, resid n n A b x ≤ resid n n A b y) ∧ ∀ y : Nat → K, resid n n A b y = resid n n A b x → ∑ j ∈ range n, x j ^ 2 ≤ ∑ j ∈ range n, y j ^ 2

omit [LinearOrder K] [IsStrictOrderedRing K] in
theorem resid_congr {m n : Nat} (A : Nat → Nat → K) {b b' y y' : Nat → K} (hb : ∀ r < m, b r = b' r) (hy : ∀ k < n, y k = y' k) : resid m n A b y = resid m n A b' y' := by
  unfold resid
  refine sum_congr rfl fun r hr => ?_
  rw [hb r (mem_range.1 hr), sum_congr rfl fun k hk => by rw [hy k (mem_range.1 hk)]]

theorem app_best {n : Nat} (hn : 0 < n) {U W V : Nat → K} (A : Nat → Nat → K) (hU : ∀ a < n, ∀ k < n, colDot n U a k = if a = k then 1 else 0)
    (hV : ∀ a < n, ∀ k < n, colDot n V a k = if a = k then 1 else 0) (hA : ∀ r < n, ∀ s < n, A r s = ∑ k ∈ range n, U (r * n + k) * W k * V (s * n + k)) (b x : Nat → K)
    (hx : ∀ j < n, x j = app n V (svdCoef n n U W b 1 0) j) : Best n A b x := by
  obtain ⟨h1, h2, -⟩ := C94_bksub (m := n) (n := n) hn Nat.one_pos A U W V b (fun _ => 0) (fun a ha k hk _ _ => hU a ha k hk) hV hA
  have e : ∀ j < n, bksubSvd n n U W V b 1 0 (fun _ => 0) (j * 1 + 0) = x j := fun j hj => by
    rw [bksubSvd_spec hn Nat.one_pos U W V b _ j 0 Nat.one_pos, if_pos ⟨rfl, hj⟩, hx j hj]
  have eb : ∀ r < n, b (r * 1 + 0) = b r := fun r _ => by rw [Nat.mul_one, Nat.add_zero]
  refine ⟨fun y => ?_, fun y hy => ?_⟩
  · have := h1 y
    rwa [resid_congr A eb e, resid_congr (y := y) A eb (fun _ _ => rfl)] at this
  · have := h2 y (by rw [resid_congr A eb e, resid_congr (y := y) A eb (fun _ _ => rfl)]; exact hy)
    rwa [sum_congr rfl fun j hj => by rw [e j (mem_range.1 hj)]] at this

/-- The matrix without the singular values below the limit. -/
def cutMat (n : Nat) (U W V : Nat → K) (lim : K) (r s : Nat) : K := ∑ k ∈ range n, U (r * n + k) * (if W k < lim then 0 else W k) * V (s * n + k)

/-- **C94**, equations: with the factors of the matrix, `equ_svd` gives the best solution for the matrix without the singular values below `tol` times the largest; if there are none, and none is
zero, it solves the equations. Nothing after the solution changes. -/
theorem C94_equ {tol : K} {n : Nat} (hn : 0 < n) {A U W V : Nat → K} (hU : ∀ a < n, ∀ k < n, colDot n U a k = if a = k then 1 else 0)
    (hV : ∀ a < n, ∀ k < n, colDot n V a k = if a = k then 1 else 0) (hA : ∀ r < n, ∀ s < n, A (r * n + s) = ∑ k ∈ range n, U (r * n + k) * W k * V (s * n + k))
    (b x g1 g2 r : Nat → K) :
    (∃ M, Top n W M ∧ Best n (cutMat n U W V (M * tol)) b (equRest tol n A b x U W V g1 g2 r)) ∧
    ((∀ k < n, W k ≠ 0 ∧ 0 ≤ W k * tol ∧ ∀ l < n, W l * tol ≤ W k) → ∀ i < n, ∑ j ∈ range n, A (i * n + j) * equRest tol n A b x U W V g1 g2 r j = b i) ∧
    ∀ j, n ≤ j → equRest tol n A b x U W V g1 g2 r j = x j := by
  have e := equRest_eq (tol := tol) hn hU hV hA b x g1 g2 r
  obtain ⟨M, hM, hc⟩ := svdCut_spec tol n W
  refine ⟨⟨M, hM, ?_⟩, fun h i hi => ?_, fun j hj => by rw [e, if_neg (by omega)]⟩
  · refine app_best (W := svdCut tol n W) hn _ hU hV (fun r _ s _ => ?_) b _ fun j hj => by rw [e, if_pos hj]
    exact sum_congr rfl fun k hk => by rw [hc k (mem_range.1 hk)]
  · have hcut : ∀ k < n, svdCut tol n W k = W k := fun k hk => by
      rw [hc k hk, if_neg]
      rcases hM.2.2 with h0 | ⟨l, hl, h0⟩
      · have hk0 := h k hk
        have h1 : W k ≤ 0 := h0 ▸ hM.2.1 k hk
        have h2 := hk0.2.2 k hk
        rw [h0, zero_mul]
        have := hk0.2.1
        exact not_lt.2 (this.trans h2)
      · rw [← h0]
        exact not_lt.2 ((h k hk).2.2 l hl)
    rw [sum_congr rfl fun j hj => by rw [e, if_pos (mem_range.1 hj)], svd_mul hV hA _ i hi, ← expand hU b i hi]
    refine sum_congr rfl fun k hk => ?_
    have hk := mem_range.1 hk
    dsimp only
    unfold svdCoef
    rw [hcut k hk, if_pos (h k hk).1, mul_div_cancel₀ _ (h k hk).1]
    simp only [Nat.mul_one, Nat.add_zero]

/-- **C94**, inverses: with the factors of the matrix, column `j` of what `inv_svd` gives is the best solution for column `j` of the unit matrix, for the matrix without the singular values below
`tol` times the largest; if there are none, and none is zero, it is the inverse. -/
theorem C94_inv {tol : K} {n : Nat} (hn : 0 < n) {A U W V : Nat → K} (hU : ∀ a < n, ∀ k < n, colDot n U a k = if a = k then 1 else 0)
    (hV : ∀ a < n, ∀ k < n, colDot n V a k = if a = k then 1 else 0) (hA : ∀ r < n, ∀ s < n, A (r * n + s) = ∑ k ∈ range n, U (r * n + k) * W k * V (s * n + k)) :
    (∃ M, Top n W M ∧ ∀ j < n, Best n (cutMat n U W V (M * tol)) (fun i => if i = j then 1 else 0) (fun i => invRest tol n A U W V (i * n + j))) ∧
    ((∀ k < n, W k ≠ 0 ∧ 0 ≤ W k * tol ∧ ∀ l < n, W l * tol ≤ W k) →
      (∀ i < n, ∀ j < n, ∑ k ∈ range n, A (i * n + k) * invRest tol n A U W V (k * n + j) = if i = j then 1 else 0) ∧
      ∀ i < n, ∀ j < n, ∑ k ∈ range n, invRest tol n A U W V (i * n + k) * A (k * n + j) = if i = j then 1 else 0) := by
  have e := invRest_eq (tol := tol) (n := n) A U W V
  have key : ∀ j < n, ∀ g i, i < n → equRest tol n A (vunit j) g U W V g g g i = invRest tol n A U W V (i * n + j) := fun j hj g i hi => by
    rw [equRest_eq hn hU hV hA, if_pos hi, e i hi j hj]
  refine ⟨?_, fun h => ?_⟩
  · obtain ⟨M, hM, hc⟩ := svdCut_spec tol n W
    refine ⟨M, hM, fun j hj => app_best (W := svdCut tol n W) hn _ hU hV (fun r _ s _ => ?_) _ _ fun i hi => e i hi j hj⟩
    exact sum_congr rfl fun k hk => by rw [hc k (mem_range.1 hk)]
  · have h1 : ∀ i < n, ∀ j < n, ∑ k ∈ range n, A (i * n + k) * invRest tol n A U W V (k * n + j) = if i = j then 1 else 0 := by
      intro i hi j hj
      have := (C94_equ (tol := tol) hn hU hV hA (vunit j) (fun _ => 0) (fun _ => 0) (fun _ => 0) (fun _ => 0)).2.1 h i hi
      rw [sum_congr rfl fun k hk => by rw [key j hj (fun _ => 0) k (mem_range.1 hk)]] at this
      exact this
    refine ⟨h1, fun i hi j hj => ?_⟩
    have hm : rowMajor n n A * rowMajor n n (invRest tol n A U W V) = 1 := by
      ext a c
      rw [Matrix.mul_apply, Matrix.one_apply]
      simp only [rowMajor, Matrix.of_apply, Fin.ext_iff]
      rw [← h1 a a.2 c c.2, Fin.sum_univ_eq_sum_range (fun k => A (a * n + k) * invRest tol n A U W V (k * n + c)) n]
    have hm' : rowMajor n n (invRest tol n A U W V) * rowMajor n n A = 1 := mul_eq_one_comm.1 hm
    have h2 := congrFun (congrFun hm' ⟨i, hi⟩) ⟨j, hj⟩
    rw [Matrix.mul_apply, Matrix.one_apply] at h2
    simp only [rowMajor, Matrix.of_apply, Fin.mk.injEq] at h2
    rw [← h2, Fin.sum_univ_eq_sum_range (fun k => invRest tol n A U W V (i * n + k) * A (k * n + j)) n]

/-- **C94**, all together, if only zeros are neglected: whatever is found outside the array, if the iteration ended in time, `equ_svd` gives the best solution and `inv_svd` the best inverse of
a matrix that is `A` without some of its singular values, all of them below `tol` times the largest, and `orth_svd` orthonormal columns. -/
theorem C94_routines {rt : K → K} (hrt : IsRoot0 rt) {neg : K → K → Bool} (hneg : NegOk neg 0) (tol : K) {n : Nat} (hn : 0 < n) (A b x g1 g2 g3 g4 g5 r : Nat → K) (out : K) :
    ∃ U W V y X good, equSvdAt rt neg tol n A b x g1 g2 g3 g4 g5 r out = .ok (y, good) ∧ invSvdAt rt neg tol n A g3 g4 g5 out = .ok (X, good) ∧
      (good = true → (∀ a < n, ∀ k < n, colDot n U a k = if a = k then 1 else 0) ∧ (∀ a < n, ∀ k < n, colDot n V a k = if a = k then 1 else 0) ∧ (∀ k < n, 0 ≤ W k) ∧
        (∀ r < n, ∀ s < n, A (r * n + s) = ∑ k ∈ range n, U (r * n + k) * W k * V (s * n + k)) ∧
        (∃ M, Top n W M ∧ Best n (cutMat n U W V (M * tol)) b y) ∧
        (∃ M, Top n W M ∧ ∀ j < n, Best n (cutMat n U W V (M * tol)) (fun i => if i = j then 1 else 0) (fun i => X (i * n + j))) ∧
        ((∀ k < n, 0 < W k ∧ ∀ l < n, W l * tol ≤ W k) → 0 ≤ tol → (∀ i < n, ∑ j ∈ range n, A (i * n + j) * y j = b i) ∧
          ∀ i < n, ∀ j < n, ∑ k ∈ range n, A (i * n + k) * X (k * n + j) = if i = j then 1 else 0)) ∧
      ∃ Q good', orthSvdAt rt neg n A g4 g5 out = .ok (Q, good') ∧ (good' = true → ∀ a < n, ∀ k < n, colDot n Q a k = if a = k then 1 else 0) := by
  obtain ⟨t, anorm, e, -, -, h⟩ := C94_decomposition (m := n) (n := n) hrt hneg le_rfl hn le_rfl (fun p => if p < n * n then A p else g3 p) (fun _ => 0) g4 g5 out (fun _ _ => rfl)
  obtain ⟨t', anorm', e', -, -, h'⟩ := C94_decomposition (m := n) (n := n) hrt hneg le_rfl hn le_rfl A (fun _ => 0) g4 g5 out (fun _ _ => rfl)
  refine ⟨t.A, t.W, t.V, equRest tol n A b x t.A t.W t.V g1 g2 r, invRest tol n A t.A t.W t.V, t.good, ?_, ?_, fun hg => ?_, t'.A, t'.good, ?_, fun hg => (h' hg).1⟩
  · unfold equSvdAt; rw [if_neg (by omega), e]; rfl
  · unfold invSvdAt; rw [if_neg (by omega), e]; rfl
  · obtain ⟨h1, h2, h3, h4⟩ := h hg
    have hA : ∀ r < n, ∀ s < n, A (r * n + s) = ∑ k ∈ range n, t.A (r * n + k) * t.W k * t.V (s * n + k) := by
      intro r hr s hs
      have := h4 r hr s hs
      have hlt : r * n + s < n * n := by
        have : (r + 1) * n ≤ n * n := Nat.mul_le_mul_right n hr
        rw [Nat.add_mul, Nat.one_mul] at this
        omega
      rw [if_pos hlt, zero_mul, mul_zero, mul_zero] at this
      exact sub_eq_zero.1 (abs_eq_zero.1 (le_antisymm this (abs_nonneg _)))
    obtain ⟨a1, a2, -⟩ := C94_equ (tol := tol) hn h1 h2 hA b x g1 g2 r
    obtain ⟨b1, b2⟩ := C94_inv (tol := tol) hn h1 h2 hA
    refine ⟨h1, h2, h3, hA, a1, b1, fun hw ht => ?_⟩
    have hw' : ∀ k < n, t.W k ≠ 0 ∧ 0 ≤ t.W k * tol ∧ ∀ l < n, t.W l * tol ≤ t.W k := fun k hk => ⟨(hw k hk).1.ne', mul_nonneg (hw k hk).1.le ht, (hw k hk).2⟩
    exact ⟨a2 hw', (b2 hw').1⟩
  · unfold orthSvdAt; rw [if_neg (by omega), e']; rfl

/-- Factors that meet the conditions: a diagonal matrix, whose second singular value is below the limit if `tol` is a half and above if it is a tenth. -/
example : let I : Nat → ℚ := fun p => if p = 0 ∨ p = 3 then 1 else 0
    let W : Nat → ℚ := fun k => if k = 0 then 5 else 2
    let A : Nat → ℚ := fun p => if p = 0 then 5 else if p = 3 then 2 else 0
    (∀ a < 2, ∀ k < 2, colDot 2 I a k = if a = k then 1 else 0) ∧ (∀ r < 2, ∀ s < 2, A (r * 2 + s) = ∑ k ∈ range 2, I (r * 2 + k) * W k * I (s * 2 + k)) ∧
    (∀ k < 2, W k ≠ 0 ∧ 0 ≤ W k * (1 / 10) ∧ ∀ l < 2, W l * (1 / 10) ≤ W k) ∧ W 1 < 5 * (1 / 2) ∧ Top 2 W 5 := by
  refine ⟨?_, ?_, ?_, by norm_num, by norm_num, ?_, Or.inr ⟨0, by norm_num, rfl⟩⟩
  · intro a ha k hk
    interval_cases a <;> interval_cases k <;> simp [colDot, sum_range_succ]
  · intro a ha k hk
    interval_cases a <;> interval_cases k <;> simp [sum_range_succ]
  · intro k hk
    interval_cases k
    · refine ⟨by norm_num, by norm_num, fun l hl => ?_⟩
      interval_cases l <;> norm_num
    · refine ⟨by norm_num, by norm_num, fun l hl => ?_⟩
      interval_cases l <;> norm_num
  · intro k hk
    interval_cases k <;> norm_num

end OP.Lin
