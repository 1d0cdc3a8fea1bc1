import Verif.Lin.SvdAcc
/-!
# Singular values: what the rounds of the accumulation do
-/
namespace OP.Lin
open Finset Matrix
variable {K : Type} [Field K] [LinearOrder K]

/-- A loop that writes a part of a column. -/
theorem col_map {n j lo hi : Nat} (hj : j < n) (hl : lo ≤ hi) (φ : Nat → (Nat → K) → K) (c : Nat → K) (A : Nat → K)
    (hφ : ∀ k A', lo ≤ k → k < hi → A' (k * n + j) = A (k * n + j) → (∀ r, ∀ x < n, x ≠ j → A' (r * n + x) = A (r * n + x)) → φ k A' = c k) :
    ∀ r, ∀ x < n, loop lo hi (fun k A => set A (k * n + j) (φ k A)) A (r * n + x) = if x = j ∧ lo ≤ r ∧ r < hi then c r else A (r * n + x) := by
  have h := loop_rule (f := fun k A => set A (k * n + j) (φ k A)) (fun l B => ∀ r, ∀ x < n, B (r * n + x) = if x = j ∧ lo ≤ r ∧ r < l then c r else A (r * n + x)) hl (s := A)
    (fun r x _ => by rw [if_neg (by omega)]) (by
      intro l B h1 h2 hB r x hx
      rw [set_addr _ _ hj hx]
      by_cases h3 : r = l ∧ x = j
      · rw [if_pos h3, if_pos (by omega), h3.1]
        exact hφ l B h1 h2 (by rw [hB l j hj, if_neg (by omega)]) fun r x hx hxj => by rw [hB r x hx, if_neg (by omega)]
      · rw [if_neg h3, hB r x hx]
        by_cases h4 : x = j ∧ lo ≤ r ∧ r < l
        · rw [if_pos h4, if_pos (by omega)]
        · rw [if_neg h4, if_neg (by omega)])
  exact h

/-- A loop that writes a part of a row with zeros. -/
theorem row_zero {n p lo : Nat} (hl : lo ≤ n) (A : Nat → K) :
    ∀ r, ∀ x < n, loop lo n (fun j A => set A (p * n + j) 0) A (r * n + x) = if r = p ∧ lo ≤ x then 0 else A (r * n + x) := by
  have h := loop_rule (f := fun j A => set A (p * n + j) 0) (fun l B => ∀ r, ∀ x < n, B (r * n + x) = if r = p ∧ lo ≤ x ∧ x < l then 0 else A (r * n + x)) hl (s := A)
    (fun r x _ => by rw [if_neg (by omega)]) (by
      intro l B h1 h2 hB r x hx
      rw [set_addr _ _ h2 hx, hB r x hx]
      by_cases h3 : r = p ∧ x = l
      · rw [if_pos h3, if_pos (by omega)]
      · rw [if_neg h3]
        by_cases h4 : r = p ∧ lo ≤ x ∧ x < l
        · rw [if_pos h4, if_pos (by omega)]
        · rw [if_neg h4, if_neg (by omega)])
  intro r x hx
  rw [h r x hx]
  by_cases h4 : r = p ∧ lo ≤ x
  · rw [if_pos h4, if_pos (by omega)]
  · rw [if_neg h4, if_neg (by omega)]

/-- A loop that adds a multiple of column `p` to each of the columns after it, from row `lo` on; the sum is over the rows from `p + 1` on. -/
theorem cols_add {n p lo hi : Nat} (hp : p < n) (hl : lo ≤ hi) (hi1 : p + 1 ≤ hi) (u : Nat → (Nat → K) → K) (g : K → (Nat → K) → K) (A : Nat → K)
    (hu : ∀ A' : Nat → K, (∀ r, ∀ x < n, x ≤ p → A' (r * n + x) = A (r * n + x)) → (∀ k, u k A' = u k A) ∧ ∀ S, g S A' = g S A) :
    ∀ r, ∀ x < n, loop (p + 1) n (fun j A =>
        loop lo hi (fun k A' => set A' (k * n + j) (A' (k * n + j) + g (loop (p + 1) hi (fun k S => S + u k A * A (k * n + j)) 0) A * A' (k * n + p))) A) A (r * n + x) =
      if p + 1 ≤ x ∧ lo ≤ r ∧ r < hi then A (r * n + x) + g (∑ k ∈ Ico (p + 1) hi, u k A * A (k * n + x)) A * A (r * n + p) else A (r * n + x) := by
  have h := loop_rule (f := fun j A =>
        loop lo hi (fun k A' => set A' (k * n + j) (A' (k * n + j) + g (loop (p + 1) hi (fun k S => S + u k A * A (k * n + j)) 0) A * A' (k * n + p))) A)
    (fun l B => ∀ r, ∀ x < n, B (r * n + x) = if (p + 1 ≤ x ∧ x < l) ∧ lo ≤ r ∧ r < hi then
      A (r * n + x) + g (∑ k ∈ Ico (p + 1) hi, u k A * A (k * n + x)) A * A (r * n + p) else A (r * n + x))
    (show p + 1 ≤ n by omega) (s := A) (fun r x _ => by rw [if_neg (by omega)]) (by
      intro l B h1 h2 hB r x hx
      have hlow : ∀ r, ∀ x < n, x ≤ p → B (r * n + x) = A (r * n + x) := fun r x hx hxp => by rw [hB r x hx, if_neg (by omega)]
      have hcol : ∀ r, B (r * n + l) = A (r * n + l) := fun r => by rw [hB r l h2, if_neg (by omega)]
      obtain ⟨ub, gb⟩ := hu B hlow
      rw [loop_add _ _ hi1, zero_add, sum_congr rfl fun k _ => by rw [ub k, hcol k], gb]
      rw [col_map h2 hl (fun k A' => A' (k * n + l) + g (∑ k ∈ Ico (p + 1) hi, u k A * A (k * n + l)) A * A' (k * n + p))
        (fun k => A (k * n + l) + g (∑ k ∈ Ico (p + 1) hi, u k A * A (k * n + l)) A * A (k * n + p)) B (by
          intro k A' _ _ h3 h4
          rw [h3, hcol k, h4 k p hp (by omega), hlow k p hp le_rfl]) r x hx]
      by_cases h3 : x = l ∧ lo ≤ r ∧ r < hi
      · rw [if_pos h3, if_pos (by omega), h3.1]
      · rw [if_neg h3, hB r x hx]
        by_cases h4 : (p + 1 ≤ x ∧ x < l) ∧ lo ≤ r ∧ r < hi
        · rw [if_pos h4, if_pos (by omega)]
        · rw [if_neg h4, if_neg (by omega)])
  intro r x hx
  rw [h r x hx]
  by_cases h4 : p + 1 ≤ x ∧ lo ≤ r ∧ r < hi
  · rw [if_pos h4, if_pos (by omega)]
  · rw [if_neg h4, if_neg (by omega)]

theorem svdLeft_spec {m n p : Nat} (hn : p < n) (hm : p < m) (W A : Nat → K) :
    (∀ r, ∀ c < p, svdLeft m n (p + 1) W A (r * n + c) = A (r * n + c)) ∧
    (∀ r, p ≤ r → r < m → svdLeft m n (p + 1) W A (r * n + p) = (if W p ≠ 0 then A (r * n + p) / W p else 0) + if r = p then 1 else 0) ∧
    ∀ r, p ≤ r → r < m → ∀ c, p < c → c < n → svdLeft m n (p + 1) W A (r * n + c) = (if r = p then 0 else A (r * n + c)) +
      if W p ≠ 0 then (∑ k ∈ Ico (p + 1) m, A (k * n + p) * A (k * n + c)) / A (p * n + p) / W p * A (r * n + p) else 0 := by
  unfold svdLeft
  rw [Nat.add_sub_cancel]
  dsimp only
  obtain ⟨A1, e1⟩ : ∃ A1, A1 = loop (p + 1) n (fun j A => set A (p * n + j) 0) A := ⟨_, rfl⟩
  have h1 := row_zero (n := n) (p := p) (lo := p + 1) (by omega) A
  rw [← e1] at h1 ⊢
  have hp1 : ∀ r, A1 (r * n + p) = A (r * n + p) := fun r => by rw [h1 r p hn, if_neg (by omega)]
  have hs : ∀ c, p < c → c < n → ∑ k ∈ Ico (p + 1) m, A1 (k * n + p) * A1 (k * n + c) = ∑ k ∈ Ico (p + 1) m, A (k * n + p) * A (k * n + c) := fun c _ hc =>
    sum_congr rfl fun k hk => by rw [mem_Ico] at hk; rw [hp1, h1 k c hc, if_neg (by omega)]
  have hc1 : ∀ r c, p < c → c < n → A1 (r * n + c) = if r = p then 0 else A (r * n + c) := fun r c a b => by
    rw [h1 r c b]
    by_cases h : r = p
    · rw [if_pos h, if_pos (by omega)]
    · rw [if_neg h, if_neg (by omega)]
  by_cases hW : W p ≠ 0
  · simp only [if_pos hW]
    have h2 := cols_add (n := n) (p := p) (lo := p) (hi := m) hn hm.le hm (fun k A => A (k * n + p)) (fun S A => S / A (p * n + p) / W p) A1
      (fun A' hA => ⟨fun k => hA k p hn le_rfl, fun S => by rw [hA p p hn le_rfl]⟩)
    obtain ⟨A2, e2⟩ : ∃ A2, A2 = loop (p + 1) n (fun j A => loop p m (fun k A' => set A' (k * n + j) (A' (k * n + j) +
        loop (p + 1) m (fun k S => S + A (k * n + p) * A (k * n + j)) 0 / A (p * n + p) / W p * A' (k * n + p))) A) A1 := ⟨_, rfl⟩
    rw [← e2] at h2 ⊢
    have h3 := col_map hn hm.le (fun j A => A (j * n + p) / W p) (fun r => A (r * n + p) / W p) A2 (by
      intro k A' _ _ h _
      rw [h, h2 k p hn, if_neg (by omega), hp1])
    obtain ⟨A3, e3⟩ : ∃ A3, A3 = loop p m (fun j A => set A (j * n + p) (A (j * n + p) / W p)) A2 := ⟨_, rfl⟩
    rw [← e3] at h3 ⊢
    refine ⟨fun r c hc => ?_, fun r a b => ?_, fun r a b c hc hcn => ?_⟩
    · rw [set_addr _ _ hn (by omega), if_neg (by omega), h3 r c (by omega), if_neg (by omega), h2 r c (by omega), if_neg (by omega), h1 r c (by omega), if_neg (by omega)]
    · have k1 := h3 r p hn
      have k2 := h3 p p hn
      rw [if_pos ⟨rfl, a, b⟩] at k1
      rw [if_pos ⟨rfl, le_rfl, hm⟩] at k2
      rw [set_addr _ _ hn hn, k1, k2]
      by_cases h : r = p
      · rw [if_pos ⟨h, rfl⟩, if_pos h, h]
      · rw [if_neg (fun e => h e.1), if_neg h, add_zero]
    · rw [set_addr _ _ hn hcn, if_neg (by omega), h3 r c hcn, if_neg (by omega), h2 r c hcn, if_pos (by omega), hs c hc hcn, hp1, hp1, hc1 r c hc hcn]
  · simp only [if_neg hW]
    have h3 := col_map hn hm.le (fun _ _ => (0 : K)) (fun _ => 0) A1 (fun _ _ _ _ _ _ => rfl)
    obtain ⟨A3, e3⟩ : ∃ A3, A3 = loop p m (fun j A => set A (j * n + p) 0) A1 := ⟨_, rfl⟩
    rw [← e3] at h3 ⊢
    refine ⟨fun r c hc => ?_, fun r a b => ?_, fun r a b c hc hcn => ?_⟩
    · rw [set_addr _ _ hn (by omega), if_neg (by omega), h3 r c (by omega), if_neg (by omega), h1 r c (by omega), if_neg (by omega)]
    · have k1 := h3 r p hn
      have k2 := h3 p p hn
      rw [if_pos ⟨rfl, a, b⟩] at k1
      rw [if_pos ⟨rfl, le_rfl, hm⟩] at k2
      rw [set_addr _ _ hn hn, k1, k2]
      by_cases h : r = p
      · rw [if_pos ⟨h, rfl⟩, if_pos h]
      · rw [if_neg (fun e => h e.1), if_neg h, add_zero]
    · rw [set_addr _ _ hn hcn, if_neg (by omega), h3 r c hcn, if_neg (by omega), hc1 r c hc hcn, add_zero]

theorem svdRight_spec {n p : Nat} (hn : p < n) (A : Nat → K) (v : K) (V : Nat → K) :
    svdRightAt n (p + 1) A v V (p * n + p) = 1 ∧
    (∀ c, p < c → c < n → svdRightAt n (p + 1) A v V (p * n + c) = 0 ∧ svdRightAt n (p + 1) A v V (c * n + p) = 0) ∧
    ∀ r, p < r → r < n → ∀ c, p < c → c < n → svdRightAt n (p + 1) A v V (r * n + c) = V (r * n + c) +
      if v ≠ 0 then (∑ k ∈ Ico (p + 1) n, A (p * n + k) * V (k * n + c)) * (A (p * n + r) / A (p * n + (p + 1)) / v) else 0 := by
  unfold svdRightAt
  rw [Nat.add_sub_cancel]
  dsimp only
  obtain ⟨V2, e2⟩ : ∃ V2, V2 = if v ≠ 0 then
      loop (p + 1) n (fun j V => loop (p + 1) n (fun k V' => set V' (k * n + j) (V' (k * n + j) + loop (p + 1) n (fun k S => S + A (p * n + k) * V (k * n + j)) 0 * V' (k * n + p))) V)
        (loop (p + 1) n (fun j V => set V (j * n + p) (A (p * n + j) / A (p * n + (p + 1)) / v)) V)
    else V := ⟨_, rfl⟩
  have h2 : ∀ r, p < r → r < n → ∀ c, p < c → c < n → V2 (r * n + c) = V (r * n + c) +
      if v ≠ 0 then (∑ k ∈ Ico (p + 1) n, A (p * n + k) * V (k * n + c)) * (A (p * n + r) / A (p * n + (p + 1)) / v) else 0 := by
    intro r a b c hc hcn
    rw [e2]
    by_cases hv : v ≠ 0
    · rw [if_pos hv, if_pos hv]
      have h1 := col_map hn (show p + 1 ≤ n by omega) (fun j _ => A (p * n + j) / A (p * n + (p + 1)) / v) (fun j => A (p * n + j) / A (p * n + (p + 1)) / v) V (fun _ _ _ _ _ _ => rfl)
      obtain ⟨V1, e1⟩ : ∃ V1, V1 = loop (p + 1) n (fun j V => set V (j * n + p) (A (p * n + j) / A (p * n + (p + 1)) / v)) V := ⟨_, rfl⟩
      rw [← e1] at h1 ⊢
      have h2 := cols_add (n := n) (p := p) (lo := p + 1) (hi := n) hn hn hn (fun k _ => A (p * n + k)) (fun S _ => S) V1 (fun A' hA => ⟨fun k => rfl, fun S => rfl⟩)
      rw [h2 r c hcn, if_pos (by omega), h1 r c hcn, if_neg (by omega), h1 r p hn, if_pos (by omega),
        sum_congr rfl fun k _ => by rw [h1 k c hcn, if_neg (show ¬(c = p ∧ p + 1 ≤ k ∧ k < n) by omega)]]
    · rw [if_neg hv, if_neg hv, add_zero]
  rw [← e2]
  have h3 := loop_rule (f := fun j V => set (set V (j * n + p) 0) (p * n + j) 0) (fun l B => ∀ r, ∀ c < n, B (r * n + c) =
      if (c = p ∧ p + 1 ≤ r ∧ r < l) ∨ (r = p ∧ p + 1 ≤ c ∧ c < l) then 0 else V2 (r * n + c)) (show p + 1 ≤ n by omega) (s := V2) (fun r c _ => by rw [if_neg (by omega)]) (by
    intro l B h1 h4 hB r c hc
    rw [set_addr _ _ h4 hc, set_addr _ _ hn hc, hB r c hc]
    by_cases a1 : r = p ∧ c = l
    · rw [if_pos a1, if_pos (by omega)]
    · rw [if_neg a1]
      by_cases a2 : r = l ∧ c = p
      · rw [if_pos a2, if_pos (by omega)]
      · rw [if_neg a2]
        by_cases a3 : (c = p ∧ p + 1 ≤ r ∧ r < l) ∨ (r = p ∧ p + 1 ≤ c ∧ c < l)
        · rw [if_pos a3, if_pos (by omega)]
        · rw [if_neg a3, if_neg (by omega)])
  refine ⟨set_same _ _ _, fun c a b => ⟨?_, ?_⟩, fun r a b c hc hcn => ?_⟩
  · rw [set_addr _ _ hn b, if_neg (by omega), h3 p c b, if_pos (by omega)]
  · rw [set_addr _ _ hn hn, if_neg (by omega), h3 c p hn, if_pos (by omega)]
  · rw [set_addr _ _ hn hcn, if_neg (by omega), h3 r c hcn, if_neg (by omega), h2 r a b c hc hcn]

end OP.Lin
