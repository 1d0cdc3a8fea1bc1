import Verif.Lin.LU
import Verif.Lin.PropsGauss
/-!
# What the loops of the LU decomposition do
-/
namespace OP.Lin
open Finset
variable {K : Type} [Field K] [LinearOrder K] [IsStrictOrderedRing K]

omit [LinearOrder K] [IsStrictOrderedRing K] in
theorem luEntry_eq {n i j lim : Nat} (hi : i < n) (h1 : lim ≤ i) (h2 : lim ≤ j) (A : Nat → K) :
    luEntry n i j lim A = set A (j * n + i) (A (j * n + i) - ∑ k ∈ range lim, A (j * n + k) * A (k * n + i)) := by
  unfold luEntry
  rw [loop_acc (t := fun k A => A (j * n + k) * A (k * n + i)) (Nat.zero_le _), Finset.range_eq_Ico]
  intro k v _ hk
  rw [set_addr _ _ hi (by omega), set_addr _ _ hi hi, if_neg (by omega), if_neg (by omega)]

/-- Column `i` after its first `j` entries have been computed. -/
structure ColInv (n i : Nat) (A : Nat → K) (j : Nat) (A' : Nat → K) : Prop where
  other : ∀ r c, c < n → c ≠ i → A' (r * n + c) = A (r * n + c)
  below : ∀ r, j ≤ r → A' (r * n + i) = A (r * n + i)
  done : ∀ r, r < j → A' (r * n + i) + ∑ k ∈ range (min r i), A (r * n + k) * A' (k * n + i) = A (r * n + i)

omit [LinearOrder K] [IsStrictOrderedRing K] in
theorem col_step {n i j : Nat} (hi : i < n) {A A' : Nat → K} (h : ColInv n i A j A') {lim : Nat} (hl : lim = min j i) :
    ColInv n i A (j + 1) (luEntry n i j lim A') ∧ ∀ r, r ≠ j → luEntry n i j lim A' (r * n + i) = A' (r * n + i) := by
  subst hl
  rw [luEntry_eq hi (by omega) (by omega)]
  have keep : ∀ r, r ≠ j → set A' (j * n + i) (A' (j * n + i) - ∑ k ∈ range (min j i), A' (j * n + k) * A' (k * n + i)) (r * n + i) = A' (r * n + i) := by
    intro r hr
    rw [set_addr _ _ hi hi, if_neg (by omega)]
  refine ⟨⟨fun r c hc hne => ?_, fun r hr => ?_, fun r hr => ?_⟩, keep⟩
  · rw [set_addr _ _ hi hc, if_neg (by omega)]; exact h.other r c hc hne
  · rw [keep r (by omega)]; exact h.below r (by omega)
  · have es : ∀ r, r ≤ j → ∑ k ∈ range (min r i), A (r * n + k) *
        set A' (j * n + i) (A' (j * n + i) - ∑ k ∈ range (min j i), A' (j * n + k) * A' (k * n + i)) (k * n + i) =
        ∑ k ∈ range (min r i), A (r * n + k) * A' (k * n + i) :=
      fun r hr => sum_congr rfl (fun k hk => by rw [keep k (by have := mem_range.mp hk; omega)])
    by_cases hrj : r = j
    · subst hrj
      rw [es r (Nat.le_refl _), set_same, ← h.below r (Nat.le_refl _)]
      rw [sum_congr rfl (fun k hk => by
        have := mem_range.mp hk
        rw [h.other r k (by omega) (by omega)] : ∀ k ∈ range (min r i), A' (r * n + k) * A' (k * n + i) = A (r * n + k) * A' (k * n + i))]
      ring
    · rw [keep r hrj, es r (by omega)]
      exact h.done r (by omega)

omit [LinearOrder K] [IsStrictOrderedRing K] in
theorem ColInv.frame {n i j : Nat} (hn : 0 < n) {A A' : Nat → K} (h : ColInv n i A j A') (hj : j ≤ n) {p : Nat} (hp : n * n ≤ p) : A' p = A p := by
  have e : p / n * n + p % n = p := by rw [Nat.mul_comm]; exact Nat.div_add_mod p n
  have hm : p % n < n := Nat.mod_lt _ hn
  have hd : n ≤ p / n := (Nat.le_div_iff_mul_le hn).mpr hp
  rw [← e]
  by_cases hc : p % n = i
  · rw [hc]; exact h.below _ (by omega)
  · exact h.other _ _ hm hc

/-- The whole of column `i`, with its pivot. -/
theorem luCol_ok {n i : Nat} (hi : i < n) (A : Nat → K) (work : Nat → K) (hw : ∀ r, r < n → 0 < work r) (q : Nat) :
    let r := luPivot n i work (loop 0 i (fun j A => luEntry n i j j A) A, 0, q)
    ColInv n i A n r.1 ∧ i ≤ r.2.2 ∧ r.2.2 < n ∧ (r.1 (r.2.2 * n + i) = 0 → ∀ j, i ≤ j → j < n → r.1 (j * n + i) = 0) := by
  have h1 : ColInv n i A i (loop 0 i (fun j A => luEntry n i j j A) A) := by
    refine loop_rule (ColInv n i A) (Nat.zero_le i) ⟨fun _ _ _ _ => rfl, fun _ _ => rfl, fun r hr => by omega⟩ ?_
    intro k s _ hk ih
    exact (col_step hi ih (by omega)).1
  have h2 : ∀ s, ColInv n i A i s → let r := luPivot n i work (s, 0, q)
      ColInv n i A n r.1 ∧ (i < n → i ≤ r.2.2 ∧ r.2.2 < n ∧ r.2.1 = |r.1 (r.2.2 * n + i)| / work r.2.2) ∧ 0 ≤ r.2.1 ∧
        (∀ j, i ≤ j → j < n → |r.1 (j * n + i)| / work j ≤ r.2.1) ∧ (n ≤ i → r.2.1 = 0) := by
    intro s hs
    refine loop_rule (fun j (r : (Nat → K) × K × Nat) => ColInv n i A j r.1 ∧ (i < j → i ≤ r.2.2 ∧ r.2.2 < j ∧ r.2.1 = |r.1 (r.2.2 * n + i)| / work r.2.2) ∧
      0 ≤ r.2.1 ∧ (∀ k, i ≤ k → k < j → |r.1 (k * n + i)| / work k ≤ r.2.1) ∧ (j ≤ i → r.2.1 = 0)) (by omega)
      ⟨hs, by omega, le_refl _, by omega, fun _ => rfl⟩ ?_
    rintro j ⟨A', mx, p⟩ hj1 hj2 ⟨ih1, ih2, ih0, ih3, ih4⟩
    obtain ⟨g1, g2⟩ := col_step hi ih1 (lim := i) (by omega)
    simp only at ih2 ih0 ih3 ih4 ⊢
    split
    · rename_i hc
      refine ⟨g1, fun _ => ⟨hj1, Nat.lt_succ_self j, rfl⟩, le_trans ih0 hc, fun k hk1 hk2 => ?_, by omega⟩
      rcases Nat.lt_or_ge k j with h | h
      · simp only
        rw [g2 k (by omega)]; exact le_trans (ih3 k hk1 h) hc
      · have : k = j := by omega
        subst this; exact le_refl _
    · rename_i hc
      have hij : i < j := by
        rcases Nat.lt_or_ge i j with h | h
        · exact h
        · exfalso
          have e : j = i := by omega
          subst e
          apply hc
          rw [ih4 (Nat.le_refl _)]
          exact div_nonneg (abs_nonneg _) (le_of_lt (hw j hj2))
      obtain ⟨k1, k2, k3⟩ := ih2 hij
      refine ⟨g1, fun _ => ⟨k1, by simp only; omega, by simp only; rw [g2 p (by omega)]; exact k3⟩, ih0, fun k hk1 hk2 => ?_, by omega⟩
      rcases Nat.lt_or_ge k j with h | h
      · simp only
        rw [g2 k (by omega)]; exact ih3 k hk1 h
      · have : k = j := by omega
        subst this; exact le_of_lt (not_le.mp hc)
  obtain ⟨g1, g2, g3, g4, -⟩ := h2 _ h1
  obtain ⟨k1, k2, k3⟩ := g2 hi
  refine ⟨g1, k1, k2, fun h0 j hj1 hj2 => ?_⟩
  have := g4 j hj1 hj2
  rw [k3, h0, abs_zero, zero_div] at this
  by_contra hne
  exact absurd (lt_of_lt_of_le (div_pos (abs_pos.mpr hne) (hw j hj2)) this) (lt_irrefl _)

/-- The row of the input that stands in row `r` after `i` exchanges. -/
def rowsOf (idx : Nat → Nat) : Nat → Nat → Nat
  | 0, r => r
  | i + 1, r => rowsOf idx i (Equiv.swap i (idx i) r)

theorem rowsOf_succ (idx : Nat → Nat) (i r : Nat) : rowsOf idx (i + 1) r = rowsOf idx i (Equiv.swap i (idx i) r) := rfl

theorem rowsOf_congr {f g : Nat → Nat} : ∀ {i : Nat}, (∀ c, c < i → f c = g c) → ∀ r, rowsOf f i r = rowsOf g i r
  | 0, _, _ => rfl
  | i + 1, h, r => by
    unfold rowsOf
    rw [h i (by omega), rowsOf_congr (fun c hc => h c (by omega))]

theorem swap_ge {i p r : Nat} (hp : i ≤ p) (hr : i ≤ r) : i ≤ Equiv.swap i p r := by
  rw [Equiv.swap_apply_def]; split
  · exact hp
  · split
    · exact Nat.le_refl _
    · exact hr

theorem swap_lt {n i p r : Nat} (hi : i < n) (hp : p < n) (hr : r < n) : Equiv.swap i p r < n := by
  rw [Equiv.swap_apply_def]; split
  · exact hp
  · split
    · exact hi
    · exact hr

theorem rowsOf_lt {n : Nat} {idx : Nat → Nat} : ∀ {i : Nat}, i ≤ n → (∀ c, c < i → idx c < n) → ∀ {r}, r < n → rowsOf idx i r < n
  | 0, _, _, _, h => h
  | i + 1, hi, h, r, hr => by
    rw [rowsOf_succ]
    exact rowsOf_lt (by omega) (fun c hc => h c (by omega)) (swap_lt (by omega) (h i (by omega)) hr)

/-- Rows already treated stay where they are. -/
theorem rowsOf_stable {idx : Nat → Nat} : ∀ {i j : Nat}, i ≤ j → (∀ c, c < j → c ≤ idx c) → ∀ {r}, r < i → rowsOf idx j r = rowsOf idx i r := by
  intro i j h
  induction h with
  | refl => intro _ r _; rfl
  | @step k hk ih =>
    intro h r hr
    have hk' : i ≤ k := hk
    rw [rowsOf_succ, Equiv.swap_apply_of_ne_of_ne (by omega) (by have := h k (by omega); omega)]
    exact ih (fun c hc => h c (by omega)) hr

/-- What is known after `i` rounds. -/
structure LUInv (n : Nat) (A0 : Nat → K) (i : Nat) (s : LU K) : Prop where
  frame : ∀ p, n * n ≤ p → s.A p = A0 p
  idx : ∀ c, c < i → c ≤ s.idx c ∧ s.idx c < n
  piv : ∀ c, c < i → s.A (c * n + c) ≠ 0
  low : ∀ r c, r < n → c < i → A0 (rowsOf s.idx i r * n + c) =
    ∑ k ∈ range (min r c), s.A (r * n + k) * s.A (k * n + c) + if r ≤ c then s.A (r * n + c) else s.A (r * n + c) * s.A (c * n + c)
  high : ∀ r c, r < n → i ≤ c → c < n → s.A (r * n + c) = A0 (rowsOf s.idx i r * n + c)
  work : ∀ r, r < n → 0 < s.work r
  d : s.d = ∏ c ∈ range i, if s.idx c = c then 1 else -1

omit [IsStrictOrderedRing K] [LinearOrder K] in
theorem divCol_at {n i : Nat} (hi : i < n) (A : Nat → K) (r c : Nat) (hc : c < n) :
    loop (i + 1) n (fun j A => set A (j * n + i) (A (j * n + i) / A (i * n + i))) A (r * n + c) =
      if c = i ∧ i < r ∧ r < n then A (r * n + i) / A (i * n + i) else A (r * n + c) := by
  have key : ∀ r c, c < n → loop (i + 1) n (fun j A => set A (j * n + i) (A (j * n + i) / A (i * n + i))) A (r * n + c) =
      if c = i ∧ i < r ∧ r < n then A (r * n + i) / A (i * n + i) else A (r * n + c) := by
    refine loop_rule (fun j (A' : Nat → K) => ∀ r c, c < n → A' (r * n + c) =
      if c = i ∧ i < r ∧ r < j then A (r * n + i) / A (i * n + i) else A (r * n + c)) (by omega) ?_ ?_
    · intro r c _; rw [if_neg (by omega)]
    · intro j A' h1 h2 ih r c hc
      rw [set_addr _ _ hi hc]
      by_cases h : r = j ∧ c = i
      · obtain ⟨rfl, rfl⟩ := h
        rw [if_pos ⟨rfl, rfl⟩, if_pos (by omega), ih r c hc, ih c c hc, if_neg (by omega), if_neg (by omega)]
      · rw [if_neg h, ih r c hc]
        congr 1; apply propext; omega
  exact key r c hc

/-- The state between the search for the pivot and the division, and the facts about it. -/
theorem luStep_cases {n i : Nat} (hi : i < n) {A0 : Nat → K} {s : LU K} (h : LUInv n A0 i s) :
    ∃ (A' : Nat → K) (p : Nat) (A2 : Nat → K) (work' : Nat → K), ColInv n i s.A n A' ∧ i ≤ p ∧ p < n ∧
      (A' (p * n + i) = 0 → ∀ j, i ≤ j → j < n → A' (j * n + i) = 0) ∧
      (∀ r c, c < n → A2 (r * n + c) = A' (Equiv.swap i p r * n + c)) ∧ (∀ r, r < n → 0 < work' r) ∧
      luStep n i s = if A' (p * n + i) = 0 then .throw else
        .ok ⟨loop (i + 1) n (fun j A => set A (j * n + i) (A (j * n + i) / A (i * n + i))) A2, set s.idx i p, work', s.d * (if p = i then 1 else -1)⟩ := by
  obtain ⟨h1, h2, h3, h4⟩ := luCol_ok hi s.A s.work h.work (s.idx i)
  unfold luStep
  simp only
  generalize luPivot n i s.work (loop 0 i (fun j A => luEntry n i j j A) s.A, 0, s.idx i) = R at h1 h2 h3 h4 ⊢
  obtain ⟨A', mx, p⟩ := R
  simp only at h1 h2 h3 h4 ⊢
  by_cases hp : i = p
  · subst hp
    simp only [ne_eq, not_true, if_false]
    refine ⟨A', i, A', s.work, h1, h2, h3, h4, fun r c _ => by simp, h.work, ?_⟩
    simp
  · simp only [ne_eq, hp, not_false_iff, if_true]
    have hA2 : ∀ r c, c < n → swapRows n i p A' (r * n + c) = A' (Equiv.swap i p r * n + c) := by
      intro r c hc
      rw [swapRows_at A' hp r c hc, Equiv.swap_apply_def]
      split
      · rfl
      · split <;> rfl
    refine ⟨A', p, swapRows n i p A', swp s.work p i, h1, h2, h3, h4, hA2, ?_, ?_⟩
    · intro r hr
      unfold swp set
      split
      · exact h.work p h3
      · split
        · exact h.work i hi
        · exact h.work r hr
    · rw [hA2 i i hi, Equiv.swap_apply_left, if_neg (Ne.symm hp)]

theorem luStep_inv {n i : Nat} (hi : i < n) {A0 : Nat → K} {s s' : LU K} (h : LUInv n A0 i s) (e : luStep n i s = .ok s') : LUInv n A0 (i + 1) s' := by
  obtain ⟨A', p, A2, work', h1, h2, h3, h4, h5, h6, h7⟩ := luStep_cases hi h
  rw [h7] at e
  split at e
  · cases e
  · rename_i hne
    have hA3 : ∀ r c, c < n → s'.A (r * n + c) = if c = i ∧ i < r ∧ r < n then A2 (r * n + i) / A2 (i * n + i) else A2 (r * n + c) := by
      intro r c hc
      cases e
      exact divCol_at hi A2 r c hc
    have hidx : s'.idx = set s.idx i p := by cases e; rfl
    have hwork : s'.work = work' := by cases e; rfl
    have hd : s'.d = s.d * (if p = i then 1 else -1) := by cases e; rfl
    have hrows : ∀ r, rowsOf s'.idx (i + 1) r = rowsOf s.idx i (Equiv.swap i p r) := by
      intro r
      rw [rowsOf_succ, hidx, set_same]
      exact rowsOf_congr (i := i) (fun c hc => set_ne _ _ (by omega)) _
    -- entries of the new matrix
    have hoth : ∀ r c, c < n → c ≠ i → s'.A (r * n + c) = s.A (Equiv.swap i p r * n + c) := by
      intro r c hc hci
      rw [hA3 r c hc, if_neg (by omega), h5 r c hc, h1.other _ _ hc hci]
    have swlt : ∀ r, r < i → Equiv.swap i p r = r := fun r hr => Equiv.swap_apply_of_ne_of_ne (by omega) (by omega)
    have htop : ∀ k, k < i → s'.A (k * n + i) = A' (k * n + i) := by
      intro k hk
      rw [hA3 k i hi, if_neg (by omega), h5 k i hi, swlt k hk]
    have hdiag : s'.A (i * n + i) = A' (p * n + i) := by
      rw [hA3 i i hi, if_neg (by omega), h5 i i hi, Equiv.swap_apply_left]
    have hbel : ∀ r, i < r → r < n → s'.A (r * n + i) * s'.A (i * n + i) = A' (Equiv.swap i p r * n + i) := by
      intro r h1 h2
      rw [hdiag, hA3 r i hi, if_pos ⟨rfl, h1, h2⟩, h5 r i hi, h5 i i hi, Equiv.swap_apply_left, div_mul_cancel₀ _ hne]
    refine ⟨?_, ?_, ?_, ?_, ?_, by rw [hwork]; exact h6, ?_⟩
    · intro q hq
      rw [← h.frame q hq, ← h1.frame (by omega) (Nat.le_refl _) hq]
      refine frame_of_rows (n := n) (m := n) (fun r c hc hr => ?_) hq (by omega)
      rw [hA3 r c hc, if_neg (by omega), h5 r c hc, Equiv.swap_apply_of_ne_of_ne (by omega) (by omega)]
    · intro c hc
      rw [hidx]
      rcases Nat.lt_or_ge c i with hlt | hge
      · rw [set_ne _ _ (by omega)]; exact h.idx c hlt
      · have : c = i := by omega
        subst this; rw [set_same]; exact ⟨h2, h3⟩
    · intro c hc
      rcases Nat.lt_or_ge c i with hlt | hge
      · rw [hoth c c (by omega) (by omega), swlt c hlt]; exact h.piv c hlt
      · have : c = i := by omega
        subst this; rw [hdiag]; exact hne
    · intro r c hr hc
      rw [hrows r]
      have hq : Equiv.swap i p r < n := swap_lt hi h3 hr
      rcases Nat.lt_or_ge c i with hlt | hge
      · have e1 : ∑ k ∈ range (min r c), s'.A (r * n + k) * s'.A (k * n + c) =
            ∑ k ∈ range (min r c), s.A (Equiv.swap i p r * n + k) * s.A (k * n + c) :=
          sum_congr rfl (fun k hk => by
            have := mem_range.mp hk
            rw [hoth r k (by omega) (by omega), hoth k c (by omega) (by omega), swlt k (by omega)])
        rw [e1, h.low _ c hq hlt, hoth r c (by omega) (by omega), hoth c c (by omega) (by omega), swlt c hlt]
        rcases Nat.lt_or_ge r i with hri | hri
        · rw [swlt r hri]
        · have := swap_ge h2 hri
          rw [show min (Equiv.swap i p r) c = min r c by omega, if_neg (by omega), if_neg (by omega)]
      · have : c = i := by omega
        subst this
        rw [← h.high _ c hq (Nat.le_refl _) (by omega), ← h1.done _ hq]
        have e1 : ∑ k ∈ range (min r c), s'.A (r * n + k) * s'.A (k * n + c) =
            ∑ k ∈ range (min r c), s.A (Equiv.swap c p r * n + k) * A' (k * n + c) :=
          sum_congr rfl (fun k hk => by
            have := mem_range.mp hk
            rw [hoth r k (by omega) (by omega), htop k (by omega)])
        rw [e1]
        rcases Nat.lt_trichotomy r c with hri | hri | hri
        · rw [swlt r hri, if_pos (by omega), htop r hri]; ring
        · subst hri
          rw [Equiv.swap_apply_left, if_pos (Nat.le_refl _), hdiag, show min p r = min r r by omega]; ring
        · have := swap_ge h2 (Nat.le_of_lt hri)
          rw [if_neg (by omega), hbel r hri hr, show min (Equiv.swap c p r) c = min r c by omega]; ring
    · intro r c hr hc hcn
      rw [hoth r c hcn (by omega), hrows r]
      exact h.high _ c (swap_lt hi h3 hr) (by omega) hcn
    · rw [hd, h.d, prod_range_succ, hidx, set_same]
      congr 1
      exact prod_congr rfl (fun c hc => by rw [set_ne _ _ (by have := mem_range.mp hc; omega)])

/-- The unit lower and the upper factor packed in an array. -/
def lowerF (n : Nat) (A : Nat → K) (r c : Nat) : K := if c < r then A (r * n + c) else if c = r then 1 else 0
def upperF (n : Nat) (A : Nat → K) (r c : Nat) : K := if r ≤ c then A (r * n + c) else 0

omit [LinearOrder K] [IsStrictOrderedRing K] in
theorem lu_sum {n N r c : Nat} (A : Nat → K) (h : min r c < N) : ∑ k ∈ range N, lowerF n A r k * upperF n A k c =
    ∑ k ∈ range (min r c), A (r * n + k) * A (k * n + c) + if r ≤ c then A (r * n + c) else A (r * n + c) * A (c * n + c) := by
  rw [← sum_range_add_sum_Ico _ (Nat.le_of_lt h), sum_eq_sum_Ico_succ_bot h]
  rw [sum_eq_zero (s := Ico (min r c + 1) N), add_zero]
  · congr 1
    · refine sum_congr rfl (fun k hk => ?_)
      have := mem_range.mp hk
      unfold lowerF upperF
      rw [if_pos (by omega), if_pos (by omega)]
    · unfold lowerF upperF
      by_cases hrc : r ≤ c
      · rw [if_pos hrc, show min r c = r by omega, if_neg (by omega), if_pos rfl, if_pos hrc, one_mul]
      · rw [if_neg hrc, show min r c = c by omega, if_pos (by omega), if_pos (Nat.le_refl _)]
  · intro k hk
    have := mem_Ico.mp hk
    unfold lowerF upperF
    by_cases hrk : k < r
    · rw [if_neg (by omega : ¬ k ≤ c), mul_zero]
    · rw [if_neg hrk]
      by_cases hkr : k = r
      · rw [if_neg (by omega : ¬ k ≤ c), mul_zero]
      · rw [if_neg hkr, zero_mul]

/-- A system with an upper triangular matrix has a solution. -/
theorem upper_solvable {i : Nat} (U : Nat → Nat → K) (hU : ∀ r c, c < r → U r c = 0) (hd : ∀ c, c < i → U c c ≠ 0) (u : Nat → K) :
    ∃ v : Nat → K, ∀ r, r < i → ∑ c ∈ range i, U r c * v c = u r := by
  have hdet : (mat i U).det ≠ 0 := by
    rw [Matrix.det_of_isUpperTriangular (M := mat i U) (fun r c h => hU r c h)]
    exact prod_ne_zero_iff.mpr (fun c _ => hd c c.2)
  refine ⟨fun c => if h : c < i then ((mat i U)⁻¹.mulVec (fun r : Fin i => u r)) ⟨c, h⟩ else 0, fun r hr => ?_⟩
  have hinv : (mat i U).mulVec ((mat i U)⁻¹.mulVec (fun r : Fin i => u r)) = fun r : Fin i => u r := by
    rw [Matrix.mulVec_mulVec, Matrix.mul_nonsing_inv _ (isUnit_iff_ne_zero.mpr hdet), Matrix.one_mulVec]
  have := congrFun hinv ⟨r, hr⟩
  rw [← Fin.sum_univ_eq_sum_range (fun c => U r c * (if h : c < i then ((mat i U)⁻¹.mulVec (fun r : Fin i => u r)) ⟨c, h⟩ else 0)) i]
  refine Eq.trans ?_ this
  simp only [Matrix.mulVec, dotProduct]
  exact sum_congr rfl (fun c _ => by simp [mat])

theorem rows_perm {n : Nat} {idx : Nat → Nat} : ∀ {i : Nat}, i ≤ n → (∀ c, c < i → idx c < n) →
    ∃ σ : Equiv.Perm (Fin n), (∀ r : Fin n, (σ r : Nat) = rowsOf idx i r) ∧ ((Equiv.Perm.sign σ : Int) = ∏ c ∈ range i, if idx c = c then 1 else -1)
  | 0, _, _ => ⟨1, fun _ => rfl, by simp⟩
  | i + 1, hi, h => by
    obtain ⟨σ, h1, h2⟩ := rows_perm (n := n) (idx := idx) (i := i) (by omega) (fun c hc => h c (by omega))
    have hp := h i (by omega)
    refine ⟨σ * Equiv.swap ⟨i, by omega⟩ ⟨idx i, hp⟩, fun r => ?_, ?_⟩
    · rw [Equiv.Perm.mul_apply, h1, rowsOf_succ]
      congr 1
      rw [Equiv.swap_apply_def, Equiv.swap_apply_def]
      simp only [Fin.ext_iff]
      split
      · rfl
      · split <;> rfl
    · rw [prod_range_succ, Equiv.Perm.sign_mul, Units.val_mul, h2]
      congr 1
      by_cases he : idx i = i
      · rw [if_pos he]
        have : (⟨i, by omega⟩ : Fin n) = ⟨idx i, hp⟩ := by simp [he]
        rw [this, Equiv.swap_self]; simp
      · rw [if_neg he, Equiv.Perm.sign_swap (by simp [Fin.ext_iff]; omega)]; rfl

/-- A column without a pivot: the matrix is singular. -/
theorem no_pivot_singular {n i : Nat} (hi : i < n) {A0 : Nat → K} {s : LU K} (h : LUInv n A0 i s) {A' : Nat → K} (h1 : ColInv n i s.A n A')
    (h0 : ∀ j, i ≤ j → j < n → A' (j * n + i) = 0) : (rect n n A0).det = 0 := by
  obtain ⟨σ, hσ, -⟩ := rows_perm (n := n) (idx := s.idx) (i := i) (by omega) (fun c hc => (h.idx c hc).2)
  obtain ⟨v, hv⟩ := upper_solvable (i := i) (upperF n s.A) (fun r c hc => by unfold upperF; rw [if_neg (by omega)])
    (fun c hc => by unfold upperF; rw [if_pos (Nat.le_refl _)]; exact h.piv c hc) (fun k => A' (k * n + i))
  have hsing : ((rect n n A0).submatrix σ id).det = 0 := by
    apply Matrix.exists_mulVec_eq_zero_iff.mp
    refine ⟨fun c => if (c : Nat) < i then v c else if (c : Nat) = i then -1 else 0, ?_, ?_⟩
    · intro hz
      have := congrFun hz ⟨i, hi⟩
      simp at this
    · funext r
      simp only [Matrix.mulVec, dotProduct, Matrix.submatrix_apply, id, Pi.zero_apply]
      have key : ∑ c ∈ range n, A0 (rowsOf s.idx i r * n + c) * (if c < i then v c else if c = i then -1 else 0) = 0 := by
        rw [← sum_range_add_sum_Ico _ (Nat.le_of_lt hi), sum_eq_sum_Ico_succ_bot hi]
        rw [sum_eq_zero (s := Ico (i + 1) n) (fun c hc => by
          have := mem_Ico.mp hc
          rw [if_neg (by omega), if_neg (by omega), mul_zero])]
        rw [if_neg (Nat.lt_irrefl i), if_pos rfl, add_zero]
        have e1 : ∑ c ∈ range i, A0 (rowsOf s.idx i r * n + c) * (if c < i then v c else if c = i then -1 else 0) =
            ∑ k ∈ range i, lowerF n s.A r k * A' (k * n + i) := by
          rw [sum_congr rfl (fun c hc => by
            rw [h.low r c r.2 (mem_range.mp hc), ← lu_sum (N := i) s.A (by have := mem_range.mp hc; omega), if_pos (mem_range.mp hc), sum_mul] :
            ∀ c ∈ range i, _ = ∑ k ∈ range i, lowerF n s.A r k * upperF n s.A k c * v c)]
          rw [sum_comm]
          refine sum_congr rfl (fun k hk => ?_)
          rw [← hv k (mem_range.mp hk), mul_sum]
          exact sum_congr rfl (fun c _ => by ring)
        have e2 : A0 (rowsOf s.idx i r * n + i) = ∑ k ∈ range i, lowerF n s.A r k * A' (k * n + i) := by
          rw [← h.high r i r.2 (Nat.le_refl _) hi, ← h1.done r r.2]
          rcases Nat.lt_or_ge (r : Nat) i with hri | hri
          · rw [← sum_range_add_sum_Ico _ (Nat.le_of_lt hri), sum_eq_sum_Ico_succ_bot hri]
            rw [sum_eq_zero (s := Ico ((r : Nat) + 1) i) (fun k hk => by
              have := mem_Ico.mp hk
              unfold lowerF
              rw [if_neg (by omega), if_neg (by omega), zero_mul])]
            rw [show min (r : Nat) i = r by omega, add_zero, add_comm]
            congr 1
            · refine sum_congr rfl (fun k hk => ?_)
              unfold lowerF; rw [if_pos (mem_range.mp hk)]
            · unfold lowerF; rw [if_neg (Nat.lt_irrefl _), if_pos rfl, one_mul]
          · rw [h0 r hri r.2, zero_add, show min (r : Nat) i = i by omega]
            refine sum_congr rfl (fun k hk => ?_)
            unfold lowerF; rw [if_pos (by have := mem_range.mp hk; omega)]
        rw [e1, e2]; ring
      rw [← Fin.sum_univ_eq_sum_range (fun c => A0 (rowsOf s.idx i r * n + c) * (if c < i then v c else if c = i then -1 else 0)) n] at key
      refine Eq.trans ?_ key
      refine sum_congr rfl (fun c _ => ?_)
      unfold rect
      rw [hσ r]
  rw [Matrix.det_permute] at hsing
  rcases mul_eq_zero.mp hsing with h | h
  · exfalso
    rcases Int.units_eq_one_or (Equiv.Perm.sign σ) with hs | hs <;> rw [hs] at h <;> simp at h
  · exact h

end OP.Lin
