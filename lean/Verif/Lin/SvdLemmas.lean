import Verif.Lin.Svd
/-!
# The reflections of the reduction to two diagonals

Both halves of a round of `decmp_svd` (src/linalg.cpp:678-718) do the same to the lines of the matrix, once to columns and once to rows; `α k j` is the
address of number `k` of line `j`.
-/
namespace OP.Lin
open Finset
variable {K : Type} [Field K] [LinearOrder K]

/-- A loop that writes each number of a line once. -/
theorem line_map (α : Nat → Nat) {lo hi : Nat} (hl : lo ≤ hi) (hinj : ∀ k k', lo ≤ k → k < hi → lo ≤ k' → k' < hi → α k = α k' → k = k')
    (φ : Nat → (Nat → K) → K) (c : Nat → K) (A : Nat → K)
    (hφ : ∀ k A', lo ≤ k → k < hi → A' (α k) = A (α k) → (∀ q, (∀ k', lo ≤ k' → k' < hi → q ≠ α k') → A' q = A q) → φ k A' = c k) :
    (∀ k, lo ≤ k → k < hi → loop lo hi (fun k A => set A (α k) (φ k A)) A (α k) = c k) ∧
    ∀ q, (∀ k, lo ≤ k → k < hi → q ≠ α k) → loop lo hi (fun k A => set A (α k) (φ k A)) A q = A q := by
  have h := loop_rule (f := fun k A => set A (α k) (φ k A)) (fun l B => (∀ k, lo ≤ k → k < hi → B (α k) = if k < l then c k else A (α k)) ∧
    ∀ q, (∀ k, lo ≤ k → k < hi → q ≠ α k) → B q = A q) hl (s := A) ⟨fun k h1 _ => by rw [if_neg (by omega)], fun q _ => rfl⟩ (by
      rintro l B h1 h2 ⟨h3, h4⟩
      refine ⟨fun k h5 h6 => ?_, fun q hq => ?_⟩
      · by_cases h7 : k = l
        · rw [h7, set_same, if_pos (by omega)]
          exact hφ l B h1 h2 (by rw [h3 l h1 h2, if_neg (by omega)]) h4
        · rw [set_ne _ _ (fun e => h7 (hinj k l h5 h6 h1 h2 e)), h3 k h5 h6]
          by_cases h8 : k < l
          · rw [if_pos h8, if_pos (by omega)]
          · rw [if_neg h8, if_neg (by omega)]
      · rw [set_ne _ _ (hq l h1 h2)]; exact h4 q hq)
  exact ⟨fun k h1 h2 => by rw [h.1 k h1 h2, if_pos h2], h.2⟩

/-- The loop that divides the line and sums its squares. -/
theorem line_div (α : Nat → Nat) {lo hi : Nat} (hl : lo ≤ hi) (hinj : ∀ k k', lo ≤ k → k < hi → lo ≤ k' → k' < hi → α k = α k' → k = k') (s : K) (A : Nat → K)
    (p : (Nat → K) × K) (hp : p = loop lo hi (fun k (p : (Nat → K) × K) =>
      (set p.1 (α k) (p.1 (α k) / s), p.2 + set p.1 (α k) (p.1 (α k) / s) (α k) * set p.1 (α k) (p.1 (α k) / s) (α k))) (A, 0)) :
    (∀ k, lo ≤ k → k < hi → p.1 (α k) = A (α k) / s) ∧ (∀ q, (∀ k, lo ≤ k → k < hi → q ≠ α k) → p.1 q = A q) ∧
    p.2 = ∑ k ∈ Ico lo hi, A (α k) / s * (A (α k) / s) := by
  have h := loop_rule (f := fun k (p : (Nat → K) × K) =>
      (set p.1 (α k) (p.1 (α k) / s), p.2 + set p.1 (α k) (p.1 (α k) / s) (α k) * set p.1 (α k) (p.1 (α k) / s) (α k)))
    (fun l p => (∀ k, lo ≤ k → k < hi → p.1 (α k) = if k < l then A (α k) / s else A (α k)) ∧ (∀ q, (∀ k, lo ≤ k → k < hi → q ≠ α k) → p.1 q = A q) ∧
      p.2 = ∑ k ∈ Ico lo l, A (α k) / s * (A (α k) / s)) hl (s := (A, 0)) ⟨fun k h1 _ => by rw [if_neg (by omega)], fun q _ => rfl, by simp⟩ (by
      rintro l B h1 h2 ⟨h3, h4, h9⟩
      have e : B.1 (α l) = A (α l) := by rw [h3 l h1 h2, if_neg (by omega)]
      refine ⟨fun k h5 h6 => ?_, fun q hq => ?_, ?_⟩
      · dsimp only
        by_cases h7 : k = l
        · rw [h7, set_same, if_pos (by omega), e]
        · rw [set_ne _ _ (fun e => h7 (hinj k l h5 h6 h1 h2 e)), h3 k h5 h6]
          by_cases h8 : k < l
          · rw [if_pos h8, if_pos (by omega)]
          · rw [if_neg h8, if_neg (by omega)]
      · dsimp only
        rw [set_ne _ _ (hq l h1 h2)]; exact h4 q hq
      · dsimp only
        rw [set_same, e, h9, sum_Ico_succ_top h1])
  rw [← hp] at h
  exact ⟨fun k h1 h2 => by rw [h.1 k h1 h2, if_pos h2], h.2.1, h.2.2⟩

/-- The loop over the other lines. -/
theorem line_refl (α : Nat → Nat → Nat) {lo hi i L : Nat} (hl : lo ≤ hi) (hL : i < L)
    (hinj : ∀ k k' j j', lo ≤ k → k < hi → lo ≤ k' → k' < hi → i ≤ j → j < L → i ≤ j' → j' < L → α k j = α k' j' → k = k' ∧ j = j')
    (mu : K → K → K) (hmu : ∀ x y, mu x y = x * y) (e : K → Nat → (Nat → K) → K) (w u : Nat → K) (A : Nat → K) (hu : ∀ k, lo ≤ k → k < hi → A (α k i) = u k)
    (he : ∀ S k A', lo ≤ k → k < hi → A' (α k i) = u k → e S k A' = S * w k) (B : Nat → K)
    (hB : B = loop (i + 1) L (fun j A => loop lo hi (fun k B => set B (α k j) (B (α k j) + e (loop lo hi (fun k S => S + mu (A (α k i)) (A (α k j))) 0) k B)) A) A) :
    (∀ k j, lo ≤ k → k < hi → i < j → j < L → B (α k j) = A (α k j) + (∑ k ∈ Ico lo hi, u k * A (α k j)) * w k) ∧
    ∀ q, (∀ k j, lo ≤ k → k < hi → i < j → j < L → q ≠ α k j) → B q = A q := by
  have h := loop_rule (f := fun j A => loop lo hi (fun k B => set B (α k j) (B (α k j) + e (loop lo hi (fun k S => S + mu (A (α k i)) (A (α k j))) 0) k B)) A)
    (fun l B => (∀ k j, lo ≤ k → k < hi → i < j → j < L → B (α k j) = if j < l then A (α k j) + (∑ k ∈ Ico lo hi, u k * A (α k j)) * w k else A (α k j)) ∧
      ∀ q, (∀ k j, lo ≤ k → k < hi → i < j → j < L → q ≠ α k j) → B q = A q) (show i + 1 ≤ L by omega) (s := A)
    ⟨fun k j _ _ h _ => by rw [if_neg (by omega)], fun _ _ => rfl⟩ (by
      rintro l B h1 h2 ⟨h3, h4⟩
      have hp : ∀ k, lo ≤ k → k < hi → B (α k i) = u k := fun k a b => by
        rw [h4 _ fun k' j a' b' c' d' e => by have := hinj k k' i j a b a' b' (le_refl _) hL c'.le d' e; omega, hu k a b]
      have hS : loop lo hi (fun k S => S + mu (B (α k i)) (B (α k l))) 0 = ∑ k ∈ Ico lo hi, u k * A (α k l) := by
        rw [loop_add _ _ hl, zero_add]
        refine sum_congr rfl fun k hk => ?_
        rw [mem_Ico] at hk
        rw [hmu, hp k hk.1 hk.2, h3 k l hk.1 hk.2 (by omega) h2, if_neg (by omega)]
      rw [hS]
      obtain ⟨g1, g2⟩ := line_map (fun k => α k l) hl (fun k k' a b a' b' e => (hinj k k' l l a b a' b' (by omega) h2 (by omega) h2 e).1)
        (fun k B => B (α k l) + e (∑ k ∈ Ico lo hi, u k * A (α k l)) k B) (fun k => A (α k l) + (∑ k ∈ Ico lo hi, u k * A (α k l)) * w k) B (by
          intro k A' a b e1 e2
          rw [e1, h3 k l a b (by omega) h2, if_neg (by omega), he _ k A' a b]
          rw [e2 _ fun k' a' b' e => by have := hinj k k' i l a b a' b' (le_refl _) hL (by omega) h2 e; omega]
          exact hp k a b)
      refine ⟨fun k j a b c d => ?_, fun q hq => ?_⟩
      · by_cases hj : j = l
        · rw [hj, if_pos (by omega)]; exact g1 k a b
        · rw [g2 _ fun k' a' b' e => hj (hinj k k' j l a b a' b' c.le d (by omega) h2 e).2, h3 k j a b c d]
          by_cases h8 : j < l
          · rw [if_pos h8, if_pos (by omega)]
          · rw [if_neg h8, if_neg (by omega)]
      · rw [g2 q fun k a b => hq k l a b (by omega) h2]; exact h4 q hq)
  rw [← hB] at h
  exact ⟨fun k j a b c d => by rw [h.1 k j a b c d, if_pos d], h.2⟩

/-- What both halves of a round do to the lines: `x` is the line that is reduced, divided by `s`. -/
structure Refl (rt : K → K) (α : Nat → Nat → Nat) (lo hi i L : Nat) (A B : Nat → K) (s G : K) : Prop where
  scale : s = ∑ k ∈ Ico lo hi, |A (α k i)|
  root : G = (if 0 < A (α lo i) / s then -1 else 1) * rt (∑ k ∈ Ico lo hi, A (α k i) / s * (A (α k i) / s))
  own : ∀ k, lo ≤ k → k < hi → B (α k i) = A (α k i) - if k = lo then s * G else 0
  other : ∀ k j, lo ≤ k → k < hi → i < j → j < L → B (α k j) = A (α k j) +
    (∑ k ∈ Ico lo hi, (A (α k i) / s - if k = lo then G else 0) * A (α k j)) * ((A (α k i) / s - if k = lo then G else 0) /
      (A (α lo i) / s * G - ∑ k ∈ Ico lo hi, A (α k i) / s * (A (α k i) / s)))
  rest : ∀ q, (∀ k j, lo ≤ k → k < hi → i ≤ j → j < L → q ≠ α k j) → B q = A q

theorem svdCol_zero (rt : K → K) {m n i : Nat} (t : Svd K) (h : loop i m (fun k v => v + |t.A (k * n + i)|) 0 = 0) : svdCol rt m n i t = { t with scale := 0 } := by
  unfold svdCol
  dsimp only
  rw [if_pos h, h]

theorem svdCol_refl (rt : K → K) {m n i : Nat} (hm : i < m) (hn : i < n) (t : Svd K) (h : loop i m (fun k v => v + |t.A (k * n + i)|) 0 ≠ 0) :
    Refl rt (fun k j => k * n + j) i m i n t.A (svdCol rt m n i t).A (svdCol rt m n i t).scale (svdCol rt m n i t).G ∧
    (svdCol rt m n i t).W = set t.W i ((svdCol rt m n i t).scale * (svdCol rt m n i t).G) ∧ (svdCol rt m n i t).rv1 = t.rv1 := by
  obtain ⟨s, hs⟩ : ∃ s, s = loop i m (fun k v => v + |t.A (k * n + i)|) 0 := ⟨_, rfl⟩
  have hs0 : s ≠ 0 := by rw [hs]; exact h
  have hs1 : s = ∑ k ∈ Ico i m, |t.A (k * n + i)| := by rw [hs, loop_add _ _ hm.le, zero_add]
  have hinj : ∀ k k' j j', i ≤ k → k < m → i ≤ k' → k' < m → i ≤ j → j < n → i ≤ j' → j' < n → k * n + j = k' * n + j' → k = k' ∧ j = j' :=
    fun k k' j j' _ _ _ _ _ b _ b' e => (addr_inj b b').1 e
  have hinj1 : ∀ j, i ≤ j → j < n → ∀ k k', i ≤ k → k < m → i ≤ k' → k' < m → k * n + j = k' * n + j → k = k' :=
    fun j a b k k' c d c' d' e => (hinj k k' j j c d c' d' a b a b e).1
  unfold svdCol
  dsimp only
  rw [if_neg h, ← hs]
  dsimp only
  obtain ⟨p, hp⟩ : ∃ p, p = loop i m (fun k (p : (Nat → K) × K) =>
      (set p.1 (k * n + i) (p.1 (k * n + i) / s), p.2 + set p.1 (k * n + i) (p.1 (k * n + i) / s) (k * n + i) * set p.1 (k * n + i) (p.1 (k * n + i) / s) (k * n + i))) (t.A, 0) := ⟨_, rfl⟩
  rw [← hp]
  obtain ⟨p1, p2, p3⟩ := line_div (fun k => k * n + i) hm.le (hinj1 i le_rfl hn) s t.A p hp
  rw [p1 i le_rfl hm, p3]
  obtain ⟨G, hG⟩ : ∃ G, G = (if 0 < t.A (i * n + i) / s then -1 else 1) * rt (∑ k ∈ Ico i m, t.A (k * n + i) / s * (t.A (k * n + i) / s)) := ⟨_, rfl⟩
  rw [← hG]
  obtain ⟨A2, hA2⟩ : ∃ A2, A2 = set p.1 (i * n + i) (t.A (i * n + i) / s - G) := ⟨_, rfl⟩
  rw [← hA2]
  have q1 : ∀ k, i ≤ k → k < m → A2 (k * n + i) = t.A (k * n + i) / s - if k = i then G else 0 := by
    intro k a b
    by_cases hk : k = i
    · rw [hk, hA2, set_same, if_pos rfl]
    · rw [hA2, set_ne _ _ (fun e => hk (hinj1 i le_rfl hn k i a b le_rfl hm e)), if_neg hk, sub_zero, p1 k a b]
  have q2 : ∀ q, (∀ k, i ≤ k → k < m → q ≠ k * n + i) → A2 q = t.A q := fun q hq => by rw [hA2, set_ne _ _ (hq i le_rfl hm), p2 q hq]
  obtain ⟨H, hH⟩ : ∃ H, H = t.A (i * n + i) / s * G - ∑ k ∈ Ico i m, t.A (k * n + i) / s * (t.A (k * n + i) / s) := ⟨_, rfl⟩
  rw [← hH]
  obtain ⟨B, hB⟩ : ∃ B, B = loop (i + 1) n (fun j A => loop i m (fun k B => set B (k * n + j) (B (k * n + j) +
    loop i m (fun k S => S + A (k * n + i) * A (k * n + j)) 0 * B (k * n + i) / H)) A) A2 := ⟨_, rfl⟩
  rw [← hB]
  obtain ⟨r1, r2⟩ := line_refl (fun k j => k * n + j) hm.le hn hinj (fun x y => x * y) (fun _ _ => rfl) (fun S k B => S * B (k * n + i) / H)
    (fun k => (t.A (k * n + i) / s - if k = i then G else 0) / H) (fun k => t.A (k * n + i) / s - if k = i then G else 0) A2 q1
    (fun S k A' _ _ e => by rw [e, mul_div_assoc]) B hB
  have r3 : ∀ k, i ≤ k → k < m → B (k * n + i) = t.A (k * n + i) / s - if k = i then G else 0 := fun k a b => by
    rw [r2 _ fun k' j' a' b' c' d' e => by have := hinj k k' i j' a b a' b' le_rfl hn c'.le d' e; omega, q1 k a b]
  obtain ⟨w1, w2⟩ := line_map (fun k => k * n + i) hm.le (hinj1 i le_rfl hn) (fun k A => A (k * n + i) * s) (fun k => B (k * n + i) * s) B (fun k A' _ _ e _ => by rw [e])
  have q3 : ∀ k j, i ≤ k → k < m → i < j → j < n → A2 (k * n + j) = t.A (k * n + j) := fun k j a b c d =>
    q2 _ fun k' a' b' e => by have := hinj k k' j i a b a' b' c.le d le_rfl hn e; omega
  refine ⟨⟨hs1, hG, fun k a b => ?_, fun k j a b c d => ?_, fun q hq => ?_⟩, rfl, rfl⟩
  · 
    rw [w1 k a b, r3 k a b, sub_mul, div_mul_cancel₀ _ hs0, ite_mul, zero_mul, mul_comm G]
  · 
    rw [w2 _ fun k' a' b' e => by have := hinj k k' j i a b a' b' c.le d le_rfl hn e; omega, r1 k j a b c d, q3 k j a b c d, ← hH]
    congr 2
    refine sum_congr rfl fun k hk => ?_
    rw [mem_Ico] at hk
    rw [q3 k j hk.1 hk.2 c d]
  · 
    rw [w2 q fun k a b => hq k i a b le_rfl hn, r2 q fun k j a b c d => hq k j a b c.le d, q2 q fun k a b => hq k i a b le_rfl hn]

theorem svdRow_zero (rt : K → K) {m n i : Nat} (t : Svd K) (h : (if i < m then loop (i + 1) n (fun k v => v + |t.A (i * n + k)|) 0 else 0) = 0) :
    svdRow rt m n i t = { t with scale := 0 } := by
  unfold svdRow
  dsimp only
  rw [if_pos h, h]

theorem svdRow_refl (rt : K → K) {m n i : Nat} (hm : i < m) (hn : i + 1 < n) (t : Svd K) (h : loop (i + 1) n (fun k v => v + |t.A (i * n + k)|) 0 ≠ 0) :
    Refl rt (fun k j => j * n + k) (i + 1) n i m t.A (svdRow rt m n i t).A (svdRow rt m n i t).scale (svdRow rt m n i t).G ∧
    (svdRow rt m n i t).W = t.W ∧ ∀ k ≤ i, (svdRow rt m n i t).rv1 k = t.rv1 k := by
  obtain ⟨s, hs⟩ : ∃ s, s = loop (i + 1) n (fun k v => v + |t.A (i * n + k)|) 0 := ⟨_, rfl⟩
  have hs0 : s ≠ 0 := by rw [hs]; exact h
  have hs1 : s = ∑ k ∈ Ico (i + 1) n, |t.A (i * n + k)| := by rw [hs, loop_add _ _ hn.le, zero_add]
  have hinj : ∀ k k' j j', i + 1 ≤ k → k < n → i + 1 ≤ k' → k' < n → i ≤ j → j < m → i ≤ j' → j' < m → j * n + k = j' * n + k' → k = k' ∧ j = j' :=
    fun k k' j j' _ b _ b' _ _ _ _ e => ((addr_inj b b').1 e).symm
  have hinj1 : ∀ j, i ≤ j → j < m → ∀ k k', i + 1 ≤ k → k < n → i + 1 ≤ k' → k' < n → j * n + k = j * n + k' → k = k' :=
    fun j a b k k' c d c' d' e => (hinj k k' j j c d c' d' a b a b e).1
  unfold svdRow
  dsimp only
  rw [if_pos hm, if_neg h, ← hs]
  dsimp only
  obtain ⟨p, hp⟩ : ∃ p, p = loop (i + 1) n (fun k (p : (Nat → K) × K) =>
      (set p.1 (i * n + k) (p.1 (i * n + k) / s), p.2 + set p.1 (i * n + k) (p.1 (i * n + k) / s) (i * n + k) * set p.1 (i * n + k) (p.1 (i * n + k) / s) (i * n + k))) (t.A, 0) := ⟨_, rfl⟩
  rw [← hp]
  obtain ⟨p1, p2, p3⟩ := line_div (fun k => i * n + k) hn.le (hinj1 i le_rfl hm) s t.A p hp
  rw [show i * n + i + 1 = i * n + (i + 1) by omega, p1 (i + 1) le_rfl hn, p3]
  obtain ⟨G, hG⟩ : ∃ G, G = (if 0 < t.A (i * n + (i + 1)) / s then -1 else 1) * rt (∑ k ∈ Ico (i + 1) n, t.A (i * n + k) / s * (t.A (i * n + k) / s)) := ⟨_, rfl⟩
  rw [← hG]
  obtain ⟨A2, hA2⟩ : ∃ A2, A2 = set p.1 (i * n + (i + 1)) (t.A (i * n + (i + 1)) / s - G) := ⟨_, rfl⟩
  rw [← hA2]
  have q1 : ∀ k, i + 1 ≤ k → k < n → A2 (i * n + k) = t.A (i * n + k) / s - if k = i + 1 then G else 0 := by
    intro k a b
    by_cases hk : k = i + 1
    · rw [hk, hA2, set_same, if_pos rfl]
    · rw [hA2, set_ne _ _ (fun e => hk (hinj1 i le_rfl hm k (i + 1) a b le_rfl hn e)), if_neg hk, sub_zero, p1 k a b]
  have q2 : ∀ q, (∀ k, i + 1 ≤ k → k < n → q ≠ i * n + k) → A2 q = t.A q := fun q hq => by rw [hA2, set_ne _ _ (hq (i + 1) le_rfl hn), p2 q hq]
  obtain ⟨H, hH⟩ : ∃ H, H = t.A (i * n + (i + 1)) / s * G - ∑ k ∈ Ico (i + 1) n, t.A (i * n + k) / s * (t.A (i * n + k) / s) := ⟨_, rfl⟩
  rw [← hH]
  obtain ⟨rv, hrv⟩ : ∃ rv, rv = loop (i + 1) n (fun k r => set r k (A2 (i * n + k) / H)) t.rv1 := ⟨_, rfl⟩
  obtain ⟨v1, v2⟩ := line_map (fun k => k) hn.le (fun k k' _ _ _ _ e => e) (fun k (_ : Nat → K) => A2 (i * n + k) / H) (fun k => A2 (i * n + k) / H) t.rv1 (fun _ _ _ _ _ _ => rfl)
  rw [← hrv] at v1 v2 ⊢
  obtain ⟨B, hB⟩ : ∃ B, B = loop (i + 1) m (fun j A => loop (i + 1) n (fun k B => set B (j * n + k) (B (j * n + k) +
    loop (i + 1) n (fun k S => S + A (j * n + k) * A (i * n + k)) 0 * rv k)) A) A2 := ⟨_, rfl⟩
  rw [← hB]
  obtain ⟨r1, r2⟩ := line_refl (fun k j => j * n + k) hn.le hm hinj (fun x y => y * x) (fun x y => mul_comm y x) (fun S k _ => S * rv k)
    (fun k => (t.A (i * n + k) / s - if k = i + 1 then G else 0) / H) (fun k => t.A (i * n + k) / s - if k = i + 1 then G else 0) A2 q1
    (fun S k A' a b e => by rw [v1 k a b, q1 k a b]) B hB
  have r3 : ∀ k, i + 1 ≤ k → k < n → B (i * n + k) = t.A (i * n + k) / s - if k = i + 1 then G else 0 := fun k a b => by
    rw [r2 _ fun k' j' a' b' c' d' e => by have := hinj k k' i j' a b a' b' le_rfl hm c'.le d' e; omega, q1 k a b]
  obtain ⟨w1, w2⟩ := line_map (fun k => i * n + k) hn.le (hinj1 i le_rfl hm) (fun k A => A (i * n + k) * s) (fun k => B (i * n + k) * s) B (fun k A' _ _ e _ => by rw [e])
  have q3 : ∀ k j, i + 1 ≤ k → k < n → i < j → j < m → A2 (j * n + k) = t.A (j * n + k) := fun k j a b c d =>
    q2 _ fun k' a' b' e => by have := hinj k k' j i a b a' b' c.le d le_rfl hm e; omega
  refine ⟨⟨hs1, hG, fun k a b => ?_, fun k j a b c d => ?_, fun q hq => ?_⟩, rfl, fun k hk => v2 k fun k' a b => by omega⟩
  · 
    rw [w1 k a b, r3 k a b, sub_mul, div_mul_cancel₀ _ hs0, ite_mul, zero_mul, mul_comm G]
  · 
    rw [w2 _ fun k' a' b' e => by have := hinj k k' j i a b a' b' c.le d le_rfl hm e; omega, r1 k j a b c d, q3 k j a b c d, ← hH]
    congr 2
    refine sum_congr rfl fun k hk => ?_
    rw [mem_Ico] at hk
    rw [q3 k j hk.1 hk.2 c d]
  · 
    rw [w2 q fun k a b => hq k i a b le_rfl hm, r2 q fun k j a b c d => hq k j a b c.le d, q2 q fun k a b => hq k i a b le_rfl hm]

end OP.Lin
