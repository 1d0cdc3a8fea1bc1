import Verif.Lin.QlLemmas
/-!
# QL iteration: a sweep
-/
namespace OP.Lin
open Finset
variable {K : Type} [Field K]

/-- The diagonal in the middle of a sweep. -/
def cD (n j : Nat) (p : K) (d : Nat → K) (k : Nat) : K := if n ≤ k then 0 else if k = j then d k - p else d k

/-- The numbers beside the diagonal in the middle of a sweep of the rows from `i` to `m`. -/
def cE (n i m j : Nat) (g c : K) (e : Nat → K) (k : Nat) : K :=
  if n ≤ k ∨ k ≤ i ∨ k = m + 1 then 0 else if k = j then c * e k else if k = j + 1 then g else e k

/-- The number away from them. -/
def cB (i m j : Nat) (s : K) (e : Nat → K) : K := if i < j ∧ j < m then s * e j else 0

/-- The form in the middle of a sweep. -/
def mid (n i m j : Nat) (t : Ql K) (x : Nat → K) : K :=
  tq n (cD n j t.p t.d) (cE n i m j t.g t.c t.e) x + 2 * cB i m j t.s t.e * (x (j - 1) * x (j + 1))

variable [LinearOrder K] [IsStrictOrderedRing K]

/-- One rotation. -/
theorem mid_step {n i m j : Nat} (hij : i < j) (hjm : j ≤ m) (hmn : m < n) (t : Ql K) {r : K} (hr : r ≠ 0)
    (hr2 : r * r = t.s * t.e j * (t.s * t.e j) + t.g * t.g) (x : Nat → K) {f b c s q p g : K} (hf : f = t.s * t.e j) (hb : b = t.c * t.e j)
    (hc : c = t.g / r) (hs : s = f / r) (hq : q = (t.d (j - 1) - (t.d j - t.p)) * s + 2 * c * b) (hp : p = s * q) (hg : g = c * q - b) :
    mid n i m j t (rotv j s c x) =
      mid n i m (j - 1) ⟨qlRot n j s c t.A, set t.d j (t.d j - t.p + p), set t.e (if j + 1 < n then j + 1 else 0) r, g, s, c, p⟩ x := by
  have h1 : c * c + s * s = 1 := by
    rw [hc, hs, hf]; field_simp; linear_combination -hr2
  obtain ⟨e', he'⟩ : ∃ e', e' = set t.e (if j + 1 < n then j + 1 else 0) r := ⟨_, rfl⟩
  have e1 : ∀ k, i < k → k ≠ j + 1 → e' k = t.e k := by
    intro k hk hne
    rw [he', set_ne]
    split <;> omega
  have e2 : j + 1 < n → e' (j + 1) = r := fun h => by rw [he', if_pos h, set_same]
  unfold mid
  dsimp only
  rw [← he']
  have hEj : cE n i m j t.g t.c t.e j = b := by
    unfold cE; rw [if_neg (by omega), if_pos rfl, hb]
  have hDj : cD n j t.p t.d j = t.d j - t.p := by unfold cD; rw [if_neg (by omega), if_pos rfl]
  have hDp : cD n j t.p t.d (j - 1) = t.d (j - 1) := by unfold cD; rw [if_neg (by omega), if_neg (by omega)]
  have hEn : cE n i m j t.g t.c t.e (j + 1) = if j < m then t.g else 0 := by
    unfold cE
    by_cases h : j < m
    · rw [if_pos h, if_neg (by omega), if_neg (by omega), if_pos rfl]
    · rw [if_neg h, if_pos (by omega)]
  have hB : cB i m j t.s t.e = if j < m then f else 0 := by
    unfold cB
    by_cases h : j < m
    · rw [if_pos h, if_pos ⟨hij, h⟩, hf]
    · rw [if_neg h, if_neg (by omega)]
  have hEp : cE n i m j t.g t.c t.e (j - 1) = if i < j - 1 then t.e (j - 1) else 0 := by
    unfold cE
    by_cases h : i < j - 1
    · rw [if_pos h, if_neg (by omega), if_neg (by omega), if_neg (by omega)]
    · rw [if_neg h, if_pos (by omega)]
  have key := rotv_tq (n := n) (j := j) (s := s) (c := c) (β := cB i m j t.s t.e) (by omega) (by omega) h1
    (D := cD n j t.p t.d) (E := cE n i m j t.g t.c t.e) (D' := cD n (j - 1) p (set t.d j (t.d j - t.p + p))) (E' := cE n i m (j - 1) g c e')
    (by unfold cE; rw [if_pos (by omega)]) (by unfold cE; rw [if_pos (by omega)])
    (by
      rw [hB, hEn]
      by_cases h : j < m
      · rw [if_pos h, if_pos h, hc, hs]; ring
      · rw [if_neg h, if_neg h, mul_zero, mul_zero, sub_self])
    (by
      intro k h2 h3
      unfold cD
      rw [set_ne _ _ h3]
      by_cases h4 : n ≤ k
      · rw [if_pos h4, if_pos h4]
      · rw [if_neg h4, if_neg h4, if_neg h2, if_neg h3])
    (by
      intro k h2 h3 h4
      unfold cE
      by_cases h5 : n ≤ k ∨ k ≤ i ∨ k = m + 1
      · rw [if_pos h5, if_pos h5]
      · rw [if_neg h5, if_neg h5, if_neg h2, if_neg h3, if_neg (by omega), if_neg h4, e1 k (by omega) h4])
    (by
      rw [hDp, hDj, hEj, ← hq, ← hp]
      unfold cD
      rw [if_neg (by omega), if_pos rfl, set_ne _ _ (by omega)])
    (by
      rw [hDp, hDj, hEj, ← hq, ← hp]
      unfold cD
      rw [if_neg (by omega), if_neg (by omega), set_same])
    (by
      rw [hEp]
      unfold cE
      by_cases h : i < j - 1
      · rw [if_pos h, if_neg (by omega), if_pos rfl, e1 _ h (by omega)]
      · rw [if_neg h, if_pos (by omega), mul_zero])
    (by
      rw [hDp, hDj, hEj, ← hq, ← hg]
      unfold cE
      rw [if_neg (by omega), if_neg (by omega), if_pos (by omega)])
    (by
      rw [hEn, hB]
      unfold cE
      by_cases h : j < m
      · rw [if_pos h, if_pos h, if_neg (by omega), if_neg (by omega), if_neg (by omega), e2 (by omega), hc, hs]
        field_simp
        rw [hf]
        linear_combination hr2
      · rw [if_neg h, if_neg h, if_pos (by omega), mul_zero, mul_zero, add_zero]) x
  rw [key, hEp]
  congr 1
  rw [Nat.sub_add_cancel (by omega)]
  congr 2
  unfold cB
  by_cases h : i < j - 1
  · rw [if_pos h, if_pos ⟨h, by omega⟩, e1 _ h (by omega)]
  · rw [if_neg h, if_neg (by omega), mul_zero]

/-- What a product of rotations does to vectors. -/
structure Turn (n : Nat) (A A' : Nat → K) (G : (Nat → K) → (Nat → K)) : Prop where
  dot : ∀ x y, vdot n (G x) (G y) = vdot n x y
  app : ∀ x, ∀ r < n, app n A' x r = app n A (G x) r
  out : ∀ r, ∀ k < n, n ≤ r → A' (r * n + k) = A (r * n + k)

omit [LinearOrder K] [IsStrictOrderedRing K] in
theorem Turn.trans {n : Nat} {A A' A'' : Nat → K} {G G' : (Nat → K) → (Nat → K)} (h : Turn n A A' G) (h' : Turn n A' A'' G') : Turn n A A'' (G ∘ G') :=
  ⟨fun x y => by rw [Function.comp, Function.comp, h.dot, h'.dot], fun x r hr => by rw [h'.app x r hr, h.app _ r hr]; rfl,
    fun r k hk hr => by rw [h'.out r k hk hr, h.out r k hk hr]⟩

/-- A sweep is never left early, turns the columns and carries the form along. -/
theorem qlSweep_spec {rt : K → K} (hrt : IsRoot0 rt) {n i m : Nat} (hmn : m < n) : ∀ q j (t : Ql K), j = i + q → j ≤ m → t.s ≠ 0 →
    (∀ k, i < k → k ≤ j → t.e k ≠ 0) → ∃ t' G, qlSweep rt n q j t = (t', false) ∧ Turn n t.A t'.A G ∧
      (∀ x, mid n i m i t' x = mid n i m j t (G x)) ∧ ∀ k, n ≤ k → t'.d k = t.d k ∧ t'.e k = t.e k := by
  intro q
  induction q with
  | zero =>
    intro j t hj _ _ _
    have : j = i := by omega
    subst this
    exact ⟨t, id, rfl, ⟨fun _ _ => rfl, fun _ _ _ => rfl, fun _ _ _ _ => rfl⟩, fun _ => rfl, fun _ _ => ⟨rfl, rfl⟩⟩
  | succ q ih =>
    intro j t hj hjm hs he
    have hf0 : t.s * t.e j ≠ 0 := mul_ne_zero hs (he j (by omega) (Nat.le_refl _))
    obtain ⟨r, hr⟩ : ∃ r, r = rt (t.s * t.e j * (t.s * t.e j) + t.g * t.g) := ⟨_, rfl⟩
    have hpos : 0 < t.s * t.e j * (t.s * t.e j) + t.g * t.g := by
      have := mul_self_pos.2 hf0
      have := mul_self_nonneg t.g
      linarith
    have hr2 : r * r = t.s * t.e j * (t.s * t.e j) + t.g * t.g := by rw [hr]; exact (hrt _ hpos.le).2
    have hr0 : r ≠ 0 := by
      rintro rfl
      rw [mul_zero] at hr2
      exact hpos.ne' hr2.symm
    unfold qlSweep
    dsimp only
    rw [← hr, if_neg hr0]
    rw [set_same, set_ne _ _ (show j - 1 ≠ j by omega), set_set]
    obtain ⟨s, hs'⟩ : ∃ s, s = t.s * t.e j / r := ⟨_, rfl⟩
    obtain ⟨c, hc'⟩ : ∃ c, c = t.g / r := ⟨_, rfl⟩
    rw [← hs', ← hc']
    obtain ⟨p, hp'⟩ : ∃ p, p = s * ((t.d (j - 1) - (t.d j - t.p)) * s + 2 * c * (t.c * t.e j)) := ⟨_, rfl⟩
    obtain ⟨g, hg'⟩ : ∃ g, g = c * ((t.d (j - 1) - (t.d j - t.p)) * s + 2 * c * (t.c * t.e j)) - t.c * t.e j := ⟨_, rfl⟩
    rw [← hp', ← hg']
    have hm := mid_step (i := i) (by omega) hjm hmn t hr0 hr2 (f := t.s * t.e j) (b := t.c * t.e j) (c := c) (s := s) (p := p) (g := g)
      (hf := rfl) (hb := rfl) (hc := hc') (hs := hs') (hq := rfl) (hp := hp') (hg := hg')
    obtain ⟨t1, ht1⟩ : ∃ t1 : Ql K, t1 = ⟨qlRot n j s c t.A, set t.d j (t.d j - t.p + p), set t.e (if j + 1 < n then j + 1 else 0) r, g, s, c, p⟩ := ⟨_, rfl⟩
    rw [← ht1] at hm ⊢
    have hs1 : t1.s ≠ 0 := by rw [ht1, hs']; exact div_ne_zero hf0 hr0
    have he1 : ∀ k, i < k → k ≤ j - 1 → t1.e k ≠ 0 := by
      intro k h1 h2
      rw [ht1]
      dsimp only
      rw [set_ne _ _ (by split <;> omega)]
      exact he k h1 (by omega)
    obtain ⟨t', G, g1, g2, g3, g4⟩ := ih (j - 1) t1 (by omega) (by omega) hs1 he1
    have hcs : c * c + s * s = 1 := by rw [hc', hs']; field_simp; linear_combination -hr2
    have hT : Turn n t.A t1.A (rotv j s c) := by
      rw [ht1]
      refine ⟨rotv_dot (by omega) (by omega) hcs, qlRot_app (by omega) (by omega) s c t.A, fun r k hk hr => ?_⟩
      dsimp only
      rw [qlRot_spec (by omega) (show j < n by omega) s c t.A r k hk, if_neg (by omega), if_neg (by omega)]
    refine ⟨t', rotv j s c ∘ G, g1, hT.trans g2, fun x => by rw [g3, ← hm]; rfl, fun k hk => ?_⟩
    obtain ⟨a, b⟩ := g4 k hk
    rw [a, b, ht1]
    dsimp only
    exact ⟨set_ne _ _ (by omega), set_ne _ _ (by split <;> omega)⟩

/-- The diagonal, and the numbers beside it that still count when the first `i` rows are done. -/
def aD (n : Nat) (d : Nat → K) (k : Nat) : K := if n ≤ k then 0 else d k
def aE (n i : Nat) (e : Nat → K) (k : Nat) : K := if n ≤ k ∨ k ≤ i then 0 else e k

/-- One pass; the number beside the last row is left out. -/
theorem qlPass_spec {rt : K → K} (hrt : IsRoot0 rt) {n i m : Nat} (him : i < m) (hmn : m < n) (t : Tri K) (he : ∀ k, i < k → k ≤ m → t.e k ≠ 0) :
    ∃ G, Turn n t.A (qlPass rt n i m t).A G ∧ (∀ k, n ≤ k → (qlPass rt n i m t).d k = t.d k ∧ (qlPass rt n i m t).e k = t.e k) ∧
      ∀ x, tq n (aD n (qlPass rt n i m t).d) (aE n i (qlPass rt n i m t).e) x = tq n (aD n t.d) (fun k => if k = m + 1 then 0 else aE n i t.e k) (G x) := by
  unfold qlPass
  dsimp only
  generalize t.d m - t.d i + t.e (i + 1) / ((t.d (i + 1) - t.d i) / (2 * t.e (i + 1)) + (if 0 < (t.d (i + 1) - t.d i) / (2 * t.e (i + 1)) then 1 else -1) *
    rt ((t.d (i + 1) - t.d i) / (2 * t.e (i + 1)) * ((t.d (i + 1) - t.d i) / (2 * t.e (i + 1))) + 1)) = g
  obtain ⟨t', G, g1, g2, g3, g4⟩ := qlSweep_spec (i := i) hrt hmn (m - i) m ⟨t.A, t.d, t.e, g, 1, 1, 0⟩ (by omega) (Nat.le_refl _) one_ne_zero he
  rw [g1]
  dsimp only at g2 g3 g4 ⊢
  rw [if_neg (by simp)]
  refine ⟨G, g2, fun k hk => ?_, fun x => ?_⟩
  · dsimp only
    rw [set_ne _ _ (by omega), set_ne _ _ (by omega), set_ne _ _ (by split <;> omega)]
    exact g4 k hk
  · have h1 : ∀ y, mid n i m m ⟨t.A, t.d, t.e, g, 1, 1, 0⟩ y = tq n (aD n t.d) (fun k => if k = m + 1 then 0 else aE n i t.e k) y := by
      intro y
      unfold mid
      dsimp only
      rw [show cB i m m 1 t.e = 0 from if_neg (by omega), mul_zero, zero_mul, add_zero]
      unfold tq
      refine sum_congr rfl fun k _ => ?_
      have e1 : cD n m 0 t.d k = aD n t.d k := by unfold cD aD; rw [sub_zero, ite_self]
      have e2 : cE n i m m g 1 t.e k = if k = m + 1 then 0 else aE n i t.e k := by
        unfold cE aE
        by_cases h1 : k = m + 1
        · rw [if_pos (show n ≤ k ∨ k ≤ i ∨ k = m + 1 by omega), if_pos h1]
        · rw [if_neg h1, if_neg h1]
          by_cases h2 : n ≤ k ∨ k ≤ i
          · rw [if_pos (show n ≤ k ∨ k ≤ i ∨ k = m + 1 by omega), if_pos h2]
          · rw [if_neg (show ¬(n ≤ k ∨ k ≤ i ∨ k = m + 1) by omega), if_neg h2, one_mul, ite_self]
      rw [e1, e2]
    have h2 : mid n i m i t' x = tq n (aD n (set t'.d i (t'.d i - t'.p))) (aE n i (set (set t'.e (if m + 1 < n then m + 1 else 0) 0) (i + 1) t'.g)) x := by
      unfold mid
      rw [show cB i m i t'.s t'.e = 0 from if_neg (by omega), mul_zero, zero_mul, add_zero]
      unfold tq
      refine sum_congr rfl fun k _ => ?_
      have e1 : cD n i t'.p t'.d k = aD n (set t'.d i (t'.d i - t'.p)) k := by
        unfold cD aD
        by_cases h : n ≤ k
        · rw [if_pos h, if_pos h]
        · rw [if_neg h, if_neg h]
          by_cases h2 : k = i
          · rw [if_pos h2, h2, set_same]
          · rw [if_neg h2, set_ne _ _ h2]
      have e2 : cE n i m i t'.g t'.c t'.e k = aE n i (set (set t'.e (if m + 1 < n then m + 1 else 0) 0) (i + 1) t'.g) k := by
        unfold cE aE
        by_cases h : n ≤ k ∨ k ≤ i
        · rw [if_pos (show n ≤ k ∨ k ≤ i ∨ k = m + 1 by omega), if_pos h]
        · rw [if_neg h]
          by_cases h3 : k = i + 1
          · rw [if_neg (by omega), if_neg (by omega), if_pos h3, h3, set_same]
          · rw [set_ne _ _ h3]
            by_cases h4 : k = m + 1
            · rw [if_pos (by omega), if_pos (show m + 1 < n by omega), h4, set_same]
            · rw [if_neg (by omega), if_neg (by omega), if_neg h3, set_ne _ _ (by split <;> omega)]
      rw [e1, e2]
    rw [← h2, g3, h1]

end OP.Lin
