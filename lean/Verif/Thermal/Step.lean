import Verif.Thermal.Elem
/-!
# The time step: lemmas
-/
namespace OP.Thermal

open Lin Finset

variable {K : Type} [Field K] [LinearOrder K] [IsStrictOrderedRing K]

omit [Field K] [LinearOrder K] [IsStrictOrderedRing K] in
/-- A loop that changes each element once. -/
theorem loop_pt (g : Nat → K → K) (s : Nat → K) {lo hi : Nat} (h : lo ≤ hi) (p : Nat) :
    loop lo hi (fun i s => set s i (g i (s i))) s p = if lo ≤ p ∧ p < hi then g p (s p) else s p := by
  refine loop_rule (S := Nat → K) (fun k t => ∀ p, t p = if lo ≤ p ∧ p < k then g p (s p) else s p) h ?_ ?_ p
  · intro p; rw [if_neg (by omega)]
  · intro k t h1 h2 ht p
    by_cases hp : p = k
    · subst hp; rw [set_same, ht, if_neg (by omega), if_pos (by omega)]
    · rw [set_ne _ _ hp, ht]
      by_cases hc : lo ≤ p ∧ p < k
      · rw [if_pos hc, if_pos (by omega)]
      · rw [if_neg hc, if_neg (by omega)]

/-- The matrix of a step with the rows and columns of the end nodes replaced by those of the unit matrix. -/
def cut (n : Nat) (A : Nat → Nat → K) (p q : Nat) : K :=
  if p = 0 ∨ q = 0 ∨ p = n - 1 ∨ q = n - 1 then (if p = q then 1 else 0) else A p q

omit [LinearOrder K] [IsStrictOrderedRing K] in
theorem strip_spec {n w : Nat} (hw : 0 < w) (hn : w < n) (A : Nat → K) :
    (∀ p q, InBand n w p q → (strip n w A).1 (bIdx n w p q) = if p = 0 ∨ q = n - 1 then (if p = q then 1 else 0) else A (bIdx n w p q)) ∧
    (∀ i, i ≤ w → (strip n w A).2.1 i = A (bIdx n w 0 i)) ∧
    (∀ i, n ≤ i + w + 1 → i < n → (strip n w A).2.2 i = if i = 0 then 0 else A (bIdx n w i (n - 1))) := by
  have hinj := (C39_band_partial (n := n) (w := w) (by omega)).2.1
  unfold strip
  generalize hs : loop 0 (w + 1) (fun i (s : (Nat → K) × (Nat → K)) =>
    (set s.1 (bIdx n w 0 i) (if i = 0 then 1 else 0), set s.2 i (s.1 (bIdx n w 0 i)))) (A, fun _ => 0) = s
  have key : ((∀ p q, InBand n w p q → s.1 (bIdx n w p q) = if p = 0 ∧ q < w + 1 then (if p = q then 1 else 0) else A (bIdx n w p q)) ∧
      (∀ i, i < w + 1 → s.2 i = A (bIdx n w 0 i))) := by
    rw [← hs]
    refine loop_rule (fun k (s : (Nat → K) × (Nat → K)) => (∀ p q, InBand n w p q → s.1 (bIdx n w p q) = if p = 0 ∧ q < k then (if p = q then 1 else 0) else A (bIdx n w p q)) ∧
      (∀ i, i < k → s.2 i = A (bIdx n w 0 i))) (Nat.zero_le (w + 1)) ?_ ?_
    · exact ⟨fun p q _ => by rw [if_neg (by omega)], fun i hi => by omega⟩
    · rintro k ⟨s, t⟩ - hk ⟨h1, h2⟩
      dsimp only at h1 h2
      have hb : InBand n w 0 k := ⟨by omega, by omega, by omega⟩
      refine ⟨fun p q h => ?_, fun i hi => ?_⟩
      · dsimp only
        by_cases hpq : p = 0 ∧ q = k
        · obtain ⟨rfl, rfl⟩ := hpq
          rw [set_same]
          by_cases h0 : q = 0
          · subst h0; simp
          · have h1 : ¬ 0 = q := fun h => h0 h.symm
            simp [h0, h1]
        · rw [set_ne _ _ (fun hh => hpq (hinj _ _ _ _ h hb hh)), h1 p q h]
          by_cases hc : p = 0 ∧ q < k
          · have hc' : p = 0 ∧ q < k + 1 := by omega
            rw [if_pos hc, if_pos hc']
          · rw [if_neg hc, if_neg (by omega)]
      · dsimp only
        by_cases hik : i = k
        · subst hik; rw [set_same, h1 0 i hb, if_neg (by omega)]
        · rw [set_ne _ _ hik, h2 i (by omega)]
  obtain ⟨k1, k2⟩ := key
  dsimp only
  generalize ht : loop (n - w - 1) n (fun i (t : (Nat → K) × (Nat → K)) =>
    (set t.1 (bIdx n w i (n - 1)) (if i = n - 1 then 1 else 0), set t.2 i (t.1 (bIdx n w i (n - 1))))) (s.1, fun _ => 0) = t
  have key : ((∀ p q, InBand n w p q → t.1 (bIdx n w p q) = if q = n - 1 ∧ p < n then (if p = q then 1 else 0) else s.1 (bIdx n w p q)) ∧
      (∀ i, n - w - 1 ≤ i → i < n → t.2 i = s.1 (bIdx n w i (n - 1)))) := by
    rw [← ht]
    refine loop_rule (fun k (t : (Nat → K) × (Nat → K)) => (∀ p q, InBand n w p q → t.1 (bIdx n w p q) = if q = n - 1 ∧ p < k then (if p = q then 1 else 0) else s.1 (bIdx n w p q)) ∧
      (∀ i, n - w - 1 ≤ i → i < k → t.2 i = s.1 (bIdx n w i (n - 1)))) (by omega) ?_ ?_
    · refine ⟨fun p q h => ?_, fun i _ hi => by omega⟩
      obtain ⟨h1, h2, h3⟩ := h
      rw [if_neg (by omega)]
    · rintro k ⟨s', t⟩ hk1 hk ⟨h1, h2⟩
      dsimp only at h1 h2
      have hb : InBand n w k (n - 1) := ⟨by omega, by omega, by omega⟩
      refine ⟨fun p q h => ?_, fun i hi0 hi => ?_⟩
      · dsimp only
        by_cases hpq : p = k ∧ q = n - 1
        · obtain ⟨rfl, rfl⟩ := hpq
          rw [set_same]
          by_cases h0 : p = n - 1
          · simp [h0]
          · simp [h0]
        · rw [set_ne _ _ (fun hh => hpq (hinj _ _ _ _ h hb hh)), h1 p q h]
          by_cases hc : q = n - 1 ∧ p < k
          · have hc' : q = n - 1 ∧ p < k + 1 := by omega
            rw [if_pos hc, if_pos hc']
          · rw [if_neg hc, if_neg (by omega)]
      · dsimp only
        by_cases hik : i = k
        · subst hik; rw [set_same, h1 i (n - 1) hb, if_neg (by omega)]
        · rw [set_ne _ _ hik, h2 i hi0 (by omega)]
  obtain ⟨l1, l2⟩ := key
  refine ⟨fun p q h => ?_, fun i hi => k2 i (by omega), fun i h1 h2 => ?_⟩
  · rw [l1 p q h]
    obtain ⟨h1, h2, h3⟩ := h
    by_cases hq : q = n - 1
    · have hc : q = n - 1 ∧ p < n := by omega
      rw [if_pos hc, if_pos (Or.inr hq)]
    · rw [if_neg (by omega), k1 p q ⟨h1, h2, h3⟩]
      by_cases hp : p = 0
      · have hc : p = 0 ∧ q < w + 1 := by omega
        rw [if_pos hc, if_pos (Or.inl hp)]
      · rw [if_neg (by omega), if_neg (by omega)]
  · rw [l2 i (by omega) h2, k1 i (n - 1) ⟨by omega, by omega, by omega⟩]
    by_cases hi : i = 0
    · rw [if_pos (by omega), if_neg (by omega), if_pos hi]
    · rw [if_neg (by omega), if_neg hi]

/-- The matrix to the left of a time step. -/
def lhs (dt : K) (Km Fm : Nat → Nat → K) (p q : Nat) : K := Km p q + 2 * Fm p q / dt

/-- What the constructor leaves, and a step keeps. -/
structure Built (rt : K → K) (s : FEM K) (Km Fm : Nat → Nat → K) : Prop where
  w0 : 0 < s.w
  wn : s.w < s.n
  ks : ∀ p q, Km p q = Km q p
  fs : ∀ p q, Fm p q = Fm q p
  ko : ∀ p q, p + s.w < q → Km p q = 0
  fo : ∀ p q, p + s.w < q → Fm p q = 0
  ff : ∀ p q, InBand s.n s.w p q → s.FF (bIdx s.n s.w p q) = Fm p q
  kt : ∀ i, i ≤ s.w → s.Kt i = lhs s.dt Km Fm 0 i
  kb : ∀ i, s.n ≤ i + s.w + 1 → i < s.n → s.Kb i = if i = 0 then 0 else lhs s.dt Km Fm i (s.n - 1)
  chol : ∃ B, decmpCholBand rt s.n s.w B = .ok s.KK ∧ ∀ p q, InBand s.n s.w p q → B (bIdx s.n s.w p q) = cut s.n (lhs s.dt Km Fm) p q

variable {rt : K → K} {s : FEM K} {Km Fm : Nat → Nat → K}

omit [LinearOrder K] [IsStrictOrderedRing K] in
theorem lhs_symm {dt : K} {Km Fm : Nat → Nat → K} (h1 : ∀ p q, Km p q = Km q p) (h2 : ∀ p q, Fm p q = Fm q p) (p q : Nat) : lhs dt Km Fm p q = lhs dt Km Fm q p := by
  unfold lhs; rw [h1, h2]

theorem Built.step (h : Built rt s Km Fm) (tt tb : K) : Built rt (s.step tt tb) Km Fm :=
  ⟨h.w0, h.wn, h.ks, h.fs, h.ko, h.fo, h.ff, h.kt, h.kb, h.chol⟩

/-- The right hand side. -/
theorem Built.rhs_spec (h : Built rt s Km Fm) (tt tb : K) :
    s.rhs tt tb 0 = tt ∧ s.rhs tt tb (s.n - 1) = tb ∧ ∀ i, 0 < i → i + 1 < s.n →
      s.rhs tt tb i = row s.n Fm s.ng i - tt * lhs s.dt Km Fm i 0 - tb * lhs s.dt Km Fm i (s.n - 1) := by
  have hw := h.w0
  have hn := h.wn
  have sumF : ∀ i, 0 < i → i + 1 < s.n → (∑ j ∈ Ico (i - s.w) i, s.FF (bIdx s.n s.w j i) * s.ng j) +
      (∑ j ∈ Ico i (min (i + s.w + 1) s.n), s.FF (bIdx s.n s.w i j) * s.ng j) = row s.n Fm s.ng i := by
    intro i h1 h2
    have e1 : ∑ j ∈ Ico (i - s.w) i, s.FF (bIdx s.n s.w j i) * s.ng j = ∑ j ∈ Ico (i - s.w) i, Fm i j * s.ng j := by
      refine sum_congr rfl fun j hj => ?_
      rw [mem_Ico] at hj
      rw [h.ff j i ⟨by omega, by omega, by omega⟩, h.fs]
    have e2 : ∑ j ∈ Ico i (min (i + s.w + 1) s.n), s.FF (bIdx s.n s.w i j) * s.ng j = ∑ j ∈ Ico i (min (i + s.w + 1) s.n), Fm i j * s.ng j := by
      refine sum_congr rfl fun j hj => ?_
      rw [mem_Ico] at hj
      rw [h.ff i j ⟨by omega, by omega, by omega⟩]
    rw [e1, e2, sum_Ico_consecutive _ (by omega) (by omega)]
    unfold row
    refine sum_subset (fun j hj => ?_) (fun j hj hn => ?_)
    · rw [mem_Ico] at hj; rw [mem_range]; omega
    · rw [mem_range] at hj; rw [mem_Ico] at hn
      have : i + s.w < j ∨ j + s.w < i := by omega
      rcases this with e | e
      · rw [h.fo _ _ e, zero_mul]
      · rw [h.fs, h.fo _ _ e, zero_mul]
  have hA : ∀ i j, i + s.w < j → lhs s.dt Km Fm i j = 0 := fun i j hij => by unfold lhs; rw [h.ko _ _ hij, h.fo _ _ hij]; simp
  have hrhs : s.rhs tt tb = s.rhs tt tb := rfl
  conv_rhs at hrhs => simp only [FEM.rhs]
  have inner : ∀ i nt, loop i (min (i + s.w + 1) s.n) (fun j nt => set nt i (nt i + s.FF (bIdx s.n s.w i j) * s.ng j))
      (loop (i - s.w) i (fun j nt => set nt i (nt i + s.FF (bIdx s.n s.w j i) * s.ng j)) nt) =
      set nt i (nt i + (∑ j ∈ Ico (i - s.w) i, s.FF (bIdx s.n s.w j i) * s.ng j) + ∑ j ∈ Ico i (min (i + s.w + 1) s.n), s.FF (bIdx s.n s.w i j) * s.ng j) := by
    intro i nt
    rw [loop_acc_add (t := fun j _ => s.FF (bIdx s.n s.w j i) * s.ng j) (by omega) (fun _ _ _ _ => rfl)]
    by_cases hi : i < s.n
    · rw [loop_acc_add (t := fun j _ => s.FF (bIdx s.n s.w i j) * s.ng j) (by omega) (fun _ _ _ _ => rfl), set_set, set_same]
    · rw [loop_nil (by omega), Ico_eq_empty (a := i) (b := min (i + s.w + 1) s.n) (by omega), sum_empty, add_zero]
  simp only [inner] at hrhs
  have val : ∀ p, s.rhs tt tb p = if p = s.n - 1 then tb else
      (if 1 ≤ p ∧ p < s.n - 1 then (if 1 ≤ p ∧ p < s.w + 1 then (if p = 0 then tt else 0) - tt * s.Kt p else (if p = 0 then tt else 0)) +
        (∑ j ∈ Ico (p - s.w) p, s.FF (bIdx s.n s.w j p) * s.ng j) + ∑ j ∈ Ico p (min (p + s.w + 1) s.n), s.FF (bIdx s.n s.w p j) * s.ng j else
        (if 1 ≤ p ∧ p < s.w + 1 then (if p = 0 then tt else 0) - tt * s.Kt p else (if p = 0 then tt else 0))) -
      (if s.n - s.w - 1 ≤ p ∧ p < s.n - 1 then tb * s.Kb p else 0) := by
    intro p
    rw [hrhs]
    by_cases hp : p = s.n - 1
    · rw [if_pos hp, hp, set_same]
    · rw [if_neg hp, set_ne _ _ hp, loop_pt (fun i v => v - tb * s.Kb i) _ (by omega),
        loop_pt (fun i v => v + (∑ j ∈ Ico (i - s.w) i, s.FF (bIdx s.n s.w j i) * s.ng j) + ∑ j ∈ Ico i (min (i + s.w + 1) s.n), s.FF (bIdx s.n s.w i j) * s.ng j) _ (by omega),
        loop_pt (fun i v => v - tt * s.Kt i) _ (by omega)]
      have e0 : set (fun _ => (0 : K)) 0 tt p = if p = 0 then tt else 0 := rfl
      rw [e0]
      by_cases hc : s.n - s.w - 1 ≤ p ∧ p < s.n - 1
      · rw [if_pos hc, if_pos hc]
      · rw [if_neg hc, if_neg hc, sub_zero]
  refine ⟨?_, ?_, ?_⟩
  · rw [val, if_neg (by omega), if_neg (by omega), if_neg (by omega), if_pos rfl]
    by_cases hc : s.n - s.w - 1 ≤ 0 ∧ 0 < s.n - 1
    · rw [if_pos hc, h.kb 0 (by omega) (by omega), if_pos rfl]; ring
    · rw [if_neg hc, sub_zero]
  · rw [val, if_pos rfl]
  · intro i h1 h2
    have hi0 : i ≠ 0 := by omega
    rw [val, if_neg (by omega), if_pos (by omega), if_neg hi0, ← sumF i h1 h2]
    have t1 : (if 1 ≤ i ∧ i < s.w + 1 then (0 : K) - tt * s.Kt i else 0) = - (tt * lhs s.dt Km Fm i 0) := by
      by_cases hc : 1 ≤ i ∧ i < s.w + 1
      · rw [if_pos hc, h.kt i (by omega), lhs_symm h.ks h.fs 0 i]; ring
      · rw [if_neg hc, lhs_symm h.ks h.fs i 0, hA 0 i (by omega)]; ring
    have t2 : (if s.n - s.w - 1 ≤ i ∧ i < s.n - 1 then tb * s.Kb i else 0) = tb * lhs s.dt Km Fm i (s.n - 1) := by
      by_cases hc : s.n - s.w - 1 ≤ i ∧ i < s.n - 1
      · rw [if_pos hc, h.kb i (by omega) (by omega), if_neg (by omega)]
      · rw [if_neg hc, hA i (s.n - 1) (by omega)]; ring
    rw [t1, t2]; ring

omit [LinearOrder K] [IsStrictOrderedRing K] in
theorem cut_row {n : Nat} (hn : 2 ≤ n) (A : Nat → Nat → K) (x : Nat → K) {i : Nat} (hi : i < n) :
    row n (cut n A) x i = if i = 0 ∨ i = n - 1 then x i else row n A x i - A i 0 * x 0 - A i (n - 1) * x (n - 1) := by
  unfold row
  by_cases hc : i = 0 ∨ i = n - 1
  · rw [if_pos hc]
    rw [sum_eq_single i (fun j _ hj => by unfold cut; rw [if_pos (by tauto), if_neg (fun h => hj h.symm), zero_mul]) (fun h => absurd (mem_range.2 hi) h)]
    unfold cut
    rw [if_pos (by tauto), if_pos rfl, one_mul]
  · rw [if_neg hc]
    obtain ⟨m, rfl⟩ : ∃ m, n = m + 2 := ⟨n - 2, by omega⟩
    rw [sum_range_succ, sum_range_succ', sum_range_succ, sum_range_succ']
    have e1 : m + 2 - 1 = m + 1 := rfl
    rw [e1]
    have z1 : cut (m + 2) A i (m + 1) = 0 := by unfold cut; rw [if_pos (by omega), if_neg (by omega)]
    have z2 : cut (m + 2) A i 0 = 0 := by unfold cut; rw [if_pos (by omega), if_neg (by omega)]
    have z3 : ∀ j ∈ range m, cut (m + 2) A i (j + 1) * x (j + 1) = A i (j + 1) * x (j + 1) := fun j hj => by
      have := mem_range.1 hj
      unfold cut; rw [if_neg (by omega)]
    rw [z1, z2, sum_congr rfl z3]; ring

/-- The equations of a step. -/
theorem Built.step_spec (hrt : IsRoot rt) (h : Built rt s Km Fm) (tt tb : K) :
    (s.step tt tb).nt 0 = tt ∧ (s.step tt tb).nt (s.n - 1) = tb ∧ ∀ i, 0 < i → i + 1 < s.n →
      row s.n (lhs s.dt Km Fm) (s.step tt tb).nt i = row s.n Fm s.ng i := by
  have hw := h.w0
  have hn := h.wn
  obtain ⟨B, hB, hB2⟩ := h.chol
  have hsol := (C42_bksub_chol_band_partial hrt (m := 1) (c := 0) (b := s.rhs tt tb) (by omega) (by omega) hB).1
  have hnt : (s.step tt tb).nt = bksubCholBand s.n s.w s.KK (s.rhs tt tb) 1 0 := rfl
  have hsym : ∀ i j : Fin s.n, bandSym s.n s.w B i j = cut s.n (lhs s.dt Km Fm) i j := by
    intro i j
    have hi := i.2
    have hj := j.2
    have hcs : cut s.n (lhs s.dt Km Fm) (j : Nat) i = cut s.n (lhs s.dt Km Fm) i j := by
      unfold cut
      by_cases hc : (i : Nat) = 0 ∨ (j : Nat) = 0 ∨ (i : Nat) = s.n - 1 ∨ (j : Nat) = s.n - 1
      · rw [if_pos hc, if_pos (by tauto)]
        by_cases hij : (i : Nat) = j
        · rw [if_pos hij, if_pos hij.symm]
        · rw [if_neg hij, if_neg (fun h => hij h.symm)]
      · rw [if_neg hc, if_neg (by tauto), lhs_symm h.ks h.fs]
    unfold bandSym
    by_cases hb : max (i : Nat) j ≤ min (i : Nat) j + s.w
    · rw [if_pos hb, hB2 _ _ ⟨by omega, by omega, by omega⟩]
      rcases Nat.le_total (i : Nat) j with e | e
      · rw [Nat.max_eq_right e, Nat.min_eq_left e]
      · rw [Nat.max_eq_left e, Nat.min_eq_right e, hcs]
    · rw [if_neg hb]
      unfold cut
      have hA : lhs s.dt Km Fm (i : Nat) j = 0 := by
        have : (i : Nat) + s.w < j ∨ (j : Nat) + s.w < i := by omega
        rcases this with e | e
        · unfold lhs; rw [h.ko _ _ e, h.fo _ _ e]; simp
        · rw [lhs_symm h.ks h.fs]; unfold lhs; rw [h.ko _ _ e, h.fo _ _ e]; simp
      have hij : (i : Nat) ≠ j := by omega
      rw [hA, if_neg hij, ite_self]
  have hrow : ∀ i, i < s.n → row s.n (cut s.n (lhs s.dt Km Fm)) (s.step tt tb).nt i = s.rhs tt tb i := by
    intro i hi
    have := congrFun hsol ⟨i, hi⟩
    simp only [Matrix.mulVec, dotProduct, Nat.mul_one, Nat.add_zero, hsym] at this
    rw [← this, hnt]
    unfold row
    rw [← Fin.sum_univ_eq_sum_range (fun j => cut s.n (lhs s.dt Km Fm) i j * bksubCholBand s.n s.w s.KK (s.rhs tt tb) 1 0 j)]
  obtain ⟨r1, r2, r3⟩ := h.rhs_spec tt tb
  have t0 := hrow 0 (by omega)
  have t1 := hrow (s.n - 1) (by omega)
  rw [cut_row (by omega) _ _ (by omega), if_pos (Or.inl rfl), r1] at t0
  rw [cut_row (by omega) _ _ (by omega), if_pos (Or.inr rfl), r2] at t1
  refine ⟨t0, t1, fun i h1 h2 => ?_⟩
  have := hrow i (by omega)
  rw [cut_row (by omega) _ _ (by omega), if_neg (by omega), r3 i h1 h2, t0, t1] at this
  linear_combination this

end OP.Thermal
