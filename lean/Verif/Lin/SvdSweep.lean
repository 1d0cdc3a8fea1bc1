import Verif.Lin.SvdRot
/-!
# Singular values: a pass of the iteration
-/
namespace OP.Lin
open Finset
variable {K : Type} [Field K]

/-- The matrix with two diagonals while the singular value `i` is worked on: the numbers above the diagonal after column `i` are gone. -/
def bd (i : Nat) (W rv : Nat → K) (a b : Nat) : K := if b = a then W a else if b = a + 1 ∧ b ≤ i then rv b else 0

/-- The same before round `j` of a transformation that began at `q`. -/
def md (q i j : Nat) (F X C S : K) (W rv : Nat → K) (a b : Nat) : K :=
  if b = a then (if a = j then X else W a)
  else if b = a + 1 ∧ b ≤ i ∧ b ≠ q then (if b = j then F else if b = j + 1 then C * rv b else rv b)
  else if q < j ∧ a + 1 = j ∧ b = j + 1 ∧ b ≤ i then S * rv b
  else 0

theorem md_step {q i j : Nat} (hqj : q ≤ j) (hji : j < i) {F X C0 S0 C S C2 S2 w z : K} {W rv : Nat → K} (a b : Nat)
    (h1 : S0 * rv (j + 1) * S + F * C = z) (h2 : S0 * rv (j + 1) * C - F * S = 0)
    (h3 : W (j + 1) * S * S2 + (C0 * rv (j + 1) * S + X * C) * C2 = w)
    (h4 : W (j + 1) * S * C2 - (C0 * rv (j + 1) * S + X * C) * S2 = 0) :
    rotP j (j + 1) S2 C2 (fun r => rotP j (j + 1) S C (md q i j F X C0 S0 W rv r) b) a =
      md q i (j + 1) (S2 * (W (j + 1) * C) + C2 * (C0 * rv (j + 1) * C - X * S)) (C2 * (W (j + 1) * C) - S2 * (C0 * rv (j + 1) * C - X * S)) C2 S2
        (set W j w) (set rv j z) a b := by
  have hj : j ≠ j + 1 := by omega
  have r1 : ∀ b, md q i j F X C0 S0 W rv j b = if b = j then X else if b = j + 1 then C0 * rv (j + 1) else 0 := by
    intro b
    unfold md
    by_cases b1 : b = j
    · simp (disch := omega) only [if_pos, if_neg, if_true, true_and]
    · by_cases b2 : b = j + 1
      · subst b2; simp (disch := omega) only [if_pos, if_neg, if_true, true_and]
      · simp (disch := omega) only [if_pos, if_neg, if_true, true_and]
  have r2 : ∀ b, md q i j F X C0 S0 W rv (j + 1) b = if b = j + 1 then W (j + 1) else if b = j + 2 ∧ j + 2 ≤ i then rv (j + 2) else 0 := by
    intro b
    unfold md
    by_cases b1 : b = j + 1
    · simp (disch := omega) only [if_pos, if_neg, if_true, true_and]
    · by_cases b2 : b = j + 2 ∧ j + 2 ≤ i
      · obtain ⟨rfl, b3⟩ := b2; simp (disch := omega) only [if_pos, if_neg, if_true, true_and]
      · simp (disch := omega) only [if_pos, if_neg, if_true, true_and]
  by_cases a1 : a = j + 1
  · subst a1
    rw [rotP_snd]
    by_cases b1 : b = j + 1
    · subst b1
      rw [rotP_snd, rotP_snd, r1, r1, r2, r2]
      unfold md
      simp (disch := omega) only [if_pos, if_neg, if_true, true_and]
      ring
    · by_cases b2 : b = j
      · subst b2
        rw [rotP_fst hj, rotP_fst hj, r1, r1, r2, r2]
        unfold md
        simp (disch := omega) only [if_pos, if_neg, if_true, true_and]
        linear_combination h4
      · rw [rotP_other b2 b1, rotP_other b2 b1, r1, r2]
        unfold md
        by_cases b3 : b = j + 2 ∧ j + 2 ≤ i
        · obtain ⟨rfl, b4⟩ := b3
          rw [set_ne rv z (show j + 2 ≠ j by omega)]
          simp (disch := omega) only [if_pos, if_neg, if_true, true_and]
          ring
        · simp (disch := omega) only [if_pos, if_neg, if_true, true_and]
          ring
  · by_cases a2 : a = j
    · subst a2
      rw [rotP_fst hj]
      by_cases b1 : b = a + 1
      · subst b1
        rw [rotP_snd, rotP_snd, r1, r1, r2, r2]
        unfold md
        simp (disch := omega) only [if_pos, if_neg, if_true, true_and]
        ring
      · by_cases b2 : b = a
        · subst b2
          rw [rotP_fst hj, rotP_fst hj, r1, r1, r2, r2]
          unfold md
          simp (disch := omega) only [if_pos, if_neg, if_true, true_and]
          rw [set_same]
          linear_combination h3
        · rw [rotP_other b2 b1, rotP_other b2 b1, r1, r2]
          unfold md
          by_cases b3 : b = a + 2 ∧ a + 2 ≤ i
          · obtain ⟨rfl, b4⟩ := b3
            rw [set_ne rv z (show a + 2 ≠ a by omega)]
            simp (disch := omega) only [if_pos, if_neg, if_true, true_and]
            ring
          · simp (disch := omega) only [if_pos, if_neg, if_true, true_and]
            ring
    · rw [rotP_other a2 a1]
      by_cases a3 : a + 1 = j
      · subst a3
        by_cases b1 : b = a + 1 + 1
        · subst b1
          rw [rotP_snd]
          unfold md
          by_cases hq : q < a + 1
          · simp (disch := omega) only [if_pos, if_neg, if_true, true_and]
            linear_combination h2
          · simp (disch := omega) only [if_pos, if_neg, if_true, true_and]
            ring
        · by_cases b2 : b = a + 1
          · subst b2
            rw [rotP_fst hj]
            unfold md
            by_cases hq : q < a + 1
            · simp (disch := omega) only [if_pos, if_neg, if_true, true_and]
              rw [set_same]
              linear_combination h1
            · simp (disch := omega) only [if_pos, if_neg, if_true, true_and]
              ring
          · rw [rotP_other b2 b1]
            unfold md
            by_cases b3 : b = a
            · rw [set_ne _ _ (by omega)]
              simp (disch := omega) only [if_pos, if_neg, if_true, true_and]
            · simp (disch := omega) only [if_pos, if_neg, if_true, true_and]
      · by_cases b1 : b = j + 1
        · subst b1
          rw [rotP_snd]
          unfold md
          simp (disch := omega) only [if_pos, if_neg, if_true, true_and]
          ring
        · by_cases b2 : b = j
          · subst b2
            rw [rotP_fst hj]
            unfold md
            simp (disch := omega) only [if_pos, if_neg, if_true, true_and]
            ring
          · rw [rotP_other b2 b1]
            unfold md
            rw [set_ne _ _ (by omega), set_ne _ _ (by omega)]
            by_cases b3 : b = a
            · simp (disch := omega) only [if_pos, if_neg, if_true, true_and]
            · by_cases b4 : b = a + 1 ∧ b ≤ i ∧ b ≠ q
              · simp (disch := omega) only [if_pos, if_neg, if_true, true_and]
              · simp (disch := omega) only [if_pos, if_neg, if_true, true_and]

variable [LinearOrder K] [IsStrictOrderedRing K]

theorem hyp_sq {rt : K → K} (hrt : IsRoot0 rt) (x y : K) : rt (x * x + y * y) * rt (x * x + y * y) = x * x + y * y :=
  (hrt _ (add_nonneg (mul_self_nonneg x) (mul_self_nonneg y))).2

theorem hyp_zero {rt : K → K} (hrt : IsRoot0 rt) {x y : K} (h : rt (x * x + y * y) = 0) : x = 0 ∧ y = 0 := by
  have := hyp_sq hrt x y
  rw [h, mul_zero] at this
  have hx := mul_self_nonneg x
  have hy := mul_self_nonneg y
  exact ⟨mul_self_eq_zero.1 (by linarith), mul_self_eq_zero.1 (by linarith)⟩

variable {m n : Nat} {M : (Nat → K) → (Nat → K) → K} {ε : K}

/-- What holds before round `j`. -/
structure Mid (m n : Nat) (M : (Nat → K) → (Nat → K) → K) (ε : K) (q i j : Nat) (t : Qs K) : Prop where
  fac : Fac m n M (md q i j t.F t.X t.C t.S t.d.W t.d.rv) t.d.A t.d.V ε
  s : j < i → t.S ≠ 0
  rv : ∀ k, j < k → k ≤ i → t.d.rv k ≠ 0
  w : ∀ k, j < k → k < i → t.d.W k ≠ 0

theorem svdStep_mid {rt : K → K} (hrt : IsRoot0 rt) {q i j : Nat} (hqj : q ≤ j) (hji : j < i) (hin : i < n) {t : Qs K} (h : Mid m n M ε q i j t) :
    Mid m n M ε q i (j + 1) (svdStep rt m n j t) := by
  have hH : t.S * t.d.rv (j + 1) ≠ 0 := mul_ne_zero (h.s hji) (h.rv _ (by omega) (by omega))
  obtain ⟨H, eH⟩ : ∃ H, H = t.S * t.d.rv (j + 1) := ⟨_, rfl⟩
  obtain ⟨z, ez⟩ : ∃ z, z = rt (t.F * t.F + H * H) := ⟨_, rfl⟩
  have hz2 := hyp_sq hrt t.F H
  rw [← ez] at hz2
  have hz : z ≠ 0 := fun e => hH (by rw [← eH]; exact (hyp_zero hrt (ez.symm.trans e)).2)
  obtain ⟨C, eC⟩ : ∃ C, C = t.F / z := ⟨_, rfl⟩
  obtain ⟨S, eS⟩ : ∃ S, S = H / z := ⟨_, rfl⟩
  have hCS : C * C + S * S = 1 := by
    rw [eC, eS]; field_simp; linear_combination -hz2
  obtain ⟨F1, eF1⟩ : ∃ F1, F1 = t.C * t.d.rv (j + 1) * S + t.X * C := ⟨_, rfl⟩
  obtain ⟨H1, eH1⟩ : ∃ H1, H1 = t.d.W (j + 1) * S := ⟨_, rfl⟩
  obtain ⟨w, ew⟩ : ∃ w, w = rt (F1 * F1 + H1 * H1) := ⟨_, rfl⟩
  have hw2 := hyp_sq hrt F1 H1
  rw [← ew] at hw2
  obtain ⟨C2, eC2⟩ : ∃ C2, C2 = if w ≠ 0 then F1 / w else C := ⟨_, rfl⟩
  obtain ⟨S2, eS2⟩ : ∃ S2, S2 = if w ≠ 0 then H1 / w else S := ⟨_, rfl⟩
  have e : svdStep rt m n j t = ⟨⟨rotCols m n j (j + 1) S2 C2 t.d.A, rotCols n n j (j + 1) S C t.d.V, set t.d.W j w, set t.d.rv j z, t.d.good⟩,
      S2 * (t.d.W (j + 1) * C) + C2 * (t.C * t.d.rv (j + 1) * C - t.X * S), C2, S2, C2 * (t.d.W (j + 1) * C) - S2 * (t.C * t.d.rv (j + 1) * C - t.X * S)⟩ := by
    unfold svdStep
    dsimp only
    rw [← eH, ← ez, ← eC, ← eS, ← eF1, ← eH1, ← ew, ← eC2, ← eS2]
  have hCS2 : C2 * C2 + S2 * S2 = 1 ∧ H1 * S2 + F1 * C2 = w ∧ H1 * C2 - F1 * S2 = 0 := by
    by_cases hw : w = 0
    · obtain ⟨z1, z2⟩ := hyp_zero hrt (ew.symm.trans hw)
      rw [eC2, eS2, if_neg (not_not.2 hw), if_neg (not_not.2 hw), z1, z2, hw]
      exact ⟨hCS, by ring, by ring⟩
    · rw [eC2, eS2, if_pos hw, if_pos hw]
      refine ⟨?_, ?_, ?_⟩
      · field_simp; linear_combination -hw2
      · field_simp; linear_combination -hw2
      · field_simp; ring
  rw [e]
  refine ⟨?_, ?_, ?_, ?_⟩
  · dsimp only
    refine ((h.fac.rotV (a := j) (b := j + 1) (by omega) (by omega) (by omega) hCS).rotU (a := j) (b := j + 1) (by omega) (by omega) (by omega)
      hCS2.1).congr fun a _ b _ => ?_
    refine md_step hqj hji a b ?_ ?_ ?_ ?_
    · rw [← eH, eC, eS]; field_simp; linear_combination -hz2
    · rw [← eH, eC, eS]; field_simp; ring
    · rw [← eH1, ← eF1]; exact hCS2.2.1
    · rw [← eH1, ← eF1]; exact hCS2.2.2
  · intro hj
    dsimp only
    have hS : S ≠ 0 := by rw [eS]; exact div_ne_zero (by rw [eH]; exact hH) hz
    have hH1 : H1 ≠ 0 := by rw [eH1]; exact mul_ne_zero (h.w _ (by omega) hj) hS
    have hw : w ≠ 0 := fun e => hH1 (hyp_zero hrt (ew.symm.trans e)).2
    rw [eS2, if_pos hw]
    exact div_ne_zero hH1 hw
  · intro k h1 h2
    dsimp only
    rw [set_ne _ _ (by omega)]
    exact h.rv k (by omega) h2
  · intro k h1 h2
    dsimp only
    rw [set_ne _ _ (by omega)]
    exact h.w k (by omega) h2

/-- A pass. -/
theorem svdPass_fac {rt : K → K} (hrt : IsRoot0 rt) {q i : Nat} (hqi : q < i) (hin : i < n) {t : Dg K}
    (h : Fac m n M (fun a b => if b = q ∧ a + 1 = q then 0 else bd i t.W t.rv a b) t.A t.V ε) (hrv : ∀ k, q < k → k ≤ i → t.rv k ≠ 0)
    (hW : ∀ k, q ≤ k → k < i → t.W k ≠ 0) :
    Fac m n M (bd i (svdPass rt m n i q t).W (svdPass rt m n i q t).rv) (svdPass rt m n i q t).A (svdPass rt m n i q t).V ε ∧
      (svdPass rt m n i q t).good = t.good ∧ ((t.rv 0 = 0 ∨ q = 0) → (svdPass rt m n i q t).rv 0 = 0) ∧
      (∀ k, i < k → (svdPass rt m n i q t).rv k = t.rv k ∧ (svdPass rt m n i q t).W k = t.W k) ∧
      (∀ p, m * n ≤ p → (svdPass rt m n i q t).A p = t.A p) ∧ ∀ p, n * n ≤ p → (svdPass rt m n i q t).V p = t.V p := by
  unfold svdPass
  dsimp only
  generalize ((t.W q - t.W i) * (t.W q + t.W i) + t.rv i * _) / t.W q = F
  obtain ⟨s, es⟩ : ∃ s, s = loop q i (svdStep rt m n) ⟨t, F, 1, 1, t.W q⟩ := ⟨_, rfl⟩
  rw [← es]
  have hs : Mid m n M ε q i i s ∧ s.d.good = t.good ∧ (∀ k, k < q ∨ i ≤ k → s.d.rv k = t.rv k ∧ s.d.W k = t.W k) ∧
      (∀ p, m * n ≤ p → s.d.A p = t.A p) ∧ ∀ p, n * n ≤ p → s.d.V p = t.V p := by
    rw [es]
    refine loop_rule (f := svdStep rt m n) (fun j s => Mid m n M ε q i j s ∧ s.d.good = t.good ∧ (∀ k, k < q ∨ i ≤ k → s.d.rv k = t.rv k ∧ s.d.W k = t.W k) ∧
      (∀ p, m * n ≤ p → s.d.A p = t.A p) ∧ ∀ p, n * n ≤ p → s.d.V p = t.V p) hqi.le ⟨⟨?_, ?_, ?_, ?_⟩, rfl, fun _ _ => ⟨rfl, rfl⟩, fun _ _ => rfl, fun _ _ => rfl⟩ ?_
    · refine h.congr fun a _ b _ => ?_
      dsimp only
      unfold md bd
      rw [one_mul]
      by_cases b1 : b = a
      · subst b1
        simp (disch := omega) only [if_pos, if_neg, if_true, true_and]
        split
        · next e => rw [e]
        · rfl
      · by_cases b2 : b = a + 1 ∧ b ≤ i ∧ b ≠ q
        · simp (disch := omega) only [if_pos, if_neg, if_true, true_and]
          split <;> rfl
        · by_cases b3 : b = q ∧ a + 1 = q
          · simp (disch := omega) only [if_pos, if_neg, if_true, true_and]
          · simp (disch := omega) only [if_pos, if_neg, if_true, true_and]
    · intro _; exact one_ne_zero
    · intro k h1 h2; exact hrv k h1 h2
    · intro k h1 h2; exact hW k (by omega) h2
    · rintro j s h1 h2 ⟨hm, hg, ho, hA, hV⟩
      refine ⟨svdStep_mid hrt h1 h2 hin hm, hg, fun k hk => ?_, fun p hp => ?_, fun p hp => ?_⟩
      · obtain ⟨o1, o2⟩ := ho k hk
        refine ⟨?_, ?_⟩
        · unfold svdStep; dsimp only; rw [set_ne _ _ (by omega), o1]
        · unfold svdStep; dsimp only; rw [set_ne _ _ (by omega), o2]
      · unfold svdStep; dsimp only
        rw [(rotCols_spec (by omega) (by omega) (by omega) _ _ _).2 p hp, hA p hp]
      · unfold svdStep; dsimp only
        rw [(rotCols_spec (by omega) (by omega) (by omega) _ _ _).2 p hp, hV p hp]
  obtain ⟨hm, hg, ho, hA, hV⟩ := hs
  refine ⟨hm.fac.congr fun a _ b _ => ?_, hg, fun h0 => ?_, fun k hk => ?_, hA, hV⟩
  · unfold md bd
    by_cases b1 : b = a
    · subst b1
      simp (disch := omega) only [if_pos, if_neg, if_true, true_and]
      by_cases a1 : b = i
      · rw [if_pos a1, a1, set_same]
      · rw [if_neg a1, set_ne _ _ a1]
    · by_cases b2 : b = a + 1 ∧ b ≤ i
      · by_cases b3 : b = q
        · simp (disch := omega) only [if_pos, if_neg, if_true, true_and]
          rw [set_ne _ _ (by omega), b3, set_same]
        · by_cases b4 : b = i
          · simp (disch := omega) only [if_pos, if_neg, if_true, true_and]
            rw [b4, set_same]
          · simp (disch := omega) only [if_pos, if_neg, if_true, true_and]
            rw [set_ne _ _ b4, set_ne _ _ b3]
      · simp (disch := omega) only [if_pos, if_neg, if_true, true_and]
  · rw [set_ne _ _ (by omega)]
    by_cases hq : q = 0
    · rw [hq, set_same]
    · rw [set_ne _ _ (by omega), (ho 0 (by omega)).1]
      exact h0.resolve_right hq
  · rw [set_ne _ _ (by omega), set_ne _ _ (by omega), set_ne _ _ (by omega)]
    exact ho k (by omega)

end OP.Lin
