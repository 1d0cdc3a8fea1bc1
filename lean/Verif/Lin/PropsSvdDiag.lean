import Verif.Lin.SvdSweep
import Verif.Lin.PropsEig
/-!
# C94: the iteration for the singular values
-/
namespace OP.Lin
open Finset
variable {K : Type} [Field K] [LinearOrder K] [IsStrictOrderedRing K]

omit [IsStrictOrderedRing K] in
theorem svdSplit_spec {neg : K → K → Bool} {anorm : K} {W rv : Nat → K} (h0 : neg |rv 0| anorm = true) : ∀ c, ∃ q f, svdSplit neg anorm W rv (c + 1) = .ok (q, f) ∧ q ≤ c ∧
    (∀ k, q < k → k ≤ c → neg |rv k| anorm = false ∧ neg |W (k - 1)| anorm = false) ∧ (f = false → neg |rv q| anorm = true) ∧
    (f = true → 0 < q ∧ neg |rv q| anorm = false ∧ neg |W (q - 1)| anorm = true)
  | 0 => by
    refine ⟨0, false, ?_, le_rfl, fun k a b => by omega, fun _ => h0, fun h => by cases h⟩
    rw [svdSplit, if_pos h0]
  | c + 1 => by
    rw [svdSplit]
    by_cases h1 : neg |rv (c + 1)| anorm = true
    · rw [if_pos h1]
      exact ⟨c + 1, false, rfl, le_rfl, fun k a b => by omega, fun _ => h1, fun h => by cases h⟩
    · rw [if_neg h1, if_neg (by omega)]
      rw [Bool.not_eq_true] at h1
      by_cases h2 : neg |W (c + 1 - 1)| anorm = true
      · rw [if_pos h2]
        exact ⟨c + 1, true, rfl, le_rfl, (fun k a b => by omega), (fun h => by cases h), (fun _ => ⟨by omega, h1, h2⟩)⟩
      · rw [if_neg h2]
        rw [Bool.not_eq_true] at h2
        obtain ⟨q, f, a1, a2, a3, a4, a5⟩ := svdSplit_spec h0 c
        refine ⟨q, f, a1, by omega, fun k k1 k2 => ?_, a4, a5⟩
        by_cases e : k = c + 1
        · rw [e]; exact ⟨h1, h2⟩
        · exact a3 k k1 (by omega)

/-! ## What a pass leaves alone -/

omit [IsStrictOrderedRing K] in
theorem svdPass_frame (rt : K → K) {m n i q : Nat} (hqi : q < i) (t : Dg K) (h0 : t.rv 0 = 0) :
    (svdPass rt m n i q t).rv 0 = 0 ∧ (svdPass rt m n i q t).good = t.good := by
  unfold svdPass
  dsimp only
  generalize ((t.W q - t.W i) * (t.W q + t.W i) + t.rv i * _) / t.W q = F
  have h := loop_rule (f := svdStep rt m n) (fun _ s => (0 < q → s.d.rv 0 = 0) ∧ s.d.good = t.good) hqi.le (s := ⟨t, F, 1, 1, t.W q⟩) ⟨fun _ => h0, rfl⟩ (by
    rintro j s h1 h2 ⟨a, b⟩
    refine ⟨fun hq => ?_, b⟩
    unfold svdStep; dsimp only; rw [set_ne _ _ (by omega)]; exact a hq)
  refine ⟨?_, h.2⟩
  rw [set_ne _ _ (by omega)]
  by_cases hq : q = 0
  · rw [hq, set_same]
  · rw [set_ne _ _ (by omega)]; exact h.1 (by omega)

omit [IsStrictOrderedRing K] in
theorem svdCancel_frame (rt : K → K) (neg : K → K → Bool) (anorm : K) {m n i q : Nat} (hqi : q ≤ i) (t : Dg K) :
    (svdCancel rt neg anorm m n i q t).rv = t.rv ∧ (svdCancel rt neg anorm m n i q t).good = (t.good && decide (q = i)) := by
  unfold svdCancel
  dsimp only
  refine loop_rule (f := fun k (p : K × Dg K) => _) (fun _ (p : K × Dg K) => p.2.rv = t.rv ∧ p.2.good = (t.good && decide (q = i))) (show q ≤ i + 1 by omega) ⟨rfl, rfl⟩ ?_
  rintro k p - - ⟨a, b⟩
  split_ifs
  · exact ⟨a, b⟩
  · exact ⟨a, b⟩

omit [IsStrictOrderedRing K] in
theorem svdSign_frame (n i : Nat) (t : Dg K) : (svdSign n i t).rv = t.rv ∧ (svdSign n i t).good = t.good := by
  unfold svdSign
  split_ifs <;> exact ⟨rfl, rfl⟩

theorem svdOne_frame (rt : K → K) {neg : K → K → Bool} {τ : K} (hneg : NegOk neg τ) (anorm : K) (m n i : Nat) : ∀ k (t : Dg K), t.rv 0 = 0 →
    ∃ t', svdOne rt neg anorm m n i k t = .ok t' ∧ t'.rv 0 = 0 ∧ (t.good = false → t'.good = false)
  | 0, t, h0 => ⟨_, rfl, h0, fun _ => rfl⟩
  | k + 1, t, h0 => by
    obtain ⟨q, f, e, hq, -⟩ := svdSplit_spec (W := t.W) (rv := t.rv) (neg := neg) (anorm := anorm) (by rw [h0, abs_zero]; exact hneg.zero _) i
    rw [svdOne, e]
    simp only [Res.ok_bind]
    obtain ⟨t1, et⟩ : ∃ t1, t1 = if f then svdCancel rt neg anorm m n i q t else t := ⟨_, rfl⟩
    rw [← et]
    have h1 : t1.rv 0 = 0 ∧ (t.good = false → t1.good = false) := by
      rw [et]
      split
      · obtain ⟨a, b⟩ := svdCancel_frame (m := m) (n := n) rt neg anorm hq t
        exact ⟨by rw [a]; exact h0, fun h => by rw [b, h]; rfl⟩
      · exact ⟨h0, id⟩
    by_cases hqi : q = i
    · rw [if_pos hqi]
      obtain ⟨a, b⟩ := svdSign_frame n i t1
      exact ⟨_, rfl, by rw [a]; exact h1.1, fun h => by rw [b]; exact h1.2 h⟩
    · rw [if_neg hqi]
      obtain ⟨a, b⟩ := svdPass_frame (m := m) (n := n) rt (show q < i by omega) t1 h1.1
      obtain ⟨t', e', a', b'⟩ := svdOne_frame rt hneg anorm m n i k _ a
      exact ⟨t', e', a', fun h => b' (by rw [b]; exact h1.2 h)⟩

/-! ## One singular value -/

variable {m n : Nat} {M : (Nat → K) → (Nat → K) → K} {ε δ : K}

omit [IsStrictOrderedRing K] in
theorem svdCancel_one (rt : K → K) {neg : K → K → Bool} {anorm : K} {i : Nat} (t : Dg K) (h : neg |t.rv i| anorm = false) (hg : t.good = true) :
    svdCancel rt neg anorm m n i i t = { t with
      W := set t.W i (rt (t.rv i * t.rv i + t.W i * t.W i)),
      A := rotCols m n (i - 1) i (-t.rv i / rt (t.rv i * t.rv i + t.W i * t.W i)) (t.W i / rt (t.rv i * t.rv i + t.W i * t.W i)) t.A } := by
  have hl : ∀ {S : Type} (f : Nat → S → S) (s : S), loop i (i + 1) f s = f i s := fun f s => by
    unfold loop; rw [Nat.add_sub_cancel_left]; rfl
  unfold svdCancel
  dsimp only
  rw [hl]
  dsimp only
  rw [one_mul, if_neg (by rw [h]; exact Bool.false_ne_true), hg, decide_eq_true rfl]
  rfl

theorem svdCancel_fac {rt : K → K} (hrt : IsRoot0 rt) {neg : K → K → Bool} {anorm : K} {i : Nat} (hi : 0 < i) (hin : i < n) {t : Dg K}
    (h : Fac m n M (bd i t.W t.rv) t.A t.V ε) (h1 : neg |t.rv i| anorm = false) (hr : t.rv i ≠ 0) (hd : |t.W (i - 1)| ≤ δ) (hg : t.good = true) :
    Fac m n M (bd (i - 1) (svdCancel rt neg anorm m n i i t).W t.rv) (svdCancel rt neg anorm m n i i t).A (svdCancel rt neg anorm m n i i t).V (ε + 2 * δ) ∧
    ∀ k, k ≠ i → (svdCancel rt neg anorm m n i i t).W k = t.W k := by
  rw [svdCancel_one rt t h1 hg]
  dsimp only
  refine ⟨?_, fun k hk => set_ne _ _ hk⟩
  obtain ⟨F, eF⟩ : ∃ F, F = t.rv i := ⟨_, rfl⟩
  obtain ⟨G, eG⟩ : ∃ G, G = t.W i := ⟨_, rfl⟩
  obtain ⟨w, ew⟩ : ∃ w, w = rt (F * F + G * G) := ⟨_, rfl⟩
  have hw2 := hyp_sq hrt F G
  rw [← ew] at hw2
  have hw : w ≠ 0 := fun e => hr (by rw [← eF]; exact (hyp_zero hrt (ew.symm.trans e)).1)
  rw [← eF, ← eG, ← ew]
  obtain ⟨j, rfl⟩ : ∃ j, i = j + 1 := ⟨i - 1, by omega⟩
  rw [Nat.add_sub_cancel] at hd ⊢
  have s1 := h.drop (B' := bd (j + 1) (set t.W j 0) t.rv) (a0 := j) (b0 := j) (by omega) (by omega) (by
    intro a _ b _ hab
    unfold bd
    by_cases b1 : b = a
    · rw [if_pos b1, if_pos b1, set_ne _ _ (by omega)]
    · rw [if_neg b1, if_neg b1]) (δ := δ) (by
    unfold bd
    rw [if_pos rfl, if_pos rfl, set_same, sub_zero]; exact hd)
  have s2 := s1.rotU (a := j) (b := j + 1) (S := -F / w) (C := G / w) (by omega) (by omega) (by omega) (by field_simp; linear_combination -hw2)
  have s3 := s2.congr (B' := bd j (set (set t.W j 0) (j + 1) w) t.rv) (by
    intro a _ b _
    unfold rotP bd
    by_cases a1 : a = j + 1
    · subst a1
      by_cases b1 : b = j + 1
      · subst b1
        simp (disch := omega) only [if_pos, if_neg, if_true, true_and]
        rw [set_same, set_ne _ _ (by omega), ← eF, ← eG]
        field_simp
        linear_combination -hw2
      · by_cases b2 : b = j
        · subst b2
          simp (disch := omega) only [if_pos, if_neg, if_true, true_and]
          rw [set_same]
          ring
        · simp (disch := omega) only [if_neg, if_true]
          ring
    · by_cases a2 : a = j
      · subst a2
        by_cases b1 : b = a + 1
        · subst b1
          simp (disch := omega) only [if_pos, if_neg, if_true, true_and]
          rw [set_ne _ _ (by omega), ← eF, ← eG]
          field_simp
          ring
        · by_cases b2 : b = a
          · subst b2
            simp (disch := omega) only [if_pos, if_neg, if_true, true_and]
            rw [set_ne _ w (by omega), set_same]
            ring
          · simp (disch := omega) only [if_neg, if_true]
            ring
      · simp (disch := omega) only [if_neg]
        by_cases b1 : b = a
        · rw [if_pos b1, if_pos b1, set_ne _ w a1]
        · rw [if_neg b1, if_neg b1]
          by_cases b2 : b = a + 1 ∧ b ≤ j
          · rw [if_pos b2, if_pos (by omega)]
          · rw [if_neg b2, if_neg (by omega)])
  have s4 := s3.drop (B' := bd j (set t.W (j + 1) w) t.rv) (a0 := j) (b0 := j) (by omega) (by omega) (by
    intro a _ b _ hab
    unfold bd
    by_cases b1 : b = a
    · rw [if_pos b1, if_pos b1]
      by_cases b2 : a = j + 1
      · rw [b2, set_same, set_same]
      · rw [set_ne _ _ b2, set_ne _ _ b2, set_ne _ _ (by omega)]
    · rw [if_neg b1, if_neg b1]) (δ := δ) (by
    unfold bd
    rw [if_pos rfl, if_pos rfl, set_ne _ _ (by omega), set_same, set_ne _ _ (by omega), zero_sub, abs_neg]; exact hd)
  rw [show ε + 2 * δ = ε + δ + δ by ring]
  exact s4

/-- One number with the other sign. -/
def negP (i : Nat) (v : Nat → K) (x : Nat) : K := if x = i then -v x else v x

omit [LinearOrder K] [IsStrictOrderedRing K] in
theorem vdot_negP (n i : Nat) (u v : Nat → K) : vdot n (negP i u) v = vdot n u (negP i v) :=
  sum_congr rfl fun x _ => by unfold negP; split <;> ring

omit [LinearOrder K] [IsStrictOrderedRing K] in
theorem negP_negP (i : Nat) (v : Nat → K) : negP i (negP i v) = v := by
  funext x; unfold negP; split <;> simp

theorem svdSign_fac {i : Nat} (hin : i < n) {t : Dg K} (h : Fac m n M (bd (i - 1) t.W t.rv) t.A t.V ε) :
    Fac m n M (bd (i - 1) (svdSign n i t).W (svdSign n i t).rv) (svdSign n i t).A (svdSign n i t).V ε ∧ 0 ≤ (svdSign n i t).W i ∧
    ∀ k, k ≠ i → (svdSign n i t).W k = t.W k := by
  unfold svdSign
  by_cases hw : t.W i < 0
  · rw [if_pos hw]
    dsimp only
    obtain ⟨V', eV⟩ : ∃ V', V' = loop 0 n (fun j V => set V (j * n + i) (V (j * n + i) * -1)) t.V := ⟨_, rfl⟩
    rw [← eV]
    have hV : ∀ r < n, ∀ x < n, V' (r * n + x) = negP i (fun x => t.V (r * n + x)) x := by
      rw [eV]
      have := loop_rule (f := fun j V => set V (j * n + i) (V (j * n + i) * -1))
        (fun l B => ∀ r, ∀ x < n, B (r * n + x) = if r < l then negP i (fun x => t.V (r * n + x)) x else t.V (r * n + x))
        (Nat.zero_le n) (s := t.V) (fun r x _ => by rw [if_neg (by omega)]) (by
          intro l B _ hl hB r x hx
          by_cases hr : r = l
          · subst hr
            rw [if_pos (by omega)]
            by_cases hxi : x = i
            · rw [hxi, set_same, hB r i hin, if_neg (by omega)]
              unfold negP
              rw [if_pos rfl, mul_neg_one]
            · rw [set_ne _ _ (by omega), hB r x hx, if_neg (by omega)]
              unfold negP
              rw [if_neg hxi]
          · rw [set_ne _ _ (fun e => hr ((addr_inj hx hin).1 e).1), hB r x hx]
            by_cases h8 : r < l
            · rw [if_pos h8, if_pos (by omega)]
            · rw [if_neg h8, if_neg (by omega)])
      exact fun r hr x hx => (this r x hx).trans (if_pos hr)
    have happ : ∀ c, ∀ r ∈ range n, app n V' c r = app n t.V (negP i c) r := by
      intro c r hr
      have : app n V' c r = vdot n (negP i fun x => t.V (r * n + x)) c := sum_congr rfl fun x hx => by rw [hV r (mem_range.1 hr) x (mem_range.1 hx)]
      rw [this, vdot_negP]
      rfl
    have htr : ∀ y, ∀ b < n, trv n n V' y b = negP i (trv n n t.V y) b := by
      intro y b hb
      unfold trv
      rw [sum_congr rfl fun r hr => by rw [hV r (mem_range.1 hr) b hb]]
      unfold negP
      split
      · rw [← sum_neg_distrib]; exact sum_congr rfl fun _ _ => by ring
      · rfl
    refine ⟨⟨h.u, fun c d => ?_, fun x y => ?_⟩, ?_, fun k hk => set_ne _ _ hk⟩
    · have e : vdot n (app n V' c) (app n V' d) = vdot n (app n t.V (negP i c)) (app n t.V (negP i d)) :=
        sum_congr rfl fun r hr => by rw [happ c r hr, happ d r hr]
      rw [e, h.v, vdot_negP, negP_negP]
    · have e : bil n (bd (i - 1) (set t.W i (t.W i * -1)) t.rv) (trv m n t.A x) (trv n n V' y) = bil n (bd (i - 1) t.W t.rv) (trv m n t.A x) (trv n n t.V y) := by
        unfold bil vdot
        refine sum_congr rfl fun a _ => ?_
        congr 1
        refine sum_congr rfl fun b hb => ?_
        rw [htr y b (mem_range.1 hb)]
        unfold negP bd
        by_cases hb : b = i
        · rw [if_pos hb]
          by_cases ha : b = a
          · rw [if_pos ha, if_pos ha, ← ha, hb, set_same]; ring
          · rw [if_neg ha, if_neg ha, if_neg (by omega)]; ring
        · rw [if_neg hb]
          by_cases ha : b = a
          · rw [if_pos ha, if_pos ha, set_ne _ _ (by omega)]
          · rw [if_neg ha, if_neg ha]
      rw [e]
      exact h.e x y
    · rw [set_same]; linarith
  · rw [if_neg hw]
    exact ⟨h, not_lt.1 hw, fun _ _ => rfl⟩

theorem Fac.weaken {B : Nat → Nat → K} {U V : Nat → K} (h : Fac m n M B U V ε) (hε : ε ≤ δ) : Fac m n M B U V δ :=
  ⟨h.u, h.v, fun x y => (h.e x y).trans (mul_le_mul_of_nonneg_right hε
    (div_nonneg (add_nonneg (sum_nonneg fun _ _ => mul_self_nonneg _) (sum_nonneg fun _ _ => mul_self_nonneg _)) (by norm_num)))⟩

theorem svdOne_fac {rt : K → K} (hrt : IsRoot0 rt) {neg : K → K → Bool} {τ anorm : K} (hneg : NegOk neg τ) (h0 : 0 ≤ τ * anorm) {i : Nat} (hin : i < n) :
    ∀ k (t : Dg K) ε, t.rv 0 = 0 → t.good = true → Fac m n M (bd i t.W t.rv) t.A t.V ε → ∀ t', svdOne rt neg anorm m n i k t = .ok t' → t'.good = true →
      Fac m n M (bd (i - 1) t'.W t'.rv) t'.A t'.V (ε + k * (2 * (τ * anorm))) ∧ 0 ≤ t'.W i ∧ ∀ l, i < l → t'.W l = t.W l
  | 0, t, ε, _, _, _, t', e, hg' => by
    rw [svdOne] at e; cases e; cases hg'
  | k + 1, t, ε, hr0, hg, h, t', e, hg' => by
    obtain ⟨q, f, es, hq, hk, hf, hf'⟩ := svdSplit_spec (W := t.W) (rv := t.rv) (neg := neg) (anorm := anorm) (by rw [hr0, abs_zero]; exact hneg.zero _) i
    rw [svdOne, es] at e
    simp only [Res.ok_bind] at e
    have nz : ∀ x, neg |x| anorm = false → x ≠ 0 := fun x hx e => by rw [e, abs_zero, hneg.zero] at hx; cases hx
    have kk : (0 : K) ≤ k * (2 * (τ * anorm)) := mul_nonneg (Nat.cast_nonneg k) (by linarith)
    have ek : ε + ((k + 1 : Nat) : K) * (2 * (τ * anorm)) = ε + 2 * (τ * anorm) + k * (2 * (τ * anorm)) := by push_cast; ring
    rw [ek]
    by_cases hqi : q = i
    · rw [if_pos hqi] at e
      cases e
      cases f with
      | true =>
        rw [if_pos rfl, hqi]
        rw [hqi] at hf'
        obtain ⟨f1, f2, f3⟩ := hf' rfl
        obtain ⟨a, b⟩ := svdCancel_fac hrt f1 hin h f2 (nz _ f2) (hneg.le _ _ (abs_nonneg _) f3) hg
        have ev := (svdCancel_frame (m := m) (n := n) rt neg anorm (le_refl i) t).1
        rw [← ev] at a
        obtain ⟨c1, c2, c3⟩ := svdSign_fac hin a
        exact ⟨c1.weaken (by linarith), c2, fun l hl => by rw [c3 l (by omega), b l (by omega)]⟩
      | false =>
        rw [if_neg Bool.false_ne_true]
        have hd := hneg.le _ _ (abs_nonneg _) (hf rfl)
        rw [hqi] at hd
        have h1 : Fac m n M (bd (i - 1) t.W t.rv) t.A t.V (ε + 2 * (τ * anorm)) := by
          by_cases hi : i = 0
          · rw [hi]; rw [hi] at h; exact h.weaken (by linarith)
          · refine Fac.weaken (ε := ε + τ * anorm) (h.drop (a0 := i - 1) (b0 := i) (by omega) hin ?_ ?_) (by linarith)
            · intro a _ b _ hab
              unfold bd
              by_cases b1 : b = a
              · rw [if_pos b1, if_pos b1]
              · rw [if_neg b1, if_neg b1]
                by_cases b2 : b = a + 1 ∧ b ≤ i - 1
                · rw [if_pos b2, if_pos (by omega)]
                · rw [if_neg b2, if_neg (by omega)]
            · unfold bd
              rw [if_neg (by omega), if_pos (by omega), if_neg (by omega), if_neg (by omega), sub_zero]
              exact hd
        obtain ⟨c1, c2, c3⟩ := svdSign_fac hin h1
        exact ⟨c1.weaken (by linarith), c2, fun l hl => c3 l (by omega)⟩
    · rw [if_neg hqi] at e
      have hq : q < i := by omega
      cases f with
      | true =>
        exfalso
        rw [if_pos rfl] at e
        obtain ⟨a, b⟩ := svdCancel_frame (m := m) (n := n) rt neg anorm hq.le t
        rw [decide_eq_false hqi, Bool.and_false] at b
        obtain ⟨a', b'⟩ := svdPass_frame (m := m) (n := n) rt hq (svdCancel rt neg anorm m n i q t) (by rw [a]; exact hr0)
        obtain ⟨t2, e2, -, g2⟩ := svdOne_frame rt hneg anorm m n i k _ a'
        rw [e2] at e
        cases e
        rw [g2 (by rw [b', b])] at hg'
        cases hg'
      | false =>
        rw [if_neg Bool.false_ne_true] at e
        have hd := hneg.le _ _ (abs_nonneg _) (hf rfl)
        have h1 : Fac m n M (fun a b => if b = q ∧ a + 1 = q then 0 else bd i t.W t.rv a b) t.A t.V (ε + 2 * (τ * anorm)) := by
          by_cases hq0 : q = 0
          · refine Fac.weaken (ε := ε) (h.congr fun a _ b _ => ?_) (by linarith)
            rw [if_neg (by omega)]
          · refine Fac.weaken (ε := ε + τ * anorm) (h.drop (a0 := q - 1) (b0 := q) (by omega) (by omega) ?_ ?_) (by linarith)
            · intro a _ b _ hab
              rw [if_neg (by omega)]
            · rw [if_pos (by omega), sub_zero]
              unfold bd
              rw [if_neg (by omega), if_pos (by omega)]
              exact hd
        obtain ⟨p1, p2, p3, p4, -⟩ := svdPass_fac hrt hq hin h1 (fun l a b => nz _ (hk l a b).1) (fun l a b => by
          have := (hk (l + 1) (by omega) (by omega)).2
          rw [Nat.add_sub_cancel] at this
          exact nz _ this)
        obtain ⟨c1, c2, c3⟩ := svdOne_fac hrt hneg h0 hin k _ _ (p3 (Or.inl hr0)) (p2.trans hg) p1 t' e hg'
        exact ⟨c1, c2, fun l hl => by rw [c3 l hl, (p4 l hl).2]⟩

theorem svdDiag_fac {rt : K → K} (hrt : IsRoot0 rt) {neg : K → K → Bool} {τ anorm : K} (hneg : NegOk neg τ) (h0 : 0 ≤ τ * anorm) :
    ∀ i, i ≤ n → ∀ (t : Dg K) ε, t.rv 0 = 0 → ∃ t', svdDiag rt neg anorm m n i t = .ok t' ∧ (t.good = false → t'.good = false) ∧
      (t.good = true → Fac m n M (bd (i - 1) t.W t.rv) t.A t.V ε → t'.good = true →
        Fac m n M (bd 0 t'.W t'.rv) t'.A t'.V (ε + i * (60 * (τ * anorm))) ∧ (∀ k < i, 0 ≤ t'.W k) ∧ ∀ k, i ≤ k → t'.W k = t.W k)
  | 0, _, t, ε, _ => ⟨t, rfl, id, fun _ h _ => ⟨by simpa using h, fun k hk => by omega, fun _ _ => rfl⟩⟩
  | i + 1, hi, t, ε, hr0 => by
    obtain ⟨t1, e1, r1, g1⟩ := svdOne_frame rt hneg anorm m n i 30 t hr0
    obtain ⟨t', e', g', f'⟩ := svdDiag_fac hrt hneg h0 i (by omega) t1 (ε + 60 * (τ * anorm)) r1
    refine ⟨t', by rw [svdDiag, e1]; exact e', fun h => g' (g1 h), fun hg h hg' => ?_⟩
    have hg1 : t1.good = true := by
      by_contra hc
      rw [Bool.not_eq_true] at hc
      rw [g' hc] at hg'
      cases hg'
    obtain ⟨a, b, c⟩ := svdOne_fac hrt hneg h0 (by omega) 30 t ε hr0 hg h t1 e1 hg1
    obtain ⟨a', b', c'⟩ := f' hg1 (a.weaken (by push_cast; linarith)) hg'
    refine ⟨a'.weaken (by push_cast; linarith), fun k hk => ?_, fun k hk => by rw [c' k (by omega), c k (by omega)]⟩
    by_cases hki : k = i
    · rw [hki, c' i le_rfl]; exact b
    · exact b' k (by omega)

/-! ## The whole iteration -/

omit [LinearOrder K] [IsStrictOrderedRing K] in
theorem Iso.of_cols {U : Nat → K} (h : ∀ a < n, ∀ k < n, ∑ r ∈ range m, U (r * n + a) * U (r * n + k) = if a = k then 1 else 0) : Iso m n U := by
  intro c d
  have e : vdot m (app n U c) (app n U d) = ∑ a ∈ range n, ∑ k ∈ range n, c a * d k * ∑ r ∈ range m, U (r * n + a) * U (r * n + k) := by
    have : vdot m (app n U c) (app n U d) = ∑ r ∈ range m, ∑ a ∈ range n, ∑ k ∈ range n, c a * d k * (U (r * n + a) * U (r * n + k)) := by
      refine sum_congr rfl fun r _ => ?_
      change (∑ a ∈ range n, U (r * n + a) * c a) * (∑ k ∈ range n, U (r * n + k) * d k) = _
      rw [sum_mul_sum]
      exact sum_congr rfl fun a _ => sum_congr rfl fun k _ => by ring
    rw [this, sum_comm]
    refine sum_congr rfl fun a _ => ?_
    rw [sum_comm]
    exact sum_congr rfl fun k _ => (mul_sum _ _ _).symm
  rw [e]
  refine sum_congr rfl fun a ha => ?_
  rw [sum_eq_single a]
  · rw [h a (mem_range.1 ha) a (mem_range.1 ha), if_pos rfl, mul_one]
  · intro k hk hka
    rw [h a (mem_range.1 ha) k (mem_range.1 hk), if_neg (Ne.symm hka), mul_zero]
  · intro h'; exact absurd ha h'

theorem Iso.cols {U : Nat → K} (h : Iso m n U) : ∀ a < n, ∀ k < n, ∑ r ∈ range m, U (r * n + a) * U (r * n + k) = if a = k then 1 else 0 := by
  intro a ha k hk
  have := h (vunit a) (vunit k)
  rw [vdot_unit hk] at this
  unfold vunit at this
  rw [show (if a = k then (1 : K) else 0) = if k = a then 1 else 0 by simp only [eq_comm], ← this]
  unfold vdot
  refine sum_congr rfl fun r _ => ?_
  have := app_unit ha U r
  have h2 := app_unit hk U r
  unfold vunit at this h2
  rw [this, h2]

/-- C94: the iteration for the singular values. Let the matrix `X` be the product of `U`, the matrix with the two diagonals `W` and `rv1` and the transpose of `V`,
the columns of `U` and `V` being orthonormal. The iteration never leaves its arrays. If every singular value converges within its 30 passes and no cancellation goes on
beyond one number, then the new columns are orthonormal, no singular value is negative, and the new factors are those of `X`, but for what the test for small numbers
leaves out. -/
theorem C94_iteration {rt : K → K} (hrt : IsRoot0 rt) {neg : K → K → Bool} {τ anorm : K} (hneg : NegOk neg τ) (h0 : 0 ≤ τ * anorm) (m n : Nat) (X : Nat → Nat → K)
    (U V W rv : Nat → K) (hU : ∀ a < n, ∀ k < n, ∑ r ∈ range m, U (r * n + a) * U (r * n + k) = if a = k then 1 else 0)
    (hV : ∀ a < n, ∀ k < n, ∑ r ∈ range n, V (r * n + a) * V (r * n + k) = if a = k then 1 else 0) (hrv : rv 0 = 0)
    (hX : ∀ r < m, ∀ c < n, X r c = ∑ a ∈ range n, ∑ b ∈ range n, U (r * n + a) * (if b = a then W a else if b = a + 1 then rv b else 0) * V (c * n + b)) :
    ∃ t, svdDiag rt neg anorm m n n ⟨U, V, W, rv, true⟩ = .ok t ∧ (t.good = true →
      (∀ a < n, ∀ k < n, ∑ r ∈ range m, t.A (r * n + a) * t.A (r * n + k) = if a = k then 1 else 0) ∧
      (∀ a < n, ∀ k < n, ∑ r ∈ range n, t.V (r * n + a) * t.V (r * n + k) = if a = k then 1 else 0) ∧ (∀ k < n, 0 ≤ t.W k) ∧
      (∀ r < m, ∀ c < n, |X r c - ∑ k ∈ range n, t.A (r * n + k) * t.W k * t.V (c * n + k)| ≤ n * (60 * (τ * anorm))) ∧
      ∀ x y : Nat → K, |∑ r ∈ range m, ∑ c ∈ range n, x r * y c * (X r c - ∑ k ∈ range n, t.A (r * n + k) * t.W k * t.V (c * n + k))| ≤
        n * (60 * (τ * anorm)) * ((∑ r ∈ range m, x r * x r + ∑ c ∈ range n, y c * y c) / 2)) := by
  have key : ∀ (A V : Nat → K) (B : Nat → Nat → K) (x y : Nat → K), bil n B (trv m n A x) (trv n n V y) =
      ∑ r ∈ range m, ∑ c ∈ range n, x r * y c * ∑ a ∈ range n, ∑ b ∈ range n, A (r * n + a) * B a b * V (c * n + b) := by
    intro A V B x y
    have e1 : bil n B (trv m n A x) (trv n n V y) = ∑ a ∈ range n, ∑ r ∈ range m, ∑ c ∈ range n, x r * y c * ∑ b ∈ range n, A (r * n + a) * B a b * V (c * n + b) := by
      unfold bil vdot
      refine sum_congr rfl fun a _ => ?_
      change (∑ r ∈ range m, A (r * n + a) * x r) * (∑ b ∈ range n, B a b * ∑ c ∈ range n, V (c * n + b) * y c) = _
      rw [sum_mul]
      refine sum_congr rfl fun r _ => ?_
      simp only [mul_sum]
      rw [sum_comm]
      exact sum_congr rfl fun c _ => sum_congr rfl fun b _ => by ring
    rw [e1, sum_comm]
    refine sum_congr rfl fun r _ => ?_
    rw [sum_comm]
    exact sum_congr rfl fun c _ => (mul_sum _ _ _).symm
  have hf : Fac m n (fun x y => ∑ r ∈ range m, ∑ c ∈ range n, x r * y c * X r c) (bd (n - 1) W rv) U V 0 := by
    refine ⟨Iso.of_cols hU, Iso.of_cols hV, fun x y => ?_⟩
    rw [key, zero_mul]
    refine le_of_eq (abs_eq_zero.2 (sub_eq_zero.2 (sum_congr rfl fun r hr => sum_congr rfl fun c hc => ?_)))
    rw [hX r (mem_range.1 hr) c (mem_range.1 hc)]
    congr 1
    refine sum_congr rfl fun a _ => sum_congr rfl fun b hb => ?_
    have := mem_range.1 hb
    unfold bd
    by_cases h1 : b = a
    · rw [if_pos h1, if_pos h1]
    · rw [if_neg h1, if_neg h1]
      by_cases h2 : b = a + 1
      · rw [if_pos h2, if_pos (by omega)]
      · rw [if_neg h2, if_neg (by omega)]
  obtain ⟨t, e, -, h⟩ := svdDiag_fac (m := m) (M := fun x y => ∑ r ∈ range m, ∑ c ∈ range n, x r * y c * X r c) hrt hneg h0 n le_rfl ⟨U, V, W, rv, true⟩ 0 hrv
  refine ⟨t, e, fun hg => ?_⟩
  obtain ⟨f, w, -⟩ := h rfl hf hg
  rw [zero_add] at f
  have hb : ∀ x y : Nat → K, |∑ r ∈ range m, ∑ c ∈ range n, x r * y c * (X r c - ∑ k ∈ range n, t.A (r * n + k) * t.W k * t.V (c * n + k))| ≤
      n * (60 * (τ * anorm)) * ((∑ r ∈ range m, x r * x r + ∑ c ∈ range n, y c * y c) / 2) := by
    intro x y
    have := f.e x y
    rw [key] at this
    have e2 : ∀ r c, ∑ a ∈ range n, ∑ b ∈ range n, t.A (r * n + a) * bd 0 t.W t.rv a b * t.V (c * n + b) = ∑ k ∈ range n, t.A (r * n + k) * t.W k * t.V (c * n + k) := by
      intro r c
      refine sum_congr rfl fun a ha => ?_
      rw [sum_eq_single a]
      · unfold bd; rw [if_pos rfl]
      · intro b _ hb; unfold bd; rw [if_neg hb, if_neg (by omega)]; ring
      · intro h; exact absurd ha h
    simp only [e2, ← sum_sub_distrib, ← mul_sub] at this
    exact this
  refine ⟨f.u.cols, f.v.cols, w, fun r hr c hc => ?_, hb⟩
  have := hb (vunit r) (vunit c)
  rw [show ∑ k ∈ range m, vunit r k * vunit r k = (1 : K) from vdot_unit hr (vunit r) |>.trans (if_pos rfl),
    show ∑ k ∈ range n, vunit c k * vunit c k = (1 : K) from vdot_unit hc (vunit c) |>.trans (if_pos rfl), show ((1 : K) + 1) / 2 = 1 by norm_num, mul_one] at this
  have e3 : ∑ r' ∈ range m, ∑ c' ∈ range n, vunit r r' * vunit c c' * (X r' c' - ∑ k ∈ range n, t.A (r' * n + k) * t.W k * t.V (c' * n + k)) =
      X r c - ∑ k ∈ range n, t.A (r * n + k) * t.W k * t.V (c * n + k) := by
    rw [sum_eq_single r, sum_eq_single c]
    · rw [show vunit (K := K) r r = 1 from if_pos rfl, show vunit (K := K) c c = 1 from if_pos rfl]; ring
    · intro b _ hb; rw [show vunit (K := K) c b = 0 from if_neg hb]; ring
    · intro h; exact absurd (mem_range.2 hc) h
    · intro b _ hb; rw [show vunit (K := K) r b = 0 from if_neg hb]; exact sum_eq_zero fun _ _ => by ring
    · intro h; exact absurd (mem_range.2 hr) h
  rw [e3] at this
  exact this

/-! ## The cancellation -/

/-- C94, negation: turning rows keeps the sum of the squares of a matrix. The cancellation, which is to put a zero for the number `rv1[q]` by turning rows, makes the sum of the
squares of the numbers it works on greater whenever it goes on to a second number, so what it leaves is not the matrix it found. -/
theorem C94_cancel_wrong {rt : K → K} (hrt : IsRoot0 rt) (anorm : K) (m n : Nat) {i q : Nat} (hqi : q < i) (t : Dg K) (h1 : t.rv q ≠ 0) (h2 : t.rv (q + 1) ≠ 0) :
    ∑ k ∈ Ico q (i + 1), t.W k ^ 2 + ∑ k ∈ Ico q (i + 1), t.rv k ^ 2 <
      ∑ k ∈ Ico q (i + 1), (svdCancel rt negExact anorm m n i q t).W k ^ 2 + ∑ k ∈ Ico (q + 1) (i + 1), (svdCancel rt negExact anorm m n i q t).rv k ^ 2 := by
  rw [(svdCancel_frame (m := m) (n := n) rt negExact anorm hqi.le t).1, sum_eq_sum_Ico_succ_bot (show q < i + 1 by omega) fun k => t.rv k ^ 2]
  have key : ∀ x : K, negExact |x| anorm = true ↔ x = 0 := fun x => by unfold negExact; simp
  have h := loop_rule (f := fun k (p : K × Dg K) =>
    let F := p.1 * p.2.rv k
    if negExact |F| anorm then p
    else
      let G := p.2.W k
      let w := rt (F * F + G * G)
      (-F / w, { p.2 with W := set p.2.W k w, A := rotCols m n (q - 1) k (-F / w) (G / w) p.2.A }))
    (fun l p => p.2.rv = t.rv ∧ (∀ k, l ≤ k → p.2.W k = t.W k) ∧ (l = q → p.1 = 1) ∧
      (l = q + 1 → p.1 ≠ 0 ∧ ∑ k ∈ Ico q l, p.2.W k ^ 2 = ∑ k ∈ Ico q l, t.W k ^ 2 + t.rv q ^ 2) ∧
      (q + 1 < l → ∑ k ∈ Ico q l, t.W k ^ 2 + t.rv q ^ 2 < ∑ k ∈ Ico q l, p.2.W k ^ 2)) (show q ≤ i + 1 by omega)
    (s := (1, { t with good := t.good && decide (q = i) })) ⟨rfl, fun _ _ => rfl, fun _ => rfl, fun h => by omega, fun h => by omega⟩ (by
    rintro l ⟨S, d⟩ hl hl' ⟨a, b, c, e, f⟩
    dsimp only at a b c e f ⊢
    rw [a, b l le_rfl]
    obtain ⟨F, hF⟩ : ∃ F, F = S * t.rv l := ⟨_, rfl⟩
    rw [← hF]
    obtain ⟨w, hw⟩ : ∃ w, w = rt (F * F + t.W l * t.W l) := ⟨_, rfl⟩
    have hw2 := hyp_sq hrt F (t.W l)
    rw [← hw] at hw2 ⊢
    have top : ∀ g : Nat → K, ∑ k ∈ Ico q (l + 1), g k = ∑ k ∈ Ico q l, g k + g l := fun g => sum_Ico_succ_top hl g
    by_cases hz : F = 0
    · rw [if_pos ((key F).2 hz)]
      have hlq : l ≠ q := fun h => h1 (by rw [← h]; have := c h; rw [this, one_mul] at hF; rw [← hF]; exact hz)
      have hlq' : l ≠ q + 1 := fun h => by
        rw [hz] at hF
        rcases mul_eq_zero.1 hF.symm with h' | h'
        · exact (e h).1 h'
        · exact h2 (by rw [← h]; exact h')
      refine ⟨a, fun k hk => b k (by omega), fun h => by omega, fun h => by omega, fun _ => ?_⟩
      rw [top, top]
      dsimp only
      rw [b l le_rfl]
      linarith [f (by omega)]
    · rw [if_neg fun h => hz ((key F).1 h)]
      dsimp only
      have hw0 : w ≠ 0 := fun h => hz (hyp_zero hrt (hw.symm.trans h)).1
      have low : ∑ k ∈ Ico q l, set d.W l w k ^ 2 = ∑ k ∈ Ico q l, d.W k ^ 2 := sum_congr rfl fun k hk => by
        rw [set_ne _ _ (by have := mem_Ico.1 hk; omega)]
      have hFp : 0 < F * F := mul_self_pos.2 hz
      refine ⟨rfl, fun k hk => by rw [set_ne _ _ (by omega)]; exact b k (by omega), fun h => by omega, fun h => ⟨div_ne_zero (neg_ne_zero.2 hz) hw0, ?_⟩, fun h => ?_⟩
      · obtain rfl : l = q := by omega
        rw [c rfl, one_mul] at hF
        rw [top, top, low, Ico_self, sum_empty, sum_empty, set_same, ← hF]
        linear_combination hw2
      · rw [top, top, low, set_same]
        by_cases hlq : l = q + 1
        · have := (e hlq).2
          nlinarith [this, hw2, hFp]
        · nlinarith [f (by omega), hw2, hFp])
  have h3 := h.2.2.2.2 (by omega)
  unfold svdCancel
  dsimp only at h3 ⊢
  linarith

/-- A matrix that meets the conditions: the first singular value is found by a cancellation, which ends at once. -/
example : ∃ t, svdDiag Real.sqrt negExact 7 2 2 2 ⟨fun p => if p = 0 ∨ p = 3 then 1 else 0, fun p => if p = 0 ∨ p = 3 then 1 else 0,
    fun k => if k = 1 then 4 else 0, fun k => if k = 1 then 3 else 0, true⟩ = .ok t ∧ t.good = true := by
  have e30 : (30 : Nat) = 29 + 1 := rfl
  have s1 : svdSplit (K := ℝ) negExact 7 (fun k => if k = 1 then 4 else 0) (fun k => if k = 1 then 3 else 0) 2 = .ok (1, true) := by
    simp [svdSplit, negExact]
  rw [svdDiag, e30, svdOne, s1]
  simp only [Res.ok_bind, if_true]
  obtain ⟨t1, ht⟩ : ∃ t1 : Dg ℝ, t1 = svdCancel Real.sqrt negExact 7 2 2 1 1 ⟨fun p => if p = 0 ∨ p = 3 then 1 else 0, fun p => if p = 0 ∨ p = 3 then 1 else 0,
    fun k => if k = 1 then 4 else 0, fun k => if k = 1 then 3 else 0, true⟩ := ⟨_, rfl⟩
  rw [← ht]
  obtain ⟨f1, f2⟩ := svdCancel_frame (m := 2) (n := 2) Real.sqrt negExact 7 (le_refl 1) ⟨fun p => if p = 0 ∨ p = 3 then (1 : ℝ) else 0, fun p => if p = 0 ∨ p = 3 then 1 else 0,
    fun k => if k = 1 then 4 else 0, fun k => if k = 1 then 3 else 0, true⟩
  rw [← ht] at f1 f2
  obtain ⟨g1, g2⟩ := svdSign_frame 2 1 t1
  rw [svdDiag, e30, svdOne]
  have s2 : ∀ W : Nat → ℝ, svdSplit negExact 7 W (svdSign 2 1 t1).rv (0 + 1) = .ok (0, false) := fun W => by
    rw [g1, f1]; simp [svdSplit, negExact]
  rw [s2]
  simp only [Res.ok_bind, if_true]
  refine ⟨_, rfl, ?_⟩
  rw [(svdSign_frame _ _ _).2]
  simp only [Bool.false_eq_true, if_false]
  rw [g2, f2]
  rfl

end OP.Lin
