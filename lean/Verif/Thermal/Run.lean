import Verif.Thermal.Step
/-!
# Construction and histories: lemmas
-/
namespace OP.Thermal

open Lin Finset

variable {K : Type} [Field K] [LinearOrder K] [IsStrictOrderedRing K]

/-! ## Specification -/

/-- Arguments a user would call sound; `lay` gives the layer of each element. -/
structure Args.Sound (a : Args K) (lay : Nat → Nat) : Prop where
  /-- linear, quadratic or quartic elements -/
  order : Order a.w
  /-- at least one element, and whole elements only -/
  mesh : a.w < a.n ∧ (a.n - 1) % a.w = 0
  thick : ∀ i, i < a.nl → 0 < a.lh i
  diff : ∀ i, i < a.nl → 0 < a.ld i
  dt : 0 < a.dt
  /-- the elements go down -/
  len : ∀ e, e < a.m → 0 < a.len e
  /-- each element is within a layer -/
  lay : ∀ e, e < a.m → lay e < a.nl ∧ a.top (lay e) ≤ a.nd (e * a.w) ∧ a.nd (e * a.w + a.w) ≤ a.bot (lay e)

/-- The matrix of conduction: for each element its diffusivity over half its length, times the element matrix. -/
def Args.KM (a : Args K) (lay : Nat → Nat) : Nat → Nat → K := asm a.w a.m (fun e => a.ld (lay e) * 2 / a.len e) (ke a.w)
/-- The matrix of the heat stored: for each element half its length, times the element matrix. -/
def Args.FM (a : Args K) : Nat → Nat → K := asm a.w a.m (fun e => a.len e / 2) (fe a.w)

/-- A history of steps, each with the temperatures of the top and of the bottom. -/
def FEM.run (s : FEM K) (h : List (K × K)) : FEM K := h.foldl (fun s t => s.step t.1 t.2) s

omit [LinearOrder K] [IsStrictOrderedRing K] in
theorem Args.n_eq {a : Args K} (h : a.w < a.n ∧ (a.n - 1) % a.w = 0) : a.n = a.m * a.w + 1 := by
  have := Nat.div_add_mod (a.n - 1) a.w
  unfold Args.m
  rw [Nat.mul_comm]
  omega

omit [LinearOrder K] [IsStrictOrderedRing K] in
theorem Args.m_pos {a : Args K} (hw : 0 < a.w) (h : a.w < a.n ∧ (a.n - 1) % a.w = 0) : 0 < a.m :=
  Nat.div_pos (by omega) hw

theorem Args.Sound.within {a : Args K} {lay : Nat → Nat} (h : a.Sound lay) {e : Nat} (he : e < a.m) : a.Within e (lay e) := by
  obtain ⟨h1, h2, h3⟩ := h.lay e he
  have := h.len e he
  unfold Args.len at this
  exact ⟨h1, h2, by linarith, h3⟩

theorem within_unique {a : Args K} (hlh : ∀ i, i < a.nl → 0 < a.lh i) {e l l' : Nat} (h : a.Within e l) (h' : a.Within e l') : l = l' := by
  have hmono : ∀ i l, i < l → l < a.nl → a.bot i ≤ a.top l := by
    intro i l h1 h2
    unfold Args.bot Args.top
    refine add_le_add_right (sum_le_sum_of_subset_of_nonneg (fun x hx => ?_) (fun x hx _ => ?_)) _
    · rw [mem_range] at hx ⊢; omega
    · exact (hlh x (by have := mem_range.1 hx; omega)).le
  obtain ⟨h1, h2, h3, -⟩ := h
  obtain ⟨g1, g2, g3, -⟩ := h'
  rcases Nat.lt_trichotomy l l' with e | e | e
  · have := hmono l l' e g1; linarith
  · exact e
  · have := hmono l' l e h1; linarith

section Rows
omit [LinearOrder K] [IsStrictOrderedRing K]

theorem row_lhs (n : Nat) (dt : K) (Km Fm : Nat → Nat → K) (x : Nat → K) (i : Nat) : row n (lhs dt Km Fm) x i = row n Km x i + 2 / dt * row n Fm x i := by
  unfold row lhs
  rw [mul_sum, ← sum_add_distrib]
  exact sum_congr rfl fun j _ => by ring

theorem row_sub (n : Nat) (M : Nat → Nat → K) (x y : Nat → K) (i : Nat) : row n M (fun j => x j - y j) i = row n M x i - row n M y i := by
  unfold row
  rw [← sum_sub_distrib]
  exact sum_congr rfl fun j _ => by ring

theorem row_add (n : Nat) (M : Nat → Nat → K) (x y : Nat → K) (i : Nat) : row n M (fun j => x j + y j) i = row n M x i + row n M y i := by
  unfold row
  rw [← sum_add_distrib]
  exact sum_congr rfl fun j _ => by ring

theorem row_smul (n : Nat) (M : Nat → Nat → K) (c : K) (x : Nat → K) (i : Nat) : row n M (fun j => c * x j) i = c * row n M x i := by
  unfold row
  rw [mul_sum]
  exact sum_congr rfl fun j _ => by ring

theorem row_congr {n : Nat} (M : Nat → Nat → K) {x y : Nat → K} (h : ∀ j, j < n → x j = y j) (i : Nat) : row n M x i = row n M y i := by
  unfold row
  exact sum_congr rfl fun j hj => by rw [h j (mem_range.1 hj)]

theorem dot_symm {n : Nat} {M : Nat → Nat → K} (hM : ∀ p q, M p q = M q p) (x y : Nat → K) :
    ∑ i ∈ range n, x i * row n M y i = ∑ i ∈ range n, y i * row n M x i := by
  unfold row
  simp only [mul_sum]
  rw [sum_comm]
  exact sum_congr rfl fun i _ => sum_congr rfl fun j _ => by rw [hM]; ring

/-- A sum with nothing at the ends needs the inner rows only. -/
theorem dot_inner {n : Nat} {x f g : Nat → K} (h0 : x 0 = 0) (h1 : x (n - 1) = 0) (h : ∀ i, 0 < i → i + 1 < n → f i = g i) :
    ∑ i ∈ range n, x i * f i = ∑ i ∈ range n, x i * g i := by
  refine sum_congr rfl fun i hi => ?_
  have := mem_range.1 hi
  by_cases e0 : i = 0
  · rw [e0, h0, zero_mul, zero_mul]
  · by_cases e1 : i = n - 1
    · rw [e1, h1, zero_mul, zero_mul]
    · rw [h i (by omega) (by omega)]
end Rows

theorem KM_symm {a : Args K} {lay : Nat → Nat} (hw : Order a.w) (p q : Nat) : a.KM lay p q = a.KM lay q p :=
  asm_symm (fun _ _ h1 h2 => ke_symm hw h1 h2) p q
theorem FM_symm {a : Args K} (hw : Order a.w) (p q : Nat) : a.FM p q = a.FM q p :=
  asm_symm (fun _ _ h1 h2 => fe_symm hw h1 h2) p q

/-! ## The constructor -/

theorem make_ok {rt : K → K} {a : Args K} {s : FEM K} (h : a.make rt = .ok s) :
    Order a.w ∧ (a.w < a.n ∧ (a.n - 1) % a.w = 0) ∧ (∀ i, i < a.nl → 0 < a.lh i) ∧
    ∃ lay, (∀ e, e < a.m → a.Within e (lay e)) ∧ Built rt s (a.KM lay) a.FM ∧
      s.n = a.n ∧ s.w = a.w ∧ s.dt = a.dt ∧ s.nd = a.nd ∧ s.nt = a.nt ∧ s.ng = fun i => 2 * a.nt i / a.dt := by
  unfold Args.make at h
  by_cases h1 : a.n < a.w + 1
  · rw [if_pos h1] at h; cases h
  by_cases h2 : a.w = 0
  · rw [if_neg h1, if_pos h2] at h; cases h
  by_cases h3 : (a.n - 1) % a.w > 0
  · rw [if_neg h1, if_neg h2, if_pos h3] at h; cases h
  by_cases h4 : ∃ i ∈ List.range a.nl, a.lh i ≤ 0
  · rw [if_neg h1, if_neg h2, if_neg h3, if_pos h4] at h; cases h
  rw [if_neg h1, if_neg h2, if_neg h3, if_neg h4, Res.bind_eq_ok] at h
  obtain ⟨t, e1, e2⟩ := h
  dsimp only at e2
  rw [Res.bind_eq_ok] at e2
  obtain ⟨KK, e2, e3⟩ := e2
  have hmesh : a.w < a.n ∧ (a.n - 1) % a.w = 0 := by omega
  have hn := Args.n_eq hmesh
  have hm := Args.m_pos (by omega) hmesh
  obtain ⟨lay, l1, l2, l3⟩ := asm_loop (a := a) (by omega) (m := a.m) (by omega) e1
  have hw : Order a.w := l2 hm
  refine ⟨hw, hmesh, fun i hi => ?_, lay, l1, ?_, ?_⟩
  · by_contra hc
    exact h4 ⟨i, List.mem_range.2 hi, le_of_not_gt hc⟩
  · have hband := C39_band_partial (n := a.n) (w := a.w) (by omega)
    have hA : ∀ p q, InBand a.n a.w p q → loop 0 (bSize a.n a.w) (fun i A => set A i (A i + 2 * t.FF i / a.dt)) t.KK (bIdx a.n a.w p q) = lhs a.dt (a.KM lay) a.FM p q := by
      intro p q hb
      rw [loop_pt (fun i v => v + 2 * t.FF i / a.dt) _ (Nat.zero_le _), if_pos ⟨Nat.zero_le _, hband.1 p q hb⟩, (l3 p q hb).1, (l3 p q hb).2]
      rfl
    obtain ⟨s1, s2, s3⟩ := strip_spec (by omega) (by omega) (loop 0 (bSize a.n a.w) (fun i A => set A i (A i + 2 * t.FF i / a.dt)) t.KK) (n := a.n) (w := a.w)
    cases e3
    refine ⟨by dsimp only; omega, by dsimp only; omega, KM_symm hw, FM_symm hw, fun p q h => asm_off _ _ (Or.inl h), fun p q h => asm_off _ _ (Or.inl h), ?_, ?_, ?_, ?_⟩
    · intro p q hb; exact (l3 p q hb).2
    · intro i hi
      dsimp only at hi ⊢
      rw [s2 i hi, hA 0 i ⟨by omega, by omega, by omega⟩]
    · intro i h1 h2
      dsimp only at h1 h2 ⊢
      rw [s3 i h1 h2]
      by_cases h0 : i = 0
      · rw [if_pos h0, if_pos h0]
      · rw [if_neg h0, if_neg h0, hA i (a.n - 1) ⟨by omega, by omega, by omega⟩]
    · refine ⟨_, e2, fun p q hb => ?_⟩
      dsimp only at hb ⊢
      rw [s1 p q hb]
      unfold cut
      have hb' := hb
      obtain ⟨b1, b2, b3⟩ := hb'
      by_cases hc : p = 0 ∨ q = a.n - 1
      · have hc' : p = 0 ∨ q = 0 ∨ p = a.n - 1 ∨ q = a.n - 1 := by tauto
        rw [if_pos hc, if_pos hc']
      · have hc' : ¬ (p = 0 ∨ q = 0 ∨ p = a.n - 1 ∨ q = a.n - 1) := by omega
        rw [if_neg hc, if_neg hc', hA p q hb]
  · cases e3
    exact ⟨rfl, rfl, rfl, rfl, rfl, rfl⟩

/-- The matrix of a sound mesh is positive definite, so the decomposition succeeds. -/
theorem make_total {rt : K → K} (hrt : IsRoot rt) {a : Args K} {lay : Nat → Nat} (h : a.Sound lay) : ∃ s, a.make rt = .ok s := by
  have hw0 := h.order.pos
  have hn := Args.n_eq h.mesh
  have hm := Args.m_pos hw0 h.mesh
  obtain ⟨m1, m2⟩ := h.mesh
  obtain ⟨t, e1⟩ := asm_loop_ok (a := a) (m := a.m) h.order (fun e he => by have := h.len e he; unfold Args.len at this; linarith)
    (fun e he => ⟨lay e, h.within he⟩) h.thick
  have h4 : ¬ ∃ i ∈ List.range a.nl, a.lh i ≤ 0 := by
    rintro ⟨i, hi, h0⟩
    exact absurd (h.thick i (List.mem_range.1 hi)) (not_lt_of_ge h0)
  unfold Args.make
  rw [if_neg (by omega), if_neg (by omega), if_neg (by omega), if_neg h4]
  rw [show (a.n - 1) / a.w = a.m from rfl, e1, Res.ok_bind]
  dsimp only
  obtain ⟨lay', l1, l2, l3⟩ := asm_loop (a := a) (by omega) (m := a.m) (by omega) e1
  have hband := C39_band_partial (n := a.n) (w := a.w) (by omega)
  have hA : ∀ p q, InBand a.n a.w p q → loop 0 (bSize a.n a.w) (fun i A => set A i (A i + 2 * t.FF i / a.dt)) t.KK (bIdx a.n a.w p q) = lhs a.dt (a.KM lay') a.FM p q := by
    intro p q hb
    rw [loop_pt (fun i v => v + 2 * t.FF i / a.dt) _ (Nat.zero_le _), if_pos ⟨Nat.zero_le _, hband.1 p q hb⟩, (l3 p q hb).1, (l3 p q hb).2]
    rfl
  obtain ⟨s1, -, -⟩ := strip_spec (by omega) (by omega) (loop 0 (bSize a.n a.w) (fun i A => set A i (A i + 2 * t.FF i / a.dt)) t.KK) (n := a.n) (w := a.w)
  generalize strip a.n a.w (loop 0 (bSize a.n a.w) (fun i A => set A i (A i + 2 * t.FF i / a.dt)) t.KK) = st at s1
  have hsym : ∀ p q, lhs a.dt (a.KM lay') a.FM p q = lhs a.dt (a.KM lay') a.FM q p := lhs_symm (KM_symm h.order) (FM_symm h.order)
  have hcs : ∀ i j : Fin a.n, bandSym a.n a.w st.1 i j = cut a.n (lhs a.dt (a.KM lay') a.FM) i j := by
    intro i j
    have hi := i.2
    have hj := j.2
    unfold bandSym
    by_cases hb : max (i : Nat) j ≤ min (i : Nat) j + a.w
    · have hbb : InBand a.n a.w (min (i : Nat) j) (max (i : Nat) j) := ⟨by omega, by omega, by omega⟩
      rw [if_pos hb, s1 _ _ hbb, hA _ _ hbb]
      unfold cut
      rcases Nat.le_total (i : Nat) j with e | e
      · rw [Nat.max_eq_right e, Nat.min_eq_left e]
        by_cases hc : (i : Nat) = 0 ∨ (j : Nat) = a.n - 1
        · have hc' : (i : Nat) = 0 ∨ (j : Nat) = 0 ∨ (i : Nat) = a.n - 1 ∨ (j : Nat) = a.n - 1 := by tauto
          rw [if_pos hc, if_pos hc']
        · have hc' : ¬ ((i : Nat) = 0 ∨ (j : Nat) = 0 ∨ (i : Nat) = a.n - 1 ∨ (j : Nat) = a.n - 1) := by omega
          rw [if_neg hc, if_neg hc']
      · rw [Nat.max_eq_left e, Nat.min_eq_right e]
        by_cases hc : (j : Nat) = 0 ∨ (i : Nat) = a.n - 1
        · have hc' : (i : Nat) = 0 ∨ (j : Nat) = 0 ∨ (i : Nat) = a.n - 1 ∨ (j : Nat) = a.n - 1 := by tauto
          rw [if_pos hc, if_pos hc']
          by_cases hij : (i : Nat) = j
          · rw [if_pos hij, if_pos hij.symm]
          · rw [if_neg hij, if_neg (fun h => hij h.symm)]
        · have hc' : ¬ ((i : Nat) = 0 ∨ (j : Nat) = 0 ∨ (i : Nat) = a.n - 1 ∨ (j : Nat) = a.n - 1) := by omega
          rw [if_neg hc, if_neg hc', hsym]
    · rw [if_neg hb]
      unfold cut
      have hz : lhs a.dt (a.KM lay') a.FM (i : Nat) j = 0 := by
        unfold lhs Args.KM Args.FM
        rw [asm_off _ _ (by omega), asm_off _ _ (by omega)]; simp
      have hij : (i : Nat) ≠ j := by omega
      rw [hz, if_neg hij, ite_self]
  have hpd : PosDefinite (bandSym a.n a.w st.1) := by
    intro x hx
    let y : Nat → K := fun i => if hi : i < a.n then x ⟨i, hi⟩ else 0
    let z : Nat → K := fun i => if i = 0 ∨ i = a.n - 1 then 0 else y i
    have hz0 : z 0 = 0 := by simp [z]
    have hz1 : z (a.n - 1) = 0 := by simp [z]
    have e1 : dotProduct x ((bandSym a.n a.w st.1).mulVec x) = ∑ i ∈ range a.n, y i * row a.n (cut a.n (lhs a.dt (a.KM lay') a.FM)) y i := by
      rw [← Fin.sum_univ_eq_sum_range (fun i => y i * row a.n (cut a.n (lhs a.dt (a.KM lay') a.FM)) y i)]
      unfold dotProduct Matrix.mulVec dotProduct row
      refine sum_congr rfl fun i _ => ?_
      rw [← Fin.sum_univ_eq_sum_range (fun j => cut a.n (lhs a.dt (a.KM lay') a.FM) i j * y j)]
      have hy : ∀ j : Fin a.n, y j = x j := fun j => by simp [y]
      rw [hy]
      congr 1
      exact sum_congr rfl fun j _ => by dsimp only; rw [hcs, hy]
    have e2 : ∑ i ∈ range a.n, y i * row a.n (cut a.n (lhs a.dt (a.KM lay') a.FM)) y i =
        y 0 * y 0 + y (a.n - 1) * y (a.n - 1) + ∑ i ∈ range a.n, z i * row a.n (lhs a.dt (a.KM lay') a.FM) z i := by
      have f1 : ∀ i ∈ range a.n, y i * row a.n (cut a.n (lhs a.dt (a.KM lay') a.FM)) y i =
          (if i = 0 then y 0 * y 0 else 0) + (if i = a.n - 1 then y (a.n - 1) * y (a.n - 1) else 0) + z i * row a.n (lhs a.dt (a.KM lay') a.FM) z i := by
        intro i hi
        have hi := mem_range.1 hi
        rw [cut_row (by omega) _ _ hi]
        by_cases h0 : i = 0
        · subst h0; rw [if_pos (Or.inl rfl), if_pos rfl, if_neg (by omega), hz0]; ring
        by_cases h1 : i = a.n - 1
        · rw [if_pos (Or.inr h1), if_neg h0, if_pos h1, h1, hz1]; ring
        · rw [if_neg (by tauto), if_neg h0, if_neg h1]
          have hzi : z i = y i := by simp [z, h0, h1]
          have hzr : row a.n (lhs a.dt (a.KM lay') a.FM) z i = row a.n (lhs a.dt (a.KM lay') a.FM) y i - lhs a.dt (a.KM lay') a.FM i 0 * y 0 -
              lhs a.dt (a.KM lay') a.FM i (a.n - 1) * y (a.n - 1) := by
            have g1 := cut_row (n := a.n) (by omega) (lhs a.dt (a.KM lay') a.FM) z hi
            rw [if_neg (by tauto), hz0, hz1] at g1
            have g2 := cut_row (n := a.n) (by omega) (lhs a.dt (a.KM lay') a.FM) y hi
            rw [if_neg (by tauto)] at g2
            have g3 : row a.n (cut a.n (lhs a.dt (a.KM lay') a.FM)) z i = row a.n (cut a.n (lhs a.dt (a.KM lay') a.FM)) y i := by
              unfold row
              refine sum_congr rfl fun j _ => ?_
              by_cases hj : j = 0 ∨ j = a.n - 1
              · have : cut a.n (lhs a.dt (a.KM lay') a.FM) i j = 0 := by
                  unfold cut; rw [if_pos (by tauto), if_neg (by omega)]
                rw [this, zero_mul, zero_mul]
              · have : z j = y j := if_neg hj
                rw [this]
            linear_combination -g1 + g2 + g3
          rw [hzi, hzr]; ring
      rw [sum_congr rfl f1, sum_add_distrib, sum_add_distrib, sum_ite_eq' (range a.n) 0 (fun _ => y 0 * y 0),
        sum_ite_eq' (range a.n) (a.n - 1) (fun _ => y (a.n - 1) * y (a.n - 1)), if_pos (mem_range.2 (by omega)), if_pos (mem_range.2 (by omega))]
    have e3 : ∑ i ∈ range a.n, z i * row a.n (lhs a.dt (a.KM lay') a.FM) z i =
        ∑ i ∈ range a.n, z i * row a.n (a.KM lay') z i + 2 / a.dt * ∑ i ∈ range a.n, z i * row a.n a.FM z i := by
      rw [mul_sum, ← sum_add_distrib]
      exact sum_congr rfl fun i _ => by rw [row_lhs]; ring
    have hdt := h.dt
    have hcK : ∀ e, e < a.m → 0 ≤ a.ld (lay' e) * 2 / a.len e := fun e he => by
      have h1 := h.diff _ (l1 e he).1
      have h2 := h.len e he
      positivity
    have hKn := K_nonneg (w := a.w) (m := a.m) (n := a.n) h.order (by omega) hcK z
    have hcF : ∀ e, e < a.m → 0 < a.len e / 2 := fun e he => by have := h.len e he; positivity
    have hFn := F_nonneg (w := a.w) (m := a.m) (n := a.n) h.order (by omega) (fun e he => (hcF e he).le) z
    rw [e1, e2, e3]
    have hF2 : 0 ≤ 2 / a.dt * ∑ i ∈ range a.n, z i * row a.n a.FM z i := mul_nonneg (by positivity) hFn
    have hy0 := mul_self_nonneg (y 0)
    have hy1 := mul_self_nonneg (y (a.n - 1))
    have hKn' : 0 ≤ ∑ i ∈ range a.n, z i * row a.n (a.KM lay') z i := hKn
    refine lt_of_le_of_ne (by linarith) (fun he => hx ?_)
    have g0 : y 0 * y 0 = 0 := by linarith
    have g1 : y (a.n - 1) * y (a.n - 1) = 0 := by linarith
    have g2 : 2 / a.dt * ∑ i ∈ range a.n, z i * row a.n a.FM z i = 0 := by linarith
    have g3 : ∑ i ∈ range a.n, z i * row a.n a.FM z i = 0 := by
      rcases mul_eq_zero.1 g2 with h | h
      · exact absurd h (by positivity)
      · exact h
    have g4 := F_pos h.order hm hn hcF z g3
    funext i
    have hyi : y i = x i := by simp [y]
    rw [← hyi]
    show y i = 0
    by_cases h0 : (i : Nat) = 0
    · rw [h0]; exact mul_self_eq_zero.1 g0
    by_cases h1 : (i : Nat) = a.n - 1
    · rw [h1]; exact mul_self_eq_zero.1 g1
    have := g4 i i.2
    have hzi : z i = y i := if_neg (by tauto)
    rwa [hzi] at this
  obtain ⟨KK, hKK⟩ := (C42_decmp_chol_band_partial hrt (by omega : a.w ≤ a.n) st.1).1.2 hpd
  rw [hKK, Res.ok_bind]
  exact ⟨_, rfl⟩

/-! ## Histories -/

theorem Built.run {rt : K → K} {s : FEM K} {Km Fm : Nat → Nat → K} (h : Built rt s Km Fm) : ∀ (hist : List (K × K)), Built rt (s.run hist) Km Fm
  | [] => h
  | t :: hist => Built.run (h.step t.1 t.2) hist

omit [LinearOrder K] [IsStrictOrderedRing K] in
theorem run_const (s : FEM K) (hist : List (K × K)) : (s.run hist).n = s.n ∧ (s.run hist).w = s.w ∧ (s.run hist).dt = s.dt ∧ (s.run hist).nd = s.nd := by
  induction hist generalizing s with
  | nil => exact ⟨rfl, rfl, rfl, rfl⟩
  | cons t hist ih => exact ih (s.step t.1 t.2)

omit [LinearOrder K] [IsStrictOrderedRing K] in
theorem run_snoc (s : FEM K) (hist : List (K × K)) (t : K × K) : s.run (hist ++ [t]) = (s.run hist).step t.1 t.2 := by
  unfold FEM.run; rw [List.foldl_append]; rfl

/-- The inner equations and the ends determine the temperatures. -/
theorem lhs_unique {a : Args K} {lay : Nat → Nat} (h : a.Sound lay) {x y : Nat → K} (h0 : x 0 = y 0) (h1 : x (a.n - 1) = y (a.n - 1))
    (he : ∀ i, 0 < i → i + 1 < a.n → row a.n (lhs a.dt (a.KM lay) a.FM) x i = row a.n (lhs a.dt (a.KM lay) a.FM) y i) {i : Nat} (hi : i < a.n) : x i = y i := by
  have hw0 := h.order.pos
  have hn := Args.n_eq h.mesh
  have hm := Args.m_pos hw0 h.mesh
  have hdt := h.dt
  have hcK : ∀ e, e < a.m → 0 ≤ a.ld (lay e) * 2 / a.len e := fun e he => by
    have h1 := h.diff _ (h.lay e he).1
    have h2 := h.len e he
    positivity
  have hcF : ∀ e, e < a.m → 0 < a.len e / 2 := fun e he => by have := h.len e he; positivity
  have e1 : ∑ i ∈ range a.n, (x i - y i) * row a.n (lhs a.dt (a.KM lay) a.FM) (fun j => x j - y j) i = 0 := by
    rw [dot_inner (x := fun i => x i - y i) (g := fun _ => 0) (by simp [h0]) (by simp [h1])]
    · simp
    · intro i h1 h2; rw [row_sub, he i h1 h2, sub_self]
  have e2 : ∑ i ∈ range a.n, (x i - y i) * row a.n (lhs a.dt (a.KM lay) a.FM) (fun j => x j - y j) i =
      ∑ i ∈ range a.n, (x i - y i) * row a.n (a.KM lay) (fun j => x j - y j) i + 2 / a.dt * ∑ i ∈ range a.n, (x i - y i) * row a.n a.FM (fun j => x j - y j) i := by
    rw [mul_sum, ← sum_add_distrib]
    exact sum_congr rfl fun i _ => by rw [row_lhs]; ring
  have hKn : 0 ≤ ∑ i ∈ range a.n, (x i - y i) * row a.n (a.KM lay) (fun j => x j - y j) i := K_nonneg (w := a.w) (m := a.m) (n := a.n) h.order (by omega) hcK (fun j => x j - y j)
  have hFn : 0 ≤ ∑ i ∈ range a.n, (x i - y i) * row a.n a.FM (fun j => x j - y j) i := F_nonneg (w := a.w) (m := a.m) (n := a.n) h.order (by omega) (fun e he => (hcF e he).le) (fun j => x j - y j)
  have hF2 : 0 ≤ 2 / a.dt * ∑ i ∈ range a.n, (x i - y i) * row a.n a.FM (fun j => x j - y j) i := mul_nonneg (by positivity) hFn
  have g2 : 2 / a.dt * ∑ i ∈ range a.n, (x i - y i) * row a.n a.FM (fun j => x j - y j) i = 0 := by linarith
  have g3 : ∑ i ∈ range a.n, (x i - y i) * row a.n a.FM (fun j => x j - y j) i = 0 := by
    rcases mul_eq_zero.1 g2 with h | h
    · exact absurd h (by positivity)
    · exact h
  have := F_pos h.order hm hn hcF (fun j => x j - y j) g3 i hi
  exact sub_eq_zero.1 this

/-- The constructed object is that of any assignment of layers that fits. -/
theorem make_sound {rt : K → K} {a : Args K} {lay : Nat → Nat} (h : a.Sound lay) {s : FEM K} (hs : a.make rt = .ok s) :
    Built rt s (a.KM lay) a.FM ∧ s.n = a.n ∧ s.w = a.w ∧ s.dt = a.dt ∧ s.nd = a.nd ∧ s.nt = a.nt ∧ s.ng = fun i => 2 * a.nt i / a.dt := by
  obtain ⟨-, -, -, lay', l1, l2, l3⟩ := make_ok hs
  have : a.KM lay' = a.KM lay := by
    funext p q
    unfold Args.KM asm
    refine sum_congr rfl fun e he => ?_
    dsimp only
    rw [within_unique h.thick (l1 e (mem_range.1 he)) (h.within (mem_range.1 he))]
  rw [this] at l2
  exact ⟨l2, l3⟩

end OP.Thermal
