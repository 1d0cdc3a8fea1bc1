import Verif.Pave.Stopping
import Mathlib.Tactic.Linarith
import Mathlib.Tactic.Ring
import Mathlib.Tactic.FieldSimp
import Mathlib.Tactic.Positivity
import Mathlib.Analysis.SpecialFunctions.Trigonometric.Deriv
/-!
# C116: where the integrals stop
-/
namespace OP.Pave.Stopping

/-! ## The search between two roots -/

/-- The point that is tried: strictly between two points with values of different signs. -/
theorem trial {ma mb ya yb : ℝ} (hm : ma < mb) (hy : ya * yb < 0) :
    ya - yb ≠ 0 ∧ ma - (ma - mb) * ya / (ya - yb) = ma + (mb - ma) * (|ya| / (|ya| + |yb|)) ∧ 0 < |ya| ∧ 0 < |yb| := by
  have ha : ya ≠ 0 := by
    rintro rfl
    simp at hy
  have hb : yb ≠ 0 := by
    rintro rfl
    simp at hy
  rcases lt_or_gt_of_ne ha with ha' | ha'
  · have hb' : 0 < yb := by nlinarith
    refine ⟨by linarith, ?_, abs_pos.2 ha, abs_pos.2 hb⟩
    rw [abs_of_neg ha', abs_of_pos hb']
    have h1 : ya - yb ≠ 0 := by linarith
    have h2 : -ya + yb ≠ 0 := by linarith
    field_simp
    ring
  · have hb' : yb < 0 := by nlinarith
    refine ⟨by linarith, ?_, abs_pos.2 ha, abs_pos.2 hb⟩
    rw [abs_of_pos ha', abs_of_neg hb']
    have h1 : ya - yb ≠ 0 := by linarith
    have h2 : ya + -yb ≠ 0 := by linarith
    field_simp
    ring

theorem between {ma mb p q : ℝ} (hm : ma < mb) (hp : 0 < p) (hq : 0 < q) :
    ma < ma + (mb - ma) * (p / (p + q)) ∧ ma + (mb - ma) * (p / (p + q)) < mb := by
  have h1 : 0 < p / (p + q) := by positivity
  have h2 : p / (p + q) < 1 := by rw [div_lt_one (by positivity)]; linarith
  constructor
  · have := mul_pos (sub_pos.2 hm) h1
    linarith
  · have := mul_lt_mul_of_pos_left h2 (sub_pos.2 hm)
    linarith

/-- One round with different signs: it ends at a point strictly between, or goes on with different signs at the ends of a
part. -/
theorem refineLoop_step {f : ℝ → ℝ} {eps : ℝ} (he : 0 ≤ eps) (fuel : Nat) {ma mb : ℝ} (hm : ma < mb)
    (hy : f ma * f mb < 0) :
    ∃ m0, m0 = ma + (mb - ma) * (|f ma| / (|f ma| + |f mb|)) ∧ ma < m0 ∧ m0 < mb ∧
      ((|f m0| ≤ eps ∧ refineLoop f eps (fuel + 1) ma mb (f ma) (f mb) = some (some m0)) ∨
        (eps < |f m0| ∧ f m0 * f mb < 0 ∧
          refineLoop f eps (fuel + 1) ma mb (f ma) (f mb) = refineLoop f eps fuel m0 mb (f m0) (f mb)) ∨
        (eps < |f m0| ∧ f ma * f m0 < 0 ∧
          refineLoop f eps (fuel + 1) ma mb (f ma) (f mb) = refineLoop f eps fuel ma m0 (f ma) (f m0))) := by
  obtain ⟨h1, h2, h3, h4⟩ := trial hm hy
  obtain ⟨b1, b2⟩ := between hm h3 h4
  refine ⟨_, rfl, b1, b2, ?_⟩
  conv in refineLoop f eps (fuel + 1) ma mb (f ma) (f mb) => unfold refineLoop
  conv in refineLoop f eps (fuel + 1) ma mb (f ma) (f mb) => unfold refineLoop
  conv in refineLoop f eps (fuel + 1) ma mb (f ma) (f mb) => unfold refineLoop
  rw [if_neg h1]
  simp only
  rw [h2]
  generalize ma + (mb - ma) * (|f ma| / (|f ma| + |f mb|)) = m0 at b1 b2
  rw [if_neg (show ¬ (ma = m0 ∨ mb = m0) by rintro (h | h) <;> linarith)]
  by_cases hs : f mb * f m0 < 0
  · simp only [if_pos hs]
    by_cases hc : |f m0| > eps
    · right; left
      refine ⟨hc, by linarith, ?_⟩
      rw [if_pos hc]
      simp
    · left
      exact ⟨not_lt.1 hc, if_neg hc⟩
  · simp only [if_neg hs, if_neg (show ¬ ma = m0 from b1.ne)]
    by_cases hc : |f m0| > eps
    · right; right
      refine ⟨hc, ?_, if_pos hc⟩
      have h0 : f m0 ≠ 0 := by
        intro h
        rw [h, abs_zero] at hc
        linarith
      have hs' : 0 < f mb * f m0 := lt_of_le_of_ne (not_lt.1 hs) (mul_ne_zero (abs_pos.1 h4) h0).symm
      by_contra hcon
      have h5 : 0 ≤ f ma * f m0 := not_lt.1 hcon
      have h6 : 0 < f mb * f mb := mul_self_pos.2 (abs_pos.1 h4)
      have h7 : 0 < f m0 * f m0 := mul_self_pos.2 h0
      nlinarith [mul_nonneg h5 hs'.le, mul_pos (neg_pos.2 hy) h7]
    · left
      exact ⟨not_lt.1 hc, if_neg hc⟩

/-- **C116** With different signs at both ends, the result is strictly between them, and the function is as small there as
asked. -/
theorem C116_refine {f : ℝ → ℝ} {eps : ℝ} (he : 0 ≤ eps) : ∀ {fuel : Nat} {ma mb : ℝ} {x : Option ℝ}, ma < mb →
    f ma * f mb < 0 → refine f eps fuel ma mb = some x → ∃ m, x = some m ∧ ma < m ∧ m < mb ∧ |f m| ≤ eps := by
  intro fuel
  induction fuel with
  | zero => intro ma mb x _ _ h; cases h
  | succ fuel ih =>
    intro ma mb x hm hy h
    obtain ⟨m0, -, b1, b2, hcase⟩ := refineLoop_step he fuel hm hy
    unfold refine at h
    rcases hcase with ⟨h1, h2⟩ | ⟨h1, h2, h3⟩ | ⟨h1, h2, h3⟩
    · rw [h2] at h
      simp only [Option.some.injEq] at h
      exact ⟨m0, h.symm, b1, b2, h1⟩
    · rw [h3] at h
      obtain ⟨m, e1, e2, e3, e4⟩ := ih b2 h2 h
      exact ⟨m, e1, by linarith, e3, e4⟩
    · rw [h3] at h
      obtain ⟨m, e1, e2, e3, e4⟩ := ih b1 h2 h
      exact ⟨m, e1, e2, by linarith, e4⟩

/-- **C116** For a continuous function the search ends: as long as it goes on the values at both ends stay away from zero,
so the ends stay apart and each round takes away a part of the interval that is not smaller than a fixed length. -/
theorem C116_refine_ends {f : ℝ → ℝ} {eps : ℝ} (he : 0 < eps) {ma mb : ℝ} (hf : ContinuousOn f (Set.Icc ma mb)) (hm : ma < mb)
    (hy : f ma * f mb < 0) : ∃ fuel m, refine f eps fuel ma mb = some (some m) := by
  obtain ⟨-, -, h3, h4⟩ := trial hm hy
  obtain ⟨M, hM⟩ : ∃ M, ∀ x ∈ Set.Icc ma mb, |f x| ≤ M := by
    obtain ⟨M, hM⟩ := isCompact_Icc.exists_bound_of_continuousOn hf
    exact ⟨M, fun x hx => by simpa [Real.norm_eq_abs] using hM x hx⟩
  obtain ⟨d, hd, hd1, hd2, hd3⟩ : ∃ d > 0, d ≤ eps ∧ d ≤ |f ma| ∧ d ≤ |f mb| :=
    ⟨min eps (min |f ma| |f mb|), lt_min he (lt_min h3 h4), min_le_left _ _, (min_le_right _ _).trans (min_le_left _ _),
      (min_le_right _ _).trans (min_le_right _ _)⟩
  have hMd : d ≤ M := hd2.trans (hM ma ⟨le_refl _, hm.le⟩)
  have huc := isCompact_Icc.uniformContinuousOn_of_continuous hf
  rw [Metric.uniformContinuousOn_iff] at huc
  obtain ⟨eta, heta, hu⟩ := huc d hd
  have apart : ∀ x ∈ Set.Icc ma mb, ∀ y ∈ Set.Icc ma mb, d ≤ |f x| → d ≤ |f y| → f x * f y < 0 → x < y → eta ≤ y - x := by
    intro x hx y hy' h1 h2 hxy hlt
    by_contra hc
    have := hu x hx y hy' (by rw [Real.dist_eq, abs_sub_comm, abs_of_pos (by linarith)]; linarith)
    rw [Real.dist_eq] at this
    have h5 : |f x| ≤ |f x - f y| := by
      rcases le_total 0 (f x) with hx0 | hx0
      · rw [abs_of_nonneg hx0]
        have : f y ≤ 0 := by nlinarith
        exact le_trans (by linarith) (le_abs_self _)
      · rw [abs_of_nonpos hx0]
        have : 0 ≤ f y := by nlinarith
        exact le_trans (by linarith) (neg_le_abs _)
    linarith
  have hk : 0 < eta * (d / (2 * M)) := by
    have : 0 < M := lt_of_lt_of_le hd hMd
    positivity
  have key : ∀ n : Nat, ∀ x y, ma ≤ x → y ≤ mb → x < y → d ≤ |f x| → d ≤ |f y| → f x * f y < 0 →
      y - x ≤ n * (eta * (d / (2 * M))) → ∃ m, refine f eps (n + 1) x y = some (some m) := by
    intro n
    induction n with
    | zero =>
      intro x y _ _ hxy _ _ _ h
      simp at h
      linarith
    | succ n ih =>
      intro x y hx hy' hxy h1 h2 hs hlen
      have hxI : x ∈ Set.Icc ma mb := ⟨hx, by linarith⟩
      have hyI : y ∈ Set.Icc ma mb := ⟨by linarith, hy'⟩
      have hap := apart x hxI y hyI h1 h2 hs hxy
      have frac : ∀ p q, d ≤ p → p ≤ M → d ≤ q → q ≤ M → d / (2 * M) ≤ p / (p + q) := by
        intro p q p1 p2 q1 q2
        rw [div_le_div_iff₀ (by linarith) (by linarith)]
        nlinarith
      obtain ⟨m0, hm0, b1, b2, hcase⟩ := refineLoop_step he.le (n + 1) hxy hs
      have f1 := frac _ _ h1 (hM x hxI) h2 (hM y hyI)
      have f2 := frac _ _ h2 (hM y hyI) h1 (hM x hxI)
      have hpos1 : 0 < |f x| + |f y| := by linarith
      have g1 : eta * (d / (2 * M)) ≤ m0 - x := by
        rw [hm0]
        have : eta * (d / (2 * M)) ≤ (y - x) * (|f x| / (|f x| + |f y|)) :=
          mul_le_mul hap f1 (by have : 0 < M := lt_of_lt_of_le hd hMd; positivity) (by linarith)
        linarith
      have g2 : eta * (d / (2 * M)) ≤ y - m0 := by
        rw [hm0]
        have : eta * (d / (2 * M)) ≤ (y - x) * (|f y| / (|f y| + |f x|)) :=
          mul_le_mul hap f2 (by have : 0 < M := lt_of_lt_of_le hd hMd; positivity) (by linarith)
        have e : |f y| / (|f y| + |f x|) = 1 - |f x| / (|f x| + |f y|) := by
          rw [add_comm (|f y|)]
          field_simp
          ring
        rw [e] at this
        linarith
      push_cast at hlen
      unfold refine
      rcases hcase with ⟨_, e⟩ | ⟨e1, e2, e3⟩ | ⟨e1, e2, e3⟩
      · exact ⟨m0, e⟩
      · rw [e3]
        exact ih m0 y (by linarith) hy' b2 (by linarith) h2 e2 (by linarith)
      · rw [e3]
        exact ih x m0 hx (by linarith) b1 h1 (by linarith) e2 (by linarith)
  obtain ⟨n, hn⟩ := exists_nat_ge ((mb - ma) / (eta * (d / (2 * M))))
  obtain ⟨m, h⟩ := key n ma mb (le_refl _) (le_refl _) hm hd2 hd3 hy (by rwa [div_le_iff₀ hk] at hn)
  exact ⟨n + 1, m, h⟩

/-- **C116** With the same value at both ends no number is found, and with the same sign the first point that is tried is
outside: the search relies on a change of sign that it does not check. -/
theorem C116_refine_wrong (f : ℝ → ℝ) (eps : ℝ) (fuel : Nat) {ma mb : ℝ} (hm : ma < mb) :
    (f ma = f mb → refine f eps (fuel + 1) ma mb = some none) ∧
    (0 < f ma * f mb → f ma ≠ f mb → ma - (ma - mb) * f ma / (f ma - f mb) < ma ∨ mb < ma - (ma - mb) * f ma / (f ma - f mb)) := by
  constructor
  · intro h
    unfold refine refineLoop
    rw [if_pos (by rw [h, sub_self])]
  · intro h hne
    have hd : f ma - f mb ≠ 0 := sub_ne_zero.2 hne
    have e1 : ma - (ma - mb) * f ma / (f ma - f mb) - ma = (mb - ma) * (f ma / (f ma - f mb)) := by
      field_simp
      ring
    have e2 : ma - (ma - mb) * f ma / (f ma - f mb) - mb = (mb - ma) * (f mb / (f ma - f mb)) := by
      field_simp
      ring
    have hp : 0 < (f ma / (f ma - f mb)) * (f mb / (f ma - f mb)) := by
      rw [div_mul_div_comm]
      exact div_pos h (mul_self_pos.2 hd)
    have hb : 0 < mb - ma := by linarith
    rcases lt_or_ge (f ma / (f ma - f mb)) 0 with hc | hc
    · left
      nlinarith [mul_neg_of_pos_of_neg hb hc]
    · right
      have : 0 < f mb / (f ma - f mb) := by
        by_contra hcon
        nlinarith [mul_nonneg hc (sub_nonneg.2 (not_lt.1 hcon))]
      nlinarith [mul_pos hb this]

/-- An interval with different signs. -/
example : ∃ fuel m, refine (fun x => x) (1 / 10) fuel (-1) 2 = some (some m) :=
  C116_refine_ends (by norm_num) continuousOn_id (by norm_num) (by norm_num)

/-- Two ends with the same value, and two with the same sign. -/
example : refine (fun x => x * x) (1 / 10) 1 (-1) 1 = some none ∧
    ((-1 : ℝ) - (-1 - 2) * 1 / (1 - 4) < -1 ∨ (2 : ℝ) < -1 - (-1 - 2) * 1 / (1 - 4)) := by
  refine ⟨(C116_refine_wrong (fun x => x * x) (1 / 10) 0 (show (-1 : ℝ) < 1 by norm_num)).1 (by norm_num), ?_⟩
  have := (C116_refine_wrong (fun x => x * x) (1 / 10) 0 (show (-1 : ℝ) < 2 by norm_num)).2 (by norm_num) (by norm_num)
  norm_num at this ⊢

/-! ## The stopping points -/

/-- `k` is the last index from zero to `n` for which `c` fails, or zero. -/
def LastNot (c : Nat → Prop) (n k : Nat) : Prop := k ≤ n ∧ (∀ i, k < i → i ≤ n → c i) ∧ (0 < k → ¬ c k)

theorem back_spec (c : Nat → Prop) [DecidablePred c] : ∀ n, LastNot c n (back c n) := by
  intro n
  induction n with
  | zero => exact ⟨le_refl _, fun i h1 h2 => by simp only [back] at h1; omega, fun h => by simp [back] at h⟩
  | succ n ih =>
    unfold back
    by_cases h : c (n + 1)
    · rw [if_pos h]
      refine ⟨by have := ih.1; omega, fun i h1 h2 => ?_, ih.2.2⟩
      rcases Nat.lt_or_ge n i with hi | hi
      · rw [show i = n + 1 by omega]; exact h
      · exact ih.2.1 i h1 hi
    · rw [if_neg h]
      exact ⟨le_refl _, fun i h1 h2 => by omega, fun _ => h⟩

theorem LastNot.unique {c : Nat → Prop} {n j k : Nat} (hj : LastNot c n j) (hk : LastNot c n k) : j = k := by
  rcases Nat.lt_trichotomy j k with h | h | h
  · exact absurd (hj.2.1 k h hk.1) (hk.2.2 (by omega))
  · exact h
  · exact absurd (hk.2.1 j h hj.1) (hj.2.2 (by omega))

theorem back_congr {c d : Nat → Prop} [DecidablePred c] [DecidablePred d] {n : Nat} (h : ∀ i ≤ n, (c i ↔ d i)) :
    back c n = back d n := by
  have hc := back_spec c n
  refine LastNot.unique hc ⟨(back_spec d n).1, fun i h1 h2 => (h i h2).2 ((back_spec d n).2.1 i h1 h2), fun hp hcon => ?_⟩
  exact (back_spec d n).2.2 hp ((h _ (back_spec d n).1).1 hcon)

/-- **C116** Only the entries up to `nbz` are used. -/
theorem C116_table {T T' : Tables} {nbz : Nat} (h : ∀ i ≤ nbz, T.j0r i = T'.j0r i ∧ T.j1r i = T'.j1r i ∧ T.j0m i = T'.j0m i ∧
    T.j0p i = T'.j0p i) (eps : ℝ) (fuel : Nat) (a r : ℝ) :
    stoppingpoints eps fuel T nbz a r = stoppingpoints eps fuel T' nbz a r := by
  classical
  obtain ⟨n1, n2, -, -⟩ := h nbz (le_refl _)
  have hg : guess T nbz a r = guess T' nbz a r := by
    unfold guess
    simp only [n1, n2]
    have k0 : ∀ x, T.j0r (back (fun ib => T.j0r ib > x) nbz) = T'.j0r (back (fun ib => T'.j0r ib > x) nbz) := by
      intro x
      rw [back_congr (d := fun ib => T'.j0r ib > x) (fun i hi => by rw [(h i hi).1])]
      exact (h _ (back_spec _ _).1).1
    have k1 : ∀ x, T.j1r (back (fun ib => T.j1r ib > x) nbz) = T'.j1r (back (fun ib => T'.j1r ib > x) nbz) := by
      intro x
      rw [back_congr (d := fun ib => T'.j1r ib > x) (fun i hi => by rw [(h i hi).2.1])]
      exact (h _ (back_spec _ _).1).2.1
    have k2 : ∀ x, T.j0m (back (fun ib => T.j0m ib > x) nbz) = T'.j0m (back (fun ib => T'.j0m ib > x) nbz) := by
      intro x
      rw [back_congr (d := fun ib => T'.j0m ib > x) (fun i hi => by rw [(h i hi).2.2.1])]
      exact (h _ (back_spec _ _).1).2.2.1
    have k3 : ∀ x, T.j0p (back (fun ib => T.j0p ib > x) nbz) = T'.j0p (back (fun ib => T'.j0p ib > x) nbz) := by
      intro x
      rw [back_congr (d := fun ib => T'.j0p ib > x) (fun i hi => by rw [(h i hi).2.2.2])]
      exact (h _ (back_spec _ _).1).2.2.2
    simp only [k0, k1, k2, k3]
  unfold stoppingpoints
  simp only [n1, n2, hg]
  have b1 : ∀ x, back (fun ib => T.j1r ib ≥ x) nbz = back (fun ib => T'.j1r ib ≥ x) nbz := fun x =>
    back_congr (fun i hi => by rw [(h i hi).2.1])
  have b0 : ∀ x, back (fun ib => T.j0r ib / (r / a) ≥ x) nbz = back (fun ib => T'.j0r ib / (r / a) ≥ x) nbz := fun x =>
    back_congr (fun i hi => by rw [(h i hi).1])
  have b2 : ∀ x, back (fun ib => T.j1r ib / (r / a) ≥ x) nbz = back (fun ib => T'.j1r ib / (r / a) ≥ x) nbz := fun x =>
    back_congr (fun i hi => by rw [(h i hi).2.1])
  simp only [b1, b0, b2]
  have r1 : ∀ (f : ℝ → ℝ) (c : Nat → Prop) [DecidablePred c] (q v : ℝ),
      (if back c nbz = nbz then some (some v) else refine f eps fuel (T.j1r (back c nbz) / q) (T.j1r (back c nbz + 1) / q)) =
      (if back c nbz = nbz then some (some v) else refine f eps fuel (T'.j1r (back c nbz) / q) (T'.j1r (back c nbz + 1) / q)) := by
    intro f c _ q v
    have hb := (back_spec c nbz).1
    by_cases hc : back c nbz = nbz
    · rw [if_pos hc, if_pos hc]
    · rw [if_neg hc, if_neg hc, (h _ hb).2.1, (h (back c nbz + 1) (by omega)).2.1]
  have r0 : ∀ (f : ℝ → ℝ) (c : Nat → Prop) [DecidablePred c] (q v : ℝ),
      (if back c nbz = nbz then some (some v) else refine f eps fuel (T.j0r (back c nbz) / q) (T.j0r (back c nbz + 1) / q)) =
      (if back c nbz = nbz then some (some v) else refine f eps fuel (T'.j0r (back c nbz) / q) (T'.j0r (back c nbz + 1) / q)) := by
    intro f c _ q v
    have hb := (back_spec c nbz).1
    by_cases hc : back c nbz = nbz
    · rw [if_pos hc, if_pos hc]
    · rw [if_neg hc, if_neg hc, (h _ hb).1, (h (back c nbz + 1) (by omega)).1]
  simp only [r1, r0]

/-- **C116** Below the centre of the load and below its edge the last root is used. -/
theorem C116_centre_edge (eps : ℝ) (fuel : Nat) (T : Tables) (nbz : Nat) {a : ℝ} (ha : 0 < a) :
    stoppingpoints eps fuel T nbz a 0 = (some (some (T.j0r nbz / a)), some (some 0)) ∧
    stoppingpoints eps fuel T nbz a a = (some (some (T.j0r nbz / a)), some (some (T.j0r nbz / a))) := by
  constructor
  · unfold stoppingpoints guess
    norm_num
  · unfold stoppingpoints guess
    rw [div_self ha.ne']
    norm_num

/-- What is asked of a stopping point for the function `f`, when the tabulated points are `t 0 < … < t nbz`, the point has to
be the first zero after the last one of them that is below `g`, and `last` is used if that is the last one. -/
def Stops (f : ℝ → ℝ) (t : Nat → ℝ) (nbz : Nat) (g last eps : ℝ) (res : Nat → Option (Option ℝ)) : Prop :=
  ∃ ib, LastNot (fun i => g ≤ t i) nbz ib ∧
    (ib = nbz → ∀ fuel, res fuel = some (some last)) ∧
    (ib < nbz → f (t ib) * f (t (ib + 1)) < 0 →
      (∃ fuel m, res fuel = some (some m)) ∧
      ∀ fuel x, res fuel = some x → ∃ m, x = some m ∧ t ib < m ∧ m < t (ib + 1) ∧ |f m| ≤ eps)

theorem stops {f : ℝ → ℝ} (hf : Continuous f) {t : Nat → ℝ} {nbz : Nat} (ht : ∀ i < nbz, t i < t (i + 1)) {g last eps : ℝ}
    (he : 0 < eps) {c : Nat → Prop} [DecidablePred c] (hc : ∀ i, c i ↔ g ≤ t i) {res : Nat → Option (Option ℝ)}
    (hr : ∀ fuel, res fuel = if back c nbz = nbz then some (some last)
      else refine f eps fuel (t (back c nbz)) (t (back c nbz + 1))) : Stops f t nbz g last eps res := by
  have hb := back_spec c nbz
  refine ⟨back c nbz, ⟨hb.1, fun i h1 h2 => (hc i).1 (hb.2.1 i h1 h2), fun hp h => hb.2.2 hp ((hc _).2 h)⟩, ?_, ?_⟩
  · intro h fuel
    rw [hr, if_pos h]
  · intro h hs
    have hlt := ht _ h
    have hr' : ∀ fuel, res fuel = refine f eps fuel (t (back c nbz)) (t (back c nbz + 1)) := fun fuel => by
      rw [hr, if_neg (by omega)]
    constructor
    · obtain ⟨fuel, m, hm⟩ := C116_refine_ends he hf.continuousOn hlt hs
      exact ⟨fuel, m, by rw [hr', hm]⟩
    · intro fuel x hx
      rw [hr'] at hx
      exact C116_refine he.le hlt hs hx

theorem j1j0_continuous (a r : ℝ) : Continuous (j1j0 a r) := by unfold j1j0; fun_prop

theorem j1j1_continuous (a r : ℝ) : Continuous (j1j1 a r) := by unfold j1j1; fun_prop

/-- **C116** Inside the load (but not below its centre) each stopping point is a zero of the expansion between the last root
of `J1(ma)` below the estimate and the next, if the expansion changes its sign there; after the last root it is the last
root of `J0(ma)`. -/
theorem C116_inside {eps : ℝ} (he : 0 < eps) {T : Tables} {nbz : Nat} (ht : ∀ i < nbz, T.j1r i < T.j1r (i + 1)) {a r : ℝ}
    (ha : 0 < a) (hr : 0 < r) (hra : r < a) :
    Stops (j1j0 a r) (fun i => T.j1r i / a) nbz ((guess T nbz a r).1 / a) (T.j0r nbz / a) eps
      (fun fuel => (stoppingpoints eps fuel T nbz a r).1) ∧
    Stops (j1j1 a r) (fun i => T.j1r i / a) nbz ((guess T nbz a r).2 / a) (T.j0r nbz / a) eps
      (fun fuel => (stoppingpoints eps fuel T nbz a r).2) := by
  classical
  have h : r / a > 0 ∧ r / a < 1 := ⟨div_pos hr ha, (div_lt_one ha).2 hra⟩
  have ht' : ∀ i < nbz, T.j1r i / a < T.j1r (i + 1) / a := fun i hi => div_lt_div_of_pos_right (ht i hi) ha
  constructor
  · refine stops (j1j0_continuous a r) ht' he (c := fun ib => T.j1r ib ≥ (guess T nbz a r).1) (fun i => ?_) (fun fuel => ?_)
    · exact (div_le_div_iff_of_pos_right ha).symm
    · unfold stoppingpoints
      simp only [if_pos h]
  · refine stops (j1j1_continuous a r) ht' he (c := fun ib => T.j1r ib ≥ (guess T nbz a r).2) (fun i => ?_) (fun fuel => ?_)
    · exact (div_le_div_iff_of_pos_right ha).symm
    · unfold stoppingpoints
      simp only [if_pos h]

/-- **C116** The same outside the load, with the roots for the distance: those of `J0(mr)` for the first point and of `J1(mr)`
for the second. -/
theorem C116_outside {eps : ℝ} (he : 0 < eps) {T : Tables} {nbz : Nat} (ht : ∀ i < nbz, T.j0r i < T.j0r (i + 1))
    (ht1 : ∀ i < nbz, T.j1r i < T.j1r (i + 1)) {a r : ℝ} (ha : 0 < a) (hra : a < r) :
    Stops (j1j0 a r) (fun i => T.j0r i / r) nbz ((guess T nbz a r).1 / a) (T.j1r nbz / r) eps
      (fun fuel => (stoppingpoints eps fuel T nbz a r).1) ∧
    Stops (j1j1 a r) (fun i => T.j1r i / r) nbz ((guess T nbz a r).2 / a) (T.j0r nbz / r) eps
      (fun fuel => (stoppingpoints eps fuel T nbz a r).2) := by
  classical
  have hr : 0 < r := ha.trans hra
  have h0 : r / a > 1 := (one_lt_div ha).2 hra
  have h : ¬ (r / a > 0 ∧ r / a < 1) := fun hh => by linarith [hh.2]
  have e : ∀ x g : ℝ, x / (r / a) ≥ g ↔ g / a ≤ x / r := by
    intro x g
    rw [ge_iff_le, show x / (r / a) = x / r * a by field_simp, div_le_iff₀ ha]
  constructor
  · refine stops (j1j0_continuous a r) (fun i hi => div_lt_div_of_pos_right (ht i hi) hr) he
      (c := fun ib => T.j0r ib / (r / a) ≥ (guess T nbz a r).1) (fun i => e _ _) (fun fuel => ?_)
    unfold stoppingpoints
    simp only [if_neg h, if_pos h0]
  · refine stops (j1j1_continuous a r) (fun i hi => div_lt_div_of_pos_right (ht1 i hi) hr) he
      (c := fun ib => T.j1r ib / (r / a) ≥ (guess T nbz a r).2) (fun i => e _ _) (fun fuel => ?_)
    unfold stoppingpoints
    simp only [if_neg h, if_pos h0]

/-- `x` is the last of the tabulated roots `t` for the length `q` that is not above `L`, or the first one. -/
def LastRoot (t : Nat → ℝ) (nbz : Nat) (q L x : ℝ) : Prop := ∃ i, x = t i / q ∧ LastNot (fun k => L < t k / q) nbz i

theorem lastRoot {t : Nat → ℝ} {nbz : Nat} {q L x a R : ℝ} (c : Nat → Prop) [DecidablePred c] (hx : x = t (back c nbz) / R)
    (hc : ∀ i, c i ↔ L < t i / q) (hq : R * a = q) : LastRoot t nbz q L (x / a) := by
  have hb := back_spec c nbz
  refine ⟨back c nbz, by rw [hx, div_div, hq], hb.1, fun i h1 h2 => (hc i).1 (hb.2.1 i h1 h2), fun h hcon => hb.2.2 h ((hc _).2 hcon)⟩

/-- **C116** The estimates: up to half the radius the last roots of `J1(mr)` and `J0(mr)`, then those of the sum and the
difference of `J0` and `J1` for the distance to the edge, and from twice the radius those of `J0(ma)`; none past the last
tabulated root of the faster factor, unless no root is before that. -/
theorem C116_estimate (T : Tables) (nbz : Nat) {a r : ℝ} (ha : 0 < a) (hr : 0 < r) :
    (r ≤ a / 2 → LastRoot T.j1r nbz r (T.j1r nbz / a) ((guess T nbz a r).1 / a) ∧
      LastRoot T.j0r nbz r (T.j1r nbz / a) ((guess T nbz a r).2 / a)) ∧
    (a / 2 < r → r < a → LastRoot T.j0m nbz (a - r) (T.j1r nbz / a) ((guess T nbz a r).1 / a) ∧
      LastRoot T.j0p nbz (a - r) (T.j1r nbz / a) ((guess T nbz a r).2 / a)) ∧
    (a < r → r < 2 * a → LastRoot T.j0m nbz (r - a) (T.j0r nbz / r) ((guess T nbz a r).1 / a) ∧
      LastRoot T.j0p nbz (r - a) (T.j1r nbz / r) ((guess T nbz a r).2 / a)) ∧
    (2 * a ≤ r → LastRoot T.j0r nbz a (T.j0r nbz / r) ((guess T nbz a r).1 / a) ∧
      LastRoot T.j0r nbz a (T.j1r nbz / r) ((guess T nbz a r).2 / a)) := by
  classical
  have hp : 0 < r / a := div_pos hr ha
  have hqa : r / a * a = r := by field_simp
  refine ⟨fun h => ?_, fun h1 h2 => ?_, fun h1 h2 => ?_, fun h => ?_⟩
  · have hc : r / a > 0 ∧ r / a ≤ 1 / 2 := ⟨hp, by rw [div_le_iff₀ ha]; linarith⟩
    have e : ∀ x : ℝ, x > T.j1r nbz * (r / a) ↔ T.j1r nbz / a < x / r := by
      intro x
      rw [gt_iff_lt, ← mul_div_assoc, div_lt_iff₀ ha, div_lt_div_iff₀ ha hr]
    unfold guess
    simp only [if_pos hc]
    exact ⟨lastRoot _ rfl (fun i => e _) hqa, lastRoot _ rfl (fun i => e _) hqa⟩
  · have hc0 : ¬ (r / a > 0 ∧ r / a ≤ 1 / 2) := fun hh => by
      have := hh.2
      rw [div_le_iff₀ ha] at this
      linarith
    have hlt : r / a < 1 := (div_lt_one ha).2 h2
    have hc : r / a > 1 / 2 ∧ r / a ≠ 1 ∧ r / a < 2 := ⟨by rw [gt_iff_lt, lt_div_iff₀ ha]; linarith, hlt.ne, by linarith⟩
    have hq : |r / a - 1| = (a - r) / a := by
      rw [abs_of_neg (by linarith)]
      field_simp
      ring
    have e : ∀ x : ℝ, x > (a - r) / a * T.j1r nbz ↔ T.j1r nbz / a < x / (a - r) := by
      intro x
      rw [gt_iff_lt, lt_div_iff₀ (by linarith : (0 : ℝ) < a - r), show (a - r) / a * T.j1r nbz = T.j1r nbz / a * (a - r) by ring]
    unfold guess
    simp only [if_neg hc0, if_pos hc, if_pos hlt, hq]
    exact ⟨lastRoot _ rfl (fun i => e _) (by field_simp), lastRoot _ rfl (fun i => e _) (by field_simp)⟩
  · have hgt : 1 < r / a := (one_lt_div ha).2 h1
    have hc0 : ¬ (r / a > 0 ∧ r / a ≤ 1 / 2) := fun hh => by linarith [hh.2]
    have hc : r / a > 1 / 2 ∧ r / a ≠ 1 ∧ r / a < 2 := ⟨by linarith, hgt.ne', by rw [div_lt_iff₀ ha]; linarith⟩
    have hq : |r / a - 1| = (r - a) / a := by
      rw [abs_of_pos (by linarith)]
      field_simp
    have e : ∀ x y : ℝ, x > (r - a) / a * (y / (r / a)) ↔ y / r < x / (r - a) := by
      intro x y
      rw [gt_iff_lt, lt_div_iff₀ (by linarith : (0 : ℝ) < r - a),
        show (r - a) / a * (y / (r / a)) = y / r * (r - a) by field_simp]
    unfold guess
    simp only [if_neg hc0, if_pos hc, if_neg (show ¬ r / a < 1 by linarith), hq]
    exact ⟨lastRoot _ rfl (fun i => e _ _) (by field_simp), lastRoot _ rfl (fun i => e _ _) (by field_simp)⟩
  · have hge : r / a ≥ 2 := by rw [ge_iff_le, le_div_iff₀ ha]; linarith
    have hc0 : ¬ (r / a > 0 ∧ r / a ≤ 1 / 2) := fun hh => by linarith [hh.2]
    have hc : ¬ (r / a > 1 / 2 ∧ r / a ≠ 1 ∧ r / a < 2) := fun hh => by linarith [hh.2.2]
    have e : ∀ x y : ℝ, x > y / (r / a) ↔ y / r < x / a := by
      intro x y
      rw [gt_iff_lt, lt_div_iff₀ ha, show y / (r / a) = y / r * a by field_simp]
    unfold guess
    simp only [if_neg hc0, if_neg hc, if_pos hge]
    exact ⟨lastRoot (R := 1) _ (by rw [div_one]) (fun i => e _ _) (one_mul a),
      lastRoot (R := 1) _ (by rw [div_one]) (fun i => e _ _) (one_mul a)⟩

/-- **C116** Close to the centre, where no root of `J1(mr)` is in the range, the first stopping point is that of the
centre. -/
theorem C116_near_centre (eps : ℝ) (fuel : Nat) {T : Tables} {nbz : Nat} (ht : ∀ i < nbz, T.j1r i < T.j1r (i + 1)) {a r : ℝ}
    (ha : 0 < a) (hr : 0 < r) (hra : r ≤ a / 2) (hn : T.j1r nbz * r < T.j1r 0 * a) :
    (stoppingpoints eps fuel T nbz a r).1 = (stoppingpoints eps fuel T nbz a 0).1 := by
  classical
  rw [(C116_centre_edge eps fuel T nbz ha).1]
  have hp : 0 < r / a := div_pos hr ha
  have hh : r / a ≤ 1 / 2 := by rw [div_le_iff₀ ha]; linarith
  have hn' : T.j1r nbz * (r / a) < T.j1r 0 := by
    rw [← mul_div_assoc, div_lt_iff₀ ha]; exact hn
  have hmono : ∀ i ≤ nbz, T.j1r 0 ≤ T.j1r i := by
    intro i
    induction i with
    | zero => intro _; exact le_refl _
    | succ i ih => intro hi; exact (ih (by omega)).trans (ht i (by omega)).le
  have hb : back (fun ib => T.j1r ib > T.j1r nbz * (r / a)) nbz = 0 :=
    LastNot.unique (back_spec _ _) ⟨Nat.zero_le _, fun i _ hi => lt_of_lt_of_le hn' (hmono i hi), fun h => absurd h (by omega)⟩
  have hg : (guess T nbz a r).1 = T.j1r 0 / (r / a) := by
    unfold guess
    simp only [if_pos (show r / a > 0 ∧ r / a ≤ 1 / 2 from ⟨hp, hh⟩)]
    congr
  have hib : back (fun ib => T.j1r ib ≥ T.j1r 0 / (r / a)) nbz = nbz := by
    refine LastNot.unique (back_spec _ _) ⟨le_refl _, fun i h1 h2 => by omega, fun _ hc => ?_⟩
    have hc' : T.j1r 0 / (r / a) ≤ T.j1r nbz := hc
    rw [div_le_iff₀ hp] at hc'
    linarith
  unfold stoppingpoints
  simp only [if_pos (show r / a > 0 ∧ r / a < 1 from ⟨hp, by linarith⟩), hg]
  rw [if_pos]
  convert hib

/-- A table, a radius and a distance with a change of sign: the point is found between the two entries. -/
example : ∃ fuel m, (stoppingpoints (1 / 10) fuel ⟨fun _ => 1, fun i => if i = 0 then Real.pi else 4 * Real.pi, fun _ => 1,
    fun _ => 1⟩ 1 1 (1 / 2)).1 = some (some m) ∧ Real.pi < m ∧ m < 4 * Real.pi := by
  classical
  have hpi := Real.pi_pos
  obtain ⟨⟨ib, hl, -, h2⟩, -⟩ := C116_inside (eps := 1 / 10) (by norm_num)
    (T := ⟨fun _ => 1, fun i => if i = 0 then Real.pi else 4 * Real.pi, fun _ => 1, fun _ => 1⟩) (nbz := 1)
    (by intro i hi; rw [show i = 0 by omega]; norm_num; linarith) (a := 1) (r := 1 / 2) (by norm_num) (by norm_num) (by norm_num)
  have hg : (guess ⟨fun _ => 1, fun i => if i = 0 then Real.pi else 4 * Real.pi, fun _ => 1, fun _ => 1⟩ 1 1 (1 / 2)).1 =
      2 * Real.pi := by
    unfold guess
    norm_num [back]
    rw [if_pos (by nlinarith)]
    ring
  have hib : ib = 0 := by
    refine hl.unique ⟨by omega, fun i h1 h2 => ?_, fun h => absurd h (by omega)⟩
    rw [hg, show i = 1 by omega]
    norm_num
    linarith
  subst hib
  obtain ⟨⟨fuel, m, hm⟩, h4⟩ := h2 (by omega) (by
    unfold j1j0
    norm_num
    rw [show (3 / 2 : ℝ) * Real.pi = Real.pi / 2 + Real.pi by ring, Real.sin_add_pi, Real.sin_pi_div_two,
      show (1 / 2 : ℝ) * Real.pi = Real.pi / 2 by ring, Real.cos_pi_div_two,
      show (3 / 2 : ℝ) * (4 * Real.pi) = (3 : ℕ) * (2 * Real.pi) by push_cast; ring,
      show (1 / 2 : ℝ) * (4 * Real.pi) = 2 * Real.pi by ring, Real.cos_two_pi]
    rw [show Real.sin ((3 : ℕ) * (2 * Real.pi)) = 0 by simpa using Real.sin_nat_mul_two_pi_sub 0 3]
    norm_num)
  obtain ⟨m', e1, e2, e3, -⟩ := h4 fuel _ hm
  cases e1
  refine ⟨fuel, m, hm, by simpa using e2, by simpa using e3⟩

/-- **C116** The two expansions are integrals of the leading terms of the products `J1(ma) J0(mr)` and `J1(ma) J1(mr)` for large `m`, where `J0(x)` goes like
`cos(x - π/4)` and `J1(x)` like `cos(x - 3π/4)`, each over the root of `x`: so their zeros are where the integral up to `m` is that of all of it, to the leading term. -/
theorem C116_expansion {a r : ℝ} (h : a ≠ r) (h' : a + r ≠ 0) (m : ℝ) :
    HasDerivAt (j1j0 a r) (-2 * (Real.cos (m * a - 3 * Real.pi / 4) * Real.cos (m * r - Real.pi / 4))) m ∧
    HasDerivAt (j1j1 a r) (2 * (Real.cos (m * a - 3 * Real.pi / 4) * Real.cos (m * r - 3 * Real.pi / 4))) m := by
  have h1 : a - r ≠ 0 := sub_ne_zero.2 h
  have lin : ∀ c : ℝ, HasDerivAt (fun m : ℝ => c * m) c m := fun c => by simpa using (hasDerivAt_id m).const_mul c
  have hs : ∀ c : ℝ, c ≠ 0 → HasDerivAt (fun m : ℝ => Real.sin (c * m) / c) (Real.cos (c * m)) m := fun c hc => by
    have := ((lin c).sin).div_const c
    rwa [mul_div_cancel_right₀ _ hc] at this
  have hc : ∀ c : ℝ, c ≠ 0 → HasDerivAt (fun m : ℝ => Real.cos (c * m) / c) (-Real.sin (c * m)) m := fun c hc => by
    have := ((lin c).cos).div_const c
    rwa [mul_div_cancel_right₀ _ hc] at this
  have two : ∀ x y : ℝ, 2 * (Real.cos x * Real.cos y) = Real.cos (x - y) + Real.cos (x + y) := fun x y => by rw [Real.cos_sub, Real.cos_add]; ring
  constructor
  · have e : -2 * (Real.cos (m * a - 3 * Real.pi / 4) * Real.cos (m * r - Real.pi / 4)) = Real.cos ((a + r) * m) + -Real.sin ((a - r) * m) := by
      rw [neg_mul, two, show m * a - 3 * Real.pi / 4 - (m * r - Real.pi / 4) = (a - r) * m - Real.pi / 2 by ring,
        show m * a - 3 * Real.pi / 4 + (m * r - Real.pi / 4) = (a + r) * m - Real.pi by ring, Real.cos_sub_pi_div_two, Real.cos_sub_pi]
      ring
    rw [e]
    exact (hs (a + r) h').add (hc (a - r) h1)
  · have e : 2 * (Real.cos (m * a - 3 * Real.pi / 4) * Real.cos (m * r - 3 * Real.pi / 4)) = Real.cos ((a - r) * m) + -Real.sin ((a + r) * m) := by
      rw [two, show m * a - 3 * Real.pi / 4 - (m * r - 3 * Real.pi / 4) = (a - r) * m by ring,
        show m * a - 3 * Real.pi / 4 + (m * r - 3 * Real.pi / 4) = (a + r) * m - Real.pi - Real.pi / 2 by ring, Real.cos_sub_pi_div_two, Real.sin_sub_pi]
    rw [e]
    exact (hs (a - r) h1).add (hc (a + r) h')

/-- Any two different positive lengths will do. -/
example : HasDerivAt (j1j0 2 1) (-2 * (Real.cos (5 * 2 - 3 * Real.pi / 4) * Real.cos (5 * 1 - Real.pi / 4))) 5 :=
  (C116_expansion (by norm_num) (by norm_num) 5).1

end OP.Pave.Stopping
