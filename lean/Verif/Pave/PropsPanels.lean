import Verif.Pave.Panels
import Mathlib.Data.List.TakeWhile
import Mathlib.Tactic.Linarith
import Mathlib.Tactic.Ring
import Mathlib.Tactic.FieldSimp
import Mathlib.Tactic.Positivity
import Mathlib.Data.Rat.Cast.Order
/-!
# C117: the intervals of integration
-/
namespace OP.Pave.Panels

variable {K : Type} [Field K] [LinearOrder K]

/-- The points `l` cut the range from zero to `m` into intervals. -/
def Tiles (l : List K) (m : K) : Prop := l.Pairwise (· < ·) ∧ l.head? = some 0 ∧ l.getLast? = some m

omit [Field K] in
theorem mem_sorted {l : List K} {x : K} : x ∈ sorted l ↔ x ∈ l := by
  unfold sorted
  rw [List.mem_insertionSort, List.mem_dedup]

omit [Field K] in
theorem sorted_pairwise (l : List K) : (sorted l).Pairwise (· < ·) := by
  have h1 : (sorted l).Pairwise (· ≤ ·) := List.pairwise_insertionSort _ _
  have h2 : (sorted l).Nodup := (List.perm_insertionSort _ _).nodup_iff.2 (List.nodup_dedup l)
  exact (h1.and h2).imp fun h => lt_of_le_of_ne h.1 h.2

omit [Field K] in
theorem head_eq {l : List K} (h : l.Pairwise (· < ·)) {x : K} (hx : x ∈ l) (hm : ∀ y ∈ l, x ≤ y) : l.head? = some x := by
  cases l with
  | nil => cases hx
  | cons b l =>
    rw [List.head?_cons]
    rcases List.mem_cons.1 hx with e | hx
    · rw [e]
    · exact absurd (hm b (List.mem_cons_self ..)) (not_le.2 ((List.pairwise_cons.1 h).1 x hx))

omit [Field K] in
theorem last_eq {l : List K} (h : l.Pairwise (· < ·)) {x : K} (hx : x ∈ l) (hm : ∀ y ∈ l, y ≤ x) : l.getLast? = some x := by
  rcases List.eq_nil_or_concat l with rfl | ⟨l, b, rfl⟩
  · cases hx
  · rw [List.concat_eq_append] at *
    rw [List.getLast?_append, List.getLast?_singleton, Option.some_or]
    rcases List.mem_append.1 hx with hx | hx
    · exact absurd (hm b (by simp)) (not_le.2 ((List.pairwise_append.1 h).2.2 x hx b (by simp)))
    · rw [List.mem_singleton.1 hx]

theorem tiles_of {l : List K} (h : l.Pairwise (· < ·)) {m : K} (h0 : (0 : K) ∈ l) (hm : m ∈ l) (hb : ∀ y ∈ l, 0 ≤ y ∧ y ≤ m) :
    Tiles l m := ⟨h, head_eq h h0 fun y hy => (hb y hy).1, last_eq h hm fun y hy => (hb y hy).2⟩

variable [IsStrictOrderedRing K]

omit [IsStrictOrderedRing K] in
theorem mem_rootsBelow {t : Nat → K} {nbz : Nat} {q m x : K} (h : x ∈ rootsBelow t nbz q m) :
    ∃ i ≤ nbz, x = t i / q ∧ x < m := by
  obtain ⟨i, hi, rfl⟩ := List.mem_map.1 h
  have h1 := List.mem_range.1 ((List.takeWhile_subset _) hi)
  exact ⟨i, by omega, rfl, by simpa using List.mem_takeWhile_imp hi⟩

/-- Of increasing roots all that are below `m` are there. -/
theorem rootsBelow_mem {t : Nat → K} {nbz : Nat} {q m : K} (hq : 0 < q) (ht : ∀ i < nbz, t i ≤ t (i + 1)) {i : Nat}
    (hi : i ≤ nbz) (hlt : t i / q < m) : t i / q ∈ rootsBelow t nbz q m := by
  refine List.mem_map.2 ⟨i, ?_, rfl⟩
  have mono : ∀ d j, j + d ≤ nbz → t j ≤ t (j + d) := by
    intro d
    induction d with
    | zero => intro j _; exact le_refl _
    | succ d ih => intro j hj; exact (ih j (by omega)).trans (ht (j + d) (by omega))
  have key : ∀ l : List Nat, l.Pairwise (· < ·) → i ∈ l → (∀ j ∈ l, j ≤ nbz) →
      i ∈ l.takeWhile fun i => decide (t i / q < m) := by
    intro l
    induction l with
    | nil => intro _ h; cases h
    | cons b l ih =>
      intro hp hm hb
      have hbi : b ≤ i := by
        rcases List.mem_cons.1 hm with e | e
        · exact e.ge
        · exact ((List.pairwise_cons.1 hp).1 i e).le
      have : t b / q < m := by
        have := mono (i - b) b (by omega)
        rw [show b + (i - b) = i by omega] at this
        exact lt_of_le_of_lt (div_le_div_of_nonneg_right this hq.le) hlt
      rw [List.takeWhile_cons_of_pos (by simpa using this)]
      rcases List.mem_cons.1 hm with e | e
      · rw [e]; exact List.mem_cons_self ..
      · exact List.mem_cons_of_mem _ (ih (List.pairwise_cons.1 hp).2 e fun j hj => hb j (List.mem_cons_of_mem _ hj))
  exact key _ List.pairwise_lt_range (List.mem_range.2 (by omega)) fun j hj => by have := List.mem_range.1 hj; omega

theorem mem_deep {first a z x : K} (ha : 0 < a) (hz : 0 ≤ z) (h : x ∈ deep first a z) :
    0 < z ∧ 7 * a / z ≤ x ∧ x < first := by
  unfold deep at h
  by_cases h0 : z = 0
  · rw [if_pos h0] at h; cases h
  · rw [if_neg h0] at h
    have hz' : 0 < z := lt_of_le_of_ne hz (Ne.symm h0)
    obtain ⟨i, hi, rfl⟩ := List.mem_map.1 h
    obtain ⟨h1, h2⟩ := List.mem_filter.1 hi
    refine ⟨hz', ?_, by simpa using h2⟩
    have : (1 : K) ≤ i := by
      have : 1 ≤ i := by
        simp only [List.mem_cons, List.not_mem_nil, or_false] at h1
        omega
      exact_mod_cast this
    apply div_le_div_of_nonneg_right _ hz'.le
    nlinarith

/-- **C117** When the stopping point is not before the first tabulated root, or the point is not deep, the accurate calculation
integrates exactly from zero to the stopping point, and every root of either factor before that is an end of an interval. -/
theorem C117_accurate_partial {t j1r : Nat → K} {nbz : Nat} (ht : ∀ i < nbz, t i ≤ t (i + 1)) (hj : ∀ i < nbz, j1r i ≤ j1r (i + 1))
    (ht0 : ∀ i ≤ nbz, 0 ≤ t i) (hj0 : ∀ i ≤ nbz, 0 ≤ j1r i) {a r z m : K} (ha : 0 < a) (hr : 0 ≤ r) (hz : 0 ≤ z) (hm : 0 ≤ m)
    (hd : t 0 ≤ m ∨ t 0 * z ≤ 7 * a) :
    Tiles (accurate t j1r nbz a r z m) m ∧
    (∀ i ≤ nbz, 0 < r → t i / r < m → t i / r ∈ accurate t j1r nbz a r z m) ∧
    (∀ i ≤ nbz, j1r i / a < m → j1r i / a ∈ accurate t j1r nbz a r z m) := by
  refine ⟨tiles_of (sorted_pairwise _) ?_ ?_ ?_, ?_, ?_⟩
  · exact mem_sorted.2 (List.mem_cons_self ..)
  · exact mem_sorted.2 (by simp)
  · intro y hy
    have hy := mem_sorted.1 hy
    simp only [List.mem_cons, List.mem_append, List.not_mem_nil, or_false] at hy
    rcases hy with rfl | hy | hy | hy | rfl
    · exact ⟨le_refl _, hm⟩
    · obtain ⟨h1, h2, h3⟩ := mem_deep ha hz hy
      have hp : 0 < 7 * a / z := by positivity
      refine ⟨by linarith, ?_⟩
      rcases hd with hd | hd
      · linarith
      · rw [← le_div_iff₀ h1] at hd
        linarith
    · by_cases h : r > 0
      · rw [if_pos h] at hy
        obtain ⟨i, hi, rfl, h2⟩ := mem_rootsBelow hy
        exact ⟨div_nonneg (ht0 i hi) hr, h2.le⟩
      · rw [if_neg h] at hy; cases hy
    · obtain ⟨i, hi, rfl, h2⟩ := mem_rootsBelow hy
      exact ⟨div_nonneg (hj0 i hi) ha.le, h2.le⟩
    · exact ⟨hm, le_refl _⟩
  · intro i hi hrp hlt
    refine mem_sorted.2 ?_
    have := rootsBelow_mem hrp ht hi hlt
    simp [hrp, this]
  · intro i hi hlt
    refine mem_sorted.2 ?_
    have := rootsBelow_mem ha hj hi hlt
    simp [this]

omit [IsStrictOrderedRing K] in
/-- **C117** In general this is false: for a deep point whose stopping point is small, which it is far from the load, the
integration goes on past the stopping point. -/
theorem C117_accurate_wrong {t j1r : Nat → K} {nbz : Nat} {a r z m : K} (hz : 0 < z) (h1 : m < 7 * a / z) (h2 : 7 * a / z < t 0) :
    ∃ p, (accurate t j1r nbz a r z m).getLast? = some p ∧ m < p := by
  have hmem : 7 * a / z ∈ accurate t j1r nbz a r z m := by
    refine mem_sorted.2 (List.mem_cons_of_mem _ (List.mem_append_left _ ?_))
    unfold deep
    rw [if_neg hz.ne']
    exact List.mem_map.2 ⟨1, List.mem_filter.2 ⟨by simp, by simpa using h2⟩, by simp⟩
  have hp : (accurate t j1r nbz a r z m).Pairwise (· < ·) := sorted_pairwise _
  rcases List.eq_nil_or_concat (accurate t j1r nbz a r z m) with h | ⟨l, b, h⟩
  · rw [h] at hmem; cases hmem
  · rw [List.concat_eq_append] at h
    rw [h] at hmem hp ⊢
    refine ⟨b, by rw [List.getLast?_append, List.getLast?_singleton, Option.some_or], ?_⟩
    rcases List.mem_append.1 hmem with hx | hx
    · exact h1.trans ((List.pairwise_append.1 hp).2.2 _ hx b (by simp))
    · rw [← List.mem_singleton.1 hx]; exact h1

/-- A point one unit deep and one from a load of radius one, and one three times as deep and far from the load. -/
example : accurate (K := ℚ) (fun i => 2 + 3 * i) (fun i => 4 + 3 * i) 2 1 1 1 6 = [0, 2, 4, 5, 6] ∧
    accurate (K := ℚ) (fun i => 2 + 3 * i) (fun i => 4 + 3 * i) 2 1 100 4 (1 / 20) = [0, 1 / 50, 1 / 20, 7 / 4] := by decide +kernel

/-- **C117** In other units of length the intervals of a point that is not deep are the same ones. -/
theorem C117_units_partial {t j1r : Nat → K} (nbz : Nat) {a r z m c : K} (ha : 0 < a) (hz : 0 ≤ z) (hc : 0 < c)
    (hd : t 0 * z ≤ 7 * a) :
    accurate t j1r nbz (c * a) (c * r) (c * z) (m / c) = (accurate t j1r nbz a r z m).map (· / c) := by
  have nodeep : ∀ a z : K, 0 < a → 0 ≤ z → t 0 * z ≤ 7 * a → deep (t 0) a z = [] := by
    intro a z ha hz hd
    refine List.eq_nil_iff_forall_not_mem.2 fun x hx => ?_
    obtain ⟨h1, h2, h3⟩ := mem_deep ha hz hx
    rw [← le_div_iff₀ h1] at hd
    linarith
  have hroots : ∀ (t : Nat → K) (q : K), rootsBelow t nbz (c * q) (m / c) = (rootsBelow t nbz q m).map (· / c) := by
    intro t q
    have e : ∀ i, t i / (c * q) = t i / q / c := fun i => by rw [mul_comm, div_div]
    unfold rootsBelow
    rw [List.map_map]
    simp only [e, div_lt_div_iff_of_pos_right hc]
    rfl
  unfold accurate
  rw [nodeep a z ha hz hd, nodeep (c * a) (c * z) (by positivity) (by positivity) (by nlinarith), hroots, hroots]
  have hif : (if c * r > 0 then (rootsBelow t nbz r m).map (· / c) else []) =
      (if r > 0 then rootsBelow t nbz r m else []).map (· / c) := by
    by_cases h : r > 0
    · rw [if_pos h, if_pos (mul_pos hc h)]
    · rw [if_neg h, if_neg (by rw [gt_iff_lt, mul_pos_iff_of_pos_left hc]; exact h), List.map_nil]
  rw [hif]
  unfold sorted
  have hinj : Function.Injective (fun x : K => x / c) := fun x y h => by
    have h : x / c = y / c := h
    rwa [div_left_inj' hc.ne'] at h
  rw [List.map_insertionSort (r := (· ≤ ·)) (s := (· ≤ ·)) (fun x : K => x / c)
    _ (fun x _ y _ => (div_le_div_iff_of_pos_right hc).symm), ← List.dedup_map_of_injective hinj]
  simp [zero_div]

/-- **C117** In general this is false: the points that are added for great depths have no unit. -/
theorem C117_units_wrong : ∃ (t j1r : Nat → ℚ) (nbz : Nat) (a r z m c : ℚ), 0 < a ∧ 0 ≤ r ∧ 0 < z ∧ 0 < m ∧ 0 < c ∧
    accurate t j1r nbz (c * a) (c * r) (c * z) (m / c) ≠ (accurate t j1r nbz a r z m).map (· / c) :=
  ⟨fun i => 2 + 3 * i, fun i => 4 + 3 * i, 2, 1, 1, 4, 6, 1000, by norm_num, by norm_num, by norm_num, by norm_num, by norm_num, by
    decide +kernel⟩

/-! ## The intervals of the other modes -/

/-- What the loops keep of the points. -/
structure Kept (s s' : List K) : Prop where
  asc : s'.Pairwise (· < ·)
  sub : ∀ x ∈ s, x ∈ s'
  low : ∀ x ∈ s', ∃ y ∈ s, y ≤ x
  high : ∀ x ∈ s', ∃ y ∈ s, x ≤ y

omit [Field K] [IsStrictOrderedRing K] in
theorem Kept.refl {s : List K} (h : s.Pairwise (· < ·)) : Kept s s :=
  ⟨h, fun _ h => h, fun x hx => ⟨x, hx, le_refl _⟩, fun x hx => ⟨x, hx, le_refl _⟩⟩

omit [Field K] [IsStrictOrderedRing K] in
theorem Kept.trans {s u v : List K} (h : Kept s u) (k : Kept u v) : Kept s v := by
  refine ⟨k.asc, fun x hx => k.sub x (h.sub x hx), fun x hx => ?_, fun x hx => ?_⟩
  · obtain ⟨y, hy, e⟩ := k.low x hx
    obtain ⟨w, hw, e'⟩ := h.low y hy
    exact ⟨w, hw, e'.trans e⟩
  · obtain ⟨y, hy, e⟩ := k.high x hx
    obtain ⟨w, hw, e'⟩ := h.high y hy
    exact ⟨w, hw, e.trans e'⟩

theorem insertPoint_kept {s : List K × K} (h : s.1.Pairwise (· < ·)) (hne : s.1 ≠ []) (x1 : K) {q lim : K} (hq : 0 < q) (hl : 0 < lim) :
    Kept s.1 (insertPoint s x1 q lim).1 := by
  unfold insertPoint
  by_cases h1 : x1 < s.2
  · rw [if_pos h1]; exact Kept.refl h
  rw [if_neg h1]
  simp only
  obtain ⟨im, him⟩ : ∃ im, im = 1 + ((s.1.drop 1).takeWhile fun x => decide (x < x1)).length := ⟨_, rfl⟩
  rw [← him]
  by_cases h2 : im = s.1.length ∨ min (x1 - s.1.getD (im - 1) 0) (s.1.getD im 0 - x1) * q < lim
  · rw [if_pos h2]; exact Kept.refl h
  rw [if_neg h2]
  push Not at h2
  obtain ⟨hi, hmin⟩ := h2
  have hlen : 0 < s.1.length := List.length_pos_iff.2 hne
  have hile : im < s.1.length := by
    have : ((s.1.drop 1).takeWhile fun x => decide (x < x1)).length ≤ (s.1.drop 1).length := (List.takeWhile_sublist _).length_le
    rw [List.length_drop] at this
    omega
  have hpos : 0 < min (x1 - s.1.getD (im - 1) 0) (s.1.getD im 0 - x1) := by
    by_contra hc
    nlinarith [not_lt.1 hc]
  rw [List.getD_eq_getElem?_getD, List.getD_eq_getElem?_getD, List.getElem?_eq_getElem hile,
    List.getElem?_eq_getElem (show im - 1 < s.1.length by omega)] at hpos
  simp only [Option.getD_some] at hpos
  obtain ⟨hlo, hhi⟩ := lt_min_iff.1 hpos
  have hlo : s.1[im - 1] < x1 := by linarith
  have hhi : x1 < s.1[im] := by linarith
  rw [List.pairwise_iff_getElem] at h
  have below : ∀ x ∈ s.1.take im, x < x1 := by
    intro x hx
    obtain ⟨j, hj, rfl⟩ := List.mem_iff_getElem.1 hx
    rw [List.length_take] at hj
    rw [List.getElem_take]
    rcases Nat.lt_or_ge j (im - 1) with h' | h'
    · exact (h j (im - 1) _ _ h').trans hlo
    · have : j = im - 1 := by omega
      subst this
      exact hlo
  have above : ∀ x ∈ s.1.drop im, x1 < x := by
    intro x hx
    obtain ⟨j, hj, rfl⟩ := List.mem_iff_getElem.1 hx
    rw [List.length_drop] at hj
    rw [List.getElem_drop]
    rcases Nat.eq_zero_or_pos j with h' | h'
    · subst h'
      exact hhi
    · exact hhi.trans (h im (im + j) _ (by omega) (by omega))
  have hs : s.1.take im ++ s.1.drop im = s.1 := List.take_append_drop im s.1
  have hpw : (s.1.take im ++ s.1.drop im).Pairwise (· < ·) := by rw [hs, List.pairwise_iff_getElem]; exact h
  obtain ⟨p1, p2, p3⟩ := List.pairwise_append.1 hpw
  refine ⟨?_, ?_, ?_, ?_⟩
  · refine List.pairwise_append.2 ⟨p1, List.pairwise_cons.2 ⟨above, p2⟩, fun x hx y hy => ?_⟩
    rcases List.mem_cons.1 hy with rfl | hy
    · exact below x hx
    · exact p3 x hx y hy
  · intro x hx
    rw [← hs] at hx
    rcases List.mem_append.1 hx with hx | hx
    · exact List.mem_append_left _ hx
    · exact List.mem_append_right _ (List.mem_cons_of_mem _ hx)
  · intro x hx
    rcases List.mem_append.1 hx with hx | hx
    · exact ⟨x, List.mem_of_mem_take hx, le_refl _⟩
    · rcases List.mem_cons.1 hx with rfl | hx
      · exact ⟨_, List.getElem_mem _, hlo.le⟩
      · exact ⟨x, List.mem_of_mem_drop hx, le_refl _⟩
  · intro x hx
    rcases List.mem_append.1 hx with hx | hx
    · exact ⟨x, List.mem_of_mem_take hx, le_refl _⟩
    · rcases List.mem_cons.1 hx with rfl | hx
      · exact ⟨_, List.getElem_mem _, hhi.le⟩
      · exact ⟨x, List.mem_of_mem_drop hx, le_refl _⟩

omit [Field K] [IsStrictOrderedRing K] in
theorem foldl_kept {α : Type} {f : List K × K → α → List K × K} (l : List α)
    (hf : ∀ x ∈ l, ∀ s : List K × K, s.1.Pairwise (· < ·) → s.1 ≠ [] → Kept s.1 (f s x).1) (s : List K × K)
    (h : s.1.Pairwise (· < ·)) (hne : s.1 ≠ []) : Kept s.1 (l.foldl f s).1 := by
  induction l generalizing s with
  | nil => exact Kept.refl h
  | cons b l ih =>
    have k := hf b (List.mem_cons_self ..) s h hne
    have hne' : (f s b).1 ≠ [] := by
      obtain ⟨x, hx⟩ := List.exists_mem_of_ne_nil _ hne
      exact List.ne_nil_of_mem (k.sub x hx)
    exact k.trans (ih (fun x hx => hf x (List.mem_cons_of_mem _ hx)) (f s b) k.asc hne')

theorem bigR_kept {j1r : Nat → K} {nbz ba : Nat} {qpi a : K} (ha : 0 < a) (hb : 0 < ba) (hp : 0 < qpi) (rs : List K) {s : List K}
    (h : s.Pairwise (· < ·)) (hne : s ≠ []) : Kept s (bigR j1r nbz ba qpi a rs s) := by
  have hb' : (0 : K) < ba := by exact_mod_cast hb
  refine foldl_kept _ (fun r hr s hs hs' => foldl_kept _ (fun k _ s hs hs' => ?_) s hs hs') (s, 0) h hne
  have : r > a * ba := by simpa using List.mem_takeWhile_imp hr
  have hpos : 0 < a * (ba : K) := mul_pos ha hb'
  exact insertPoint_kept hs hs' _ (by linarith) (mul_pos hb' hp)

theorem bigZ_kept {first a : K} (ha : 0 < a) (zs : List K) {s : List K} (h : s.Pairwise (· < ·)) (hne : s ≠ []) :
    Kept s (bigZ first a zs s) := by
  refine foldl_kept _ (fun z hz s hs hs' => foldl_kept _ (fun k _ s hs hs' => ?_) s hs hs') (s, 0) h hne
  have : z > 0 := by simpa using List.mem_takeWhile_imp hz
  exact insertPoint_kept hs hs' _ this (by linarith)

/-- **C117** In the other modes, whatever intervals are added for great distances and depths, the intervals cut the range from
zero to the last root or stopping point, and every root and every stopping point is an end of an interval. -/
theorem C117_points {j0r j1r : Nat → K} {nbz ba : Nat} {qpi a : K} (ha : 0 < a) (hb : 0 < ba) (hp : 0 < qpi)
    (hj : ∀ i ≤ nbz, 0 ≤ j1r i) (rs zs : List K) {ms : List K} (hms : ∀ m ∈ ms, 0 ≤ m) :
    (∃ M ∈ base j1r nbz a ms, (∀ x ∈ base j1r nbz a ms, x ≤ M) ∧ Tiles (points j0r j1r nbz ba qpi a rs zs ms) M) ∧
    (∀ i ≤ nbz, j1r i / a ∈ points j0r j1r nbz ba qpi a rs zs ms) ∧ ∀ m ∈ ms, m ∈ points j0r j1r nbz ba qpi a rs zs ms := by
  have h0 : (0 : K) ∈ base j1r nbz a ms := List.mem_cons_self ..
  have hne : sorted (base j1r nbz a ms) ≠ [] := List.ne_nil_of_mem (mem_sorted.2 h0)
  have k1 := bigR_kept (j1r := j1r) (nbz := nbz) (ba := ba) ha hb hp rs (sorted_pairwise (base j1r nbz a ms)) hne
  have hne1 : bigR j1r nbz ba qpi a rs (sorted (base j1r nbz a ms)) ≠ [] := List.ne_nil_of_mem (k1.sub 0 (mem_sorted.2 h0))
  have k := k1.trans (bigZ_kept (first := j0r 0) ha zs k1.asc hne1)
  have hin : ∀ x ∈ base j1r nbz a ms, x ∈ points j0r j1r nbz ba qpi a rs zs ms := fun x hx => mem_sorted.2 (k.sub x (mem_sorted.2 hx))
  have hnn : ∀ x ∈ base j1r nbz a ms, 0 ≤ x := by
    intro x hx
    unfold base at hx
    simp only [List.mem_cons, List.mem_append, List.mem_map, List.mem_range] at hx
    rcases hx with rfl | ⟨i, hi, rfl⟩ | hx
    · exact le_refl _
    · exact div_nonneg (hj i (by omega)) ha.le
    · exact hms x hx
  obtain ⟨M, hM, hmax⟩ : ∃ M ∈ base j1r nbz a ms, ∀ x ∈ base j1r nbz a ms, x ≤ M := by
    have : ∀ l : List K, l ≠ [] → ∃ M ∈ l, ∀ x ∈ l, x ≤ M := by
      intro l
      induction l with
      | nil => intro h; exact absurd rfl h
      | cons b l ih =>
        intro _
        rcases eq_or_ne l [] with rfl | hl
        · exact ⟨b, by simp, by simp⟩
        · obtain ⟨M, hM, h⟩ := ih hl
          rcases le_total b M with e | e
          · refine ⟨M, List.mem_cons_of_mem _ hM, fun x hx => ?_⟩
            rcases List.mem_cons.1 hx with rfl | hx
            · exact e
            · exact h x hx
          · refine ⟨b, List.mem_cons_self .., fun x hx => ?_⟩
            rcases List.mem_cons.1 hx with rfl | hx
            · exact le_refl _
            · exact (h x hx).trans e
    exact this _ (List.ne_nil_of_mem h0)
  refine ⟨⟨M, hM, hmax, tiles_of (sorted_pairwise _) (hin 0 h0) (hin M hM) fun y hy => ?_⟩, fun i hi => hin _ ?_, fun m hm => hin _ ?_⟩
  · have hy := mem_sorted.1 hy
    obtain ⟨u, hu, e⟩ := k.low y hy
    obtain ⟨v, hv, e'⟩ := k.high y hy
    exact ⟨(hnn u (mem_sorted.1 hu)).trans e, e'.trans (hmax v (mem_sorted.1 hv))⟩
  · exact List.mem_cons_of_mem _ (List.mem_append_left _ (List.mem_map.2 ⟨i, List.mem_range.2 (by omega), rfl⟩))
  · exact List.mem_cons_of_mem _ (List.mem_append_right _ hm)

/-- **C117** So no interval is cut by a stopping point: of the points strictly inside an interval all are before it or none. -/
theorem C117_whole {j0r j1r : Nat → K} {nbz ba : Nat} {qpi a : K} (ha : 0 < a) (hb : 0 < ba) (hp : 0 < qpi)
    (hj : ∀ i ≤ nbz, 0 ≤ j1r i) (rs zs : List K) {ms : List K} (hms : ∀ m ∈ ms, 0 ≤ m) {m : K} (hm : m ∈ ms)
    {pre post : List K} {x y : K} (hxy : points j0r j1r nbz ba qpi a rs zs ms = pre ++ x :: y :: post) :
    x < y ∧ (y ≤ m ∨ m ≤ x) ∧ ∀ u v, x < u → u < y → x < v → v < y → (u < m ↔ v < m) := by
  obtain ⟨⟨M, -, -, hT⟩, -, h2⟩ := C117_points (j0r := j0r) (nbz := nbz) (ba := ba) ha hb hp hj rs zs hms
  have hmem := h2 m hm
  have hasc := hT.1
  rw [hxy] at hmem hasc
  obtain ⟨-, p2, p3⟩ := List.pairwise_append.1 hasc
  obtain ⟨q1, q2⟩ := List.pairwise_cons.1 p2
  have key : y ≤ m ∨ m ≤ x := by
    simp only [List.mem_append, List.mem_cons] at hmem
    rcases hmem with e | rfl | rfl | e
    · exact Or.inr (p3 m e x (List.mem_cons_self ..)).le
    · exact Or.inr (le_refl _)
    · exact Or.inl (le_refl _)
    · exact Or.inl ((List.pairwise_cons.1 q2).1 m e).le
  refine ⟨q1 y (List.mem_cons_self ..), key, fun u v hu hu' hv hv' => ?_⟩
  rcases key with e | e
  · exact ⟨fun _ => by linarith, fun _ => by linarith⟩
  · exact ⟨fun h => by linarith, fun h => by linarith⟩

/-- Intervals that are added for a distance and for a depth. -/
example : points (K := ℚ) (fun i => 2 + 3 * i) (fun i => 4 + 3 * i) 8 4 (3 / 4) 1 [0, 1, 5] [0, 20] [3, 7] =
    [0, 7 / 20, 7 / 10, 21 / 20, 7 / 5, 7 / 4, 3, 4, 28 / 5, 7, 10, 13, 16, 19, 22, 25, 28] := by decide +kernel

end OP.Pave.Panels
