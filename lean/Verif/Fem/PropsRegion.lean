import Verif.Fem.Region
import Mathlib.Algebra.Order.Field.Rat
import Mathlib.Data.Rat.Cast.Order
import Mathlib.Tactic.Linarith
import Mathlib.Tactic.Ring
import Mathlib.Tactic.Tauto
import Mathlib.Tactic.NormNum
/-!
# C111: the regions of a mesh
-/
namespace OP.Fem.Region

/-- A region with an inside: at least two different stops in each direction, in order. -/
structure Sound (r : Region) : Prop where
  xs_sorted : r.xs.Pairwise (· < ·)
  ys_sorted : r.ys.Pairwise (· < ·)
  xs_two : 2 ≤ r.xs.length
  ys_two : 2 ≤ r.ys.length

/-- The inside of a region: the rational points of the plane within its first and last stops. -/
def inside (r : Region) (p : ℚ × ℚ) : Prop :=
  (∃ a ∈ r.xs, (a : ℚ) < p.1) ∧ (∃ a ∈ r.xs, p.1 < a) ∧ (∃ a ∈ r.ys, (a : ℚ) < p.2) ∧ (∃ a ∈ r.ys, p.2 < a)

theorem mem_stops (l : List Int) (a : Int) : a ∈ stops l ↔ a ∈ l := by simp [stops]

theorem stops_sorted (l : List Int) : (stops l).Pairwise (· < ·) := by
  have h1 : (stops l).Pairwise (· ≤ ·) := List.pairwise_insertionSort (· ≤ ·) _
  have h2 : (stops l).Nodup := (List.perm_insertionSort (· ≤ ·) _).nodup_iff.mpr (List.nodup_dedup l)
  exact (h1.and h2).imp (by intro a b h; have := h.1; have := h.2; omega)

theorem first_le {l : List Int} (hs : l.Pairwise (· < ·)) {a : Int} (ha : a ∈ l) : first l ≤ a := by
  cases l with
  | nil => simp at ha
  | cons b l =>
    simp only [first, List.headD_cons]
    rcases List.mem_cons.mp ha with rfl | h
    · exact le_rfl
    · exact le_of_lt ((List.pairwise_cons.mp hs).1 a h)

theorem first_mem {l : List Int} (h : l ≠ []) : first l ∈ l := by
  cases l with
  | nil => exact absurd rfl h
  | cons b l => simp [first]

theorem last_eq {l : List Int} (h : l ≠ []) : last l = l.getLast h := by
  rw [last, List.getLastD_eq_getLast?, List.getLast?_eq_getLast_of_ne_nil h]
  rfl

theorem last_mem {l : List Int} (h : l ≠ []) : last l ∈ l := by
  rw [last_eq h]
  exact List.getLast_mem h

theorem le_last {l : List Int} (hs : l.Pairwise (· < ·)) {a : Int} (ha : a ∈ l) : a ≤ last l := by
  have h : l ≠ [] := List.ne_nil_of_mem ha
  rw [last_eq h]
  induction l with
  | nil => exact absurd rfl h
  | cons b l ih =>
    by_cases hl : l = []
    · subst hl
      simp at ha
      simp [ha]
    · rw [List.getLast_cons hl]
      rcases List.mem_cons.mp ha with rfl | h'
      · exact le_of_lt ((List.pairwise_cons.mp hs).1 _ (List.getLast_mem hl))
      · exact ih (List.pairwise_cons.mp hs).2 h' hl

theorem two_ne {l : List Int} (h : 2 ≤ l.length) : l ≠ [] := by
  intro e
  rw [e] at h
  simp at h

theorem first_lt_last {l : List Int} (hs : l.Pairwise (· < ·)) (h : 2 ≤ l.length) : first l < last l := by
  match l, h with
  | a :: b :: t, _ =>
    have h1 : a < b := (List.pairwise_cons.mp hs).1 b (by simp)
    have h2 : b ≤ last (a :: b :: t) := le_last hs (by simp)
    simp only [first, List.headD_cons]
    omega

theorem between_iff {l : List Int} (hs : l.Pairwise (· < ·)) (h : l ≠ []) (q : ℚ) :
    ((∃ a ∈ l, (a : ℚ) < q) ∧ (∃ a ∈ l, q < a)) ↔ ((first l : ℚ) < q ∧ q < (last l : ℚ)) := by
  constructor
  · rintro ⟨⟨a, ha, h1⟩, b, hb, h2⟩
    have : (first l : ℚ) ≤ a := by exact_mod_cast first_le hs ha
    have : (b : ℚ) ≤ last l := by exact_mod_cast le_last hs hb
    exact ⟨by linarith, by linarith⟩
  · rintro ⟨h1, h2⟩
    exact ⟨⟨_, first_mem h, h1⟩, _, last_mem h, h2⟩

theorem inside_iff {r : Region} (hr : Sound r) (p : ℚ × ℚ) :
    inside r p ↔ ((r.xm : ℚ) < p.1 ∧ p.1 < (r.xp : ℚ)) ∧ ((r.ym : ℚ) < p.2 ∧ p.2 < (r.yp : ℚ)) := by
  have h1 := between_iff hr.xs_sorted (two_ne hr.xs_two) p.1
  have h2 := between_iff hr.ys_sorted (two_ne hr.ys_two) p.2
  constructor
  · rintro ⟨a, b, c, d⟩
    exact ⟨h1.mp ⟨a, b⟩, h2.mp ⟨c, d⟩⟩
  · rintro ⟨a, b⟩
    exact ⟨(h1.mpr a).1, (h1.mpr a).2, (h2.mpr b).1, (h2.mpr b).2⟩

theorem gap {a b c d : Int} (h1 : a < b) (h2 : c < d) :
    (c < b ∧ d > a) ↔ ∃ q : ℚ, ((a : ℚ) < q ∧ q < b) ∧ ((c : ℚ) < q ∧ q < d) := by
  have e1 : ∀ m n : Int, m < n ↔ (m : ℚ) < n := by intro m n; exact_mod_cast Iff.rfl
  rw [e1] at h1 h2
  simp only [gt_iff_lt, e1]
  constructor
  · rintro ⟨h3, h4⟩
    have : max (a : ℚ) c < min (b : ℚ) d := by
      rw [max_lt_iff, lt_min_iff, lt_min_iff]
      exact ⟨⟨h1, h4⟩, h3, h2⟩
    refine ⟨(max (a : ℚ) c + min (b : ℚ) d) / 2, ?_⟩
    have := le_max_left (a : ℚ) c
    have := le_max_right (a : ℚ) c
    have := min_le_left (b : ℚ) d
    have := min_le_right (b : ℚ) d
    refine ⟨⟨?_, ?_⟩, ?_, ?_⟩ <;> linarith
  · rintro ⟨q, ⟨h3, h4⟩, h5, h6⟩
    exact ⟨by linarith, by linarith⟩

/-- **C111** A block overlaps a region exactly if some point is inside both. -/
theorem C111_meets {r : Region} (hr : Sound r) {x1 y1 x2 y2 : Int} (hx : x1 < x2) (hy : y1 < y2) :
    r.meets x1 y1 x2 y2 = true ↔
      ∃ p, inside r p ∧ (x1 : ℚ) < p.1 ∧ p.1 < x2 ∧ (y1 : ℚ) < p.2 ∧ p.2 < y2 := by
  have g1 := gap (first_lt_last hr.xs_sorted hr.xs_two) hx
  have g2 := gap (first_lt_last hr.ys_sorted hr.ys_two) hy
  simp only [Region.meets, Bool.and_eq_true, decide_eq_true_eq, inside_iff hr]
  unfold Region.xm Region.xp Region.ym Region.yp
  constructor
  · rintro ⟨⟨⟨a, b⟩, c⟩, d⟩
    obtain ⟨q, h1, h2⟩ := g1.mp ⟨a, b⟩
    obtain ⟨t, h3, h4⟩ := g2.mp ⟨c, d⟩
    exact ⟨(q, t), ⟨h1, h3⟩, h2.1, h2.2, h4.1, h4.2⟩
  · rintro ⟨p, ⟨h1, h2⟩, h3, h4, h5, h6⟩
    have a := g1.mpr ⟨p.1, h1, h3, h4⟩
    have b := g2.mpr ⟨p.2, h2, h5, h6⟩
    exact ⟨⟨⟨a.1, a.2⟩, b.1⟩, b.2⟩

/-- **C111** Two regions overlap exactly if some point is inside both. -/
theorem C111_overlaps {r s : Region} (hr : Sound r) (hs : Sound s) :
    s.overlaps r = true ↔ ∃ p, inside s p ∧ inside r p := by
  have g1 := gap (first_lt_last hs.xs_sorted hs.xs_two) (first_lt_last hr.xs_sorted hr.xs_two)
  have g2 := gap (first_lt_last hs.ys_sorted hs.ys_two) (first_lt_last hr.ys_sorted hr.ys_two)
  simp only [Region.overlaps, Bool.and_eq_true, decide_eq_true_eq, inside_iff hr, inside_iff hs]
  unfold Region.xm Region.xp Region.ym Region.yp
  constructor
  · rintro ⟨⟨⟨a, b⟩, c⟩, d⟩
    obtain ⟨q, h1, h2⟩ := g1.mp ⟨a, b⟩
    obtain ⟨t, h3, h4⟩ := g2.mp ⟨c, d⟩
    exact ⟨(q, t), ⟨h1, h3⟩, h2, h4⟩
  · rintro ⟨p, ⟨h1, h2⟩, h3, h4⟩
    have a := g1.mpr ⟨p.1, h1, h3⟩
    have b := g2.mpr ⟨p.2, h2, h4⟩
    exact ⟨⟨⟨a.1, a.2⟩, b.1⟩, b.2⟩

/-- **C111** A block overlaps a list of regions exactly if it overlaps one of them. -/
theorem C111_list_meets (l : List Region) (x1 y1 x2 y2 : Int) :
    listMeets l x1 y1 x2 y2 = true ↔ ∃ r ∈ l, r.meets x1 y1 x2 y2 = true := by
  unfold listMeets
  have : ∀ b : Bool, l.foldl (fun rv r => rv || r.meets x1 y1 x2 y2) b = true ↔
      b = true ∨ ∃ r ∈ l, r.meets x1 y1 x2 y2 = true := by
    induction l with
    | nil => simp
    | cons a l ih =>
      intro b
      simp only [List.foldl_cons, ih, Bool.or_eq_true, List.mem_cons, exists_eq_or_imp]
      tauto
  simpa using this false

theorem fold_min (f : Region → Int) (l : List Region) (z a : Int) :
    a = l.foldl (fun x r => min x (f r)) z ↔ (a = z ∨ ∃ r ∈ l, a = f r) ∧ a ≤ z ∧ ∀ r ∈ l, a ≤ f r := by
  induction l generalizing z with
  | nil => simp; omega
  | cons b l ih =>
    simp only [List.foldl_cons, ih, List.mem_cons, exists_eq_or_imp, forall_eq_or_imp, le_min_iff]
    constructor
    · rintro ⟨h1, ⟨h2, h3⟩, h4⟩
      refine ⟨?_, h2, h3, h4⟩
      rcases h1 with h1 | h1
      · rcases min_choice z (f b) with h | h
        · left; omega
        · right; left; omega
      · exact Or.inr (Or.inr h1)
    · rintro ⟨h1, h2, h3, h4⟩
      refine ⟨?_, ⟨h2, h3⟩, h4⟩
      rcases h1 with h1 | h1 | h1
      · left; omega
      · left; omega
      · exact Or.inr h1

theorem fold_max (f : Region → Int) (l : List Region) (z a : Int) :
    a = l.foldl (fun x r => max x (f r)) z ↔ (a = z ∨ ∃ r ∈ l, a = f r) ∧ z ≤ a ∧ ∀ r ∈ l, f r ≤ a := by
  induction l generalizing z with
  | nil => simp; omega
  | cons b l ih =>
    simp only [List.foldl_cons, ih, List.mem_cons, exists_eq_or_imp, forall_eq_or_imp, max_le_iff]
    constructor
    · rintro ⟨h1, ⟨h2, h3⟩, h4⟩
      refine ⟨?_, h2, h3, h4⟩
      rcases h1 with h1 | h1
      · rcases max_choice z (f b) with h | h
        · left; omega
        · right; left; omega
      · exact Or.inr (Or.inr h1)
    · rintro ⟨h1, h2, h3, h4⟩
      refine ⟨?_, ⟨h2, h3⟩, h4⟩
      rcases h1 with h1 | h1 | h1
      · left; omega
      · left; omega
      · exact Or.inr h1

/-- **C111** The ends of a list of regions are the outermost stops if the origin is counted as one.  Missing: the
outermost stops themselves, see `C111_origin_wrong`. -/
theorem C111_ends_partial {l : List Region} (hl : ∀ r ∈ l, Sound r) :
    ((listXm l = 0 ∨ ∃ r ∈ l, listXm l ∈ r.xs) ∧ listXm l ≤ 0 ∧ ∀ r ∈ l, ∀ a ∈ r.xs, listXm l ≤ a) ∧
    ((listXp l = 0 ∨ ∃ r ∈ l, listXp l ∈ r.xs) ∧ 0 ≤ listXp l ∧ ∀ r ∈ l, ∀ a ∈ r.xs, a ≤ listXp l) ∧
    ((listYm l = 0 ∨ ∃ r ∈ l, listYm l ∈ r.ys) ∧ listYm l ≤ 0 ∧ ∀ r ∈ l, ∀ a ∈ r.ys, listYm l ≤ a) ∧
    ((listYp l = 0 ∨ ∃ r ∈ l, listYp l ∈ r.ys) ∧ 0 ≤ listYp l ∧ ∀ r ∈ l, ∀ a ∈ r.ys, a ≤ listYp l) := by
  refine ⟨?_, ?_, ?_, ?_⟩
  · obtain ⟨h1, h2, h3⟩ := (fold_min Region.xm l 0 (listXm l)).mp rfl
    exact ⟨h1.imp_right fun ⟨r, hr, e⟩ => ⟨r, hr, e ▸ first_mem (two_ne (hl r hr).xs_two)⟩, h2,
      fun r hr a ha => (h3 r hr).trans (first_le (hl r hr).xs_sorted ha)⟩
  · obtain ⟨h1, h2, h3⟩ := (fold_max Region.xp l 0 (listXp l)).mp rfl
    exact ⟨h1.imp_right fun ⟨r, hr, e⟩ => ⟨r, hr, e ▸ last_mem (two_ne (hl r hr).xs_two)⟩, h2,
      fun r hr a ha => (le_last (hl r hr).xs_sorted ha).trans (h3 r hr)⟩
  · obtain ⟨h1, h2, h3⟩ := (fold_min Region.ym l 0 (listYm l)).mp rfl
    exact ⟨h1.imp_right fun ⟨r, hr, e⟩ => ⟨r, hr, e ▸ first_mem (two_ne (hl r hr).ys_two)⟩, h2,
      fun r hr a ha => (h3 r hr).trans (first_le (hl r hr).ys_sorted ha)⟩
  · obtain ⟨h1, h2, h3⟩ := (fold_max Region.yp l 0 (listYp l)).mp rfl
    exact ⟨h1.imp_right fun ⟨r, hr, e⟩ => ⟨r, hr, e ▸ last_mem (two_ne (hl r hr).ys_two)⟩, h2,
      fun r hr a ha => (le_last (hl r hr).ys_sorted ha).trans (h3 r hr)⟩

/-- **C111** If all regions lie to the right of the origin, the left end given is not a stop. -/
theorem C111_origin_wrong {l : List Region} (hl : ∀ r ∈ l, Sound r) (hp : ∀ r ∈ l, ∀ a ∈ r.xs, 0 < a) :
    listXm l = 0 ∧ ∀ r ∈ l, listXm l ∉ r.xs := by
  obtain ⟨⟨h1, h2, _⟩, _⟩ := C111_ends_partial hl
  have e : listXm l = 0 := by
    rcases h1 with h | ⟨r, hr, h⟩
    · exact h
    · have := hp r hr _ h
      omega
  exact ⟨e, fun r hr h => by have := hp r hr _ h; omega⟩

/-- Nothing of `r` is missing in `s`. -/
def Within (r s : Region) : Prop := r.xs ⊆ s.xs ∧ r.ys ⊆ s.ys

theorem within_join_left (r s : Region) : Within r (join r s) := by
  constructor <;> intro a ha <;> simp only [join, mem_stops, List.mem_append] <;> exact Or.inl ha

theorem within_join_right (r s : Region) : Within s (join r s) := by
  constructor <;> intro a ha <;> simp only [join, mem_stops, List.mem_append] <;> exact Or.inr ha

theorem Within.trans {a b c : Region} (h : Within a b) (k : Within b c) : Within a c :=
  ⟨fun _ m => k.1 (h.1 m), fun _ m => k.2 (h.2 m)⟩

theorem Within.rfl {a : Region} : Within a a := ⟨fun _ h => h, fun _ h => h⟩

theorem join_sound {r s : Region} (hr : Sound r) : Sound (join r s) := by
  have key : ∀ l m : List Int, l.Pairwise (· < ·) → 2 ≤ l.length → 2 ≤ (stops (l ++ m)).length := by
    intro l m hl h2
    have hn : l.Nodup := hl.imp (by intro a b h; omega)
    have := List.Subperm.length_le (List.subperm_of_subset hn (fun a ha => (mem_stops (l ++ m) a).mpr
      (List.mem_append_left m ha)))
    omega
  exact ⟨stops_sorted _, stops_sorted _, key _ _ hr.xs_sorted hr.xs_two, key _ _ hr.ys_sorted hr.ys_two⟩

theorem absorb_all (r : Region) (l : List Region) :
    (∀ s ∈ r :: l, ∃ t ∈ (absorb r l).1 :: (absorb r l).2, Within s t) ∧
    (∀ t ∈ (absorb r l).1 :: (absorb r l).2, ∀ a ∈ t.xs, ∃ s ∈ r :: l, a ∈ s.xs) ∧
    (∀ t ∈ (absorb r l).1 :: (absorb r l).2, ∀ a ∈ t.ys, ∃ s ∈ r :: l, a ∈ s.ys) := by
  induction l generalizing r with
  | nil =>
    simp only [absorb]
    exact ⟨fun s hs => ⟨s, hs, Within.rfl⟩, fun t ht a ha => ⟨t, ht, ha⟩, fun t ht a ha => ⟨t, ht, ha⟩⟩
  | cons b l ih =>
    rw [absorb]
    by_cases h : touches r b
    · rw [if_pos h]
      obtain ⟨i1, i2, i3⟩ := ih (join r b)
      refine ⟨?_, ?_, ?_⟩
      · intro s hs
        rcases List.mem_cons.mp hs with rfl | hs
        · obtain ⟨t, ht, k⟩ := i1 (join s b) (by simp)
          exact ⟨t, ht, (within_join_left s b).trans k⟩
        · rcases List.mem_cons.mp hs with rfl | hs
          · obtain ⟨t, ht, k⟩ := i1 (join r s) (by simp)
            exact ⟨t, ht, (within_join_right r s).trans k⟩
          · exact i1 s (by simp [hs])
      · intro t ht a ha
        obtain ⟨s, hs, k⟩ := i2 t ht a ha
        rcases List.mem_cons.mp hs with rfl | hs
        · simp only [join, mem_stops, List.mem_append] at k
          rcases k with k | k
          · exact ⟨r, by simp, k⟩
          · exact ⟨b, by simp, k⟩
        · exact ⟨s, by simp [hs], k⟩
      · intro t ht a ha
        obtain ⟨s, hs, k⟩ := i3 t ht a ha
        rcases List.mem_cons.mp hs with rfl | hs
        · simp only [join, mem_stops, List.mem_append] at k
          rcases k with k | k
          · exact ⟨r, by simp, k⟩
          · exact ⟨b, by simp, k⟩
        · exact ⟨s, by simp [hs], k⟩
    · rw [if_neg h]
      obtain ⟨i1, i2, i3⟩ := ih r
      simp only
      have up : ∀ t, t ∈ (absorb r l).1 :: (absorb r l).2 → t ∈ (absorb r l).1 :: b :: (absorb r l).2 := by
        intro t ht
        rcases List.mem_cons.mp ht with rfl | ht
        · simp
        · simp [ht]
      have dn : ∀ s, s ∈ r :: l → s ∈ r :: b :: l := by
        intro t ht
        rcases List.mem_cons.mp ht with rfl | ht
        · simp
        · simp [ht]
      have sp : ∀ t, t ∈ (absorb r l).1 :: b :: (absorb r l).2 → t = b ∨ t ∈ (absorb r l).1 :: (absorb r l).2 := by
        intro t ht
        simp only [List.mem_cons] at ht ⊢
        tauto
      refine ⟨?_, ?_, ?_⟩
      · intro s hs
        have : s = b ∨ s ∈ r :: l := by
          simp only [List.mem_cons] at hs ⊢
          tauto
        rcases this with rfl | hs
        · exact ⟨s, by simp, Within.rfl⟩
        · obtain ⟨t, ht, k⟩ := i1 s hs
          exact ⟨t, up t ht, k⟩
      · intro t ht a ha
        rcases sp t ht with rfl | ht
        · exact ⟨t, by simp, ha⟩
        · obtain ⟨s, hs, k⟩ := i2 t ht a ha
          exact ⟨s, dn s hs, k⟩
      · intro t ht a ha
        rcases sp t ht with rfl | ht
        · exact ⟨t, by simp, ha⟩
        · obtain ⟨s, hs, k⟩ := i3 t ht a ha
          exact ⟨s, dn s hs, k⟩

theorem absorb_sound {r : Region} {l : List Region} (h : ∀ s ∈ r :: l, Sound s) :
    ∀ t ∈ (absorb r l).1 :: (absorb r l).2, Sound t := by
  induction l generalizing r with
  | nil => simpa [absorb] using h
  | cons b l ih =>
    rw [absorb]
    by_cases hb : touches r b
    · rw [if_pos hb]
      refine ih fun s hs => ?_
      rcases List.mem_cons.mp hs with rfl | hs
      · exact join_sound (h r (by simp))
      · exact h s (by simp [hs])
    · rw [if_neg hb]
      have := ih (r := r) fun s hs => by
        rcases List.mem_cons.mp hs with rfl | hs
        · exact h s (by simp)
        · exact h s (by simp [hs])
      intro t ht
      simp only [List.mem_cons] at ht
      rcases ht with rfl | rfl | ht
      · exact this _ (by simp)
      · exact h t (by simp)
      · exact this t (by simp [ht])

/-- **C111** Merging loses and invents no stops: every region is within one of the result, every stop of the result
was one before, and the regions are sound. -/
theorem C111_merge (l : List Region) :
    (∀ s ∈ l, ∃ t ∈ merge l, s.xs ⊆ t.xs ∧ s.ys ⊆ t.ys) ∧
    (∀ t ∈ merge l, ∀ a ∈ t.xs, ∃ s ∈ l, a ∈ s.xs) ∧
    (∀ t ∈ merge l, ∀ a ∈ t.ys, ∃ s ∈ l, a ∈ s.ys) ∧
    ((∀ s ∈ l, Sound s) → ∀ t ∈ merge l, Sound t) := by
  induction l using merge.induct with
  | case1 => simp [merge]
  | case2 r l ih =>
    rw [merge]
    obtain ⟨i1, i2, i3, i4⟩ := ih
    obtain ⟨a1, a2, a3⟩ := absorb_all r l
    refine ⟨?_, ?_, ?_, ?_⟩
    · intro s hs
      obtain ⟨t, ht, k⟩ := a1 s hs
      rcases List.mem_cons.mp ht with rfl | ht
      · exact ⟨_, by simp, k⟩
      · obtain ⟨u, hu, k'⟩ := i1 t ht
        exact ⟨u, by simp [hu], k.trans k'⟩
    · intro t ht a ha
      rcases List.mem_cons.mp ht with rfl | ht
      · exact a2 _ (by simp) a ha
      · obtain ⟨s, hs, k⟩ := i2 t ht a ha
        exact a2 s (by simp [hs]) a k
    · intro t ht a ha
      rcases List.mem_cons.mp ht with rfl | ht
      · exact a3 _ (by simp) a ha
      · obtain ⟨s, hs, k⟩ := i3 t ht a ha
        exact a3 s (by simp [hs]) a k
    · intro hs t ht
      have as := absorb_sound hs
      rcases List.mem_cons.mp ht with rfl | ht
      · exact as _ (by simp)
      · exact i4 (fun s hs => as s (by simp [hs])) t ht

/-- **C111** Merging leaves the ends of the list where they are. -/
theorem C111_merge_ends {l : List Region} (hl : ∀ r ∈ l, Sound r) :
    listXm (merge l) = listXm l ∧ listXp (merge l) = listXp l ∧ listYm (merge l) = listYm l ∧
      listYp (merge l) = listYp l := by
  obtain ⟨m1, m2, m3, m4⟩ := C111_merge l
  obtain ⟨a1, a2, a3, a4⟩ := C111_ends_partial hl
  obtain ⟨b1, b2, b3, b4⟩ := C111_ends_partial (m4 hl)
  refine ⟨le_antisymm ?_ ?_, le_antisymm ?_ ?_, le_antisymm ?_ ?_, le_antisymm ?_ ?_⟩
  · rcases a1.1 with h | ⟨r, hr, h⟩
    · rw [h]; exact b1.2.1
    · obtain ⟨t, ht, k⟩ := m1 r hr
      exact b1.2.2 t ht _ (k.1 h)
  · rcases b1.1 with h | ⟨r, hr, h⟩
    · rw [h]; exact a1.2.1
    · obtain ⟨t, ht, k⟩ := m2 r hr _ h
      exact a1.2.2 t ht _ k
  · rcases b2.1 with h | ⟨r, hr, h⟩
    · rw [h]; exact a2.2.1
    · obtain ⟨t, ht, k⟩ := m2 r hr _ h
      exact a2.2.2 t ht _ k
  · rcases a2.1 with h | ⟨r, hr, h⟩
    · rw [h]; exact b2.2.1
    · obtain ⟨t, ht, k⟩ := m1 r hr
      exact b2.2.2 t ht _ (k.1 h)
  · rcases a3.1 with h | ⟨r, hr, h⟩
    · rw [h]; exact b3.2.1
    · obtain ⟨t, ht, k⟩ := m1 r hr
      exact b3.2.2 t ht _ (k.2 h)
  · rcases b3.1 with h | ⟨r, hr, h⟩
    · rw [h]; exact a3.2.1
    · obtain ⟨t, ht, k⟩ := m3 r hr _ h
      exact a3.2.2 t ht _ k
  · rcases b4.1 with h | ⟨r, hr, h⟩
    · rw [h]; exact a4.2.1
    · obtain ⟨t, ht, k⟩ := m3 r hr _ h
      exact a4.2.2 t ht _ k
  · rcases a4.1 with h | ⟨r, hr, h⟩
    · rw [h]; exact b4.2.1
    · obtain ⟨t, ht, k⟩ := m1 r hr
      exact b4.2.2 t ht _ (k.2 h)

theorem absorb_same {r : Region} {l : List Region} (h : (absorb r l).2.length = l.length) :
    absorb r l = (r, l) ∧ ∀ s ∈ l, touches r s = false := by
  induction l generalizing r with
  | nil => simp [absorb]
  | cons b l ih =>
    rw [absorb] at h ⊢
    by_cases hb : touches r b
    · rw [if_pos hb] at h
      have := absorb_length (join r b) l
      simp only [List.length_cons] at h
      omega
    · rw [if_neg hb] at h ⊢
      simp only [List.length_cons, Nat.add_right_cancel_iff] at h
      obtain ⟨e, k⟩ := ih h
      rw [e]
      refine ⟨rfl, fun s hs => ?_⟩
      rcases List.mem_cons.mp hs with rfl | hs
      · simpa using hb
      · exact k s hs

theorem merge_length (l : List Region) : (merge l).length ≤ l.length := by
  induction l using merge.induct with
  | case1 => simp [merge]
  | case2 r l ih =>
    rw [merge]
    have := absorb_length r l
    simp only [List.length_cons]
    omega

/-- **C111** A call of `merge` that takes up no region changes nothing, and then no two regions overlap or have a
whole side in common.  Missing: the same after every call, see `C111_merge_wrong`. -/
theorem C111_apart_partial {l : List Region} (h : (merge l).length = l.length) :
    merge l = l ∧ l.Pairwise (fun r s => touches r s = false) := by
  induction l using merge.induct with
  | case1 => simp [merge]
  | case2 r l ih =>
    rw [merge] at h ⊢
    have h1 := absorb_length r l
    have h2 := merge_length (absorb r l).2
    simp only [List.length_cons, Nat.add_right_cancel_iff] at h
    obtain ⟨e, k⟩ := absorb_same (r := r) (l := l) (by omega)
    rw [e] at h ih ⊢
    obtain ⟨i1, i2⟩ := ih h
    rw [i1]
    exact ⟨rfl, List.pairwise_cons.mpr ⟨k, i2⟩⟩

/-- **C111** Two regions, as for the two loads of the program, are always apart after the call. -/
theorem C111_two (r s : Region) : (merge [r, s]).Pairwise (fun a b => touches a b = false) := by
  by_cases h : touches r s
  · have : merge [r, s] = [join r s] := by simp [merge, absorb, h]
    rw [this]
    simp
  · have : merge [r, s] = [r, s] := by simp [merge, absorb, h]
    rw [this]
    simpa using h

/-- **C111** Whenever a region meets the third of three and grows over the second, which it did not meet, the two are
left on the list although they overlap. -/
theorem C111_merge_wrong {a b c : Region} (h1 : touches a b = false) (h2 : touches a c = true)
    (h3 : (join a c).overlaps b = true) :
    merge [a, b, c] = [join a c, b] ∧ (join a c).overlaps b = true := by
  refine ⟨?_, h3⟩
  simp [merge, absorb, h1, h2]

/-- The points of a region with its sides. -/
def within (r : Region) (p : ℚ × ℚ) : Prop := ((r.xm : ℚ) ≤ p.1 ∧ p.1 ≤ r.xp) ∧ ((r.ym : ℚ) ≤ p.2 ∧ p.2 ≤ r.yp)

/-- Between two stops of either list. -/
theorem stops_range {l k : List Int} (hl : l.Pairwise (· < ·)) (hk : k.Pairwise (· < ·)) {x : ℚ}
    (h1 : ∃ a ∈ stops (l ++ k), (a : ℚ) < x) (h2 : ∃ a ∈ stops (l ++ k), x < a) :
    ((first l : ℚ) < x ∨ (first k : ℚ) < x) ∧ (x < last l ∨ x < last k) := by
  obtain ⟨a, ha, h1⟩ := h1
  obtain ⟨b, hb, h2⟩ := h2
  rw [mem_stops, List.mem_append] at ha hb
  refine ⟨?_, ?_⟩
  · rcases ha with ha | ha
    · exact .inl (lt_of_le_of_lt (by exact_mod_cast first_le hl ha) h1)
    · exact .inr (lt_of_le_of_lt (by exact_mod_cast first_le hk ha) h1)
  · rcases hb with hb | hb
    · exact .inl (lt_of_lt_of_le h2 (by exact_mod_cast le_last hl hb))
    · exact .inr (lt_of_lt_of_le h2 (by exact_mod_cast le_last hk hb))

/-- **C111** Two regions that only touch are joined only if nothing is added: every point inside the joined region belongs to one
of them. -/
theorem C111_join_exact {r s : Region} (hr : Sound r) (hs : Sound s) (h : touches r s = true) (ho : r.overlaps s = false)
    {p : ℚ × ℚ} (hp : inside (join r s) p) : within r p ∨ within s p := by
  obtain ⟨a, b, c, d⟩ := hp
  obtain ⟨x1, x2⟩ := stops_range hr.xs_sorted hs.xs_sorted a b
  obtain ⟨y1, y2⟩ := stops_range hr.ys_sorted hs.ys_sorted c d
  have rx : (r.xm : ℚ) < r.xp := by exact_mod_cast first_lt_last hr.xs_sorted hr.xs_two
  have ry : (r.ym : ℚ) < r.yp := by exact_mod_cast first_lt_last hr.ys_sorted hr.ys_two
  have sx : (s.xm : ℚ) < s.xp := by exact_mod_cast first_lt_last hs.xs_sorted hs.xs_two
  have sy : (s.ym : ℚ) < s.yp := by exact_mod_cast first_lt_last hs.ys_sorted hs.ys_two
  change ((r.xm : ℚ) < p.1 ∨ (s.xm : ℚ) < p.1) at x1
  change (p.1 < (r.xp : ℚ) ∨ p.1 < (s.xp : ℚ)) at x2
  change ((r.ym : ℚ) < p.2 ∨ (s.ym : ℚ) < p.2) at y1
  change (p.2 < (r.yp : ℚ) ∨ p.2 < (s.yp : ℚ)) at y2
  simp only [touches, ho, Bool.false_or, Bool.or_eq_true, Bool.and_eq_true, beq_iff_eq] at h
  unfold within
  have cast {m n : Int} (e : m = n) : (m : ℚ) = n := by rw [e]
  rcases h with ⟨h | h, e1, e2⟩ | ⟨h | h, e1, e2⟩ <;> have h := cast h <;> have e1 := cast e1 <;> have e2 := cast e2
  · rw [← e1] at y1
    rw [← e2] at y2
    rw [or_self] at y1 y2
    by_cases hx : p.1 ≤ r.xp
    · exact .inl ⟨⟨by rcases x1 with x | x <;> linarith, hx⟩, by linarith, by linarith⟩
    · exact .inr ⟨⟨by linarith, by rcases x2 with x | x <;> linarith⟩, by linarith, by linarith⟩
  · rw [← e1] at y1
    rw [← e2] at y2
    rw [or_self] at y1 y2
    by_cases hx : p.1 ≤ r.xm
    · exact .inr ⟨⟨by rcases x1 with x | x <;> linarith, by linarith⟩, by linarith, by linarith⟩
    · exact .inl ⟨⟨by linarith, by rcases x2 with x | x <;> linarith⟩, by linarith, by linarith⟩
  · rw [← e1] at x1
    rw [← e2] at x2
    rw [or_self] at x1 x2
    by_cases hx : p.2 ≤ r.yp
    · exact .inl ⟨⟨by linarith, by linarith⟩, by rcases y1 with x | x <;> linarith, hx⟩
    · exact .inr ⟨⟨by linarith, by linarith⟩, by linarith, by rcases y2 with x | x <;> linarith⟩
  · rw [← e1] at x1
    rw [← e2] at x2
    rw [or_self] at x1 x2
    by_cases hx : p.2 ≤ r.ym
    · exact .inr ⟨⟨by linarith, by linarith⟩, by rcases y1 with x | x <;> linarith, by linarith⟩
    · exact .inl ⟨⟨by linarith, by linarith⟩, by linarith, by rcases y2 with x | x <;> linarith⟩

/-- Two squares side by side. -/
example : Sound ⟨[0, 2], [0, 2]⟩ ∧ Sound ⟨[2, 4], [0, 2]⟩ ∧ touches ⟨[0, 2], [0, 2]⟩ ⟨[2, 4], [0, 2]⟩ = true ∧
    Region.overlaps ⟨[0, 2], [0, 2]⟩ ⟨[2, 4], [0, 2]⟩ = false :=
  ⟨⟨by simp, by simp, by simp, by simp⟩, ⟨by simp, by simp, by simp, by simp⟩, by decide, by decide⟩

/-- Three squares in a row, the middle one last. -/
example : merge [⟨[0, 2], [0, 2]⟩, ⟨[3, 5], [0, 2]⟩, ⟨[1, 4], [0, 2]⟩]
    = [⟨[0, 1, 2, 4], [0, 2]⟩, ⟨[3, 5], [0, 2]⟩] := by
  have e : join ⟨[0, 2], [0, 2]⟩ ⟨[1, 4], [0, 2]⟩ = ⟨[0, 1, 2, 4], [0, 2]⟩ := by decide +kernel
  rw [← e]
  refine (C111_merge_wrong ?_ ?_ ?_).1 <;> decide +kernel

/-- **C111** Removing every second stop keeps every other one, and both ends if the number of stops is odd. -/
theorem C111_coarsen (l : List Int) :
    (∀ i, (coarsen l)[i]? = l[2 * i]?) ∧ (coarsen l).length = (l.length + 1) / 2 ∧
    (l.length % 2 = 1 → first (coarsen l) = first l ∧ last (coarsen l) = last l) := by
  have key : (∀ i, (coarsen l)[i]? = l[2 * i]?) ∧ (coarsen l).length = (l.length + 1) / 2 := by
    induction l using coarsen.induct with
    | case1 => simp [coarsen]
    | case2 a =>
      refine ⟨fun i => ?_, by simp [coarsen]⟩
      cases i with
      | zero => rfl
      | succ i => simp [coarsen, Nat.mul_succ]
    | case3 a b l ih =>
      refine ⟨fun i => ?_, ?_⟩
      · cases i with
        | zero => rfl
        | succ i =>
          rw [coarsen, List.getElem?_cons_succ, ih.1 i, show 2 * (i + 1) = 2 * i + 1 + 1 by ring,
            List.getElem?_cons_succ, List.getElem?_cons_succ]
      · rw [coarsen, List.length_cons, ih.2]
        simp only [List.length_cons]
        omega
  refine ⟨key.1, key.2, fun h => ⟨?_, ?_⟩⟩
  · have h0 := key.1 0
    simp only [Nat.mul_zero] at h0
    simp only [first, List.headD_eq_head?_getD, List.head?_eq_getElem?, h0]
  · simp only [last, List.getLastD_eq_getLast?, List.getLast?_eq_getElem?]
    rw [key.1, key.2]
    congr 2
    omega

/-- **C111** With an even number of stops the last one is lost. -/
theorem C111_even_wrong {l : List Int} (hs : l.Pairwise (· < ·)) (h : l.length % 2 = 0) (h0 : l ≠ []) :
    last (coarsen l) < last l := by
  obtain ⟨k1, k2, _⟩ := C111_coarsen l
  have hp : 0 < l.length := List.length_pos_iff.mpr h0
  have e1 : last (coarsen l) = l[l.length - 2] := by
    simp only [last, List.getLastD_eq_getLast?, List.getLast?_eq_getElem?]
    rw [k1, k2, show 2 * ((l.length + 1) / 2 - 1) = l.length - 2 by omega, List.getElem?_eq_getElem (by omega)]
    rfl
  have e2 : last l = l[l.length - 1] := by
    simp only [last, List.getLastD_eq_getLast?, List.getLast?_eq_getElem?]
    rw [List.getElem?_eq_getElem (by omega)]
    rfl
  rw [e1, e2]
  exact List.pairwise_iff_getElem.mp hs _ _ (by omega) (by omega) (by omega)

/-- Regions as in the theorems. -/
example : Sound ⟨[0, 1, 2, 4], [0, 2]⟩ := ⟨by decide, by decide, by decide, by decide⟩

example : listXm [⟨[3, 5], [0, 2]⟩] = 0 := by decide

example : coarsen [0, 1, 2, 3, 4] = [0, 2, 4] ∧ coarsen [0, 1, 2, 3] = [0, 2] := by decide

end OP.Fem.Region
