import Verif.Num.Fmin
import Mathlib.Algebra.Order.Ring.Rat
import Mathlib.Tactic.Linarith
import Mathlib.Tactic.FieldSimp
import Mathlib.Tactic.NormNum
import Mathlib.Tactic.Ring
import Mathlib.Tactic.LinearCombination
/-!
# C59: minimisation keeps the best point of its bracket
-/
namespace OP.Num
variable {K : Type} [Field K] [LinearOrder K] [IsStrictOrderedRing K]

/-! ## Specification -/

/-- The values belong to the points, and the middle point lies strictly between the others. -/
def Tri.Ok (f : K → K) (t : Tri K) : Prop :=
  t.A = f t.a ∧ t.B = f t.b ∧ t.C = f t.c ∧ (t.a < t.b ∧ t.b < t.c ∨ t.c < t.b ∧ t.b < t.a)

/-- Between the outer points. -/
def Tri.Spans (t : Tri K) (x : K) : Prop := min t.a t.c ≤ x ∧ x ≤ max t.a t.c

/-! ## The first loop -/

theorem gr_pos {v : MinEnv K} (hv : v.gc < 1) : 0 < v.gr := by
  unfold MinEnv.gr; apply div_pos one_pos; linarith

theorem dream_ok (f : K → K) {v : MinEnv K} (hv : v.gc < 1) {a b : Option K} (h : ∀ x ∈ a, ∀ y ∈ b, x ≠ y) :
    (dream f v a b).Ok f := by
  have hg := gr_pos hv
  have key : ∀ a b : K, a ≠ b → (if f b > f a then
      (⟨b + (b - a) * v.gr, b, a, f (b + (b - a) * v.gr), f b, f a⟩ : Tri K)
      else ⟨a, b, b + (b - a) * v.gr, f a, f b, f (b + (b - a) * v.gr)⟩).Ok f := by
    intro a b hab
    split_ifs
    · refine ⟨rfl, rfl, rfl, ?_⟩
      dsimp only
      rcases lt_or_gt_of_ne hab with h | h
      · right; exact ⟨h, by have := mul_pos (sub_pos.2 h) hg; linarith⟩
      · left; exact ⟨by have := mul_pos (sub_pos.2 h) hg; linarith, h⟩
    · refine ⟨rfl, rfl, rfl, ?_⟩
      dsimp only
      rcases lt_or_gt_of_ne hab with h | h
      · left; exact ⟨h, by have := mul_pos (sub_pos.2 h) hg; linarith⟩
      · right; exact ⟨by have := mul_pos (sub_pos.2 h) hg; linarith, h⟩
  have ne : ∀ b : K, (if b = 0 then -5 / 100 else b - b / 20) ≠ b := by
    intro b
    split_ifs with hb
    · rw [hb]; norm_num
    · intro e
      apply hb; linarith
  unfold dream
  cases b with
  | none =>
    cases a with
    | none => exact key _ _ (ne 0)
    | some a => exact key _ _ (ne a)
  | some b =>
    cases a with
    | none => exact key _ _ (ne b)
    | some a => exact key _ _ (h a rfl b rfl)

theorem begin_ok (f : K → K) {v : MinEnv K} (h0 : 0 < v.gc) (hv : v.gc < 1) (a b : Option K) : (begin f v a b).Ok f := by
  unfold begin
  split
  · rename_i a b
    dsimp only
    split_ifs with h1 h2
    · exact dream_ok f hv (by simp)
    · refine dream_ok f hv ?_
      simp only [Option.mem_def, Option.some.injEq]
      rintro x rfl y rfl e
      exact h1 e.symm
    · refine ⟨rfl, rfl, rfl, ?_⟩
      dsimp only
      rcases lt_or_gt_of_ne h1 with h | h
      · left
        have := mul_pos h0 (sub_pos.2 h)
        have := mul_pos (sub_pos.2 hv) (sub_pos.2 h)
        constructor <;> linarith
      · right
        have := mul_pos h0 (sub_pos.2 h)
        have := mul_pos (sub_pos.2 hv) (sub_pos.2 h)
        constructor <;> linarith
  · rename_i h
    refine dream_ok f hv ?_
    intro x hx y hy
    rw [Option.mem_def] at hx hy
    exact absurd hy (h x y hx)

theorem extend_ok (f : K → K) {v : MinEnv K} (hv : v.gc < 1) {t : Tri K} (h : t.Ok f) : (extend f v t).Ok f := by
  have hg := gr_pos hv
  obtain ⟨hA, hB, hC, ho⟩ := h
  unfold extend
  dsimp only
  generalize turning t = x
  have hy1 : t.b < t.c → t.c < t.c + (t.c - t.b) * v.gr := fun h => by
    have := mul_pos (sub_pos.2 h) hg; linarith
  have hy2 : t.c < t.b → t.c + (t.c - t.b) * v.gr < t.c := fun h => by
    have := mul_pos (sub_pos.2 h) hg; linarith
  split_ifs with h1 h2 h3 h4 h5
  · refine ⟨hB, rfl, hC, ?_⟩
    rcases ho with ho | ho
    · rw [min_eq_left ho.2.le, max_eq_right ho.2.le] at h1; exact .inl h1
    · rw [min_eq_right ho.1.le, max_eq_left ho.1.le] at h1; exact .inr h1
  · refine ⟨hA, hB, rfl, ?_⟩
    rcases ho with ho | ho
    · rw [min_eq_left ho.2.le, max_eq_right ho.2.le] at h1; exact .inl ⟨ho.1, h1.1⟩
    · rw [min_eq_right ho.1.le, max_eq_left ho.1.le] at h1; exact .inr ⟨h1.2, ho.2⟩
  · refine ⟨hB, rfl, hC, ?_⟩
    rcases ho with ho | ho
    · rw [min_eq_left ho.2.le, max_eq_right ho.2.le] at h1; exact .inl h1
    · rw [min_eq_right ho.1.le, max_eq_left ho.1.le] at h1; exact .inr h1
  · refine ⟨hC, rfl, rfl, ?_⟩
    rcases ho with ho | ho
    · have := (hy1 ho.2).le
      rw [min_eq_left this, max_eq_right this] at h4; exact .inl h4
    · have := (hy2 ho.1).le
      rw [min_eq_right this, max_eq_left this] at h4; exact .inr h4
  · refine ⟨hB, hC, rfl, ?_⟩
    rcases ho with ho | ho
    · have := (hy1 ho.2).le
      rw [min_eq_left this, max_eq_right this] at h4; exact .inl ⟨ho.2, h4.1⟩
    · have := (hy2 ho.1).le
      rw [min_eq_right this, max_eq_left this] at h4; exact .inr ⟨h4.2, ho.1⟩
  · refine ⟨hB, hC, rfl, ?_⟩
    rcases ho with ho | ho
    · exact .inl ⟨ho.2, hy1 ho.2⟩
    · exact .inr ⟨hy2 ho.1, ho.1⟩

theorem settle_ok (f : K → K) {v : MinEnv K} (hv : v.gc < 1) : ∀ (n : Nat) (t : Tri K), t.Ok f → ∀ r,
    settle f v n t = .ok r → r.2.Ok f ∧ ¬ (r.2.A ≥ r.2.B ∧ r.2.B ≥ r.2.C) ∧ r.1 ≤ n := by
  intro n
  induction n with
  | zero =>
    intro t ht r h
    unfold settle at h
    split_ifs at h with hc
    cases h; exact ⟨ht, hc, Nat.le_refl _⟩
  | succ n ih =>
    intro t ht r h
    unfold settle at h
    split_ifs at h with hc
    · obtain ⟨a, b, c⟩ := ih _ (extend_ok f hv ht) r h
      exact ⟨a, b, by omega⟩
    · cases h; exact ⟨ht, hc, Nat.le_refl _⟩

/-! ## The second loop -/

/-- The state of the second loop, in bracket from `lo` to `hi`. -/
structure RefOk (f : K → K) (lo hi : K) (s : Ref K) : Prop where
  hB : s.B = f s.b
  ha : lo ≤ s.a
  ab : s.a ≤ s.b
  bc : s.b ≤ s.c
  hc : s.c ≤ hi

theorem point_mem {v : MinEnv K} (h0 : 0 ≤ v.gc) (h1 : v.gc ≤ 1) {f : K → K} {lo hi : K} {s : Ref K} (h : RefOk f lo hi s) :
    s.a ≤ point v s ∧ point v s ≤ s.c := by
  have ab := h.ab
  have bc := h.bc
  unfold point
  split_ifs with hp hq
  · have e1 := mul_nonneg h0 (sub_nonneg.2 ab)
    have e2 := mul_nonneg (sub_nonneg.2 h1) (sub_nonneg.2 ab)
    constructor <;> linarith
  · have e1 := mul_nonneg h0 (sub_nonneg.2 bc)
    have e2 := mul_nonneg (sub_nonneg.2 h1) (sub_nonneg.2 bc)
    constructor <;> linarith
  · push Not at hp
    obtain ⟨_, h2, h3⟩ := hp
    constructor <;> linarith

theorem close_ok {f : K → K} {lo hi : K} {s : Ref K} (h : RefOk f lo hi s) {x : K} (h1 : s.a ≤ x) (h2 : x ≤ s.c) :
    RefOk f lo hi (close f s x) ∧ (close f s x).B ≤ s.B ∧ (close f s x).B ≤ f x ∧
      (s.B ≤ f s.a → s.B ≤ f s.c → (close f s x).B ≤ f (close f s x).a ∧ (close f s x).B ≤ f (close f s x).c) := by
  obtain ⟨hB, ha, ab, bc, hc⟩ := h
  unfold close
  by_cases hx : f x ≤ s.B
  · rw [if_pos hx]
    by_cases hb : x < s.b
    · simp only [if_pos hb]
      exact ⟨⟨rfl, ha, h1, hb.le, bc.trans hc⟩, hx, le_refl _, fun h3 _ => ⟨hx.trans h3, by rw [← hB]; exact hx⟩⟩
    · simp only [if_neg hb]
      exact ⟨⟨rfl, ha.trans ab, not_lt.1 hb, h2, hc⟩, hx, le_refl _, fun _ h4 => ⟨by rw [← hB]; exact hx, hx.trans h4⟩⟩
  · rw [if_neg hx]
    have hx' := (not_le.1 hx).le
    by_cases hb : x < s.b
    · simp only [if_pos hb]
      have key : ∀ u : Ref K, u.B = s.B → u.b = s.b → u.a = x → u.c = s.c → RefOk f lo hi u ∧ u.B ≤ s.B ∧ u.B ≤ f x ∧
          (s.B ≤ f s.a → s.B ≤ f s.c → u.B ≤ f u.a ∧ u.B ≤ f u.c) := by
        intro u e1 e2 e3 e4
        refine ⟨⟨by rw [e1, e2]; exact hB, by rw [e3]; exact ha.trans h1, by rw [e3, e2]; exact hb.le,
          by rw [e2, e4]; exact bc, by rw [e4]; exact hc⟩, e1.le, by rw [e1]; exact hx', fun _ h4 => ?_⟩
        rw [e1, e3, e4]; exact ⟨hx', h4⟩
      split_ifs <;> exact key _ rfl rfl rfl rfl
    · simp only [if_neg hb]
      have key : ∀ u : Ref K, u.B = s.B → u.b = s.b → u.a = s.a → u.c = x → RefOk f lo hi u ∧ u.B ≤ s.B ∧ u.B ≤ f x ∧
          (s.B ≤ f s.a → s.B ≤ f s.c → u.B ≤ f u.a ∧ u.B ≤ f u.c) := by
        intro u e1 e2 e3 e4
        refine ⟨⟨by rw [e1, e2]; exact hB, by rw [e3]; exact ha, by rw [e3, e2]; exact ab,
          by rw [e2, e4]; exact not_lt.1 hb, by rw [e4]; exact h2.trans hc⟩, e1.le, by rw [e1]; exact hx', fun h3 _ => ?_⟩
        rw [e1, e3, e4]; exact ⟨h3, hx'⟩
      split_ifs <;> exact key _ rfl rfl rfl rfl

theorem refine_ok {f : K → K} {v : MinEnv K} (h0 : 0 ≤ v.gc) (h1 : v.gc ≤ 1) {lo hi : K} : ∀ (n : Nat) (s : Ref K),
    RefOk f lo hi s → ∀ r, refine f v n s = .ok r → f r.1 ≤ s.B ∧ (r.1 = s.b ∨ r.1 ∈ r.2) ∧ lo ≤ r.1 ∧ r.1 ≤ hi ∧
      (∀ x ∈ r.2, f r.1 ≤ f x ∧ lo ≤ x ∧ x ≤ hi) ∧ r.2.length ≤ n := by
  intro n
  induction n with
  | zero =>
    intro s hs r h
    unfold refine at h
    split_ifs at h with hc
    cases h
    exact ⟨hs.hB.ge, .inl rfl, hs.ha.trans hs.ab, hs.bc.trans hs.hc, by simp, by simp⟩
  | succ n ih =>
    intro s hs r h
    unfold refine at h
    split_ifs at h with hc
    · obtain ⟨q, h2, h3⟩ := Res.bind_eq_ok.1 h
      cases h3
      obtain ⟨p1, p2⟩ := point_mem h0 h1 hs
      obtain ⟨c1, c2, c3, _⟩ := close_ok hs p1 p2
      obtain ⟨i1, i2, i3, i4, i5, i6⟩ := ih _ c1 q h2
      refine ⟨i1.trans c2, ?_, i3, i4, ?_, by simp; omega⟩
      · rcases i2 with e | e
        · have : (close f s (point v s)).b = s.b ∨ (close f s (point v s)).b = point v s := by
            unfold close; split_ifs <;> simp
          rcases this with e' | e'
          · exact .inl (e.trans e')
          · exact .inr (by rw [e, e']; exact List.mem_cons_self)
        · exact .inr (List.mem_cons_of_mem _ e)
      · intro x hx
        rcases List.mem_cons.1 hx with rfl | hx
        · exact ⟨i1.trans c3, hs.ha.trans p1, p2.trans hs.hc⟩
        · exact i5 x hx
    · cases h
      exact ⟨hs.hB.ge, .inl rfl, hs.ha.trans hs.ab, hs.bc.trans hs.hc, by simp, by simp⟩

theorem arrange_ok {f : K → K} {t : Tri K} (h : t.Ok f) :
    RefOk f (min t.a t.c) (max t.a t.c) (arrangeTri t) ∧ (arrangeTri t).b = t.b := by
  obtain ⟨hA, hB, hC, ho⟩ := h
  unfold arrangeTri
  rcases ho with ho | ho
  · have h1 : ¬ t.a > t.c := by have := ho.1.trans ho.2; exact not_lt.2 this.le
    have h2 := (ho.1.trans ho.2).le
    simp only [if_neg h1]
    rw [min_eq_left h2, max_eq_right h2]
    split_ifs <;> exact ⟨⟨hB, le_refl _, ho.1.le, ho.2.le, le_refl _⟩, rfl⟩
  · have h1 : t.a > t.c := ho.1.trans ho.2
    have h2 := (ho.1.trans ho.2).le
    simp only [if_pos h1]
    rw [min_eq_right h2, max_eq_left h2]
    split_ifs <;> exact ⟨⟨hB, le_refl _, ho.1.le, ho.2.le, le_refl _⟩, rfl⟩

/-! ## Properties -/

/-- C59: the second loop starts from three points with the middle one between the others.  The result lies between them, it
is the middle point or a point looked at since, no point looked at since is better, nor is the middle point, and at most
100 points are looked at, all of them between the three.
Partial: the outer points are left out, see `C59_bracket_partial` and `C59_peak_wrong`. -/
theorem C59_best_partial (f : K → K) {v : MinEnv K} (h0 : 0 < v.gc) (h1 : v.gc < 1) {a b : Option K} {x : K} {t : Tri K}
    {l : List K} (h : fmin f v a b = .ok (x, t, l)) :
    t.Ok f ∧ t.Spans x ∧ x ∈ t.b :: l ∧ (∀ y ∈ t.b :: l, f x ≤ f y ∧ t.Spans y) ∧ l.length ≤ 100 := by
  obtain ⟨s, h2, h3⟩ := Res.bind_eq_ok.1 h
  obtain ⟨r, h4, h5⟩ := Res.bind_eq_ok.1 h3
  cases h5
  obtain ⟨ht, _, hn⟩ := settle_ok f h1 10 _ (begin_ok f h0 h1 a b) s h2
  obtain ⟨hr, hb⟩ := arrange_ok ht
  obtain ⟨i1, i2, i3, i4, i5, i6⟩ := refine_ok h0.le h1.le _ _ hr r h4
  rw [hb] at i2
  rw [hr.hB, hb] at i1
  refine ⟨ht, ⟨i3, i4⟩, by rw [List.mem_cons]; exact i2, fun y hy => ?_, by omega⟩
  rcases List.mem_cons.1 hy with rfl | hy
  · exact ⟨i1, hr.ha.trans (hb ▸ hr.ab), (hb ▸ hr.bc).trans hr.hc⟩
  · exact ⟨(i5 y hy).1, (i5 y hy).2⟩

/-- C59: if the three points bracket a minimum, the result is no worse than any of them.
Partial: they need not, see `C59_peak_wrong`. -/
theorem C59_bracket_partial (f : K → K) {v : MinEnv K} (h0 : 0 < v.gc) (h1 : v.gc < 1) {a b : Option K} {x : K} {t : Tri K}
    {l : List K} (h : fmin f v a b = .ok (x, t, l)) (hA : f t.b ≤ f t.a) (hC : f t.b ≤ f t.c) :
    f x ≤ f t.a ∧ f x ≤ f t.b ∧ f x ≤ f t.c := by
  obtain ⟨_, _, _, h2, _⟩ := C59_best_partial f h0 h1 h
  have := (h2 t.b List.mem_cons_self).1
  exact ⟨this.trans hA, this, this.trans hC⟩

/-- C59 does not hold: if the value at the first inner point is higher than at both ends, this worst of the three points is
returned. -/
theorem C59_peak_wrong (f : K → K) {v : MinEnv K} (h0 : 0 < v.gc) (h1 : v.gc < 1) {a b : K} (hab : a ≠ b)
    (hA : f a < f (b + v.gc * (a - b))) (hC : f b < f (b + v.gc * (a - b))) :
    ∃ t, fmin f v (some a) (some b) = .ok (b + v.gc * (a - b), t, []) := by
  have e : begin f v (some a) (some b) =
      ⟨a, b + v.gc * (a - b), b, f a, f (b + v.gc * (a - b)), f b⟩ := by
    unfold begin
    simp only [if_neg hab]
    rw [if_neg]
    exact fun h => absurd h.2 (not_le.2 hC)
  have hok := begin_ok f h0 h1 (some a) (some b)
  have hs : settle f v 10 (begin f v (some a) (some b)) = .ok (10, begin f v (some a) (some b)) := by
    unfold settle
    rw [if_neg]
    rw [e]
    exact fun h => absurd h.1 (not_le.2 hA)
  refine ⟨begin f v (some a) (some b), ?_⟩
  unfold fmin
  rw [hs, Res.ok_bind]
  have hr : refine f v (90 + 10) (arrangeTri (begin f v (some a) (some b))) = .ok (b + v.gc * (a - b), []) := by
    have hb : (arrangeTri (begin f v (some a) (some b))).b = b + v.gc * (a - b) := by
      rw [(arrange_ok hok).2, e]
    unfold refine
    rw [if_neg, hb]
    rintro ⟨_, hy⟩
    revert hy
    rw [e]
    unfold arrangeTri
    dsimp only
    split_ifs <;> (rintro (h | h) <;> exact absurd h (not_lt.2 (by first | exact hA.le | exact hC.le)))
  dsimp only
  rw [hr]; rfl

/-- C59: on a parabola the approximation of the second loop is its vertex. -/
theorem C59_vertex {f : K → K} {p q r : K} (hf : ∀ t, f t = p * t * t + q * t + r) (hp : p ≠ 0) {s : Ref K}
    (hB : s.B = f s.b) (hY : s.Y = f s.y) (hZ : s.Z = f s.z) (h1 : s.b ≠ s.y) (h2 : s.b ≠ s.z) (h3 : s.y ≠ s.z) :
    2 * p * vertex s + q = 0 := by
  have d1 : s.b - s.y ≠ 0 := sub_ne_zero.2 h1
  have d2 : s.b - s.z ≠ 0 := sub_ne_zero.2 h2
  have d3 : s.y - s.z ≠ 0 := sub_ne_zero.2 h3
  have e : (s.b - s.z) * (s.B - s.Y) - (s.b - s.y) * (s.B - s.Z) = p * ((s.b - s.y) * (s.b - s.z) * (s.y - s.z)) := by
    rw [hB, hY, hZ, hf, hf, hf]; ring
  have hne : (s.b - s.z) * (s.B - s.Y) ≠ (s.b - s.y) * (s.B - s.Z) := by
    rw [← sub_ne_zero, e]
    exact mul_ne_zero hp (mul_ne_zero (mul_ne_zero d1 d2) d3)
  unfold vertex
  simp only [if_pos hne]
  rw [e]
  have hn : (s.b - s.z) * ((s.b - s.z) * (s.B - s.Y)) - (s.b - s.y) * ((s.b - s.y) * (s.B - s.Z)) =
      (s.b - s.y) * (s.b - s.z) * (s.y - s.z) * (2 * p * s.b + q) := by
    rw [hB, hY, hZ, hf, hf, hf]; ring
  rw [hn]
  field_simp
  ring

theorem turning_core {f : K → K} {p q r : K} (hf : ∀ t, f t = p * t * t + q * t + r) {t : Tri K} (ht : t.Ok f) :
    (t.b - t.c) * (t.B - t.A) - (t.b - t.a) * (t.B - t.C) = p * ((t.b - t.a) * (t.c - t.b) * (t.c - t.a)) ∧
    (t.b - t.a) * ((t.b - t.a) * (t.B - t.C)) - (t.b - t.c) * ((t.b - t.c) * (t.B - t.A)) =
      -((t.b - t.a) * (t.c - t.b) * (t.c - t.a) * (2 * p * t.b + q)) := by
  obtain ⟨hA, hB, hC, _⟩ := ht
  rw [hA, hB, hC, hf, hf, hf]
  constructor <;> ring

/-- C59: with the points from right to left, the first loop extrapolates to the vertex of a parabola with a minimum. -/
theorem C59_turning {f : K → K} {p q r : K} (hf : ∀ t, f t = p * t * t + q * t + r) (hp : 0 < p) {t : Tri K}
    (ht : t.Ok f) (ho : t.c < t.b ∧ t.b < t.a) : 2 * p * turning t + q = 0 := by
  obtain ⟨e1, e2⟩ := turning_core hf ht
  have d1 : t.b - t.a < 0 := by linarith [ho.2]
  have d2 : t.c - t.b < 0 := by linarith [ho.1]
  have d3 : t.c - t.a < 0 := by linarith
  have hD : (t.b - t.a) * (t.c - t.b) * (t.c - t.a) < 0 := mul_neg_of_pos_of_neg (mul_pos_of_neg_of_neg d1 d2) d3
  have hne : (t.b - t.a) * (t.B - t.C) ≠ (t.b - t.c) * (t.B - t.A) := by
    intro e
    rw [e, sub_self] at e1
    have := mul_neg_of_pos_of_neg hp hD
    linarith
  unfold turning
  simp only [if_pos hne]
  rw [e1, e2, abs_of_neg (by have := mul_neg_of_pos_of_neg hp hD; linarith)]
  have h1 := d1.ne; have h2 := d2.ne; have h3 := d3.ne
  field_simp
  ring

/-- C59 does not hold: with the points from left to right, the point called the turning point is the mirror image of the
vertex, on the other side of the middle point; so the extrapolation is never used on a parabola that still falls. -/
theorem C59_turning_wrong {f : K → K} {p q r : K} (hf : ∀ t, f t = p * t * t + q * t + r) (hp : 0 < p) {t : Tri K}
    (ht : t.Ok f) (ho : t.a < t.b ∧ t.b < t.c) :
    2 * p * (2 * t.b - turning t) + q = 0 ∧ (t.B ≥ t.C → turning t < t.b) := by
  obtain ⟨e1, e2⟩ := turning_core hf ht
  have d1 : 0 < t.b - t.a := by linarith [ho.1]
  have d2 : 0 < t.c - t.b := by linarith [ho.2]
  have d3 : 0 < t.c - t.a := by linarith
  have hD : 0 < (t.b - t.a) * (t.c - t.b) * (t.c - t.a) := mul_pos (mul_pos d1 d2) d3
  have hne : (t.b - t.a) * (t.B - t.C) ≠ (t.b - t.c) * (t.B - t.A) := by
    intro e
    rw [e, sub_self] at e1
    have := mul_pos hp hD
    linarith
  have key : 2 * p * (2 * t.b - turning t) + q = 0 := by
    unfold turning
    simp only [if_pos hne]
    rw [e1, e2, abs_of_pos (by have := mul_pos hp hD; linarith)]
    have h1 := d1.ne'; have h2 := d2.ne'; have h3 := d3.ne'
    field_simp
    ring
  refine ⟨key, fun h => ?_⟩
  obtain ⟨hA, hB, hC, _⟩ := ht
  rw [hB, hC, hf, hf] at h
  have e : (t.b - t.c) * (p * (t.b + t.c) + q) ≥ 0 := by linarith [h, mul_comm p t.b]
  have e' : p * (t.b + t.c) + q ≤ 0 := by
    by_contra hn
    have := mul_neg_of_neg_of_pos (show t.b - t.c < 0 by linarith) (not_le.1 hn)
    linarith
  have h3 : 0 < p * (t.c - t.b) := mul_pos hp d2
  have h4 : 2 * p * turning t < 2 * p * t.b := by
    have : 2 * p * turning t = 4 * p * t.b + q := by linear_combination -key
    rw [this]; linarith
  exact lt_of_mul_lt_mul_left h4 (by linarith)

/-! ## Examples -/

/-- The golden section to three digits. -/
def exMin : MinEnv ℚ where
  gc := 382 / 1000
  eps _ := 1 / 1000

/-- A minimum that is found. -/
example : fmin (fun t : ℚ => (t - 1) * (t - 1)) exMin (some 0) (some 3) =
    .ok (1, ⟨0, 927 / 500, 3, 1, 182329 / 250000, 4⟩, [1, 1, 331557 / 250000, 140577387 / 125000000,
      65475280917 / 62500000000, 31818278655147 / 31250000000000, 15733541223133077 / 15625000000000000,
      7833231373618417707 / 7812500000000000000]) := by
  decide +kernel

/-- A peak that is returned instead of an end. -/
example : ∃ t, fmin (fun t : ℚ => -t * t) exMin (some (-1)) (some 1) = .ok (1 + 382 / 1000 * (-1 - 1), t, []) :=
  C59_peak_wrong _ (by norm_num [exMin]) (by norm_num [exMin]) (by norm_num) (by norm_num [exMin]) (by norm_num [exMin])

/-- Three points from left to right on a parabola that falls. -/
example : Tri.Ok (fun t : ℚ => 1 * t * t + -6 * t + 0) ⟨0, 1, 2, 0, -5, -8⟩ ∧
    turning (⟨0, 1, 2, 0, -5, -8⟩ : Tri ℚ) = -1 := by
  constructor
  · refine ⟨?_, ?_, ?_, .inl ⟨?_, ?_⟩⟩ <;> norm_num
  · norm_num [turning]

end OP.Num
