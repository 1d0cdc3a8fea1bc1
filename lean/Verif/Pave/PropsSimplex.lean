import Verif.Pave.Simplex
import Verif.Lin.PropsOrth
import Mathlib.Tactic.Linarith
import Mathlib.Tactic.Ring
import Mathlib.Tactic.FieldSimp
import Mathlib.Tactic.Positivity
import Mathlib.Tactic.NormNum
/-!
# C95: the downhill simplex search
-/
namespace OP.Pave.Simplex

open OP.Lin Finset

variable {K : Type} [Field K] [LinearOrder K]

/-! ## Sorting -/

omit [Field K] in
theorem xlt_t {a b : K} (h : a < b) : xlt (some a) (some b) = true := by simp [xlt, h]

omit [Field K] in
theorem xlt_f {a b : K} (h : ¬a < b) : xlt (some a) (some b) = false := by simp only [xlt, h, decide_false]

omit [Field K] in
theorem xge_t {a b : K} (h : b ≤ a) : xge (some a) (some b) = true := by simp [xge, h]

omit [Field K] in
theorem xge_f {a b : K} (h : ¬b ≤ a) : xge (some a) (some b) = false := by simp only [xge, h, decide_false]

/-- Two simplices with the same rows in another order. -/
def Same (nl : Nat) (V W : Nat → Vtx K) : Prop :=
  (∀ i ≤ nl, ∃ k ≤ nl, W i = V k) ∧ ∀ k ≤ nl, ∃ i ≤ nl, W i = V k

omit [Field K] [LinearOrder K] in
theorem Same.refl (nl : Nat) (V : Nat → Vtx K) : Same nl V V := ⟨fun i h => ⟨i, h, rfl⟩, fun i h => ⟨i, h, rfl⟩⟩

omit [Field K] [LinearOrder K] in
theorem Same.trans {nl : Nat} {U V W : Nat → Vtx K} (h : Same nl U V) (h' : Same nl V W) : Same nl U W := by
  constructor
  · intro i hi
    obtain ⟨k, hk, e⟩ := h'.1 i hi
    obtain ⟨l, hl, e'⟩ := h.1 k hk
    exact ⟨l, hl, e.trans e'⟩
  · intro k hk
    obtain ⟨i, hi, e⟩ := h.2 k hk
    obtain ⟨l, hl, e'⟩ := h'.2 i hi
    exact ⟨l, hl, e'.trans e⟩

omit [Field K] [LinearOrder K] in
theorem swp_apply (V : Nat → Vtx K) (i j k : Nat) : swp V i j k = if k = j then V i else if k = i then V j else V k := by
  simp only [Lin.swp, Lin.set]

omit [Field K] [LinearOrder K] in
theorem Same.swp {nl i j : Nat} (hi : i ≤ nl) (hj : j ≤ nl) (V : Nat → Vtx K) : Same nl V (swp V i j) := by
  constructor
  · intro k hk
    rw [swp_apply]
    split_ifs
    · exact ⟨i, hi, rfl⟩
    · exact ⟨j, hj, rfl⟩
    · exact ⟨k, hk, rfl⟩
  · intro k hk
    by_cases h1 : k = i
    · exact ⟨j, hj, by rw [swp_apply, if_pos rfl, h1]⟩
    · by_cases h2 : k = j
      · subst h2
        by_cases h3 : i = k
        · exact absurd h3.symm h1
        · exact ⟨i, hi, by rw [swp_apply, if_neg h3, if_pos rfl]⟩
      · exact ⟨k, hk, by rw [swp_apply, if_neg h2, if_neg h1]⟩

/-- Every row carries its own error. -/
def Valued (g : (Nat → K) → K) (nl : Nat) (V : Nat → Vtx K) : Prop := ∀ i ≤ nl, (V i).e = some (g (V i).x)

omit [Field K] [LinearOrder K] in
theorem Same.valued {g : (Nat → K) → K} {nl : Nat} {V W : Nat → Vtx K} (h : Same nl V W) (hv : Valued g nl V) :
    Valued g nl W := by
  intro i hi
  obtain ⟨k, hk, e⟩ := h.1 i hi
  rw [e]; exact hv k hk

theorem order_spec {g : (Nat → K) → K} {nl : Nat} {V : Nat → Vtx K} (hv : Valued g nl V) :
    Same nl V (order nl V) ∧ ∀ a b, a ≤ b → b ≤ nl → g (order nl V a).x ≤ g (order nl V b).x := by
  have key : Same nl V (order nl V) ∧ ∀ a b, a < nl + 1 → a ≤ b → b ≤ nl → g (order nl V a).x ≤ g (order nl V b).x := by
    refine loop_rule (fun i W => Same nl V W ∧ ∀ a b, a < i → a ≤ b → b ≤ nl → g (W a).x ≤ g (W b).x) (Nat.zero_le _)
      ⟨Same.refl _ _, fun a b h => absurd h (Nat.not_lt_zero a)⟩ ?_
    intro i W _ hi ⟨hs, ho⟩
    have inner := loop_rule (f := fun j (V : Nat → Vtx K) => bif xlt (V j).e (V i).e then Lin.swp V i j else V)
      (fun j W => Same nl V W ∧ (∀ a b, a < i → a ≤ b → b ≤ nl → g (W a).x ≤ g (W b).x) ∧
        ∀ b, i ≤ b → b < j → g (W i).x ≤ g (W b).x) (lo := i + 1) (hi := nl + 1) (s := W) (by omega)
      ⟨hs, ho, fun b h1 h2 => by rw [show b = i by omega]⟩ ?_
    · refine ⟨inner.1, fun a b h1 h2 h3 => ?_⟩
      by_cases h : a < i
      · exact inner.2.1 a b h h2 h3
      · rw [show a = i by omega]
        exact inner.2.2 b (by omega) (by omega)
    · intro j U hj1 hj2 ⟨h1, h2, h3⟩
      have hu := h1.valued hv
      have ei := hu i (by omega)
      have ej := hu j (by omega)
      rw [ei, ej]
      by_cases hc : g (U j).x < g (U i).x
      · rw [xlt_t hc, cond_true]
        refine ⟨h1.trans (Same.swp (by omega) (by omega) U), fun a b ha hab hb => ?_, fun b hb1 hb2 => ?_⟩
        · rw [swp_apply, if_neg (show ¬a = j by omega), if_neg (show ¬a = i by omega), swp_apply]
          split_ifs
          · exact h2 a i ha (by omega) (by omega)
          · exact h2 a j ha (by omega) (by omega)
          · exact h2 a b ha hab hb
        · rw [swp_apply, if_neg (show ¬i = j by omega), if_pos rfl, swp_apply]
          split_ifs with q1 q2
          · exact hc.le
          · exact le_rfl
          · exact hc.le.trans (h3 b hb1 (by omega))
      · rw [xlt_f hc, cond_false]
        refine ⟨h1, h2, fun b hb1 hb2 => ?_⟩
        by_cases q : b = j
        · rw [q]; exact not_lt.1 hc
        · exact h3 b hb1 (by omega)
  exact ⟨key.1, fun a b h1 h2 => key.2 a b (by omega) h1 h2⟩

/-! ## The rounds -/

/-- The rows carry their errors, were visited, and the best of them is the best of all points visited. -/
structure Ok (g : (Nat → K) → K) (nl : Nat) (s : Sx K) : Prop where
  val : Valued g nl s.V
  mem : ∀ i ≤ nl, (s.V i).x ∈ s.seen
  low : ∀ y ∈ s.seen, ∃ i ≤ nl, g (s.V i).x ≤ g y

theorem start_ok (g : (Nat → K) → K) (nl : Nat) (P : Nat → K) :
    Ok g nl (start (fun x => some (g x)) nl P) ∧ P ∈ (start (fun x => some (g x)) nl P).seen := by
  have := loop_rule (f := fun i (s : Sx K) =>
      let x := set (s.V 0).x (i - 1) ((s.V 0).x (i - 1) + (if i < nl / 2 then 1 / 10 else -(1 / 10)))
      (⟨set s.V i (eval (fun x => some (g x)) x), x :: s.seen⟩ : Sx K))
    (fun i s => (∀ k < i, (s.V k).e = some (g (s.V k).x)) ∧ (∀ k < i, (s.V k).x ∈ s.seen) ∧
      (∀ y ∈ s.seen, ∃ k < i, g (s.V k).x ≤ g y) ∧ P ∈ s.seen) (lo := 1) (hi := nl + 1)
    (s := ⟨fun _ => eval (fun x => some (g x)) P, [P]⟩) (by omega)
    ⟨fun _ _ => rfl, fun _ _ => by simp [eval], fun y hy => ⟨0, by omega, by simp at hy; rw [hy]; exact le_rfl⟩, by simp⟩ ?_
  · exact ⟨⟨fun i hi => this.1 i (by omega), fun i hi => this.2.1 i (by omega), fun y hy => by
      obtain ⟨k, hk, h⟩ := this.2.2.1 y hy
      exact ⟨k, by omega, h⟩⟩, this.2.2.2⟩
  · intro i s h1 h2 ⟨a, b, c, d⟩
    dsimp only
    refine ⟨fun k hk => ?_, fun k hk => ?_, fun y hy => ?_, List.mem_cons_of_mem _ d⟩
    · by_cases q : k = i
      · subst q; rw [set_same]; rfl
      · rw [set_ne _ _ q]; exact a k (by omega)
    · by_cases q : k = i
      · subst q; rw [set_same]; exact List.mem_cons_self
      · rw [set_ne _ _ q]; exact List.mem_cons_of_mem _ (b k (by omega))
    · rcases List.mem_cons.1 hy with rfl | hy
      · exact ⟨i, by omega, by rw [set_same]; exact le_rfl⟩
      · obtain ⟨k, hk, h⟩ := c y hy
        exact ⟨k, by omega, by rw [set_ne _ _ (show k ≠ i by omega)]; exact h⟩

/-- A row replaced by one that is no worse than it, all other points visited since being no better than some row. -/
theorem Ok.put {g : (Nat → K) → K} {nl : Nat} {s : Sx K} (h : Ok g nl s) {x : Nat → K} {l : List (Nat → K)}
    (hx : g x ≤ g (s.V nl).x) (hl : ∀ y ∈ l, g x ≤ g y ∨ ∃ i < nl, g (s.V i).x ≤ g y) (hm : x ∈ l) :
    Ok g nl ⟨set s.V nl (eval (fun x => some (g x)) x), l ++ s.seen⟩ := by
  refine ⟨fun k hk => ?_, fun k hk => ?_, fun y hy => ?_⟩
  · dsimp only
    by_cases q : k = nl
    · subst q; rw [set_same]; rfl
    · rw [set_ne _ _ q]; exact h.val k hk
  · dsimp only
    by_cases q : k = nl
    · subst q; rw [set_same]; exact List.mem_append_left _ hm
    · rw [set_ne _ _ q]; exact List.mem_append_right _ (h.mem k hk)
  · dsimp only at hy ⊢
    rcases List.mem_append.1 hy with hy | hy
    · rcases hl y hy with q | ⟨i, hi, q⟩
      · exact ⟨nl, le_rfl, by rw [set_same]; exact q⟩
      · exact ⟨i, hi.le, by rw [set_ne _ _ (show i ≠ nl by omega)]; exact q⟩
    · obtain ⟨k, hk, q⟩ := h.low y hy
      by_cases e : k = nl
      · subst e; exact ⟨k, le_rfl, by rw [set_same]; exact hx.trans q⟩
      · exact ⟨k, hk, by rw [set_ne _ _ e]; exact q⟩

omit [Field K] in
theorem Ok.see {g : (Nat → K) → K} {nl : Nat} {s : Sx K} (h : Ok g nl s) {l : List (Nat → K)}
    (hl : ∀ y ∈ l, ∃ i ≤ nl, g (s.V i).x ≤ g y) : Ok g nl ⟨s.V, l ++ s.seen⟩ :=
  ⟨h.val, fun k hk => List.mem_append_right _ (h.mem k hk), fun y hy => (List.mem_append.1 hy).elim (hl y) (h.low y)⟩

theorem shrink_ok {g : (Nat → K) → K} {nl : Nat} {s : Sx K} (h : Ok g nl s)
    (hmin : ∀ i ≤ nl, g (s.V 0).x ≤ g (s.V i).x) : Ok g nl (shrink (fun x => some (g x)) nl s) ∧
    ∀ y ∈ s.seen, y ∈ (shrink (fun x => some (g x)) nl s).seen := by
  have := loop_rule (f := fun i (s : Sx K) =>
      let x := midpoint (s.V 0).x (s.V i).x
      (⟨set s.V i (eval (fun x => some (g x)) x), x :: s.seen⟩ : Sx K))
    (fun i t => Valued g nl t.V ∧ (∀ k ≤ nl, (t.V k).x ∈ t.seen) ∧ t.V 0 = s.V 0 ∧ 
      (∀ y ∈ t.seen, (∃ k < i, g (t.V k).x ≤ g y) ∨ g (s.V 0).x ≤ g y) ∧ ∀ y ∈ s.seen, y ∈ t.seen) (lo := 1) (hi := nl + 1)
    (s := s) (by omega) ⟨h.val, h.mem, rfl, fun y hy => Or.inr (by
      obtain ⟨k, hk, q⟩ := h.low y hy
      exact (hmin k hk).trans q), fun _ q => q⟩ ?_
  · obtain ⟨a, b, c, d, e⟩ := this
    refine ⟨⟨a, b, fun y hy => ?_⟩, e⟩
    rcases d y hy with ⟨k, hk, q⟩ | q
    · exact ⟨k, by omega, q⟩
    · refine ⟨0, by omega, ?_⟩
      have c' : (shrink (fun x => some (g x)) nl s).V 0 = s.V 0 := c
      rw [c']; exact q
  · intro i t h1 h2 ⟨a, b, c, d, e⟩
    dsimp only
    refine ⟨fun k hk => ?_, fun k hk => ?_, ?_, fun y hy => ?_, fun y hy => List.mem_cons_of_mem _ (e y hy)⟩
    · by_cases q : k = i
      · subst q; rw [set_same]; rfl
      · rw [set_ne _ _ q]; exact a k hk
    · by_cases q : k = i
      · subst q; rw [set_same]; exact List.mem_cons_self
      · rw [set_ne _ _ q]; exact List.mem_cons_of_mem _ (b k hk)
    · rw [set_ne _ _ (show 0 ≠ i by omega)]; exact c
    · rcases List.mem_cons.1 hy with rfl | hy
      · exact Or.inl ⟨i, by omega, by rw [set_same]; exact le_rfl⟩
      · rcases d y hy with ⟨k, hk, q⟩ | q
        · exact Or.inl ⟨k, by omega, by rw [set_ne _ _ (show k ≠ i by omega)]; exact q⟩
        · exact Or.inr q

theorem round_ok {g : (Nat → K) → K} {nl : Nat} (hn : 0 < nl) {s : Sx K} (h : Ok g nl s)
    (hs : ∀ a b, a ≤ b → b ≤ nl → g (s.V a).x ≤ g (s.V b).x) : Ok g nl (round (fun x => some (g x)) nl s) ∧
    ∀ y ∈ s.seen, y ∈ (round (fun x => some (g x)) nl s).seen := by
  have hv := h.val
  dsimp only [round, eval]
  set D := centre nl s.V
  set R := reflect (s.V nl).x D 1
  set E := reflect R D (-2)
  simp only [hv nl le_rfl]
  by_cases c1 : g R < g (s.V nl).x
  · -- reflected
    have e0 : set s.V nl ⟨R, some (g R)⟩ 0 = s.V 0 := set_ne _ _ (show 0 ≠ nl by omega)
    have e1 : set s.V nl ⟨R, some (g R)⟩ (nl - 1) = s.V (nl - 1) := set_ne _ _ (show nl - 1 ≠ nl by omega)
    simp only [xlt_t c1, cond_true, e0, e1, hv 0 (Nat.zero_le _), hv (nl - 1) (Nat.sub_le _ _), cond_true, cond_false, set_same]
    have okR : Ok g nl ⟨set s.V nl ⟨R, some (g R)⟩, [R] ++ s.seen⟩ :=
      h.put (x := R) c1.le (fun y hy => by simp at hy; rw [hy]; exact Or.inl le_rfl) (by simp)
    by_cases c2 : g R < g (s.V 0).x
    · simp only [xlt_t c2, cond_true]
      by_cases c3 : g E < g R
      · simp only [xlt_t c3, cond_true, set_set]
        refine ⟨h.put (x := E) (l := [E, R]) (c3.le.trans c1.le) ?_ (by simp), fun y hy => by simp [hy]⟩
        intro y hy
        simp only [List.mem_cons, List.not_mem_nil, or_false] at hy
        rcases hy with rfl | rfl
        · exact Or.inl le_rfl
        · exact Or.inl c3.le
      · simp only [xlt_f c3, cond_false]
        refine ⟨okR.see (l := [E]) ?_, fun y hy => by simp [hy]⟩
        intro y hy
        simp only [List.mem_singleton] at hy
        exact ⟨nl, le_rfl, by dsimp only; rw [set_same, hy]; exact not_lt.1 c3⟩
    · simp only [xlt_f c2, cond_false]
      by_cases c3 : g (s.V (nl - 1)).x ≤ g R
      · simp only [xge_t c3, cond_true]
        set C := reflect R D (-(1 / 2)) with hC
        by_cases c4 : g C < g R
        · simp only [xlt_t c4, cond_true, set_set]
          refine ⟨h.put (x := C) (l := [C, R]) (c4.le.trans c1.le) ?_ (by simp), fun y hy => by simp [hy]⟩
          intro y hy
          simp only [List.mem_cons, List.not_mem_nil, or_false] at hy
          rcases hy with rfl | rfl
          · exact Or.inl le_rfl
          · exact Or.inl c4.le
        · simp only [xlt_f c4, cond_false]
          have okC : Ok g nl ⟨set s.V nl ⟨R, some (g R)⟩, [C] ++ ([R] ++ s.seen)⟩ := okR.see (l := [C]) (by
            intro y hy
            simp only [List.mem_singleton] at hy
            exact ⟨nl, le_rfl, by dsimp only; rw [set_same, hy]; exact not_lt.1 c4⟩)
          refine (shrink_ok okC ?_).imp id fun q y hy => q y (by simp [hy])
          intro i hi
          dsimp only
          rw [e0]
          by_cases q : i = nl
          · rw [q, set_same]; exact not_lt.1 c2
          · rw [set_ne _ _ q]; exact hs 0 i (Nat.zero_le _) hi
      · simp only [xge_f c3, cond_false]
        exact ⟨okR, fun y hy => by simp [hy]⟩
  · simp only [xlt_f c1, cond_false, hv 0 (Nat.zero_le _), hv (nl - 1) (Nat.sub_le _ _), hv nl le_rfl, cond_true, cond_false]
    have g1 : g (s.V nl).x ≤ g R := not_lt.1 c1
    have c2 : ¬g R < g (s.V 0).x := not_lt.2 ((hs 0 nl (Nat.zero_le _) le_rfl).trans g1)
    have c3 : g (s.V (nl - 1)).x ≤ g R := (hs (nl - 1) nl (Nat.sub_le _ _) le_rfl).trans g1
    simp only [xlt_f c2, cond_false, xge_t c3, cond_true]
    set C := reflect (s.V nl).x D (-(1 / 2)) with hC
    by_cases c4 : g C < g (s.V nl).x
    · simp only [xlt_t c4, cond_true]
      refine ⟨h.put (x := C) (l := [C, R]) c4.le ?_ (by simp), fun y hy => by simp [hy]⟩
      intro y hy
      simp only [List.mem_cons, List.not_mem_nil, or_false] at hy
      rcases hy with rfl | rfl
      · exact Or.inl le_rfl
      · exact Or.inl (c4.le.trans g1)
    · simp only [xlt_f c4, cond_false]
      have okC : Ok g nl ⟨s.V, [C, R] ++ s.seen⟩ := h.see (by
        intro y hy
        simp only [List.mem_cons, List.not_mem_nil, or_false] at hy
        rcases hy with rfl | rfl
        · exact ⟨nl, le_rfl, not_lt.1 c4⟩
        · exact ⟨nl, le_rfl, g1⟩)
      exact (shrink_ok okC fun i hi => hs 0 i (Nat.zero_le _) hi).imp id fun q y hy => q y (by simp [hy])

theorem order_ok {g : (Nat → K) → K} {nl : Nat} {s : Sx K} (h : Ok g nl s) : Ok g nl ⟨order nl s.V, s.seen⟩ := by
  obtain ⟨hs, -⟩ := order_spec h.val
  refine ⟨hs.valued h.val, fun i hi => ?_, fun y hy => ?_⟩
  · obtain ⟨k, hk, e⟩ := hs.1 i hi
    dsimp only; rw [e]; exact h.mem k hk
  · obtain ⟨k, hk, q⟩ := h.low y hy
    obtain ⟨i, hi, e⟩ := hs.2 k hk
    exact ⟨i, hi, by dsimp only; rw [e]; exact q⟩

theorem diam_spec (rt : K → K) (nl : Nat) (V : Nat → Vtx K) {i j : Nat} (hij : i < j) (hj : j ≤ nl) :
    stepLen rt nl (V i).x (V j).x ≤ diam rt nl V := by
  have h := loop_rule (f := fun i a => loop (i + 1) (nl + 1) (fun j a => max a (stepLen rt nl (V i).x (V j).x)) a)
    (fun m a => ∀ p q, p < m → p < q → q ≤ nl → stepLen rt nl (V p).x (V q).x ≤ a) (lo := 0) (hi := nl + 1) (s := 0)
    (Nat.zero_le _) (fun p q h => absurd h (Nat.not_lt_zero p)) (by
      intro m a _ hm ha
      have := loop_rule (f := fun j a => max a (stepLen rt nl (V m).x (V j).x))
        (fun r a => (∀ p q, p < m → p < q → q ≤ nl → stepLen rt nl (V p).x (V q).x ≤ a) ∧
          ∀ q, m < q → q < r → stepLen rt nl (V m).x (V q).x ≤ a) (lo := m + 1) (hi := nl + 1) (s := a) (by omega)
        ⟨ha, fun q h1 h2 => by omega⟩ (by
          intro r b h1 h2 ⟨u, v⟩
          refine ⟨fun p q x y z => (u p q x y z).trans (le_max_left _ _), fun q x y => ?_⟩
          by_cases e : q = r
          · rw [e]; exact le_max_right _ _
          · exact (v q x (by omega)).trans (le_max_left _ _))
      intro p q x y z
      by_cases e : p = m
      · rw [e]; exact this.2 q (by omega) (by omega)
      · exact this.1 p q (by omega) y z)
  exact h i j (by omega) hij hj

theorem search_ok {rt : K → K} {g : (Nat → K) → K} {tol : K} {nl : Nat} (hn : 0 < nl) : ∀ {n : Nat} {first : Bool} {s t : Sx K},
    Ok g nl s → search rt (fun x => some (g x)) tol nl n first s = some t →
    Ok g nl t ∧ (∀ a b, a ≤ b → b ≤ nl → g (t.V a).x ≤ g (t.V b).x) ∧ diam rt nl t.V < 100 * tol ∧ ∀ y ∈ s.seen, y ∈ t.seen
  | 0, _, _, _, _, e => by simp [search] at e
  | n + 1, first, s, t, h, e => by
    obtain ⟨-, ho⟩ := order_spec h.val
    simp only [search] at e
    split_ifs at e with c
    · cases e
      exact ⟨order_ok h, ho, c.2, fun _ q => q⟩
    · obtain ⟨r1, r2⟩ := round_ok hn (order_ok h) ho
      obtain ⟨a, b, c, d⟩ := search_ok hn r1 e
      exact ⟨a, b, c, fun y hy => d y (r2 y hy)⟩

/-! ## C95 -/

/-- **C95**, the search: when it ends, the point it settled on is the best of all points whose error was calculated, the
starting point among them.  It ends only with all corners of the simplex within a hundred tolerances of each other, and the
best point is a corner.  The value returned is the distance from the starting point to that point, and the new logarithms are
that point, each brought between one and nine. -/
theorem C95_search (rt : K → K) (g : (Nat → K) → K) (tol : K) (nl n : Nat) (hn : 0 < nl) (P Q : Nat → K) (len : K) (s : Sx K)
    (h : dsm rt (fun x => some (g x)) tol nl n P = some (Q, len, s)) :
    ∃ X ∈ s.seen, (s.V 0).x = X ∧ P ∈ s.seen ∧ (∀ y ∈ s.seen, g X ≤ g y) ∧ (∀ i < nl, Q i = min (max 1 (X i)) 9) ∧
      len = rt (∑ i ∈ range nl, (P i - X i) ^ 2) ∧
      ∃ W : Nat → Nat → K, W 0 = X ∧ (∀ i ≤ nl, W i ∈ s.seen) ∧
        ∀ i j, i < j → j ≤ nl → rt (∑ k ∈ range nl, (W i k - W j k) ^ 2) < 100 * tol := by
  simp only [dsm, Option.map_eq_some_iff] at h
  obtain ⟨t, ht, e⟩ := h
  simp only [Prod.mk.injEq] at e
  obtain ⟨e1, e2, rfl⟩ := e
  obtain ⟨h0, hP⟩ := start_ok g nl P
  obtain ⟨ok, so, di, ke⟩ := search_ok hn h0 ht
  have len_eq : ∀ A B : Nat → K, stepLen rt nl A B = rt (∑ i ∈ range nl, (A i - B i) ^ 2) := by
    intro A B
    rw [stepLen, loop_add _ _ (Nat.zero_le _), zero_add, range_eq_Ico]
    congr 1
    exact sum_congr rfl fun i _ => by ring
  refine ⟨(t.V 0).x, ok.mem 0 (Nat.zero_le _), rfl, ke P hP, fun y hy => ?_, fun i hi => ?_, ?_, fun i => (t.V i).x, rfl, ok.mem, ?_⟩
  · obtain ⟨k, hk, q⟩ := ok.low y hy
    exact (so 0 k (Nat.zero_le _) hk).trans q
  · rw [← e1]; simp only [if_pos hi, clamp]
  · rw [← e2, len_eq]
  · intro i j hij hj
    rw [← len_eq]
    exact (diam_spec rt nl t.V hij hj).trans_lt di

/-- **C95**, the moduli: as long as the point settled on lies between one and nine, the new logarithms are that point, and their
error is not above the error of the starting point, nor above that of any other point visited.  (Missing: the other points;
`C95_worse` shows that they fail.) -/
theorem C95_no_worse_partial (rt : K → K) (g : (Nat → K) → K) (tol : K) (nl n : Nat) (hn : 0 < nl)
    (hg : ∀ x y : Nat → K, (∀ i < nl, x i = y i) → g x = g y) (P Q : Nat → K) (len : K) (s : Sx K)
    (h : dsm rt (fun x => some (g x)) tol nl n P = some (Q, len, s))
    (hin : ∀ i < nl, 1 ≤ (s.V 0).x i ∧ (s.V 0).x i ≤ 9) : g Q ≤ g P ∧ ∀ y ∈ s.seen, g Q ≤ g y := by
  obtain ⟨X, hX, rfl, hP, hlow, hQ, -⟩ := C95_search rt g tol nl n hn P Q len s h
  have e : g Q = g (s.V 0).x := hg Q _ fun i hi => by
    rw [hQ i hi, max_eq_right (hin i hi).1, min_eq_left (hin i hi).2]
  rw [e]
  exact ⟨hlow P hP, hlow⟩

/-- **C95**, bounds: the new logarithms lie between one and nine. -/
theorem C95_bounds [IsStrictOrderedRing K] (rt : K → K) (f : (Nat → K) → Option K) (tol : K) (nl n : Nat) (P Q : Nat → K) (len : K)
    (s : Sx K) (h : dsm rt f tol nl n P = some (Q, len, s)) (i : Nat) (hi : i < nl) : 1 ≤ Q i ∧ Q i ≤ 9 := by
  simp only [dsm, Option.map_eq_some_iff] at h
  obtain ⟨t, -, e⟩ := h
  simp only [Prod.mk.injEq] at e
  rw [← e.1]
  simp only [if_pos hi, clamp]
  exact ⟨le_min (le_max_left _ _) (by norm_num), min_le_right _ _⟩

/-! ### The search in one layer -/

section One
variable [IsStrictOrderedRing K]

theorem one_len {rt : K → K} (hrt : IsRoot0 rt) (A B : Nat → K) : stepLen rt 1 A B = |A 0 - B 0| := by
  have e : stepLen rt 1 A B = rt ((A 0 - B 0) * (A 0 - B 0)) := by
    simp [stepLen, loop, loopFrom]
  rw [e]
  obtain ⟨h1, h2⟩ := hrt _ (mul_self_nonneg (A 0 - B 0))
  rw [← abs_mul_abs_self (A 0 - B 0)] at h1 h2 ⊢
  exact mul_self_inj_of_nonneg h1 (abs_nonneg _) |>.1 h2 |> fun h => by rw [h]

theorem order_one (V : Nat → Vtx K) : order 1 V = bif xlt (V 1).e (V 0).e then swp V 0 1 else V := by
  simp [order, loop, loopFrom]

omit [IsStrictOrderedRing K] in
theorem start_one (f : (Nat → K) → Option K) (P : Nat → K) :
    (start f 1 P).V = set (fun _ => eval f P) 1 (eval f (set P 0 (P 0 + -(1 / 10)))) := by
  simp [start, loop, loopFrom, eval]

theorem centre_one (V : Nat → Vtx K) : centre 1 V = (V 0).x := by
  funext i
  simp [centre, loop, loopFrom]

theorem search_forever {rt : K → K} {f : (Nat → K) → Option K} {tol : K} {nl : Nat} (I : Sx K → Prop)
    (hd : ∀ s, I s → ¬diam rt nl (order nl s.V) < 100 * tol) (hr : ∀ s, I s → I (round f nl ⟨order nl s.V, s.seen⟩)) :
    ∀ (n : Nat) (first : Bool) (s : Sx K), I s → search rt f tol nl n first s = none
  | 0, _, _, _ => rfl
  | n + 1, first, s, h => by
    simp only [search]
    rw [if_neg (fun q => hd s h q.2)]
    exact search_forever I hd hr n false _ (hr s h)

/-- **C95** fails, and the back-calculation with it, where the error is not a number: for a single layer, if the error can be
calculated at the start and a tenth of an order of magnitude below it, is not smaller there, and is not a number a tenth
above, the search repeats the same round for ever. -/
theorem C95_nan_hangs {rt : K → K} (hrt : IsRoot0 rt) (f : (Nat → K) → Option K) (tol : K) (ht : 1000 * tol ≤ 1) (P : Nat → K) (a b : K)
    (ha : f P = some a) (hb : f (set P 0 (P 0 - 1 / 10)) = some b) (hab : a ≤ b)
    (hc : ∀ x : Nat → K, x 0 = P 0 + 1 / 10 → f x = none) (n : Nat) : dsm rt f tol 1 n P = none := by
  rw [dsm, Option.map_eq_none_iff]
  have eb : P 0 + -(1 / 10) = P 0 - 1 / 10 := by ring
  refine search_forever (fun s => s.V = (start f 1 P).V) (fun s hs => ?_) (fun s hs => ?_) n true _ rfl
  · rw [hs, order_one, start_one, set_same, set_ne _ _ (show 0 ≠ 1 by omega)]
    simp only [eval, eb, ha, hb]
    rw [xlt_f (not_lt.2 hab), cond_false]
    refine not_lt.2 (le_trans ?_ (diam_spec rt 1 _ (show 0 < 1 by omega) le_rfl))
    rw [one_len hrt, set_same, set_ne _ _ (show 0 ≠ 1 by omega)]
    dsimp only
    rw [set_same, show P 0 - (P 0 - 1 / 10) = 1 / 10 by ring,
      abs_of_pos (by norm_num)]
    linarith
  · have ho : order 1 s.V = (start f 1 P).V := by
      rw [hs, order_one, start_one, set_same, set_ne _ _ (show 0 ≠ 1 by omega)]
      simp only [eval, eb, ha, hb]
      rw [xlt_f (not_lt.2 hab), cond_false]
    rw [ho]
    have hR : f (reflect ((start f 1 P).V 1).x (centre 1 (start f 1 P).V) 1) = none := by
      apply hc
      rw [centre_one, start_one, set_same, set_ne _ _ (show 0 ≠ 1 by omega)]
      simp only [reflect, eval, set_same]
      ring
    dsimp only [round, eval]
    rw [hR]
    simp only [xlt, xge, cond_false]

/-- **C95** fails where a layer can only get stiffer: if the error falls with every increase of a single modulus, as when no
deflection was measured at all, the search takes ever longer steps and never ends. -/
theorem C95_never_ends {rt : K → K} (hrt : IsRoot0 rt) (φ : K → K) (hφ : ∀ x y, x < y → φ y < φ x) (tol : K) (ht : 1000 * tol ≤ 1)
    (P : Nat → K) (n : Nat) : dsm rt (fun x => some (φ (x 0))) tol 1 n P = none := by
  rw [dsm, Option.map_eq_none_iff]
  have ord : ∀ s : Sx K, Valued (fun x => φ (x 0)) 1 s.V → 1 / 10 ≤ |(s.V 0).x 0 - (s.V 1).x 0| →
      Valued (fun x => φ (x 0)) 1 (order 1 s.V) ∧ 1 / 10 ≤ (order 1 s.V 0).x 0 - (order 1 s.V 1).x 0 := by
    intro s hv h
    refine ⟨(order_spec hv).1.valued hv, ?_⟩
    rw [order_one, hv 0 (by omega), hv 1 le_rfl]
    rcases lt_trichotomy ((s.V 0).x 0) ((s.V 1).x 0) with q | q | q
    · rw [xlt_t (hφ _ _ q), cond_true, swp_apply, swp_apply, if_neg (show ¬0 = 1 by omega), if_pos rfl, if_pos rfl]
      rw [abs_of_neg (by linarith)] at h
      linarith
    · rw [q, sub_self, abs_zero] at h
      exact absurd h (by norm_num)
    · rw [xlt_f (not_lt.2 (hφ _ _ q).le), cond_false]
      rw [abs_of_pos (by linarith)] at h
      exact h
  refine search_forever (fun s => Valued (fun x => φ (x 0)) 1 s.V ∧ 1 / 10 ≤ |(s.V 0).x 0 - (s.V 1).x 0|) (fun s hs => ?_)
    (fun s hs => ?_) n true _ ?_
  · obtain ⟨-, h⟩ := ord s hs.1 hs.2
    refine not_lt.2 (le_trans ?_ (diam_spec rt 1 _ (show 0 < 1 by omega) le_rfl))
    rw [one_len hrt, abs_of_pos (by linarith)]
    linarith
  · obtain ⟨hv, h⟩ := ord s hs.1 hs.2
    set V := order 1 s.V with hV
    set R := reflect (V 1).x (V 0).x 1 with hR
    set E := reflect R (V 0).x (-2) with hE
    have r0 : R 0 = (V 0).x 0 + ((V 0).x 0 - (V 1).x 0) := by simp [hR, reflect]
    have e0 : E 0 = (V 0).x 0 + 2 * ((V 0).x 0 - (V 1).x 0) := by simp only [hE, reflect, r0]; ring
    have c1 : φ (R 0) < φ ((V 1).x 0) := hφ _ _ (by linarith)
    have c2 : φ (R 0) < φ ((V 0).x 0) := hφ _ _ (by linarith)
    have c3 : φ (E 0) < φ (R 0) := hφ _ _ (by linarith)
    have er : (round (fun x => some (φ (x 0))) 1 ⟨V, s.seen⟩).V = set V 1 ⟨E, some (φ (E 0))⟩ := by
      dsimp only [round, eval]
      rw [centre_one, ← hR, ← hE, hv 1 le_rfl]
      simp only [xlt_t c1, cond_true]
      rw [set_ne _ _ (show 0 ≠ 1 by omega), hv 0 (by omega)]
      simp only [xlt_t c2, cond_true, xlt_t c3, set_set]
    rw [er]
    refine ⟨fun i hi => ?_, ?_⟩
    · by_cases q : i = 1
      · rw [q, set_same]
      · rw [set_ne _ _ q]; exact hv i hi
    · rw [set_same, set_ne _ _ (show 0 ≠ 1 by omega), e0, abs_of_neg (by linarith)]
      linarith
  · rw [start_one]
    refine ⟨fun i hi => ?_, ?_⟩
    · by_cases q : i = 1
      · rw [q, set_same]; rfl
      · rw [set_ne _ _ q]; rfl
    · rw [set_same, set_ne _ _ (show 0 ≠ 1 by omega)]
      simp only [eval, set_same]
      rw [abs_of_pos] <;> norm_num

end One

/-! ### Cases -/

/-- The square roots of the squares of rational numbers. -/
def rtq (x : ℚ) : ℚ := mkRat (Nat.sqrt x.num.natAbs) (Nat.sqrt x.den)

/-- An error with two minima, the deeper one beyond nine. -/
def twoDips (x : Nat → ℚ) : ℚ := if x 0 ≤ 9 then 1 + 20 * |x 0 - 179 / 20| else 40 * |x 0 - 181 / 20|

/-- **C95** fails at the bounds: from 8.95, the search settles on 9.05 and returns 9, where the error is twice that of the
starting point. -/
theorem C95_worse : ((dsm rtq (fun x => some (twoDips x)) (1 / 100) 1 2 fun _ => 179 / 20).map fun r =>
    (r.1 0, (r.2.2.V 0).x 0, twoDips r.1, twoDips fun _ => 179 / 20)) = some (9, 181 / 20, 2, 1) := by
  decide +kernel

/-- The searches of `C95_search` exist: two layers, with the error `(x₀ - 2)² + (x₁ - 3)²`, from `(2.2, 3)`. -/
example : ((dsm rtq (fun x => some ((x 0 - 2) ^ 2 + (x 1 - 3) ^ 2)) (1 / 100) 2 3
    fun i => if i = 0 then 11 / 5 else 3).map fun r => (r.1 0, r.1 1, r.2.2.seen.length)).isSome := by
  decide +kernel

/-- The hypotheses of `C95_nan_hangs` on the error hold of one that cannot be calculated above two. -/
example : ∃ (f : (Nat → ℚ) → Option ℚ) (P : Nat → ℚ) (a b : ℚ), f P = some a ∧ f (set P 0 (P 0 - 1 / 10)) = some b ∧ a ≤ b ∧
    ∀ x : Nat → ℚ, x 0 = P 0 + 1 / 10 → f x = none :=
  ⟨fun x => if 2 < x 0 then none else some (-x 0), fun _ => 2, -2, -(19 / 10), by norm_num, by norm_num [Lin.set], by norm_num,
    fun x h => by dsimp only at h ⊢; rw [if_pos (by rw [h]; norm_num)]⟩

/-- The hypothesis of `C95_never_ends` holds of a straight line. -/
example : ∀ x y : ℚ, x < y → -y < -x := fun _ _ h => neg_lt_neg h

end OP.Pave.Simplex
