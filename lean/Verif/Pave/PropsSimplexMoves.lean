import Verif.Pave.PropsSimplex
/-!
# C95: where the downhill simplex search looks
-/
namespace OP.Pave.Simplex

open OP.Lin Finset

variable {K : Type} [Field K] [LinearOrder K]

omit [Field K] in
theorem xlt_trans {a b c : Option K} (h : xlt a b = true) (h' : xlt b c = true) : xlt a c = true := by
  cases a <;> cases b <;> cases c <;> simp only [xlt, decide_eq_true_eq, Bool.false_eq_true] at *
  exact h.trans h'

theorem shrink_eq (f : (Nat → K) → Option K) (nl : Nat) (s : Sx K) :
    (shrink f nl s).V 0 = s.V 0 ∧ ∀ i, 1 ≤ i → i ≤ nl → (shrink f nl s).V i = eval f (midpoint (s.V 0).x (s.V i).x) := by
  have := loop_rule (f := fun i (s : Sx K) =>
      let x := midpoint (s.V 0).x (s.V i).x
      (⟨set s.V i (eval f x), x :: s.seen⟩ : Sx K))
    (fun i t => t.V 0 = s.V 0 ∧ (∀ k, 1 ≤ k → k < i → t.V k = eval f (midpoint (s.V 0).x (s.V k).x)) ∧ ∀ k, i ≤ k → t.V k = s.V k)
    (lo := 1) (hi := nl + 1) (s := s) (by omega) ⟨rfl, fun k h1 h2 => by omega, fun _ _ => rfl⟩ ?_
  · exact ⟨this.1, fun i h1 h2 => this.2.1 i h1 (by omega)⟩
  · intro i t h1 h2 ⟨a, b, c⟩
    dsimp only
    refine ⟨by rw [set_ne _ _ (show 0 ≠ i by omega), a], fun k k1 k2 => ?_, fun k hk => ?_⟩
    · by_cases e : k = i
      · rw [e, set_same, a, c i le_rfl]
      · rw [set_ne _ _ e]; exact b k k1 (by omega)
    · rw [set_ne _ _ (show k ≠ i by omega)]; exact c k (by omega)

theorem centre_eq (nl : Nat) (V : Nat → Vtx K) (i : Nat) : centre nl V i = (∑ j ∈ range nl, (V j).x i) / nl := by
  rw [centre, loop_add _ _ (Nat.zero_le _), zero_add, range_eq_Ico]

/-- **C95**, the rounds: for every error function, a round leaves all corners but the worst alone and moves the worst one along the
line through the centre of the others, to a point of smaller error (or whose error is a number where it was
none before), or leaves all alone, or keeps the best corner and halves
the distance of each other corner from it (the worst one perhaps after its reflection). -/
theorem C95_moves [IsStrictOrderedRing K] (f : (Nat → K) → Option K) (nl : Nat) (hn : 0 < nl) (s : Sx K)
    (hs : xlt (s.V nl).e (s.V 0).e = false) (D : Nat → K)
    (hD : ∀ k, D k = (∑ j ∈ range nl, (s.V j).x k) / nl) :
    (∃ c ∈ ({1, 2, 1 / 2, -(1 / 2)} : Finset K), (∀ i < nl, (round f nl s).V i = s.V i) ∧
      (∀ k, ((round f nl s).V nl).x k = D k + c * (D k - (s.V nl).x k)) ∧
      ((round f nl s).V nl).e = f ((round f nl s).V nl).x ∧ ((s.V nl).e ≠ none → xlt ((round f nl s).V nl).e (s.V nl).e = true)) ∨
    (round f nl s).V = s.V ∨
    (∃ A : Nat → K, (A = (s.V nl).x ∨ ∀ k, A k = 2 * D k - (s.V nl).x k) ∧ (round f nl s).V 0 = s.V 0 ∧
      (∀ i, 1 ≤ i → i < nl → ∀ k, ((round f nl s).V i).x k - (s.V 0).x k = ((s.V i).x k - (s.V 0).x k) / 2) ∧
      (∀ k, ((round f nl s).V nl).x k - (s.V 0).x k = (A k - (s.V 0).x k) / 2) ∧
      ∀ i, 1 ≤ i → i ≤ nl → ((round f nl s).V i).e = f ((round f nl s).V i).x) := by
  have hD' : centre nl s.V = D := funext fun k => by rw [centre_eq, hD]
  have h0 : ∀ v, set s.V nl v 0 = s.V 0 := fun v => set_ne _ _ (show 0 ≠ nl by omega)
  have hi : ∀ v i, i < nl → set s.V nl v i = s.V i := fun v i h => set_ne _ _ (show i ≠ nl by omega)
  have mid : ∀ a b : K, (a + b) / 2 - a = (b - a) / 2 := fun a b => by ring
  have shr : ∀ (v : Vtx K) (l : List (Nat → K)) (V : Nat → Vtx K), V 0 = s.V 0 → (∀ i, i < nl → V i = s.V i) → V nl = v →
      (v.x = (s.V nl).x ∨ ∀ k, v.x k = 2 * D k - (s.V nl).x k) →
      (∃ A : Nat → K, (A = (s.V nl).x ∨ ∀ k, A k = 2 * D k - (s.V nl).x k) ∧ (shrink f nl ⟨V, l⟩).V 0 = s.V 0 ∧
      (∀ i, 1 ≤ i → i < nl → ∀ k, ((shrink f nl ⟨V, l⟩).V i).x k - (s.V 0).x k = ((s.V i).x k - (s.V 0).x k) / 2) ∧
      (∀ k, ((shrink f nl ⟨V, l⟩).V nl).x k - (s.V 0).x k = (A k - (s.V 0).x k) / 2) ∧
      ∀ i, 1 ≤ i → i ≤ nl → ((shrink f nl ⟨V, l⟩).V i).e = f ((shrink f nl ⟨V, l⟩).V i).x) := by
    intro v l V e0 ei en hv
    obtain ⟨q0, q⟩ := shrink_eq f nl ⟨V, l⟩
    refine ⟨v.x, hv, by rw [q0]; exact e0, fun i h1 h2 k => ?_, fun k => ?_, fun i h1 h2 => ?_⟩
    · rw [q i h1 (by omega)]
      dsimp only [eval, midpoint]
      rw [e0, ei i h2, mid]
    · rw [q nl hn le_rfl]
      dsimp only [eval, midpoint]
      rw [e0, en, mid]
    · rw [q i h1 h2]; rfl
  dsimp only [round]
  rw [hD']
  set R := eval f (reflect (s.V nl).x D 1) with hR
  have Rx : ∀ k, R.x k = D k + (D k - (s.V nl).x k) := fun k => by rw [hR]; dsimp only [eval, reflect]; ring
  by_cases c1 : xlt R.e (s.V nl).e = true
  · rw [c1]
    simp only [cond_true]
    rw [h0, hi _ (nl - 1) (by omega), set_same]
    by_cases c2 : xlt R.e (s.V 0).e = true
    · rw [c2, cond_true]
      dsimp only
      set E := eval f (reflect R.x D (-2)) with hE
      have Ex : ∀ k, E.x k = D k + 2 * (D k - (s.V nl).x k) := fun k => by
        rw [hE]; dsimp only [eval, reflect]; rw [Rx]; ring
      by_cases c3 : xlt E.e R.e = true
      · rw [c3, cond_true, set_set]
        exact Or.inl ⟨2, by simp, fun i h => hi _ i h, fun k => by rw [set_same, Ex], by rw [set_same]; rfl,
          fun _ => by rw [set_same]; exact xlt_trans c3 c1⟩
      · rw [Bool.not_eq_true] at c3
        rw [c3, cond_false]
        exact Or.inl ⟨1, by simp, fun i h => hi _ i h, fun k => by rw [set_same, Rx, one_mul], by rw [set_same]; rfl,
          fun _ => by rw [set_same]; exact c1⟩
    · rw [Bool.not_eq_true] at c2
      rw [c2, cond_false]
      by_cases c4 : xge R.e (s.V (nl - 1)).e = true
      · rw [c4, cond_true]
        set C := eval f (reflect R.x D (-(1 / 2))) with hC
        have Cx : ∀ k, C.x k = D k + 1 / 2 * (D k - (s.V nl).x k) := fun k => by
          rw [hC]; dsimp only [eval, reflect]; rw [Rx]; ring
        by_cases c5 : xlt C.e R.e = true
        · rw [c5, cond_true, set_set]
          dsimp only
          exact Or.inl ⟨1 / 2, by simp, fun i h => hi _ i h, fun k => by rw [set_same, Cx], by rw [set_same]; rfl,
            fun _ => by rw [set_same]; exact xlt_trans c5 c1⟩
        · rw [Bool.not_eq_true] at c5
          rw [c5, cond_false]
          exact Or.inr (Or.inr (shr R _ _ (h0 _) (fun i h => hi _ i h) (set_same _ _ _)
            (Or.inr fun k => by rw [Rx]; ring)))
      · rw [Bool.not_eq_true] at c4
        rw [c4, cond_false]
        dsimp only
        exact Or.inl ⟨1, by simp, fun i h => hi _ i h, fun k => by rw [set_same, Rx, one_mul], by rw [set_same]; rfl,
          fun _ => by rw [set_same]; exact c1⟩
  · rw [Bool.not_eq_true] at c1
    rw [c1]
    simp only [cond_false]
    by_cases c2 : xlt R.e (s.V 0).e = true
    · rw [c2, cond_true]
      dsimp only
      set E := eval f (reflect R.x D (-2)) with hE
      have Ex : ∀ k, E.x k = D k + 2 * (D k - (s.V nl).x k) := fun k => by
        rw [hE]; dsimp only [eval, reflect]; rw [Rx]; ring
      by_cases c3 : xlt E.e R.e = true
      · rw [c3, cond_true]
        refine Or.inl ⟨2, by simp, fun i h => hi _ i h, fun k => by rw [set_same, Ex], by rw [set_same]; rfl, fun q => ?_⟩
        cases h1 : R.e with
        | none => rw [h1] at c2; simp [xlt] at c2
        | some r =>
          cases h2 : (s.V 0).e with
          | none => rw [h1, h2] at c2; simp [xlt] at c2
          | some v =>
            cases h3 : (s.V nl).e with
            | none => exact absurd h3 q
            | some o =>
              rw [h1, h2] at c2; rw [h1, h3] at c1; rw [h3, h2] at hs
              simp only [xlt, decide_eq_true_eq, decide_eq_false_iff_not, not_lt] at c1 c2 hs
              exact absurd (c1.trans_lt c2) (not_lt.2 hs)
      · rw [Bool.not_eq_true] at c3
        rw [c3, cond_false]
        exact Or.inr (Or.inl rfl)
    · rw [Bool.not_eq_true] at c2
      rw [c2, cond_false]
      by_cases c4 : xge R.e (s.V (nl - 1)).e = true
      · rw [c4, cond_true]
        set C := eval f (reflect (s.V nl).x D (-(1 / 2))) with hC
        by_cases c5 : xlt C.e (s.V nl).e = true
        · rw [c5, cond_true]
          dsimp only
          exact Or.inl ⟨-(1 / 2), by simp, fun i h => hi _ i h, fun k => by rw [set_same, hC]; rfl, by rw [set_same]; rfl,
            fun _ => by rw [set_same]; exact c5⟩
        · rw [Bool.not_eq_true] at c5
          rw [c5, cond_false]
          exact Or.inr (Or.inr (shr (s.V nl) _ _ rfl (fun i h => rfl) rfl (Or.inl rfl)))
      · rw [Bool.not_eq_true] at c4
        rw [c4, cond_false]
        exact Or.inr (Or.inl rfl)

/-- **C95**, the start: the first corner is the starting point, and each other one differs from it in one logarithm, by a tenth. -/
theorem C95_start [IsStrictOrderedRing K] (f : (Nat → K) → Option K) (nl : Nat) (P : Nat → K) :
    ((start f nl P).V 0).x = P ∧ (∀ i ≤ nl, ((start f nl P).V i).e = f ((start f nl P).V i).x) ∧
    ∀ i, 1 ≤ i → i ≤ nl → |((start f nl P).V i).x (i - 1) - P (i - 1)| = 1 / 10 ∧
      ∀ k, k ≠ i - 1 → ((start f nl P).V i).x k = P k := by
  have := loop_rule (f := fun i (s : Sx K) =>
      let x := set (s.V 0).x (i - 1) ((s.V 0).x (i - 1) + (if i < nl / 2 then 1 / 10 else -(1 / 10)))
      (⟨set s.V i (eval f x), x :: s.seen⟩ : Sx K))
    (fun i s => s.V 0 = eval f P ∧ ∀ j, 1 ≤ j → j < i → (s.V j).e = f (s.V j).x ∧ |(s.V j).x (j - 1) - P (j - 1)| = 1 / 10 ∧
      ∀ k, k ≠ j - 1 → (s.V j).x k = P k) (lo := 1) (hi := nl + 1)
    (s := ⟨fun _ => eval f P, [P]⟩) (by omega) ⟨rfl, fun j h1 h2 => by omega⟩ ?_
  · change (start f nl P).V 0 = _ ∧ _ at this
    refine ⟨by rw [this.1]; rfl, fun i hi => ?_, fun i h1 h2 => (this.2 i h1 (by omega)).2⟩
    by_cases e : i = 0
    · rw [e, this.1]; rfl
    · exact (this.2 i (by omega) (by omega)).1
  · intro i s h1 h2 ⟨a, b⟩
    dsimp only
    refine ⟨by rw [set_ne _ _ (show 0 ≠ i by omega), a], fun j j1 j2 => ?_⟩
    by_cases e : j = i
    · rw [e, set_same, a]
      refine ⟨rfl, ?_, fun k hk => ?_⟩
      · dsimp only [eval]
        rw [set_same]
        split_ifs
        · rw [add_sub_cancel_left, abs_of_pos (by norm_num)]
        · rw [add_sub_cancel_left, abs_neg, abs_of_pos (by norm_num)]
      · dsimp only [eval]
        rw [set_ne _ _ hk]
    · rw [set_ne _ _ e]; exact b j j1 (by omega)

/-- A simplex of three corners, sorted, and the centre of the two better ones. -/
example : let f : (Nat → ℚ) → Option ℚ := fun x => some (x 0 ^ 2 + x 1 ^ 2)
    let V : Nat → Vtx ℚ := fun i => eval f (fun k => if i = 0 then 1 else if i = 1 then (if k = 0 then 2 else 1) else if k = 0 then 1 else 3)
    xlt (V 2).e (V 0).e = false ∧ (∑ j ∈ range 2, (V j).x 0) / 2 = 3 / 2 := by
  intro f V
  have e : ∀ i, V i = eval f (fun k => if i = 0 then 1 else if i = 1 then (if k = 0 then 2 else 1) else if k = 0 then 1 else 3) := fun _ => rfl
  refine ⟨by simp [e, f, eval, xlt], by simp [e, eval, sum_range_succ]; norm_num⟩

end OP.Pave.Simplex
