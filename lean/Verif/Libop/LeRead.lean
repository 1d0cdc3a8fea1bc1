import Verif.Libop.LeLemmas
/-!
# Lemmas on reading results through the C interface
-/
namespace OP.Libop
open OP.Pave

variable {K L R Q : Type} [Field K] [LinearOrder K]

theorem hasPoint_some (k : PP K) (ps : List (PP K)) : ∀ i, hasPoint k ps = some i → ∃ q, ps[i]? = some q ∧ eqP q k = true := by
  induction ps with
  | nil => intro i h; cases h
  | cons p ps ih =>
    intro i h
    rw [hasPoint] at h
    split_ifs at h with h1
    · cases h; exact ⟨p, rfl, h1⟩
    · cases hp : hasPoint k ps with
      | none => rw [hp] at h; cases h
      | some j =>
        rw [hp] at h
        cases h
        obtain ⟨q, q1, q2⟩ := ih j hp
        exact ⟨q, by simpa using q1, q2⟩

theorem hasPoint_of_mem (k : PP K) (ps : List (PP K)) (q : PP K) (hq : q ∈ ps) (h : eqP q k = true) :
    ∃ i, hasPoint k ps = some i := by
  induction ps with
  | nil => cases hq
  | cons p ps ih =>
    rw [hasPoint]
    by_cases h1 : eqP p k = true
    · exact ⟨0, by rw [if_pos h1]⟩
    · rcases List.mem_cons.1 hq with rfl | hq
      · exact absurd h h1
      · obtain ⟨i, hi⟩ := ih hq
        exact ⟨i + 1, by rw [if_neg h1, hi]; rfl⟩

/-- A stored point stands for the point asked for. -/
def Meets (q p : PP K) : Prop := q.toP3 = p.toP3 ∧ (p.il = none ∨ q.il = p.il)

theorem eqP_iff (q p : PP K) : eqP q p = true ↔ q.toP3 = p.toP3 ∧ (q.il = p.il ∨ q.il = none ∨ p.il = none) := by
  obtain ⟨⟨⟨a, b⟩, c⟩, d⟩ := q
  obtain ⟨⟨⟨a', b'⟩, c'⟩, d'⟩ := p
  simp only [eqP, decide_eq_true_eq, P3.mk.injEq, P2.mk.injEq]
  tauto

theorem Meets.eqP {q p : PP K} (h : Meets q p) : eqP q p = true := by
  rw [eqP_iff]
  rcases h with ⟨h1, h2 | h2⟩
  · exact ⟨h1, .inr (.inr h2)⟩
  · exact ⟨h1, .inl h2⟩

/-- Adding a point makes it found, and keeps the others found. -/
theorem addPoint_meets (ps : List (PP K)) (p : PP K) :
    (∃ q ∈ addPoint ps p, Meets q p) ∧ ∀ p', (∃ q ∈ ps, Meets q p') → ∃ q ∈ addPoint ps p, Meets q p' := by
  unfold addPoint
  cases hp : hasPoint p ps with
  | none =>
    refine ⟨⟨p, by simp, rfl, .inr rfl⟩, ?_⟩
    rintro p' ⟨q, h1, h2⟩
    exact ⟨q, by simp [h1], h2⟩
  | some i =>
    obtain ⟨t, ht, he⟩ := hasPoint_some p ps i hp
    rw [eqP_iff] at he
    have hmem : asgP t p ∈ ps.modify i fun t => asgP t p := by
      refine List.mem_iff_getElem?.2 ⟨i, ?_⟩
      rw [List.getElem?_modify, ht]; simp
    have hasg : Meets (asgP t p) p := by
      unfold asgP Meets
      split_ifs with hc
      · exact ⟨rfl, .inr rfl⟩
      · push Not at hc
        exact ⟨rfl, .inl hc.2⟩
    refine ⟨⟨_, hmem, hasg⟩, ?_⟩
    rintro p' ⟨q, h1, h2, h3⟩
    obtain ⟨j, hj⟩ := List.mem_iff_getElem?.1 h1
    by_cases hij : i = j
    · subst hij
      rw [ht] at hj; cases hj
      refine ⟨_, hmem, ?_, ?_⟩
      · rw [hasg.1, ← he.1, h2]
      · rcases h3 with h3 | h3
        · exact .inl h3
        · by_cases hn : p'.il = none
          · exact .inl hn
          · right
            unfold asgP
            split_ifs with hc
            · rcases he.2 with h | h | h
              · rw [← h, h3]
              · rw [h] at h3; exact absurd h3.symm hn
              · rcases hc with hc | hc
                · rw [hc] at h3; exact absurd h3.symm hn
                · exact absurd h hc
            · exact h3
    · refine ⟨q, List.mem_iff_getElem?.2 ⟨j, ?_⟩, h2, h3⟩
      rw [List.getElem?_modify, hj]
      simp [hij]

theorem addpoints_meets (ps : List (P3 K × Nat)) (s : Sys K L R) :
    (∀ p ∈ ps, ∃ q ∈ (ps.foldl (fun s p => s.addpoint (pt p.1 p.2)) s).points, Meets q (pt p.1 p.2)) ∧
    ∀ p', (∃ q ∈ s.points, Meets q p') → ∃ q ∈ (ps.foldl (fun s p => s.addpoint (pt p.1 p.2)) s).points, Meets q p' := by
  induction ps generalizing s with
  | nil => exact ⟨by simp, fun p' h => h⟩
  | cons p ps ih =>
    obtain ⟨h1, h2⟩ := addPoint_meets s.points (pt p.1 p.2)
    obtain ⟨i1, i2⟩ := ih (s.addpoint (pt p.1 p.2))
    refine ⟨?_, fun p' h => i2 p' (h2 p' h)⟩
    intro p' hp'
    rcases List.mem_cons.1 hp' with rfl | hp'
    · exact i2 _ h1
    · exact i1 p' hp'

theorem addpoints_frame (ps : List (P3 K × Nat)) (s : Sys K L R) (hs : s.state = .empty) :
    let s' := ps.foldl (fun s p => s.addpoint (pt p.1 p.2)) s
    s'.state = .empty ∧ s'.layers = s.layers ∧ s'.groups = s.groups ∧ s'.clg = s.clg := by
  induction ps generalizing s with
  | nil => exact ⟨hs, rfl, rfl, rfl⟩
  | cons p ps ih => exact ih (s.addpoint (pt p.1 p.2)) (touch_empty_state s)

theorem addlayers_frame (ys : List (Layer K)) (s : Sys K L R) (hs : s.state = .empty) :
    let s' := ys.foldl (fun s y => s.addlayer y none) s
    s'.state = .empty ∧ s'.layers = s.layers ++ ys ∧ s'.groups = s.groups ∧ s'.points = s.points ∧ s'.clg = s.clg := by
  induction ys generalizing s with
  | nil => exact ⟨hs, by simp, rfl, rfl, rfl⟩
  | cons y ys ih =>
    obtain ⟨h1, h2, h3, h4, h5⟩ := ih (s.addlayer y none) (addlayer_state _ _ _)
    refine ⟨h1, ?_, h3, h4, h5⟩
    simp only [List.foldl_cons]
    rw [h2]
    simp [Sys.addlayer, Sys.touch]

theorem addload_zero (s : Sys K L R) (x : L) (hc : s.clg = 0) :
    ∃ s1, s.addload s.clg x = .ok (s1, .done) ∧ s1.state = .empty ∧ s1.layers = s.layers ∧ s1.points = s.points ∧
      s1.clg = 0 ∧ (s.groups = [] → s1.groups = [[x]]) ∧ ∀ g gs, s.groups = g :: gs → s1.groups = (g ++ [x]) :: gs := by
  rw [hc]
  cases hg : s.groups with
  | nil =>
    refine ⟨{ s.touch .empty with groups := s.groups ++ [[x]] }, ?_, touch_empty_state s, rfl, rfl, hc,
      fun _ => by simp [hg], by simp⟩
    rw [Sys.addload]
    dsimp only
    rw [if_neg (by simp [Sys.touch, hg]), if_pos (by simp [Sys.touch, hg])]
    rfl
  | cons g gs =>
    refine ⟨{ s.touch .empty with groups := s.groups.modify 0 (· ++ [x]) }, ?_, touch_empty_state s, rfl, rfl, hc,
      by simp, ?_⟩
    · rw [Sys.addload]
      dsimp only
      rw [if_pos (by simp [Sys.touch, hg])]
      rfl
    · intro g' gs' e
      cases e
      simp [hg]

theorem addLoads_ok (xs : List L) (s : Sys K L R) (hs : s.state = .empty) (hc : s.clg = 0) :
    ∃ s', addLoads s xs = .ok s' ∧ s'.state = .empty ∧ s'.layers = s.layers ∧ s'.points = s.points ∧ s'.clg = 0 ∧
      (s.groups = [] → s'.groups = if xs.isEmpty then [] else [xs]) ∧
      ∀ g gs, s.groups = g :: gs → s'.groups = (g ++ xs) :: gs := by
  induction xs generalizing s with
  | nil => exact ⟨s, rfl, hs, rfl, rfl, hc, by intro h; simp [h], by intro g gs h; simp [h]⟩
  | cons x xs ih =>
    obtain ⟨s1, k1, k2, k3, k4, k5, k7, k6⟩ := addload_zero s x hc
    obtain ⟨s', h1, h2, h3, h4, h5, h7, h6⟩ := ih s1 k2 k5
    refine ⟨s', ?_, h2, by rw [h3, k3], by rw [h4, k4], h5, ?_, ?_⟩
    · rw [addLoads, k1]; exact h1
    · intro e
      rw [h6 _ _ (k7 e)]
      simp
    · intro g gs e
      rw [h6 _ _ (k6 g gs e)]
      simp

section
variable (num : Num K L R Q) (zero : R) (nullQ : Q)

/-- Whatever can be read belongs to the present system. -/
theorem inv_result (s : Sys K L R) (hi : Inv num (fun _ => nullQ) s) (g i : Nat) (d : PP K × R)
    (h : s.result g i = .ok d) : Current num (fun _ => nullQ) s g i d := by
  unfold Sys.result at h
  split_ifs at h with h1
  push Not at h1
  have hv := hi.vals h1
  rw [hv] at h
  rw [List.getElem?_map] at h
  cases hg : s.groups[g]? with
  | none => rw [hg] at h; cases h
  | some gr =>
    rw [hg] at h
    simp only [Option.map_some, List.getElem?_map] at h
    cases hp : s.points[i]? with
    | none => rw [hp] at h; cases h
    | some p =>
      rw [hp] at h
      simp only [Option.map_some, Res.ok.injEq] at h
      exact ⟨gr, p, hg, hp, h.symm⟩

theorem inv_result_ok (s : Sys K L R) (hi : Inv num (fun _ => nullQ) s) (g i : Nat) (hs : s.state = .all)
    (hg : g < s.groups.length) (hp : i < s.points.length) : ∃ d, s.result g i = .ok d := by
  unfold Sys.result
  rw [if_neg (by simp [hs]), hi.vals hs, List.getElem?_map, List.getElem?_eq_getElem hg]
  simp [hp]

theorem place_some (ls : List (Layer K)) (d : PP K) (h : (placePoint ls d).1 = true) : (placePoint ls d).2.il ≠ none := by
  unfold placePoint at h ⊢
  split_ifs at h ⊢ with h1
  · split at h
    · cases h
    · simp

theorem check_all (s : Sys K L R) (hs : s.state = .empty) (h : (Sys.check zero s).1 = true) :
    ∀ d ∈ s.points, (placePoint s.layers d).1 = true := by
  have hl := (check_true zero s hs h)
  unfold Sys.check at h
  rw [if_neg (by rw [hs]; simp)] at h
  simp only [hs, decide_true, forall_const, Bool.true_eq_false, false_or] at h
  split_ifs at h with h1
  · rcases h1 with h1 | h1
    · rw [h1] at h; cases h
    · exact absurd h1 hl.2
  · simpa using h

theorem check_points (s : Sys K L R) (hs : s.state = .empty) (h : (Sys.check zero s).1 = true) : s.points ≠ [] := by
  unfold Sys.check at h
  rw [if_neg (by rw [hs]; simp)] at h
  simp only [hs, decide_true, forall_const, Bool.true_eq_false, false_or] at h
  split_ifs at h with h1
  · simp only [Bool.and_eq_true, decide_eq_true_eq] at h
    exact h.1.2.2.2
  · simp only [not_or, Bool.not_eq_false, Bool.and_eq_true, decide_eq_true_eq] at h1
    exact h1.1.1.2.2.2

theorem select_check (s : Sys K L R) (flags : Nat) (hs : s.state = .empty) (r : Sys K L R × Ret)
    (h : select num zero nullQ s flags = .ok r) (hr : r.2 = .bool true) : (Sys.check zero { s with state := .empty, cache := none, res := Pave.failure }).1 = true := by
  have hne : s.state ≠ .all := by rw [hs]; simp
  unfold select at h
  split_ifs at h
  · unfold Sys.special at h
    rw [if_neg (by rintro ⟨-, h⟩; exact hne h)] at h
    dsimp only at h
    split_ifs at h with hc
    · cases h; cases hr
    · rwa [Bool.not_eq_false] at hc
  · unfold Sys.calculate at h
    rw [if_neg (by rintro ⟨-, h⟩; exact hne h)] at h
    dsimp only at h
    have hcif : (if s.res = (kind flags).1 ∧ s.state ≠ .empty then s
        else { s with state := .empty, cache := none }) = { s with state := .empty, cache := none } :=
      if_neg (by rintro ⟨-, h⟩; exact h hs)
    rw [hcif] at h
    by_cases hc : (Sys.check zero { s with state := .empty, cache := none, res := Pave.failure }).1 = false
    · rw [if_pos hc] at h
      cases h; cases hr
    · rwa [Bool.not_eq_false] at hc

theorem select_all (s : Sys K L R) (flags : Nat) (hs : s.state = .empty) (r : Sys K L R × Ret)
    (h : select num zero nullQ s flags = .ok r) (hr : r.2 = .bool true) : ∀ d ∈ s.points, (placePoint s.layers d).1 = true :=
  check_all zero { s with state := .empty, cache := none, res := Pave.failure } rfl
    (select_check num zero nullQ s flags hs r h hr)

theorem select_needs (s : Sys K L R) (flags : Nat) (hs : s.state = .empty) (r : Sys K L R × Ret)
    (h : select num zero nullQ s flags = .ok r) (hr : r.2 = .bool true) : s.layers ≠ [] ∧ s.groups ≠ [] ∧ s.points ≠ [] := by
  have hc := select_check num zero nullQ s flags hs r h hr
  have h1 := check_true zero { s with state := .empty, cache := none, res := Pave.failure } rfl hc
  exact ⟨h1.2, h1.1, check_points zero { s with state := .empty, cache := none, res := Pave.failure } rfl hc⟩

end
end OP.Libop
