import Verif.Libop.Le
import Verif.Pave.PropsSys
/-!
# Lemmas on the layered elastic calls of the C interface
-/
namespace OP.Libop
open OP.Pave

variable {K L R Q : Type} [Field K] [LinearOrder K]

theorem kind_calc (flags : Nat) (h : (kind flags).2 = false) : IsCalc (kind flags).1 := by
  unfold kind at h ⊢
  split at h <;> first | (simp at h; done) | (split_ifs <;> (unfold IsCalc Pave.failure; decide))

theorem kind_special (flags : Nat) (h : (kind flags).2 = true) :
    (kind flags).1 = 3 ∨ (kind flags).1 = 4 ∨ (kind flags).1 = 0xFF := by
  unfold kind at h ⊢
  split at h <;> first | (simp at h; done) | simp

section
variable (num : Num K L R Q) (zero : R) (nullQ : Q)

theorem select_ok (s : Sys K L R) (flags : Nat) (hi : Inv num (fun _ => nullQ) s) :
    ∃ r, select num zero nullQ s flags = .ok r ∧ Inv num (fun _ => nullQ) r.1 ∧
      (r.2 = .bool false ∧ r.1.state ≠ .all ∨ r.2 = .bool true ∧ r.1.state = .all ∧ r.1.res = (kind flags).1) := by
  unfold select
  cases h : (kind flags).2 with
  | true =>
    obtain ⟨r, h1, h2, h3⟩ := inv_special num zero (fun _ => nullQ) s _ nullQ hi (kind_special flags h) rfl
    exact ⟨r, by rw [if_pos rfl]; exact h1, h2, h3⟩
  | false =>
    obtain ⟨r, h1, h2, h3, -⟩ := inv_calculate num zero (fun _ => nullQ) s _ nullQ hi (kind_calc flags h) rfl
    exact ⟨r, by rw [if_neg (by simp)]; exact h1, h2, h3⟩

theorem removeloads_zero (s : Sys K L R) (h : s.groups ≠ []) :
    (s.removeloads 0).2 = .done ∧ (s.removeloads 0).1.groups = s.groups.tail := by
  unfold Sys.removeloads Sys.touch
  dsimp only
  rw [if_neg (by rintro ⟨h1, -⟩; exact h h1), if_pos (List.length_pos_of_ne_nil h)]
  refine ⟨rfl, ?_⟩
  cases hg : s.groups with
  | nil => exact absurd hg h
  | cons g gs => rfl

theorem removeloads_other (s : Sys K L R) (g : Nat) : (s.removeloads g).1.layers = s.layers ∧
    (s.removeloads g).1.points = s.points ∧ (s.removeloads g).1.clg = s.clg := by
  unfold Sys.removeloads Sys.touch
  dsimp only
  split_ifs <;> simp

theorem dropGroups_ok (f : Nat) (s : Sys K L R) (h : s.groups.length ≤ f) :
    ∃ s', dropGroups f s = .ok (s', .done) ∧ s'.groups = [] ∧ s'.layers = s.layers ∧ s'.points = s.points ∧
      s'.clg = s.clg ∧ (s' = s ∨ s'.state = .empty) := by
  induction f generalizing s with
  | zero =>
    have : s.groups = [] := List.length_eq_zero_iff.1 (by omega)
    exact ⟨s, by rw [dropGroups, if_pos this], this, rfl, rfl, rfl, .inl rfl⟩
  | succ f ih =>
    by_cases hg : s.groups = []
    · exact ⟨s, by rw [dropGroups, if_pos hg], hg, rfl, rfl, rfl, .inl rfl⟩
    · obtain ⟨h1, h2⟩ := removeloads_zero s hg
      obtain ⟨o1, o2, o3⟩ := removeloads_other s 0
      have hl : (s.removeloads 0).1.groups.length ≤ f := by rw [h2]; simp; omega
      obtain ⟨s', e1, e2, e3, e4, e5, e6⟩ := ih _ hl
      refine ⟨s', ?_, e2, by rw [e3, o1], by rw [e4, o2], by rw [e5, o3], .inr ?_⟩
      · rw [dropGroups, if_neg hg]
        dsimp only
        rw [if_neg (by rw [h1]; simp)]
        exact e1
      · rcases e6 with e6 | e6
        · rw [e6]; exact removeloads_state s 0
        · exact e6

theorem addload_clg (s : Sys K L R) (g : Nat) (x : L) (r : Sys K L R × Ret) (h : s.addload g x = .ok r) :
    r.1.clg = s.clg ∧ r.2 = .done := by
  unfold Sys.addload at h
  dsimp only at h
  split_ifs at h <;> cases h <;> exact ⟨rfl, rfl⟩

theorem removeload_clg (s : Sys K L R) (g i : Nat) : (s.removeload g i).1.clg = s.clg := by
  unfold Sys.removeload
  dsimp only
  split
  · rfl
  · split_ifs <;> rfl

theorem removepoint_clg (s : Sys K L R) (p : PP K) : (s.removepoint p).1.clg = s.clg := by
  unfold Sys.removepoint
  dsimp only
  split <;> rfl

theorem addlayer_clg (s : Sys K L R) (y : Layer K) (p : Option Nat) : (s.addlayer y p).clg = s.clg := by
  unfold Sys.addlayer
  dsimp only
  split
  · rfl
  · split_ifs <;> rfl

theorem check_clg (s : Sys K L R) : (Sys.check zero s).2.clg = s.clg := by
  unfold Sys.check
  dsimp only
  split_ifs <;> rfl

theorem select_clg (s : Sys K L R) (flags : Nat) (r : Sys K L R × Ret) (h : select num zero nullQ s flags = .ok r) :
    r.1.clg = s.clg := by
  unfold select at h
  split_ifs at h
  · unfold Sys.special at h
    dsimp only at h
    split_ifs at h
    · cases h; rfl
    · cases h; rw [check_clg]
    · rw [Res.bind_eq_ok] at h
      obtain ⟨d, -, h2⟩ := h
      cases h2; simp only; rw [check_clg]
  · unfold Sys.calculate at h
    dsimp only at h
    by_cases h1 : s.res = (kind flags).1 ∧ s.state = .all
    · rw [if_pos h1] at h; cases h; rfl
    · rw [if_neg h1] at h
      generalize hc : (if s.res = (kind flags).1 ∧ s.state ≠ .empty then s
        else { s with state := .empty, cache := none }) = c at h
      have hcl : c.clg = s.clg := by rw [← hc]; split_ifs <;> rfl
      have e : (Sys.check zero { c with res := Pave.failure }).2.clg = s.clg := by rw [check_clg]; exact hcl
      split_ifs at h
      · cases h; exact e
      · rw [Res.bind_eq_ok] at h
        obtain ⟨d, -, h2⟩ := h
        cases h2; exact e
      · split at h
        · cases h
        · rw [Res.bind_eq_ok] at h
          obtain ⟨d, -, h2⟩ := h
          cases h2; exact e

/-- What a calculation keeps. -/
def Keep (r s : Sys K L R) : Prop :=
  r.layers = s.layers ∧ r.groups = s.groups ∧ r.points.map (·.toP3) = s.points.map (·.toP3)

theorem check_keep (s : Sys K L R) : Keep (Sys.check zero s).2 s := by
  unfold Sys.check Keep
  dsimp only
  split_ifs
  · exact ⟨rfl, rfl, rfl⟩
  · exact ⟨rfl, rfl, rfl⟩
  · refine ⟨rfl, rfl, ?_⟩
    rw [List.map_map]
    refine List.map_congr_left fun d _ => ?_
    rw [Function.comp, placePoint_P3]

theorem select_keep (s : Sys K L R) (flags : Nat) (r : Sys K L R × Ret) (h : select num zero nullQ s flags = .ok r) :
    Keep r.1 s := by
  unfold select at h
  split_ifs at h
  · unfold Sys.special at h
    dsimp only at h
    split_ifs at h
    · cases h; exact ⟨rfl, rfl, rfl⟩
    · cases h; exact check_keep zero { s with state := .empty, cache := none, res := Pave.failure }
    · rw [Res.bind_eq_ok] at h
      obtain ⟨d, -, h2⟩ := h
      cases h2; exact check_keep zero { s with state := .empty, cache := none, res := Pave.failure }
  · unfold Sys.calculate at h
    dsimp only at h
    by_cases h1 : s.res = (kind flags).1 ∧ s.state = .all
    · rw [if_pos h1] at h; cases h; exact ⟨rfl, rfl, rfl⟩
    · rw [if_neg h1] at h
      generalize hc : (if s.res = (kind flags).1 ∧ s.state ≠ .empty then s
        else { s with state := .empty, cache := none }) = c at h
      have hcl : Keep c s := by rw [← hc]; split_ifs <;> exact ⟨rfl, rfl, rfl⟩
      have e : Keep (Sys.check zero { c with res := Pave.failure }).2 s := by
        obtain ⟨e1, e2, e3⟩ := check_keep zero { c with res := Pave.failure }
        exact ⟨e1.trans hcl.1, e2.trans hcl.2.1, e3.trans hcl.2.2⟩
      split_ifs at h
      · cases h; exact e
      · rw [Res.bind_eq_ok] at h
        obtain ⟨d, -, h2⟩ := h
        cases h2; exact e
      · split at h
        · cases h
        · rw [Res.bind_eq_ok] at h
          obtain ⟨d, -, h2⟩ := h
          cases h2; exact e

/-- What every call leaves. -/
theorem cmd_inv (s : Sys K L R) (c : Cmd K L) (hi : Inv num (fun _ => nullQ) s) (r : Sys K L R × Bool)
    (h : cmd num zero nullQ s c = .ok r) : Inv num (fun _ => nullQ) r.1 ∧ r.1.clg = s.clg := by
  cases c with
  | addLayer y => cases h; exact ⟨Inv.of_empty _ _ _ (addlayer_state _ _ _), addlayer_clg _ _ _⟩
  | insertLayer p y =>
    rw [cmd] at h
    split_ifs at h
    · cases h; exact ⟨hi, rfl⟩
    · cases h; exact ⟨Inv.of_empty _ _ _ (addlayer_state _ _ _), addlayer_clg _ _ _⟩
  | removeLayer p =>
    rw [cmd] at h
    split_ifs at h
    · cases h; exact ⟨hi, rfl⟩
    · cases h; exact ⟨Inv.of_empty _ _ _ (touch_empty_state s), rfl⟩
  | removeLayers => cases h; exact ⟨Inv.of_empty _ _ _ (touch_empty_state s), rfl⟩
  | addLoad x =>
    rw [cmd, Res.bind_eq_ok] at h
    obtain ⟨q, h1, h2⟩ := h
    cases h2
    exact ⟨Inv.of_empty _ _ _ (addload_state _ _ _ _ h1), (addload_clg _ _ _ _ h1).1⟩
  | removeLoad l =>
    rw [cmd] at h
    split at h
    · cases h; exact ⟨hi, rfl⟩
    · split_ifs at h
      · cases h; exact ⟨hi, rfl⟩
      · cases h; exact ⟨Inv.of_empty _ _ _ (removeload_state _ _ _), removeload_clg _ _ _⟩
  | removeLoads => cases h; exact ⟨Inv.of_empty _ _ _ (removeloads_state _ _), (removeloads_other _ _).2.2⟩
  | addGroupLoad g x =>
    rw [cmd, Res.bind_eq_ok] at h
    obtain ⟨q, h1, h2⟩ := h
    cases h2
    exact ⟨Inv.of_empty _ _ _ (addload_state _ _ _ _ h1), (addload_clg _ _ _ _ h1).1⟩
  | removeGroupLoad g l =>
    rw [cmd] at h
    split_ifs at h
    · cases h; exact ⟨hi, rfl⟩
    · split at h
      · cases h; exact ⟨hi, rfl⟩
      · split_ifs at h
        · cases h; exact ⟨hi, rfl⟩
        · cases h; exact ⟨Inv.of_empty _ _ _ (removeload_state _ _ _), removeload_clg _ _ _⟩
  | removeGroup g =>
    rw [cmd] at h
    split_ifs at h
    · cases h; exact ⟨hi, rfl⟩
    · cases h; exact ⟨Inv.of_empty _ _ _ (removeloads_state _ _), (removeloads_other _ _).2.2⟩
  | removeAllLoadGroups =>
    obtain ⟨s', e1, -, -, -, e5, e6⟩ := dropGroups_ok s.groups.length s (le_refl _)
    rw [cmd, e1] at h
    cases h
    refine ⟨?_, e5⟩
    rcases e6 with e6 | e6
    · simp only [e6]; exact hi
    · exact Inv.of_empty _ _ _ e6
  | addPoint p pl => cases h; exact ⟨Inv.of_empty _ _ _ (touch_empty_state s), rfl⟩
  | removePoint p pl => cases h; exact ⟨Inv.of_empty _ _ _ (removepoint_state _ _), removepoint_clg _ _⟩
  | removePoints => cases h; exact ⟨Inv.of_empty _ _ _ (touch_empty_state s), rfl⟩
  | calculate flags =>
    rw [cmd, Res.bind_eq_ok] at h
    obtain ⟨q, h1, h2⟩ := h
    obtain ⟨q', e1, e2, -⟩ := select_ok num zero nullQ s flags hi
    rw [h1] at e1; cases e1
    cases h2
    exact ⟨e2, select_clg num zero nullQ _ _ _ h1⟩

theorem cmds_inv (cs : List (Cmd K L)) (s : Sys K L R) (hi : Inv num (fun _ => nullQ) s) (s' : Sys K L R)
    (sts : List Bool) (h : cmds num zero nullQ s cs = .ok (s', sts)) :
    Inv num (fun _ => nullQ) s' ∧ s'.clg = s.clg := by
  induction cs generalizing s sts with
  | nil => cases h; exact ⟨hi, rfl⟩
  | cons c cs ih =>
    rw [cmds, Res.bind_eq_ok] at h
    obtain ⟨r, h1, h2⟩ := h
    rw [Res.bind_eq_ok] at h2
    obtain ⟨q, h2, h3⟩ := h2
    cases h3
    obtain ⟨i1, i2⟩ := cmd_inv num zero nullQ s c hi r h1
    obtain ⟨j1, j2⟩ := ih r.1 i1 q.2 h2
    exact ⟨j1, j2.trans i2⟩

theorem init_inv : Inv num (fun _ => nullQ) (Sys.init K L R) := Inv.of_empty _ _ _ rfl

theorem cmds_append (cs ds : List (Cmd K L)) (s : Sys K L R) :
    cmds num zero nullQ s (cs ++ ds) = cmds num zero nullQ s cs >>= fun q => cmds num zero nullQ q.1 ds >>= fun q' =>
      .ok (q'.1, q.2 ++ q'.2) := by
  induction cs generalizing s with
  | nil =>
    simp only [List.nil_append, cmds, Res.ok_bind]
    cases cmds num zero nullQ s ds <;> rfl
  | cons c cs ih =>
    simp only [List.cons_append, cmds]
    cases cmd num zero nullQ s c with
    | throw => rfl
    | ub => rfl
    | ok r =>
      simp only [Res.ok_bind, ih]
      cases cmds num zero nullQ r.1 cs with
      | throw => rfl
      | ub => rfl
      | ok q =>
        simp only [Res.ok_bind]
        cases cmds num zero nullQ q.1 ds <;> rfl

/-! ### Placing points -/

theorem locate_il (d : PP K) (j : Nat) (hd : d.il = some j) (ls : List (Layer K)) : ∀ (il : Nat) (z : K) (k : Nat × K × K),
    locate d il z ls = some k → k.1 = j := by
  induction ls with
  | nil => intro il z k h; cases h
  | cons y ys ih =>
    intro il z k h
    rw [locate, hd] at h
    split_ifs at h with h1 h2
    · cases h; exact (Option.some.inj h1).symm
    · simp at h2
    · exact ih _ _ _ h

theorem placePoint_il (ls : List (Layer K)) (d : PP K) (j : Nat) (hd : d.il = some j) :
    (placePoint ls d).2.il = some j := by
  unfold placePoint
  split_ifs
  · exact hd
  · split
    · exact hd
    · rename_i il z h he
      have := locate_il d j hd ls _ _ _ he
      simp only at this ⊢
      rw [this]

theorem check_true (s : Sys K L R) (hs : s.state = .empty) (h : (Sys.check zero s).1 = true) :
    s.groups ≠ [] ∧ s.layers ≠ [] := by
  unfold Sys.check at h
  rw [if_neg (by rw [hs]; simp)] at h
  simp only [hs, decide_true, forall_const, Bool.true_eq_false, false_or] at h
  split_ifs at h with h1
  · simp only [Bool.and_eq_true, decide_eq_true_eq] at h
    exact ⟨h.1.2.1, h.1.1⟩
  · simp only [not_or, Bool.not_eq_false, Bool.and_eq_true, decide_eq_true_eq] at h1
    exact ⟨h1.1.1.2.1, h1.2⟩

/-- A calculation of a system with an empty cache. -/
theorem select_empty (s : Sys K L R) (flags : Nat) (hs : s.state = .empty) (r : Sys K L R × Ret)
    (h : select num zero nullQ s flags = .ok r) : r.2 = .bool false ∧ r.1.state ≠ .all ∨
      r.2 = .bool true ∧ r.1.state = .all ∧ s.groups ≠ [] ∧ r.1.groups = s.groups ∧ r.1.layers = s.layers ∧
      r.1.points = s.points.map fun d => (placePoint s.layers d).2 := by
  have hne : s.state ≠ .all := by rw [hs]; simp
  unfold select at h
  split_ifs at h
  · unfold Sys.special at h
    rw [if_neg (by rintro ⟨-, h⟩; exact hne h)] at h
    dsimp only at h
    by_cases hc : (Sys.check zero { s with state := .empty, cache := none, res := failure }).1 = false
    · rw [if_pos hc] at h
      cases h
      exact .inl ⟨rfl, by simp [check_state]⟩
    · rw [if_neg hc] at h
      rw [Bool.not_eq_false] at hc
      rw [Res.bind_eq_ok] at h
      obtain ⟨d, -, h2⟩ := h
      have e := check_empty zero _ rfl hc
      have g := check_true zero _ rfl hc
      cases h2
      exact .inr ⟨rfl, rfl, g.1, by simp [e], by simp [e], by simp [e]⟩
  · unfold Sys.calculate at h
    rw [if_neg (by rintro ⟨-, h⟩; exact hne h)] at h
    dsimp only at h
    have hcif : (if s.res = (kind flags).1 ∧ s.state ≠ .empty then s
        else { s with state := .empty, cache := none }) = { s with state := .empty, cache := none } :=
      if_neg (by rintro ⟨-, h⟩; exact h hs)
    rw [hcif] at h
    by_cases hc : (Sys.check zero { s with state := .empty, cache := none, res := failure }).1 = false
    · rw [if_pos hc] at h
      cases h
      exact .inl ⟨rfl, by simp [check_state]⟩
    · rw [if_neg hc] at h
      rw [Bool.not_eq_false] at hc
      rw [if_pos (by simp [check_state]), Res.bind_eq_ok] at h
      obtain ⟨d, -, h2⟩ := h
      have e := check_empty zero _ rfl hc
      have g := check_true zero _ rfl hc
      cases h2
      exact .inr ⟨rfl, rfl, g.1, by simp [e], by simp [e], by simp [e]⟩

end
end OP.Libop
