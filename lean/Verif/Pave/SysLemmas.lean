import Verif.Pave.Sys
/-!
# Lemmas about the layered elastic system
-/
namespace OP.Pave

variable {K L R Q : Type} [Field K] [LinearOrder K]

@[simp] theorem touch_layers (s : Sys K L R) (c : St) : (s.touch c).layers = s.layers := rfl
@[simp] theorem touch_groups (s : Sys K L R) (c : St) : (s.touch c).groups = s.groups := rfl
@[simp] theorem touch_points (s : Sys K L R) (c : St) : (s.touch c).points = s.points := rfl
@[simp] theorem touch_data (s : Sys K L R) (c : St) : (s.touch c).data = s.data := rfl
@[simp] theorem touch_clg (s : Sys K L R) (c : St) : (s.touch c).clg = s.clg := rfl
@[simp] theorem touch_res (s : Sys K L R) (c : St) : (s.touch c).res = s.res := rfl
@[simp] theorem touch_cache (s : Sys K L R) (c : St) : (s.touch c).cache = s.cache := rfl

@[simp] theorem touch_empty_state (s : Sys K L R) : (s.touch .empty).state = .empty := by
  show s.state.min .empty = .empty
  cases s.state <;> rfl

theorem touch_emod_state (s : Sys K L R) : (s.touch .emod).state ≠ .all := by
  show s.state.min .emod ≠ .all
  cases s.state <;> simp [St.min]

theorem touch_emod_empty (s : Sys K L R) (h : (s.touch .emod).state ≠ .empty) : s.state ≠ .empty := by
  intro e
  apply h
  show s.state.min .emod = .empty
  rw [e]; rfl

/-- Calculation codes that belong to `calculate`. -/
def IsCalc (code : Nat) : Prop := code ≠ 3 ∧ code ≠ 4 ∧ code ≠ 0xFF ∧ code ≠ failure

/-- The invariant of every history in which each kind of calculation is always asked for with the same direction
matrix. -/
structure Inv (num : Num K L R Q) (qf : Nat → Q) (s : Sys K L R) : Prop where
  rows : s.state ≠ .empty → s.data.map (·.map Prod.fst) = s.groups.map fun _ => s.points
  geo : s.state ≠ .empty → IsCalc s.res → s.cache = some s.geo
  vals : s.state = .all →
    s.data = s.groups.map fun g => s.points.map fun p => (p, num s.res (qf s.res) s.geo (mech s.layers) g p)

theorem Inv.of_empty (num : Num K L R Q) (qf : Nat → Q) (s : Sys K L R) (h : s.state = .empty) : Inv num qf s :=
  ⟨fun e => absurd h e, fun e => absurd h e, fun e => by rw [h] at e; cases e⟩

theorem fill_ok (f : List L → PP K → R) (pts : List (PP K)) (gs : List (List L)) (rows : List (List (PP K × R)))
    (h : rows.map (·.map Prod.fst) = gs.map fun _ => pts) :
    fill f gs rows = .ok (gs.map fun g => pts.map fun p => (p, f g p)) := by
  induction gs generalizing rows with
  | nil => cases rows with
    | nil => rfl
    | cons r rs => simp at h
  | cons g gs ih => cases rows with
    | nil => simp at h
    | cons r rs =>
      simp only [List.map_cons, List.cons.injEq] at h
      rw [fill, ih rs h.2]
      have : r.map (fun d => (d.1, f g d.1)) = pts.map fun p => (p, f g p) := by
        rw [← h.1, List.map_map]; rfl
      simp [this]

theorem rows_fst (f : List L → PP K → R) (pts : List (PP K)) (gs : List (List L)) :
    (gs.map fun g => pts.map fun p => (p, f g p)).map (·.map Prod.fst) = gs.map fun _ => pts := by
  rw [List.map_map]
  apply List.map_congr_left
  intro g _
  simp only [Function.comp, List.map_map]
  exact List.map_id'' (fun _ => rfl) pts

theorem check_emod (zero : R) (s : Sys K L R) (h : s.state = .emod) : (Sys.check zero s).2 = s := by
  simp [Sys.check, h]

/-- What a successful check of a system with an empty cache leaves. -/
theorem check_empty (zero : R) (s : Sys K L R) (h : s.state = .empty) (hc : (Sys.check zero s).1 = true) :
    (Sys.check zero s).2 =
      let pts := s.points.map fun d => (placePoint s.layers d).2
      { s with points := pts, data := s.groups.map fun _ => pts.map fun p => (p, zero) } := by
  simp only [Sys.check, h, reduceCtorEq, if_false] at hc ⊢
  split_ifs at hc ⊢ with h1
  · exfalso
    simp only [decide_true, Bool.true_eq_false, false_or] at h1
    simp only [decide_true, forall_const, Bool.and_eq_true, decide_eq_true_eq] at hc
    rcases h1 with h1 | h1
    · simp only [forall_const] at h1
      rw [Bool.and_eq_false_iff] at h1
      rcases h1 with h1 | h1
      · simp only [decide_eq_false_iff_not] at h1; exact h1 hc.1
      · rw [hc.2] at h1; cases h1
    · exact hc.1.1 h1
  · rfl

theorem check_state (zero : R) (s : Sys K L R) : (Sys.check zero s).2.state = s.state ∧
    (Sys.check zero s).2.cache = s.cache ∧ (Sys.check zero s).2.res = s.res ∧
    (Sys.check zero s).2.layers = s.layers ∧ (Sys.check zero s).2.groups = s.groups := by
  simp only [Sys.check]
  split_ifs <;> simp

variable (num : Num K L R Q) (zero : R) (qf : Nat → Q)

/-- The calls of a history: `calculate` is asked for its own kinds of results, the other routines have theirs, and a
kind goes with one direction matrix. -/
def OpOk : Op K L Q → Prop
  | .calculate code q => IsCalc code ∧ q = qf code
  | .special code q => (code = 3 ∨ code = 4 ∨ code = 0xFF) ∧ q = qf code
  | _ => True

theorem inv_soft (s : Sys K L R) (i : Nat) (x : K) (get : Layer K → K) (put : Layer K → Layer K)
    (hp : ∀ y, (put y).h = y.h) (hg : ∀ y, get y = x → put y = y) (r : Sys K L R × Ret) (hi : Inv num qf s)
    (h : s.soft i x get put = .ok r) : Inv num qf r.1 := by
  unfold Sys.soft Sys.layerIx at h
  split_ifs at h with h0
  · cases h
  · simp only [Res.ok_bind, Res.ok.injEq] at h
    subst h
    generalize min i (s.layers.length - 1) = j
    have hthick : ∀ l : List (Layer K), (l.modify j put).map (·.h) = l.map (·.h) := by
      intro l
      apply List.ext_getElem?
      intro m
      simp only [List.getElem?_map, List.getElem?_modify]
      cases l[m]? with
      | none => rfl
      | some y => by_cases e : j = m <;> simp [e, hp]
    by_cases he : (s.layers[j]?).map get = some x
    · rw [if_pos he]
      have : s.layers.modify j put = s.layers := by
        apply List.ext_getElem?
        intro m
        rw [List.getElem?_modify]
        by_cases e : j = m
        · subst e
          cases hy : s.layers[j]? with
          | none => rfl
          | some y => rw [hy] at he; simp at he; simp [hg y he]
        · simp [e]
      have : s.setLayer j put = s := by
        cases s; simp only [Sys.setLayer, Sys.mk.injEq, and_true, true_and] at this ⊢; exact this
      rw [this]; exact hi
    · rw [if_neg he]
      refine ⟨fun e => ?_, fun e c => ?_, fun e => absurd e (touch_emod_state s)⟩
      · exact hi.rows (touch_emod_empty s e)
      · have := hi.geo (touch_emod_empty s e) c
        simp only [Sys.setLayer, touch_cache, Sys.geo, touch_layers, touch_points, touch_groups, hthick]
        exact this

theorem inv_calculate (s : Sys K L R) (code : Nat) (q : Q) (hi : Inv num qf s) (hc : IsCalc code)
    (hq : q = qf code) : ∃ r, s.calculate num zero code q = .ok r ∧ Inv num qf r.1 ∧
      (r.2 = .bool false ∧ r.1.state ≠ .all ∨ r.2 = .bool true ∧ r.1.state = .all ∧ r.1.res = code) ∧
      r.1.points.map PP.toP3 = s.points.map PP.toP3 ∧ r.1.groups = s.groups ∧ r.1.layers = s.layers := by
  have hplace : ∀ (ls : List (Layer K)) (ps : List (PP K)),
      (ps.map fun d => (placePoint ls d).2).map PP.toP3 = ps.map PP.toP3 := by
    intro ls ps
    rw [List.map_map]
    apply List.map_congr_left
    intro d _
    simp only [Function.comp, placePoint]
    split_ifs
    · rfl
    · split <;> rfl
  unfold Sys.calculate
  by_cases h1 : s.res = code ∧ s.state = .all
  · rw [if_pos h1]
    exact ⟨_, rfl, hi, .inr ⟨rfl, h1.2, h1.1⟩, rfl, rfl, rfl⟩
  · rw [if_neg h1]
    by_cases h2 : s.res = code ∧ s.state ≠ .empty
    · -- the cached geometry is used
      rw [if_pos h2]
      have hst : s.state = .emod := by
        cases hs : s.state with
        | empty => exact absurd hs h2.2
        | emod => rfl
        | all => exact absurd ⟨h2.1, hs⟩ h1
      have he : (Sys.check zero { s with res := failure }).2 = { s with res := failure } :=
        check_emod zero _ hst
      simp only [he]
      have hgeo := hi.geo h2.2 (h2.1 ▸ hc)
      split_ifs with h3 h4
      · refine ⟨_, rfl, ⟨hi.rows, fun _ c => absurd rfl c.2.2.2, fun e => ?_⟩, .inl ⟨rfl, ?_⟩, rfl, rfl, rfl⟩
        · simp only [hst] at e; cases e
        · simp only [hst]; simp
      · simp only [hst] at h4; cases h4
      · simp only [hgeo]
        rw [fill_ok _ s.points _ _ (hi.rows h2.2)]
        refine ⟨_, rfl, ⟨fun _ => ?_, fun _ _ => rfl, fun _ => ?_⟩, .inr ⟨rfl, rfl, rfl⟩, rfl, rfl, rfl⟩
        · exact rows_fst _ _ _
        · simp only [hq, Sys.geo]
    · -- everything is read anew
      rw [if_neg h2]
      dsimp only
      generalize ht : ({ s with res := failure, state := St.empty, cache := none } : Sys K L R) = t
      have hst : t.state = .empty := by rw [← ht]
      have hp : t.points = s.points := by rw [← ht]
      have hg : t.groups = s.groups := by rw [← ht]
      have hl : t.layers = s.layers := by rw [← ht]
      obtain ⟨e1, e2, e3, e4, e5⟩ := check_state zero t
      split_ifs with h3 h4
      · refine ⟨_, rfl, Inv.of_empty _ _ _ (e1.trans hst), .inl ⟨rfl, by rw [e1, hst]; simp⟩, ?_, e5.trans hg, e4.trans hl⟩
        simp only [Sys.check, hst, reduceCtorEq, if_false]
        split_ifs
        · rw [hp]
        · dsimp only; rw [hplace, hp]
      · have hc := check_empty zero t hst (by simpa using h3)
        rw [hc]
        dsimp only
        rw [fill_ok _ (t.points.map fun d => (placePoint t.layers d).2)]
        · refine ⟨_, rfl, ⟨fun _ => ?_, fun _ _ => rfl, fun _ => ?_⟩, .inr ⟨rfl, rfl, rfl⟩, ?_, hg, hl⟩
          · exact rows_fst _ _ _
          · simp only [hq, Sys.geo]
          · dsimp only; rw [hplace, hp]
        · exact rows_fst _ _ _
      · exact absurd (e1.trans hst) h4

theorem inv_special (s : Sys K L R) (code : Nat) (q : Q) (hi : Inv num qf s)
    (hc : code = 3 ∨ code = 4 ∨ code = 0xFF) (hq : q = qf code) :
    ∃ r, s.special num zero code q = .ok r ∧ Inv num qf r.1 ∧
      (r.2 = .bool false ∧ r.1.state ≠ .all ∨ r.2 = .bool true ∧ r.1.state = .all ∧ r.1.res = code) := by
  unfold Sys.special
  split_ifs with h1
  · exact ⟨_, rfl, hi, .inr ⟨rfl, h1.2, h1.1⟩⟩
  · dsimp only
    generalize ht : ({ s with state := St.empty, res := failure, cache := none } : Sys K L R) = t
    have hst : t.state = .empty := by rw [← ht]
    obtain ⟨e1, _⟩ := check_state zero t
    split_ifs with h3
    · exact ⟨_, rfl, Inv.of_empty _ _ _ (e1.trans hst), .inl ⟨rfl, by rw [e1, hst]; simp⟩⟩
    · have hc' := check_empty zero t hst (by simpa using h3)
      rw [hc']
      dsimp only
      rw [fill_ok _ (t.points.map fun d => (placePoint t.layers d).2)]
      · refine ⟨_, rfl, ⟨fun _ => ?_, fun _ c => ?_, fun _ => ?_⟩, .inr ⟨rfl, rfl, rfl⟩⟩
        · exact rows_fst _ _ _
        · rcases hc with rfl | rfl | rfl
          · exact absurd rfl c.1
          · exact absurd rfl c.2.1
          · exact absurd rfl c.2.2.1
        · simp only [hq, Sys.geo]
      · exact rows_fst _ _ _

theorem addload_state (s : Sys K L R) (g : Nat) (x : L) (r : Sys K L R × Ret) (h : s.addload g x = .ok r) :
    r.1.state = .empty := by
  unfold Sys.addload at h
  dsimp only at h
  split_ifs at h
  · cases h; exact touch_empty_state s
  · cases h; exact touch_empty_state s

theorem removeload_state (s : Sys K L R) (g i : Nat) : (s.removeload g i).1.state = .empty := by
  unfold Sys.removeload
  dsimp only
  split
  · exact touch_empty_state s
  · split_ifs <;> exact touch_empty_state s

theorem removeloads_state (s : Sys K L R) (g : Nat) : (s.removeloads g).1.state = .empty := by
  unfold Sys.removeloads
  dsimp only
  split_ifs <;> exact touch_empty_state s

theorem removepoint_state (s : Sys K L R) (p : PP K) : (s.removepoint p).1.state = .empty := by
  unfold Sys.removepoint
  dsimp only
  split <;> exact touch_empty_state s

theorem addlayer_state (s : Sys K L R) (y : Layer K) (p : Option Nat) : (s.addlayer y p).state = .empty := by
  unfold Sys.addlayer
  dsimp only
  split
  · exact touch_empty_state s
  · split_ifs <;> exact touch_empty_state s

theorem thickness_state (s : Sys K L R) (l : Nat) (x : K) (r : Sys K L R × Ret) (h : s.thickness l x = .ok r) :
    r.1.state = .empty := by
  unfold Sys.thickness Sys.layerIx at h
  split_ifs at h
  · cases h
  · cases h; exact touch_empty_state s

theorem inv_step (s : Sys K L R) (o : Op K L Q) (ho : OpOk qf o) (hi : Inv num qf s) (r : Sys K L R × Ret)
    (h : step num zero s o = .ok r) : Inv num qf r.1 := by
  cases o with
  | thickness l x => exact Inv.of_empty _ _ _ (thickness_state s l x r h)
  | emod l x =>
    exact inv_soft num qf s l x (·.E) (fun y => { y with E := x }) (fun _ => rfl)
      (by rintro ⟨⟩ e; dsimp only at e; subst e; rfl) r hi h
  | poissons l x =>
    exact inv_soft num qf s l x (·.v) (fun y => { y with v := x }) (fun _ => rfl)
      (by rintro ⟨⟩ e; dsimp only at e; subst e; rfl) r hi h
  | slip l x =>
    exact inv_soft num qf s l x (·.s) (fun y => { y with s := x }) (fun _ => rfl)
      (by rintro ⟨⟩ e; dsimp only at e; subst e; rfl) r hi h
  | addlayer y p => cases h; exact Inv.of_empty _ _ _ (addlayer_state s y p)
  | removelayer l => cases h; exact Inv.of_empty _ _ _ (touch_empty_state s)
  | removelayers => cases h; exact Inv.of_empty _ _ _ (touch_empty_state s)
  | defaultgroup g => cases h; exact ⟨hi.rows, hi.geo, hi.vals⟩
  | addload g x => exact Inv.of_empty _ _ _ (addload_state s g x r h)
  | removeload g i => cases h; exact Inv.of_empty _ _ _ (removeload_state s g i)
  | removeloads g => cases h; exact Inv.of_empty _ _ _ (removeloads_state s g)
  | addpoint p => cases h; exact Inv.of_empty _ _ _ (touch_empty_state s)
  | addgrid xs ys zs => cases h; exact Inv.of_empty _ _ _ (touch_empty_state s)
  | removepoint p => cases h; exact Inv.of_empty _ _ _ (removepoint_state s p)
  | removepoints => cases h; exact Inv.of_empty _ _ _ (touch_empty_state s)
  | calculate code q =>
    obtain ⟨r', h', hi', _⟩ := inv_calculate num zero qf s code q hi ho.1 ho.2
    rw [step, h'] at h; cases h; exact hi'
  | special code q =>
    obtain ⟨r', h', hi', _⟩ := inv_special num zero qf s code q hi ho.1 ho.2
    rw [step, h'] at h; cases h; exact hi'

theorem inv_run (s : Sys K L R) (os : List (Op K L Q)) (ho : ∀ o ∈ os, OpOk qf o) (hi : Inv num qf s)
    (s' : Sys K L R) (h : run num zero s os = .ok s') : Inv num qf s' := by
  induction os generalizing s with
  | nil => cases h; exact hi
  | cons o os ih =>
    rw [run, Res.bind_eq_ok] at h
    obtain ⟨r, h1, h2⟩ := h
    exact ih r.1 (fun o' m => ho o' (List.mem_cons_of_mem _ m))
      (inv_step num zero qf s o (ho o List.mem_cons_self) hi r h1) h2

end OP.Pave
