import Verif.Libop.LeRead
/-!
# Properties C79 to C81: the layered elastic calls of the C interface
-/
namespace OP.Libop
open OP.Pave

variable {K L R Q : Type} [Field K] [LinearOrder K]

section
variable (num : Num K L R Q) (zero : R) (nullQ : Q)

/-! ## C79: results read through the C interface -/

/-- **C79**: after any history of calls on a handle, every number read by `OP_LE_Result`, `OP_LE_GroupResult` belongs to
the layers, loads and points the system has now (`Current`), computed by the last successful calculation; `none` is the
error status.  Unlike C50 there is no condition on the calls: the C interface passes no direction matrix and asks each
routine for its own kind. -/
theorem C79_current (cs : List (Cmd K L)) (s : Sys K L R) (sts : List Bool)
    (h : cmds num zero nullQ (Sys.init K L R) cs = .ok (s, sts)) (g i : Nat) (d : PP K × R)
    (hd : readResult s g i = .ok (some d)) : Current num (fun _ => nullQ) s g i d := by
  have hi := (cmds_inv num zero nullQ cs _ (init_inv num nullQ) s sts h).1
  unfold readResult at hd
  cases hr : s.result g i with
  | throw => rw [hr] at hd; cases hd
  | ub => rw [hr] at hd; cases hd
  | ok d' =>
    rw [hr] at hd
    cases hd
    exact inv_result num nullQ s hi g i d hr

/-- **C79**: a calculation that returns success makes every result of every group readable, one that does not makes
every reading an error, and the next calculation is always defined. -/
theorem C79_calculate (cs : List (Cmd K L)) (s : Sys K L R) (sts : List Bool)
    (h : cmds num zero nullQ (Sys.init K L R) cs = .ok (s, sts)) (flags : Nat) :
    ∃ s' st, cmd num zero nullQ s (.calculate flags) = .ok (s', st) ∧
      (st = false → s'.results = s'.points.length ∧
        ∀ g < s'.groups.length, ∀ i < s'.points.length, ∃ d, readResult s' g i = .ok (some d)) ∧
      (st = true → ∀ g i, readResult s' g i = .ok none) := by
  have hi := (cmds_inv num zero nullQ cs _ (init_inv num nullQ) s sts h).1
  obtain ⟨r, e1, e2, e3⟩ := select_ok num zero nullQ s flags hi
  refine ⟨r.1, status r.2, by rw [cmd, e1]; rfl, ?_, ?_⟩
  · intro hst
    rcases e3 with ⟨e3, -⟩ | ⟨-, e4, -⟩
    · rw [e3] at hst; cases hst
    · refine ⟨by rw [Sys.results, if_pos e4], fun g hg i hp => ?_⟩
      obtain ⟨d, hd⟩ := inv_result_ok num nullQ r.1 e2 g i e4 hg hp
      exact ⟨d, by rw [readResult, hd]⟩
  · intro hst g i
    rcases e3 with ⟨-, e4⟩ | ⟨e3, -, -⟩
    · rw [readResult, Sys.result, if_pos e4]
    · rw [e3] at hst; cases hst

theorem readEach_ok (s : Sys K L R) (g : Nat) (f : Nat → PP K × R) (is : List Nat)
    (h : ∀ i ∈ is, readResult s g i = .ok (some (f i))) : readEach s g is = .ok (some (is.map f)) := by
  induction is with
  | nil => rfl
  | cons i is ih =>
    rw [readEach, h i (by simp)]
    simp only [Res.ok_bind, ih fun j hj => h j (by simp [hj])]
    rfl

/-- **C79**: `OP_LE_GroupResults` of an existing group gives all results in the order of the points, each as
`OP_LE_GroupResult` gives it; without results it writes nothing. -/
theorem C79_all (cs : List (Cmd K L)) (s : Sys K L R) (sts : List Bool)
    (h : cmds num zero nullQ (Sys.init K L R) cs = .ok (s, sts)) (g : Nat) (hg : g < s.groups.length) :
    ∃ ds, readResults s g = .ok (some ds) ∧ ds.length = s.results ∧
      ∀ (i : Nat) (d : PP K × R), ds[i]? = some d → readResult s g i = .ok (some d) ∧ s.points[i]? = some d.1 := by
  have hi := (cmds_inv num zero nullQ cs _ (init_inv num nullQ) s sts h).1
  by_cases hs : s.state = .all
  · have hr : s.results = s.points.length := by rw [Sys.results, if_pos hs]
    have : ∀ i, ∃ d, i < s.points.length → s.result g i = .ok d := by
      intro i
      by_cases hp : i < s.points.length
      · obtain ⟨d, hd⟩ := inv_result_ok num nullQ s hi g i hs hg hp
        exact ⟨d, fun _ => hd⟩
      · have h0 : s.points.length ≤ i := by omega
        by_cases hz : s.points = []
        · obtain ⟨gr, -⟩ : ∃ gr, s.groups[g]? = some gr := ⟨_, List.getElem?_eq_getElem hg⟩
          exact ⟨(⟨⟨⟨0, 0⟩, 0⟩, none⟩, num 0 nullQ s.geo [] gr ⟨⟨⟨0, 0⟩, 0⟩, none⟩), fun h => absurd h hp⟩
        · obtain ⟨d, -⟩ := inv_result_ok num nullQ s hi g 0 hs hg (List.length_pos_of_ne_nil hz)
          exact ⟨d, fun h => absurd h hp⟩
    choose f hf using this
    have hrr : ∀ i, i < s.points.length → readResult s g i = .ok (some (f i)) := by
      intro i hp; rw [readResult, hf i hp]
    refine ⟨(List.range s.results).map f, readEach_ok s g f _ fun i hm => hrr i (by rw [← hr]; exact List.mem_range.1 hm),
      by simp, ?_⟩
    intro i d hd
    rw [List.getElem?_map] at hd
    have hil : i < s.points.length := by
      by_contra hc
      rw [List.getElem?_eq_none (by simp; omega)] at hd
      cases hd
    rw [List.getElem?_range (by omega)] at hd
    simp only [Option.map_some, Option.some.injEq] at hd
    subst hd
    refine ⟨hrr i hil, ?_⟩
    obtain ⟨gr, p, h1, h2, h3⟩ := inv_result num nullQ s hi g i _ (hf i hil)
    rw [h2, h3]
  · have hr : s.results = 0 := by rw [Sys.results, if_neg hs]
    refine ⟨[], by rw [readResults, hr]; rfl, by rw [hr]; rfl, by simp⟩

/-- Two layers, a load and two points: the results are refused before the calculation, given after it, and refused
again when a layer is added. -/
example : ∃ s sts, cmds echo (none, 0) 0 (Sys.init ℚ Unit _) [.addLayer ⟨1, 100, 1 / 3, 1⟩, .addLayer ⟨0, 50, 1 / 3, 1⟩,
    .addLoad (), .addPoint ⟨⟨0, 0⟩, 1⟩ 0, .addPoint ⟨⟨0, 0⟩, 1⟩ 1, .calculate 0] = .ok (s, sts) ∧
    sts = [false, false, false, false, false, false] ∧ s.results = 1 ∧ s.groups.length = 1 ∧
    readResult s 0 0 = .ok (some (⟨⟨⟨0, 0⟩, 1⟩, some 0⟩, (some 100, 0))) := by
  refine ⟨⟨[⟨1, 100, 1 / 3, 1⟩, ⟨0, 50, 1 / 3, 1⟩], [[()]], [⟨⟨⟨0, 0⟩, 1⟩, some 0⟩],
    [[(⟨⟨⟨0, 0⟩, 1⟩, some 0⟩, (some 100, 0))]], 0, .all, 0, some ⟨[1, 0], [⟨⟨⟨0, 0⟩, 1⟩, some 0⟩], [[()]]⟩⟩, _,
    by decide +kernel, rfl, by decide +kernel, rfl, by decide +kernel⟩

/-- **C79** fails for a result number past the end, or a group that is not there: the call reads past the table. -/
theorem C79_past_end (cs : List (Cmd K L)) (s : Sys K L R) (sts : List Bool)
    (h : cmds num zero nullQ (Sys.init K L R) cs = .ok (s, sts)) (hr : 0 < s.results) (g i : Nat)
    (hgi : s.groups.length ≤ g ∨ s.results ≤ i) : readResult s g i = .ub := by
  have hi := (cmds_inv num zero nullQ cs _ (init_inv num nullQ) s sts h).1
  have hs : s.state = .all := by
    by_contra hc
    rw [Sys.results, if_neg hc] at hr
    omega
  rw [Sys.results, if_pos hs] at hgi
  have : s.result g i = .ub := by
    rw [Sys.result, if_neg (by simp [hs]), hi.vals hs, List.getElem?_map]
    cases hg : s.groups[g]? with
    | none => rfl
    | some gr =>
      rcases hgi with hgi | hgi
      · rw [List.getElem?_eq_none hgi] at hg; cases hg
      · simp [hgi]
  rw [readResult, this]

/-! ## C80: numbering of layers, loads, groups and points -/

/-- **C80**: from a new handle no call is undefined, except adding a load to a group that is not there and is not the
next one. -/
theorem C80_defined (cs : List (Cmd K L)) (s : Sys K L R) (sts : List Bool)
    (h : cmds num zero nullQ (Sys.init K L R) cs = .ok (s, sts)) (c : Cmd K L) :
    (∃ r, cmd num zero nullQ s c = .ok r) ∨
      ∃ g x, c = .addGroupLoad g x ∧ s.groups.length < g ∧ cmd num zero nullQ s c = .ub := by
  obtain ⟨hi, hc⟩ := cmds_inv num zero nullQ cs _ (init_inv num nullQ) s sts h
  replace hc : s.clg = 0 := hc
  have hload : ∀ g x, g ≤ s.groups.length → ∃ r, s.addload g x = .ok r := by
    intro g x hg
    unfold Sys.addload
    dsimp only
    split_ifs with h1 h2
    · exact ⟨_, rfl⟩
    · exact ⟨_, rfl⟩
    · simp only [Sys.touch] at h1 h2; omega
  cases c with
  | addLayer y => exact .inl ⟨_, rfl⟩
  | insertLayer p y => left; rw [cmd]; split_ifs <;> exact ⟨_, rfl⟩
  | removeLayer p => left; rw [cmd]; split_ifs <;> exact ⟨_, rfl⟩
  | removeLayers => exact .inl ⟨_, rfl⟩
  | addLoad x =>
    obtain ⟨r, hr⟩ := hload s.clg x (by omega)
    exact .inl ⟨_, by rw [cmd, hr]; rfl⟩
  | removeLoad l =>
    left; rw [cmd]; split
    · exact ⟨_, rfl⟩
    · split_ifs <;> exact ⟨_, rfl⟩
  | removeLoads => exact .inl ⟨_, rfl⟩
  | addGroupLoad g x =>
    by_cases hg : g ≤ s.groups.length
    · obtain ⟨r, hr⟩ := hload g x hg
      exact .inl ⟨_, by rw [cmd, hr]; rfl⟩
    · refine .inr ⟨g, x, rfl, by omega, ?_⟩
      rw [cmd, Sys.addload]
      rw [if_neg (by simp only [Sys.touch]; omega), if_neg (by simp only [Sys.touch]; omega)]
      rfl
  | removeGroupLoad g l =>
    left; rw [cmd]; split_ifs
    · exact ⟨_, rfl⟩
    · split
      · exact ⟨_, rfl⟩
      · split_ifs <;> exact ⟨_, rfl⟩
  | removeGroup g => left; rw [cmd]; split_ifs <;> exact ⟨_, rfl⟩
  | removeAllLoadGroups =>
    obtain ⟨s', e1, -⟩ := dropGroups_ok s.groups.length s (le_refl _)
    exact .inl ⟨_, by rw [cmd, e1]; rfl⟩
  | addPoint p pl => exact .inl ⟨_, rfl⟩
  | removePoint p pl => exact .inl ⟨_, rfl⟩
  | removePoints => exact .inl ⟨_, rfl⟩
  | calculate flags =>
    obtain ⟨r, e1, -⟩ := select_ok num zero nullQ s flags hi
    exact .inl ⟨_, by rw [cmd, e1]; rfl⟩

/-- **C80**: layers are numbered from one.  In any system, inserting at `p` makes the new layer number `p` and moves
the others down, for `p` from one to the number of layers (or anything positive in an empty system); other numbers are
refused without change.  Removing takes out layer `p`. -/
theorem C80_layers (s : Sys K L R) (p : Nat) (y : Layer K) :
    ((1 ≤ p ∧ p ≤ s.layers.length) → ∃ s', cmd num zero nullQ s (.insertLayer p y) = .ok (s', false) ∧
      s'.layers[p - 1]? = some y ∧ (∀ j < p - 1, s'.layers[j]? = s.layers[j]?) ∧
      ∀ j, p - 1 ≤ j → s'.layers[j + 1]? = s.layers[j]?) ∧
    (p = 0 ∨ s.layers.length < p ∧ s.layers ≠ [] → cmd num zero nullQ s (.insertLayer p y) = .ok (s, true)) ∧
    ((1 ≤ p ∧ p ≤ s.layers.length) → ∃ s', cmd num zero nullQ s (.removeLayer p) = .ok (s', false) ∧
      (∀ j < p - 1, s'.layers[j]? = s.layers[j]?) ∧ ∀ j, p - 1 ≤ j → s'.layers[j]? = s.layers[j + 1]?) ∧
    (p = 0 ∨ s.layers.length < p → cmd num zero nullQ s (.removeLayer p) = .ok (s, true)) := by
  refine ⟨?_, ?_, ?_, ?_⟩
  · rintro ⟨h1, h2⟩
    have hne : s.layers ≠ [] := by intro h; rw [h] at h2; simp at h2; omega
    have hmin : min (p - 1) (s.layers.length - 1) = p - 1 := by omega
    have hlay : (s.addlayer y (some (p - 1))).layers = s.layers.take (p - 1) ++ y :: s.layers.drop (p - 1) := by
      simp only [Sys.addlayer, Sys.touch, if_neg hne, hmin]
    have hlen : (s.layers.take (p - 1)).length = p - 1 := by simp; omega
    refine ⟨_, by rw [cmd, if_neg (by omega)], ?_, ?_, ?_⟩ <;> rw [hlay]
    · rw [List.getElem?_append_right (by omega), hlen]; simp
    · intro j hj
      rw [List.getElem?_append_left (by omega), List.getElem?_take_of_lt hj]
    · intro j hj
      rw [List.getElem?_append_right (by omega), hlen]
      have : j + 1 - (p - 1) = (j - (p - 1)) + 1 := by omega
      rw [this, List.getElem?_cons_succ, List.getElem?_drop]
      congr 1; omega
  · rintro (h | ⟨h1, h2⟩)
    · rw [cmd, if_pos (.inl h)]
    · rw [cmd, if_pos (.inr ⟨h1, List.length_pos_of_ne_nil h2⟩)]
  · rintro ⟨h1, h2⟩
    refine ⟨_, by rw [cmd, if_neg (by omega)], ?_, ?_⟩
    · intro j hj
      simp only [Sys.removelayer, Sys.touch]
      rw [List.getElem?_eraseIdx_of_lt hj]
    · intro j hj
      simp only [Sys.removelayer, Sys.touch]
      rw [List.getElem?_eraseIdx_of_ge hj]
  · intro h
    rw [cmd, if_pos h]

example : ∃ s : Sys ℚ Unit (Option ℚ × Nat), (1 ≤ 2 ∧ 2 ≤ s.layers.length) := ⟨demoSys, by decide⟩

/-! ### What each call does to layers and loads -/

/-- The layers, and the loads group by group. -/
structure Book (K L : Type) where
  layers : List (Layer K)
  groups : List (List L)

/-- Add a load to an existing group, counted from zero, or to a new last one. -/
def Book.put (b : Book K L) (g : Nat) (x : L) : Book K L :=
  { b with groups := if g < b.groups.length then b.groups.modify g (· ++ [x]) else b.groups ++ [[x]] }

/-- Take load `l` out of group `g`, both counted from one; a group without loads is gone. -/
def Book.take (b : Book K L) (g l : Nat) : Book K L × Bool :=
  if 1 ≤ g ∧ 1 ≤ l ∧ l ≤ ((b.groups[g - 1]?).map List.length).getD 0 then
    ({ b with groups := (b.groups.modify (g - 1) (·.eraseIdx (l - 1))).filter (fun gr => ¬ gr.isEmpty) }, false)
  else (b, true)

/-- What a call should do to the book, and the status it should give; `none` if that is no matter of layers and loads. -/
def Book.turn (b : Book K L) : Cmd K L → Book K L × Option Bool
  | .addLayer y => ({ b with layers := b.layers ++ [y] }, some false)
  | .insertLayer p y =>
    if 1 ≤ p ∧ (p ≤ b.layers.length ∨ b.layers.length = 0) then
      ({ b with layers := b.layers.take (p - 1) ++ [y] ++ b.layers.drop (p - 1) }, some false)
    else (b, some true)
  | .removeLayer p =>
    if 1 ≤ p ∧ p ≤ b.layers.length then
      ({ b with layers := b.layers.take (p - 1) ++ b.layers.drop p }, some false)
    else (b, some true)
  | .removeLayers => ({ b with layers := [] }, some false)
  | .addLoad x => (b.put 0 x, some false)
  | .removeLoad l => ((b.take 1 l).1, some (b.take 1 l).2)
  | .removeLoads => ({ b with groups := b.groups.drop 1 }, some false)
  | .addGroupLoad g x => (b.put g x, some false)
  | .removeGroupLoad g l => ((b.take g l).1, some (b.take g l).2)
  | .removeGroup g =>
    if 1 ≤ g ∧ g ≤ b.groups.length then
      ({ b with groups := b.groups.take (g - 1) ++ b.groups.drop g }, some false)
    else (b, some true)
  | .removeAllLoadGroups => ({ b with groups := [] }, some false)
  | .addPoint _ _ => (b, some false)
  | .removePoint _ _ => (b, none)
  | .removePoints => (b, some false)
  | .calculate _ => (b, none)

theorem filter_full {α : Type} (gs : List (List α)) (hne : ∀ gr ∈ gs, gr ≠ []) :
    gs.filter (fun gr => ¬ gr.isEmpty) = gs := by
  rw [List.filter_eq_self]
  intro gr h
  simpa using hne gr h

theorem take_groups {α : Type} (gs : List (List α)) (hne : ∀ gr ∈ gs, gr ≠ []) (g l : Nat) (gr : List α)
    (hg : gs[g]? = some gr) :
    (if gr.eraseIdx l = [] then gs.eraseIdx g else gs.set g (gr.eraseIdx l)) =
      (gs.modify g (·.eraseIdx l)).filter (fun gr => ¬ gr.isEmpty) := by
  induction gs generalizing g with
  | nil => simp at hg
  | cons a gs ih =>
    have hne' : ∀ gr ∈ gs, gr ≠ [] := fun gr h => hne gr (by simp [h])
    cases g with
    | zero =>
      simp only [List.getElem?_cons_zero, Option.some.injEq] at hg
      subst hg
      have hf := filter_full gs hne'
      split_ifs with h
      · simp only [List.eraseIdx_zero, List.tail_cons, List.modify_zero_cons, h]
        rw [List.filter_cons_of_neg (by simp), hf]
      · simp only [List.set_cons_zero, List.modify_zero_cons]
        rw [List.filter_cons_of_pos (by simp only [List.isEmpty_iff]; exact decide_eq_true h), hf]
    | succ g =>
      simp only [List.getElem?_cons_succ] at hg
      have := ih hne' g hg
      simp only [List.eraseIdx_cons_succ, List.set_cons_succ, List.modify_succ_cons]
      rw [List.filter_cons_of_pos (by simpa using hne a (by simp)), ← this]
      split_ifs <;> rfl

/-- One call follows the book. -/
theorem cmd_book (s : Sys K L R) (hc : s.clg = 0) (hne : ∀ gr ∈ s.groups, gr ≠ []) (c : Cmd K L) (s' : Sys K L R)
    (st : Bool) (h : cmd num zero nullQ s c = .ok (s', st)) :
    (⟨s'.layers, s'.groups⟩ : Book K L) = ((⟨s.layers, s.groups⟩ : Book K L).turn c).1 ∧
      (∀ b, ((⟨s.layers, s.groups⟩ : Book K L).turn c).2 = some b → st = b) ∧ ∀ gr ∈ s'.groups, gr ≠ [] := by
  have hload : ∀ g x r, s.addload g x = .ok r → status r.2 = false ∧ r.1.layers = s.layers ∧
      r.1.groups = ((⟨s.layers, s.groups⟩ : Book K L).put g x).groups ∧ ∀ gr ∈ r.1.groups, gr ≠ [] := by
    intro g x r hr
    unfold Sys.addload at hr
    dsimp only [Sys.touch] at hr
    unfold Book.put
    dsimp only
    split_ifs at hr ⊢ with h1 h2
    · cases hr
      refine ⟨rfl, rfl, rfl, ?_⟩
      intro gr hgr
      obtain ⟨i, hi, e⟩ := List.mem_iff_getElem.1 hgr
      rw [List.getElem_modify] at e
      split_ifs at e with h3
      · rw [← e]; simp
      · rw [← e]; exact hne _ (List.getElem_mem _)
    · cases hr
      refine ⟨rfl, rfl, rfl, ?_⟩
      intro gr hgr
      simp only [List.mem_append, List.mem_singleton] at hgr
      rcases hgr with hgr | rfl
      · exact hne gr hgr
      · simp
  have htake : ∀ g l, 1 ≤ g → 1 ≤ l → ∀ gr, s.groups[g - 1]? = some gr → l ≤ gr.length →
      status (s.removeload (g - 1) (l - 1)).2 = false ∧ (s.removeload (g - 1) (l - 1)).1.layers = s.layers ∧
      (s.removeload (g - 1) (l - 1)).1.groups =
        (s.groups.modify (g - 1) (·.eraseIdx (l - 1))).filter (fun gr => ¬ gr.isEmpty) := by
    intro g l hg hl gr hgr hlen
    unfold Sys.removeload
    dsimp only [Sys.touch]
    rw [hgr]
    dsimp only
    rw [if_pos (by omega)]
    exact ⟨rfl, rfl, take_groups s.groups hne (g - 1) (l - 1) gr hgr⟩
  have hfil : ∀ gs : List (List L), ∀ gr ∈ gs.filter (fun gr => ¬ gr.isEmpty), gr ≠ [] := by
    intro gs gr hgr
    have := (List.mem_filter.1 hgr).2
    simpa using this
  cases c with
  | addLayer y => cases h; exact ⟨rfl, by simp [Book.turn], hne⟩
  | insertLayer p y =>
    rw [cmd] at h
    simp only [Book.turn]
    split_ifs at h with h1
    · cases h
      rw [if_neg (by omega)]
      exact ⟨rfl, by simp, hne⟩
    · cases h
      rw [if_pos (by omega)]
      refine ⟨?_, by simp, ?_⟩
      · unfold Sys.addlayer
        dsimp only [Sys.touch]
        split_ifs with h2
        · simp [h2]
        · have : min (p - 1) (s.layers.length - 1) = p - 1 := by
            have := List.length_pos_of_ne_nil h2; omega
          rw [this]; simp
      · have : (s.addlayer y (some (p - 1))).groups = s.groups := by
          unfold Sys.addlayer
          dsimp only [Sys.touch]
          split_ifs <;> rfl
        simp only [this]; exact hne
  | removeLayer p =>
    rw [cmd] at h
    simp only [Book.turn]
    split_ifs at h with h1
    · cases h
      rw [if_neg (by omega)]
      exact ⟨rfl, by simp, hne⟩
    · cases h
      rw [if_pos (by omega)]
      refine ⟨?_, by simp, hne⟩
      simp only [Sys.removelayer, Sys.touch, List.eraseIdx_eq_take_drop_succ]
      have : p - 1 + 1 = p := by omega
      rw [this]
  | removeLayers => cases h; exact ⟨rfl, by simp [Book.turn], hne⟩
  | addLoad x =>
    rw [cmd, hc, Res.bind_eq_ok] at h
    obtain ⟨r, h1, h2⟩ := h
    cases h2
    obtain ⟨e1, e2, e3, e4⟩ := hload 0 x r h1
    exact ⟨by rw [e2, e3]; rfl, by simp [Book.turn, e1], e4⟩
  | addGroupLoad g x =>
    rw [cmd, Res.bind_eq_ok] at h
    obtain ⟨r, h1, h2⟩ := h
    cases h2
    obtain ⟨e1, e2, e3, e4⟩ := hload g x r h1
    exact ⟨by rw [e2, e3]; rfl, by simp [Book.turn, e1], e4⟩
  | removeLoad l =>
    rw [cmd, hc] at h
    simp only [Book.turn, Book.take]
    cases hg : s.groups with
    | nil =>
      rw [hg, if_pos rfl] at h
      simp only at h
      rw [if_pos (by omega)] at h
      cases h
      rw [hg]
      exact ⟨by rw [if_neg (by simp; omega)], by rw [if_neg (by simp; omega)]; simp, by simp⟩
    | cons gr gs =>
      rw [hg] at h
      simp only [reduceCtorEq, if_false, List.getElem?_cons_zero, Option.map_some] at h
      split_ifs at h with h1
      · cases h
        rw [if_neg (by simp; omega), hg]
        exact ⟨rfl, by simp, by rw [← hg]; exact hne⟩
      · cases h
        rw [if_pos (by simp; omega)]
        obtain ⟨e1, e2, e3⟩ := htake 1 l (le_refl _) (by omega) gr (by rw [hg]; rfl) (by omega)
        simp only [Nat.sub_self] at e1 e2 e3
        refine ⟨by rw [e2, e3, hg], by simp [e1], ?_⟩
        rw [e3]; exact hfil _
  | removeLoads =>
    rw [cmd, hc] at h
    cases h
    simp only [Book.turn]
    by_cases hg : s.groups = []
    · have : s.removeloads 0 = (s.touch .empty, .done) := by
        unfold Sys.removeloads
        dsimp only [Sys.touch]
        rw [if_pos ⟨hg, hc.symm⟩]
      rw [this]
      exact ⟨by simp [Sys.touch, hg], by simp [status], hne⟩
    · obtain ⟨e1, e2⟩ := removeloads_zero s hg
      obtain ⟨e3, -⟩ := removeloads_other s 0
      refine ⟨by rw [e2, e3, List.drop_one], by simp [e1, status], ?_⟩
      rw [e2]; exact fun gr hgr => hne gr (List.mem_of_mem_tail hgr)
  | removeGroupLoad g l =>
    rw [cmd] at h
    simp only [Book.turn, Book.take]
    split_ifs at h with h1
    · cases h
      rw [if_neg]
      · exact ⟨rfl, by simp, hne⟩
      · rcases h1 with rfl | h1
        · simp
        · rw [List.getElem?_eq_none (by omega)]; simp; omega
    · have hlt : g - 1 < s.groups.length := by omega
      rw [List.getElem?_eq_getElem hlt] at h ⊢
      simp only at h
      split_ifs at h with h2
      · cases h
        rw [if_neg (by simp only [Option.map_some, Option.getD_some]; omega)]
        exact ⟨rfl, by simp, hne⟩
      · cases h
        rw [if_pos (by simp only [Option.map_some, Option.getD_some]; omega)]
        obtain ⟨e1, e2, e3⟩ := htake g l (by omega) (by omega) _ (List.getElem?_eq_getElem hlt) (by omega)
        refine ⟨by rw [e2, e3], by simp [e1], ?_⟩
        rw [e3]; exact hfil _
  | removeGroup g =>
    rw [cmd] at h
    simp only [Book.turn]
    split_ifs at h with h1
    · cases h
      rw [if_neg (by omega)]
      exact ⟨rfl, by simp, hne⟩
    · cases h
      rw [if_pos (by omega)]
      have hlt : g - 1 < s.groups.length := by omega
      have : s.removeloads (g - 1) = ({ s.touch .empty with groups := s.groups.eraseIdx (g - 1) }, .done) := by
        unfold Sys.removeloads
        dsimp only [Sys.touch]
        rw [if_neg (by rintro ⟨h, -⟩; rw [h] at hlt; simp at hlt), if_pos hlt]
      rw [this]
      refine ⟨?_, by simp [status], ?_⟩
      · simp only [Sys.touch, List.eraseIdx_eq_take_drop_succ]
        have : g - 1 + 1 = g := by omega
        rw [this]
      · intro gr hgr
        exact hne gr (List.mem_of_mem_eraseIdx hgr)
  | removeAllLoadGroups =>
    obtain ⟨s1, e1, e2, e3, -⟩ := dropGroups_ok s.groups.length s (le_refl _)
    rw [cmd, e1] at h
    cases h
    exact ⟨by rw [e2, e3]; rfl, by simp [Book.turn, status], by rw [e2]; simp⟩
  | addPoint p pl => cases h; exact ⟨rfl, by simp [Book.turn], hne⟩
  | removePoint p pl =>
    cases h
    have : (s.removepoint (pt p pl)).1.layers = s.layers ∧ (s.removepoint (pt p pl)).1.groups = s.groups := by
      unfold Sys.removepoint
      dsimp only [Sys.touch]
      split <;> exact ⟨rfl, rfl⟩
    refine ⟨by rw [this.1, this.2]; rfl, by simp [Book.turn], by rw [this.2]; exact hne⟩
  | removePoints => cases h; exact ⟨rfl, by simp [Book.turn], hne⟩
  | calculate flags =>
    rw [cmd, Res.bind_eq_ok] at h
    obtain ⟨r, h1, h2⟩ := h
    cases h2
    obtain ⟨e1, e2, -⟩ := select_keep num zero nullQ s flags r h1
    exact ⟨by rw [e1, e2]; rfl, by simp [Book.turn], by rw [e2]; exact hne⟩

/-- **C80**: after any history of calls the layers and loads are those of the book kept by the numbers above, and the
next call gives the status of the book.  Every number is counted from one, except that of a group a load is added to. -/
theorem C80_book (cs : List (Cmd K L)) (s : Sys K L R) (sts : List Bool)
    (h : cmds num zero nullQ (Sys.init K L R) cs = .ok (s, sts)) :
    (⟨s.layers, s.groups⟩ : Book K L) = cs.foldl (fun b c => (b.turn c).1) ⟨[], []⟩ ∧ sts.length = cs.length ∧
      ∀ (i : Nat) (c : Cmd K L) (st b : Bool), cs[i]? = some c → sts[i]? = some st →
        (((cs.take i).foldl (fun b c => (b.turn c).1) (⟨[], []⟩ : Book K L)).turn c).2 = some b → st = b := by
  have key : ∀ (cs : List (Cmd K L)) (s0 s : Sys K L R) (sts : List Bool), Inv num (fun _ => nullQ) s0 → s0.clg = 0 →
      (∀ gr ∈ s0.groups, gr ≠ []) → cmds num zero nullQ s0 cs = .ok (s, sts) →
      (⟨s.layers, s.groups⟩ : Book K L) = cs.foldl (fun b c => (b.turn c).1) ⟨s0.layers, s0.groups⟩ ∧
      sts.length = cs.length ∧
      ∀ (i : Nat) (c : Cmd K L) (st b : Bool), cs[i]? = some c → sts[i]? = some st →
        (((cs.take i).foldl (fun b c => (b.turn c).1) (⟨s0.layers, s0.groups⟩ : Book K L)).turn c).2 = some b →
        st = b := by
    intro cs
    induction cs with
    | nil => intro s0 s sts _ _ _ h; cases h; exact ⟨rfl, rfl, by simp⟩
    | cons c cs ih =>
      intro s0 s sts hi hc hne h
      rw [cmds, Res.bind_eq_ok] at h
      obtain ⟨r, h1, h2⟩ := h
      rw [Res.bind_eq_ok] at h2
      obtain ⟨q, h3, h4⟩ := h2
      cases h4
      obtain ⟨i1, i2⟩ := cmd_inv num zero nullQ s0 c hi r h1
      obtain ⟨b1, b2, b3⟩ := cmd_book num zero nullQ s0 hc hne c r.1 r.2 h1
      obtain ⟨t1, t2, t3⟩ := ih r.1 q.1 q.2 i1 (by rw [i2, hc]) b3 h3
      rw [b1] at t1 t3
      refine ⟨t1, by simp [t2], ?_⟩
      intro i c' st b hc' hst hb
      cases i with
      | zero =>
        simp only [List.getElem?_cons_zero, Option.some.injEq] at hc' hst
        subst hc' hst
        exact b2 b hb
      | succ i =>
        simp only [List.getElem?_cons_succ] at hc' hst
        exact t3 i c' st b hc' hst hb
  exact key cs _ s sts (init_inv num nullQ) rfl (by simp [Sys.init]) h

/-- Two layers and loads in two groups; the only load of the first group is taken out, and the second becomes the
first. -/
example : ((([.addLayer ⟨1, 100, 1 / 3, 1⟩, .insertLayer 1 ⟨2, 200, 1 / 3, 1⟩, .addLoad 7, .addGroupLoad 1 8, .addLoad 9,
    .removeLoad 1, .removeGroupLoad 1 1] : List (Cmd ℚ Nat)).foldl (fun (b : Book ℚ Nat) c => (b.turn c).1) ⟨[], []⟩).layers.map (·.h),
    (([.addLoad 7, .addGroupLoad 1 8, .addLoad 9, .removeLoad 1, .removeGroupLoad 1 1] : List (Cmd ℚ Nat)).foldl
      (fun (b : Book ℚ Nat) c => (b.turn c).1) ⟨[], []⟩).groups) = ([2, 1], [[8]]) := by decide +kernel

/-- **C80**: points.  After adding a point the system has one there, in its layer if one was given, and still every
point it had; removing one takes out exactly one point at that place, or is refused if there is none. -/
theorem C80_points (s : Sys K L R) (p : P3 K) (pl : Nat) :
    (∃ s', cmd num zero nullQ s (.addPoint p pl) = .ok (s', false) ∧
      (∃ q ∈ s'.points, q.toP3 = p ∧ (pl ≠ 0 → q.il = some (pl - 1))) ∧
      (∀ q ∈ s.points, ∃ q' ∈ s'.points, q'.toP3 = q.toP3 ∧ (q.il ≠ none → q'.il = q.il)) ∧
      ∀ q' ∈ s'.points, q'.toP3 = p ∨ q' ∈ s.points) ∧
    ((¬ ∃ q ∈ s.points, q.toP3 = p ∧ (q.il = none ∨ pl = 0 ∨ q.il = some (pl - 1))) →
      ∃ s', cmd num zero nullQ s (.removePoint p pl) = .ok (s', true) ∧ s'.points = s.points) ∧
    ((∃ q ∈ s.points, q.toP3 = p ∧ (q.il = none ∨ pl = 0 ∨ q.il = some (pl - 1))) →
      ∃ s' i q, cmd num zero nullQ s (.removePoint p pl) = .ok (s', false) ∧ s.points[i]? = some q ∧ q.toP3 = p ∧
        (q.il = none ∨ pl = 0 ∨ q.il = some (pl - 1)) ∧ s'.points = s.points.eraseIdx i) := by
  have hil : (pt p pl).il = none ↔ pl = 0 := by unfold pt; split_ifs with h <;> simp [h]
  have hil2 : pl ≠ 0 → (pt p pl).il = some (pl - 1) := by intro h; simp [pt, h]
  have heq : ∀ q : PP K, eqP q (pt p pl) = true ↔ q.toP3 = p ∧ (q.il = none ∨ pl = 0 ∨ q.il = some (pl - 1)) := by
    intro q
    rw [eqP_iff, hil]
    change _ = p ∧ _ ↔ _
    constructor
    · rintro ⟨h1, h2 | h2 | h2⟩
      · refine ⟨h1, ?_⟩
        by_cases h0 : pl = 0
        · exact .inr (.inl h0)
        · rw [hil2 h0] at h2; exact .inr (.inr h2)
      · exact ⟨h1, .inl h2⟩
      · exact ⟨h1, .inr (.inl h2)⟩
    · rintro ⟨h1, h2 | h2 | h2⟩
      · exact ⟨h1, .inr (.inl h2)⟩
      · exact ⟨h1, .inr (.inr h2)⟩
      · by_cases h0 : pl = 0
        · exact ⟨h1, .inr (.inr h0)⟩
        · exact ⟨h1, .inl (by rw [hil2 h0]; exact h2)⟩
  refine ⟨?_, ?_, ?_⟩
  · obtain ⟨⟨q, m1, m2⟩, m3⟩ := addPoint_meets s.points (pt p pl)
    refine ⟨_, rfl, ⟨q, m1, m2.1, ?_⟩, ?_, ?_⟩
    · intro h0
      rcases m2.2 with h | h
      · exact absurd (hil.1 h) h0
      · rw [h, hil2 h0]
    · intro q hq
      obtain ⟨q', n1, n2⟩ := m3 q ⟨q, hq, rfl, .inr rfl⟩
      refine ⟨q', n1, n2.1, fun hn => ?_⟩
      rcases n2.2 with h | h
      · exact absurd h hn
      · exact h
    · intro q' hq'
      change q' ∈ addPoint s.points (pt p pl) at hq'
      unfold addPoint at hq'
      cases hp : hasPoint (pt p pl) s.points with
      | none =>
        rw [hp] at hq'
        simp only [List.mem_append, List.mem_singleton] at hq'
        rcases hq' with h | h
        · exact .inr h
        · left; rw [h]; rfl
      | some i =>
        rw [hp] at hq'
        dsimp only at hq'
        obtain ⟨j, hj, e⟩ := List.mem_iff_getElem.1 hq'
        rw [List.getElem_modify] at e
        split_ifs at e with h3
        · left
          rw [← e]
          unfold asgP
          split_ifs <;> rfl
        · right; rw [← e]; exact List.getElem_mem _
  · intro hno
    have hn : hasPoint (pt p pl) s.points = none := by
      cases hp : hasPoint (pt p pl) s.points with
      | none => rfl
      | some i =>
        obtain ⟨q, q1, q2⟩ := hasPoint_some _ _ _ hp
        exact absurd ⟨q, List.mem_of_getElem? q1, (heq q).1 q2⟩ hno
    refine ⟨s.touch .empty, ?_, rfl⟩
    rw [cmd, Sys.removepoint]
    dsimp only [Sys.touch]
    rw [hn]; rfl
  · rintro ⟨q, q1, q2⟩
    obtain ⟨i, hi⟩ := hasPoint_of_mem _ _ _ q1 ((heq q).2 q2)
    obtain ⟨t, t1, t2⟩ := hasPoint_some _ _ _ hi
    have e : s.removepoint (pt p pl) = ({ s.touch .empty with points := s.points.eraseIdx i }, .done) := by
      unfold Sys.removepoint
      dsimp only [Sys.touch]
      rw [hi]
    exact ⟨_, i, t, by rw [cmd, e]; rfl, t1, ((heq t).1 t2).1, ((heq t).1 t2).2, rfl⟩

/-- **C80** fails for load groups: they are numbered from one when they are removed, but from zero when a load is
added.  In any system with a group, a load added to group 0 can be removed only as one of group 1; group 0 is refused. -/
theorem C80_groups_differ (s : Sys K L R) (gr : List L) (gs : List (List L)) (hg : s.groups = gr :: gs) (x : L) :
    ∃ s1 s2, cmd num zero nullQ s (.addGroupLoad 0 x) = .ok (s1, false) ∧ s1.groups = (gr ++ [x]) :: gs ∧
      (∀ l, cmd num zero nullQ s1 (.removeGroupLoad 0 l) = .ok (s1, true)) ∧
      cmd num zero nullQ s1 (.removeGroupLoad 1 (gr.length + 1)) = .ok (s2, false) ∧
      (gr ≠ [] → s2.groups = gr :: gs) := by
  have h1 : s.addload 0 x = .ok ({ s.touch .empty with groups := (gr ++ [x]) :: gs }, .done) := by
    rw [Sys.addload]
    dsimp only
    rw [if_pos (by simp [Sys.touch, hg])]
    simp [Sys.touch, hg]
  refine ⟨_, (({ s.touch .empty with groups := (gr ++ [x]) :: gs } : Sys K L R).removeload 0 gr.length).1,
    by rw [cmd, h1]; rfl, rfl, fun l => by rw [cmd, if_pos (.inl rfl)], ?_, ?_⟩
  · rw [cmd, if_neg (by simp)]
    simp [Sys.removeload, Sys.touch, status]
  · intro hne
    simp [Sys.removeload, Sys.touch, List.eraseIdx_append_of_length_le, hne]

/-- **C80** fails for a first group: adding a load to group 1 of a new system, the number by which the first group is
removed, is undefined. -/
theorem C80_first_group (x : L) : cmd num zero nullQ (Sys.init K L R) (.addGroupLoad 1 x) = .ub := rfl

/-- **C80**: `OP_LE_RemoveAllLoadGroups` ends with no load groups, whatever there were, and touches nothing else. -/
theorem C80_remove_all (s : Sys K L R) : ∃ s', cmd num zero nullQ s .removeAllLoadGroups = .ok (s', false) ∧
    s'.groups = [] ∧ s'.layers = s.layers ∧ s'.points = s.points := by
  obtain ⟨s', e1, e2, e3, e4, -⟩ := dropGroups_ok s.groups.length s (le_refl _)
  exact ⟨s', by rw [cmd, e1]; rfl, e2, e3, e4⟩

/-! ## C81: the single call that calculates everything -/

theorem readPoints_ok (s : Sys K L R) (ps : List (P3 K × Nat))
    (h : ∀ p ∈ ps, ∃ d, s.resultAt s.clg (pt p.1 p.2) = .ok d) :
    ∃ ds, readPoints s ps = .ok ds ∧ ds.length = ps.length ∧
      ∀ (i : Nat) (p : P3 K × Nat) (d : PP K × R), ps[i]? = some p → ds[i]? = some d →
        s.resultAt s.clg (pt p.1 p.2) = .ok d := by
  induction ps with
  | nil => exact ⟨[], rfl, rfl, by simp⟩
  | cons p ps ih =>
    obtain ⟨d, hd⟩ := h p (by simp)
    obtain ⟨ds, h1, h2, h3⟩ := ih fun p hp => h p (by simp [hp])
    refine ⟨d :: ds, by rw [readPoints, hd]; simp only [Res.ok_bind, h1], by simp [h2], ?_⟩
    intro i p' d' hp hd'
    cases i with
    | zero => simp only [List.getElem?_cons_zero, Option.some.injEq] at hp hd'; subst hp hd'; exact hd
    | succ i => simp only [List.getElem?_cons_succ] at hp hd'; exact h3 i p' d' hp hd'

theorem readPoints_not_ub (s : Sys K L R) (hs : s.state ≠ .all) (ps : List (P3 K × Nat)) : readPoints s ps ≠ .ub := by
  cases ps with
  | nil => simp [readPoints]
  | cons p ps =>
    have : s.resultAt s.clg (pt p.1 p.2) = .throw := by
      unfold Sys.resultAt Sys.result
      split
      · rfl
      · rw [if_pos hs]
    rw [readPoints, this]; simp

/-- The method named by a low byte: fast, dirty, Odemark, fast numbers, accurate, or else the full one. -/
def method (b : Nat) : Nat := if b = 1 ∨ b = 2 ∨ b = 3 ∨ b = 4 ∨ b = 255 then b else 0

/-- **C81**: two values of `flags` select the same calculation exactly if their low bytes name the same method and, for
the methods that have two kinds of result, both or neither ask for displacements only by a value above 255. -/
theorem C81_flags (f g : Nat) : kind f = kind g ↔
    method (f % 256) = method (g % 256) ∧
      (method (f % 256) = 3 ∨ method (f % 256) = 4 ∨ method (f % 256) = 255 ∨ (255 < f ↔ 255 < g)) := by
  have key : ∀ f : Nat, kind f = (if method (f % 256) = 3 ∨ method (f % 256) = 4 ∨ method (f % 256) = 255
      then (method (f % 256), true) else (method (f % 256) + if 255 < f then 256 else 0, false)) := by
    intro f
    unfold kind
    have h256 : f % 256 < 256 := Nat.mod_lt _ (by omega)
    generalize f % 256 = a at h256
    have hg : (f > 255) = (255 < f) := rfl
    simp only [hg]
    split
    · simp only [method]; split_ifs <;> simp_all
    · simp only [method]; split_ifs <;> simp_all
    · simp [method]
    · simp [method]
    · simp [method]
    · rename_i h1 h2 h3 h4 h5
      have : method a = 0 := by
        unfold method
        rw [if_neg]
        rintro (rfl | rfl | rfl | rfl | rfl) <;> simp_all
      rw [this]
      split_ifs <;> simp_all
  have hm : ∀ b, method b ≤ 255 := by
    intro b
    unfold method
    split_ifs <;> omega
  rw [key f, key g]
  have h1 := hm (f % 256)
  have h2 := hm (g % 256)
  generalize method (f % 256) = a at *
  generalize method (g % 256) = b at *
  split_ifs <;> simp only [Prod.mk.injEq, Bool.true_eq_false, Bool.false_eq_true, and_false, and_true, false_iff, not_and] <;> omega

example : kind 0x101 ≠ kind 1 ∧ kind 0x103 = kind 3 ∧ kind 7 = kind 0 := by decide

theorem addpoints_from (ps all : List (P3 K × Nat)) (hsub : ∀ p ∈ ps, p ∈ all) (s : Sys K L R)
    (h : ∀ q ∈ s.points, ∃ p ∈ all, q.toP3 = p.1) :
    ∀ q ∈ (ps.foldl (fun s p => s.addpoint (pt p.1 p.2)) s).points, ∃ p ∈ all, q.toP3 = p.1 := by
  induction ps generalizing s with
  | nil => exact h
  | cons p ps ih =>
    refine ih (fun p hp => hsub p (by simp [hp])) _ ?_
    intro q hq
    have := addPoint_mem _ _ _ hq
    simp only [List.map_cons, List.mem_cons, List.mem_map] at this
    rcases this with e | ⟨t, ht, e⟩
    · exact ⟨p, hsub p (by simp), e⟩
    · obtain ⟨p', h1, h2⟩ := h t ht
      exact ⟨p', h1, by rw [← e, h2]⟩

/-- **C81**: `OP_LE_Calc` of any layers, loads and points ends, and if it returns success the numbers given for the
`i`th point belong to a point with the coordinates and, if one was asked for, the layer of the `i`th point.  They were
computed for the given layers and loads, at points that were all asked for. -/
theorem C81_calc (flags : Nat) (ys : List (Layer K)) (xs : List L) (ps : List (P3 K × Nat)) :
    ∃ st ds, leCalc num zero nullQ flags ys xs ps = .ok (st, ds) ∧
      (st = false → ∃ ds', ds = some ds' ∧ ds'.length = ps.length ∧
        ∃ pts : List (PP K), (∀ q ∈ pts, ∃ p ∈ ps, q.toP3 = p.1) ∧
          ∀ (i : Nat) (p : P3 K × Nat) (d : PP K × R), ps[i]? = some p → ds'[i]? = some d →
            d.1 ∈ pts ∧ d.1.toP3 = p.1 ∧ (p.2 ≠ 0 → d.1.il = some (p.2 - 1)) ∧ d.1.il ≠ none ∧
            d.2 = num (kind flags).1 nullQ ⟨ys.map (·.h), pts, [xs]⟩ (ys.map fun y => (y.E, y.v, y.s)) xs d.1) := by
  obtain ⟨a1, a2, a3, a4, a5⟩ := addlayers_frame ys (Sys.init K L R) rfl
  obtain ⟨s1, b1, b2, b3, b4, b5, b6, -⟩ := addLoads_ok xs _ a1 a5
  obtain ⟨c1, c2, c3, c4⟩ := addpoints_frame ps s1 b2
  obtain ⟨m1, -⟩ := addpoints_meets ps s1
  have hfrom := addpoints_from ps ps (fun p hp => hp) s1 (by rw [b4, a4]; simp [Sys.init])
  generalize hs2 : ps.foldl (fun s p => s.addpoint (pt p.1 p.2)) s1 = s2 at *
  obtain ⟨r, e1, e2, e3⟩ := select_ok num zero nullQ s2 flags (Inv.of_empty _ _ _ c1)
  have e4 := select_clg num zero nullQ s2 flags r e1
  have hle : leCalc num zero nullQ flags ys xs ps = match readPoints r.1 ps with
      | .ok ds => .ok (status r.2, some ds)
      | .throw => .ok (true, none)
      | .ub => .ub := by
    unfold leCalc
    dsimp only
    rw [b1]
    simp only [Res.ok_bind, hs2, e1]
    rfl
  rw [hle]
  rcases select_empty num zero nullQ s2 flags c1 r e1 with ⟨f1, f2⟩ | ⟨f1, f2, f3, f4, f5, f6⟩
  · have hn := readPoints_not_ub r.1 f2 ps
    cases hr : readPoints r.1 ps with
    | ub => exact absurd hr hn
    | throw => exact ⟨true, none, rfl, by simp⟩
    | ok ds => exact ⟨_, _, rfl, by rw [f1]; simp [status]⟩
  · have hall := select_all num zero nullQ s2 flags c1 r e1 f1
    have hxs : s2.groups = [xs] := by
      rw [c3, b6 (by rw [a3]; rfl)] at f3 ⊢
      split_ifs at f3 ⊢ with h
      · exact absurd rfl f3
      · rfl
    have hlay : s2.layers = ys := by rw [c2, b3, a2]; rfl
    have hclg : r.1.clg = 0 := by rw [e4, c4, b5]
    have hres : r.1.res = (kind flags).1 := by
      rcases e3 with ⟨h, -⟩ | ⟨-, -, h⟩
      · rw [f1] at h; cases h
      · exact h
    -- what a point asked for leads to
    have key : ∀ p ∈ ps, ∃ i d, r.1.resultAt r.1.clg (pt p.1 p.2) = .ok d ∧ r.1.points[i]? = some d.1 ∧
        eqP d.1 (pt p.1 p.2) = true ∧ r.1.result 0 i = .ok d := by
      intro p hp
      obtain ⟨q, q1, q2⟩ := m1 p hp
      have hq : (placePoint s2.layers q).2 ∈ r.1.points := by rw [f6]; exact List.mem_map_of_mem q1
      have hmeet : Meets (placePoint s2.layers q).2 (pt p.1 p.2) := by
        refine ⟨by rw [placePoint_P3]; exact q2.1, ?_⟩
        rcases q2.2 with h | h
        · exact .inl h
        · cases hil : (pt p.1 p.2).il with
          | none => exact .inl rfl
          | some j => right; rw [hil] at h; exact placePoint_il _ _ _ h
      obtain ⟨i, hi⟩ := hasPoint_of_mem _ _ _ hq hmeet.eqP
      obtain ⟨t, t1, t2⟩ := hasPoint_some _ _ _ hi
      have hil := (List.getElem?_eq_some_iff.1 t1).1
      obtain ⟨d, hd⟩ := inv_result_ok num nullQ r.1 e2 0 i f2 (by rw [f4, hxs]; simp) hil
      obtain ⟨gr, p', g1, g2, g3⟩ := inv_result num nullQ r.1 e2 0 i d hd
      have hd1 : d.1 = p' := by rw [g3]
      rw [t1] at g2
      cases g2
      refine ⟨i, d, ?_, by rw [hd1]; exact t1, by rw [hd1]; exact t2, hd⟩
      rw [Sys.resultAt, hi]
      rw [hclg]; exact hd
    obtain ⟨ds, d1, d2, d3⟩ := readPoints_ok r.1 ps fun p hp => by
      obtain ⟨i, d, h, -⟩ := key p hp; exact ⟨d, h⟩
    rw [d1]
    refine ⟨_, _, rfl, fun _ => ⟨ds, rfl, d2, r.1.points, ?_, ?_⟩⟩
    · intro q hq
      rw [f6] at hq
      obtain ⟨t, t1, rfl⟩ := List.mem_map.1 hq
      rw [placePoint_P3]; exact hfrom t t1
    · intro i p d hp hd
      obtain ⟨j, d', k1, k2, k3, k4⟩ := key p (List.mem_of_getElem? hp)
      have := d3 i p d hp hd
      rw [k1] at this
      cases this
      have hmem : d.1 ∈ r.1.points := List.mem_of_getElem? k2
      have hne : d.1.il ≠ none := by
        rw [f6] at hmem
        obtain ⟨t, t1, t2⟩ := List.mem_map.1 hmem
        rw [← t2]; exact place_some _ _ (hall t t1)
      rw [eqP_iff] at k3
      refine ⟨hmem, k3.1, ?_, hne, ?_⟩
      · intro h0
        have hpt : (pt p.1 p.2).il = some (p.2 - 1) := by simp [pt, h0]
        rcases k3.2 with h | h | h
        · rw [h, hpt]
        · exact absurd h hne
        · rw [hpt] at h; cases h
      · obtain ⟨gr, p', g1, g2, g3⟩ := inv_result num nullQ r.1 e2 0 j d k4
        rw [f4, hxs] at g1
        simp only [List.getElem?_cons_zero, Option.some.injEq] at g1
        subst g1
        have h1 : d.1 = p' := by rw [g3]
        have h2 : d.2 = num r.1.res nullQ ⟨r.1.layers.map (·.h), r.1.points, r.1.groups⟩
          (r.1.layers.map fun y => (y.E, y.v, y.s)) xs p' := by rw [g3]
        rw [h2, h1, hres, f5, hlay, f4, hxs]

set_option synthInstance.maxSize 400 in
/-- Two layers, one load and the same place in both layers. -/
example : leCalc echo (none, 0) 0 0 [⟨1, 100, 1 / 3, 1⟩, ⟨0, 50, 1 / 3, 1⟩] [()] [(⟨⟨0, 0⟩, 1⟩, 2), (⟨⟨0, 0⟩, 1⟩, 1)] =
    .ok (false, some [(⟨⟨⟨0, 0⟩, 1⟩, some 1⟩, (some 100, 0)), (⟨⟨⟨0, 0⟩, 1⟩, some 0⟩, (some 100, 0))]) := by
  decide +kernel

/-- **C81**: a failed calculation, such as one without layers, loads or points, is reported. -/
theorem C81_reports (flags : Nat) (ys : List (Layer K)) (xs : List L) (ps : List (P3 K × Nat))
    (h : ys = [] ∨ xs = [] ∨ ps = []) : ∃ ds, leCalc num zero nullQ flags ys xs ps = .ok (true, ds) := by
  obtain ⟨a1, a2, a3, a4, a5⟩ := addlayers_frame ys (Sys.init K L R) rfl
  obtain ⟨s1, b1, b2, b3, b4, b5, b6, -⟩ := addLoads_ok xs _ a1 a5
  obtain ⟨c1, c2, c3, c4⟩ := addpoints_frame ps s1 b2
  have c5 : ps = [] → (ps.foldl (fun s p => s.addpoint (pt p.1 p.2)) s1).points = [] := by
    rintro rfl; rw [List.foldl_nil, b4, a4]; rfl
  generalize hs2 : ps.foldl (fun s p => s.addpoint (pt p.1 p.2)) s1 = s2 at *
  obtain ⟨r, e1, e2, e3⟩ := select_ok num zero nullQ s2 flags (Inv.of_empty _ _ _ c1)
  have hle : leCalc num zero nullQ flags ys xs ps = match readPoints r.1 ps with
      | .ok ds => .ok (status r.2, some ds)
      | .throw => .ok (true, none)
      | .ub => .ub := by
    unfold leCalc
    dsimp only
    rw [b1]
    simp only [Res.ok_bind, hs2, e1]
    rfl
  rw [hle]
  rcases select_empty num zero nullQ s2 flags c1 r e1 with ⟨f1, f2⟩ | ⟨f1, f2, f3, f4, f5, f6⟩
  · have hn := readPoints_not_ub r.1 f2 ps
    cases hr : readPoints r.1 ps with
    | ub => exact absurd hr hn
    | throw => exact ⟨none, rfl⟩
    | ok ds => exact ⟨some ds, by rw [f1]; rfl⟩
  · exfalso
    obtain ⟨g1, g2, g3⟩ := select_needs num zero nullQ s2 flags c1 r e1 f1
    rcases h with h | h | h
    · apply g1; rw [c2, b3, a2, h]; rfl
    · apply g2; rw [c3, b6 (by rw [a3]; rfl), h]; rfl
    · exact g3 (c5 h)

/-- **C81**, a disagreement on the meaning of the returned status: every other call of the interface returns 0 for
success, but `OP_LE_BackCalc` returns 1 when the back-calculation converged and 0 when it did not; the latter cannot be
told from success, nor the former from an exception. -/
theorem C81_backcalc_status : backStatus (.bool true) = true ∧ backStatus (.bool false) = false ∧
    backStatus .threw = true ∧ status (.bool true) = false ∧ status (.bool false) = true ∧ status .threw = true :=
  ⟨rfl, rfl, rfl, rfl, rfl, rfl⟩

end
end OP.Libop
