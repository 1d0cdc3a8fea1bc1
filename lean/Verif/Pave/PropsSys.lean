import Verif.Pave.SysLemmas
import Mathlib.Data.Rat.Cast.Order
import Mathlib.Tactic.Linarith
/-!
# C50, C51: results are never stale; points get the layer that contains them
-/
namespace OP.Pave

variable {K L R Q : Type} [Field K] [LinearOrder K]

/-! ## C50 -/

/-- A calculated value belongs to the present system: the point is the `i`-th present point, the loads are those of the
`g`-th present group, and the numbers are computed from the present layers, points and loads. -/
def Current (num : Num K L R Q) (qf : Nat → Q) (s : Sys K L R) (g i : Nat) (d : PP K × R) : Prop :=
  ∃ gr p, s.groups[g]? = some gr ∧ s.points[i]? = some p ∧
    d = (p, num s.res (qf s.res) ⟨s.layers.map (·.h), s.points, s.groups⟩
      (s.layers.map fun y => (y.E, y.v, y.s)) gr p)

/-- **C50**, histories of edits and calculations: whatever can be read belongs to the present system, and when results
are offered every one of them can be read.  Each kind of calculation must be asked for with one direction matrix
(`qf`) and by its own routine (`OpOk`): see `C50_direction` and `C50_foreign_cache` for the others, and
`C50_backcalc_points` for back-calculation. -/
theorem C50_current_partial (num : Num K L R Q) (zero : R) (qf : Nat → Q) (os : List (Op K L Q))
    (ho : ∀ o ∈ os, OpOk qf o) (s : Sys K L R) (h : run num zero (Sys.init K L R) os = .ok s) :
    (∀ g i d, s.result g i = .ok d → Current num qf s g i d) ∧
    (0 < s.results → s.results = s.points.length ∧
      ∀ g < s.groups.length, ∀ i < s.results, ∃ d, s.result g i = .ok d) := by
  have hi := inv_run num zero qf _ os ho (Inv.of_empty _ _ _ rfl) s h
  constructor
  · intro g i d hd
    unfold Sys.result at hd
    split_ifs at hd with hs
    have hs : s.state = .all := by simpa using hs
    rw [hi.vals hs] at hd
    simp only [List.getElem?_map] at hd
    cases hg : s.groups[g]? with
    | none => rw [hg] at hd; cases hd
    | some gr =>
      rw [hg] at hd
      simp only [Option.map_some, List.getElem?_map] at hd
      cases hp : s.points[i]? with
      | none => rw [hp] at hd; cases hd
      | some p => rw [hp] at hd; cases hd; exact ⟨gr, p, hg, hp, rfl⟩
  · intro hr
    unfold Sys.results at hr ⊢
    by_cases hs : s.state = .all
    · rw [if_pos hs]
      refine ⟨rfl, fun g hg i hi' => ?_⟩
      unfold Sys.result
      rw [if_neg (by simpa using hs), hi.vals hs]
      simp only [List.getElem?_map, List.getElem?_eq_getElem hg, Option.map_some, List.getElem?_eq_getElem hi']
      exact ⟨_, rfl⟩
    · rw [if_neg hs] at hr; exact absurd hr (by omega)

/-- **C50**: a successful calculation makes results available for every point, without touching the coordinates, the
loads or the layers; it never runs into undefined behaviour. -/
theorem C50_available (num : Num K L R Q) (zero : R) (qf : Nat → Q) (os : List (Op K L Q))
    (ho : ∀ o ∈ os, OpOk qf o) (s : Sys K L R) (h : run num zero (Sys.init K L R) os = .ok s) (code : Nat)
    (hc : IsCalc code) : ∃ s' b, s.calculate num zero code (qf code) = .ok (s', .bool b) ∧
      (b = true → s'.results = s.points.length ∧ s'.res = code) ∧ (b = false → s'.results = 0) ∧
      s'.points.map PP.toP3 = s.points.map PP.toP3 ∧ s'.groups = s.groups ∧ s'.layers = s.layers := by
  have hi := inv_run num zero qf _ os ho (Inv.of_empty _ _ _ rfl) s h
  obtain ⟨⟨s', r⟩, e, _, h1, h2, h3, h4⟩ := inv_calculate num zero qf s code _ hi hc rfl
  have hlen : s'.points.length = s.points.length := by
    have := congrArg List.length h2
    simpa using this
  dsimp only at *
  rcases h1 with ⟨rfl, h1⟩ | ⟨rfl, h1, h5⟩
  · refine ⟨s', false, e, fun c => Bool.noConfusion c, fun _ => ?_, h2, h3, h4⟩
    rw [Sys.results, if_neg h1]
  · refine ⟨s', true, e, fun _ => ⟨?_, h5⟩, fun c => Bool.noConfusion c, h2, h3, h4⟩
    rw [Sys.results, if_pos h1, hlen]

/-- Calls that are not calculations. -/
def IsEdit : Op K L Q → Prop
  | .calculate _ _ => False
  | .special _ _ => False
  | _ => True

/-- **C50**: in any state, after a call that is not a calculation, either no result can be read or layers, loads and
points are what they were. -/
theorem C50_edit (num : Num K L R Q) (zero : R) (s : Sys K L R) (o : Op K L Q) (ho : IsEdit o)
    (r : Sys K L R × Ret) (h : step num zero s o = .ok r) (hr : 0 < r.1.results) :
    r.1.layers = s.layers ∧ r.1.groups = s.groups ∧ r.1.points = s.points := by
  have hs : r.1.state = .all := by
    unfold Sys.results at hr
    by_contra c
    rw [if_neg c] at hr
    exact absurd hr (by omega)
  have no : ∀ t : Sys K L R, t.state = .empty → t.state = .all → False := by
    intro t h1 h2; rw [h1] at h2; cases h2
  have soft : ∀ (l : Nat) (x : K) (get : Layer K → K) (put : Layer K → Layer K),
      (∀ y, get y = x → put y = y) → s.soft l x get put = .ok r →
      r.1.layers = s.layers ∧ r.1.groups = s.groups ∧ r.1.points = s.points := by
    intro l x get put hg h
    unfold Sys.soft Sys.layerIx at h
    split_ifs at h with h0
    · cases h
    · simp only [Res.ok_bind, Res.ok.injEq] at h
      subst h
      generalize hj : min l (s.layers.length - 1) = j at *
      by_cases he : (s.layers[j]?).map get = some x
      · rw [if_pos he]
        refine ⟨?_, rfl, rfl⟩
        apply List.ext_getElem?
        intro m
        rw [Sys.setLayer, List.getElem?_modify]
        by_cases e : j = m
        · subst e
          cases hy : s.layers[j]? with
          | none => rfl
          | some y => rw [hy] at he; simp at he; simp [hg y he]
        · simp [e]
      · rw [if_neg he] at hs
        exact absurd hs (touch_emod_state s)
  cases o with
  | thickness l x => exact (no _ (thickness_state s l x r h) hs).elim
  | emod l x => exact soft l x (·.E) _ (by rintro ⟨⟩ e; dsimp only at e; subst e; rfl) h
  | poissons l x => exact soft l x (·.v) _ (by rintro ⟨⟩ e; dsimp only at e; subst e; rfl) h
  | slip l x => exact soft l x (·.s) _ (by rintro ⟨⟩ e; dsimp only at e; subst e; rfl) h
  | addlayer y p => cases h; exact (no _ (addlayer_state s y p) hs).elim
  | removelayer l => cases h; exact (no _ (touch_empty_state s) hs).elim
  | removelayers => cases h; exact (no _ (touch_empty_state s) hs).elim
  | defaultgroup g => cases h; exact ⟨rfl, rfl, rfl⟩
  | addload g x => exact (no _ (addload_state s g x r h) hs).elim
  | removeload g i => cases h; exact (no _ (removeload_state s g i) hs).elim
  | removeloads g => cases h; exact (no _ (removeloads_state s g) hs).elim
  | addpoint p => cases h; exact (no _ (touch_empty_state s) hs).elim
  | addgrid xs ys zs => cases h; exact (no _ (touch_empty_state s) hs).elim
  | removepoint p => cases h; exact (no _ (removepoint_state s p) hs).elim
  | removepoints => cases h; exact (no _ (touch_empty_state s) hs).elim
  | calculate code q => exact ho.elim
  | special code q => exact ho.elim

/-! A concrete history meets the hypotheses: two layers, one load, one point, a calculation, a change of a modulus and a
second calculation from the cache.  The numbers here report the modulus of the top layer and the direction matrix. -/

/-- A calculation that reports what it was given. -/
def echo : Num ℚ Unit (Option ℚ × Nat) Nat := fun _ q _ m _ _ => ((m.map (·.1)).head?, q)

/-- The history. -/
def demo : List (Op ℚ Unit Nat) :=
  [.addlayer ⟨1, 100, 1 / 3, 1⟩ none, .addlayer ⟨0, 50, 1 / 3, 1⟩ none, .addload 0 (), .addpoint ⟨⟨⟨0, 0⟩, 1⟩, none⟩,
   .calculate 0 0, .emod 0 200, .calculate 0 0]

example : (∀ o ∈ demo, OpOk (fun _ => 0) o) ∧
    ∃ s, run echo (none, 0) (Sys.init ℚ Unit _) demo = .ok s ∧ s.results = 1 ∧
      s.result 0 0 = .ok (⟨⟨⟨0, 0⟩, 1⟩, some 1⟩, (some 200, 0)) := by
  refine ⟨?_, ⟨[⟨1, 200, 1 / 3, 1⟩, ⟨0, 50, 1 / 3, 1⟩], [[()]], [⟨⟨⟨0, 0⟩, 1⟩, some 1⟩],
    [[(⟨⟨⟨0, 0⟩, 1⟩, some 1⟩, (some 200, 0))]], 0, .all, 0,
    some ⟨[1, 0], [⟨⟨⟨0, 0⟩, 1⟩, some 1⟩], [[()]]⟩⟩, by decide +kernel, by decide +kernel, by decide +kernel⟩
  intro o ho
  simp only [demo, List.mem_cons, List.not_mem_nil, or_false] at ho
  rcases ho with rfl | rfl | rfl | rfl | rfl | rfl | rfl <;> simp [OpOk, IsCalc, failure]

/-- **C50** fails for direction matrices: once results are present, asking for the same kind with another direction
matrix returns success and changes nothing. -/
theorem C50_direction (num : Num K L R Q) (zero : R) (s : Sys K L R) (hs : s.state = .all) (q : Q) :
    s.calculate num zero s.res q = .ok (s, .bool true) := by
  rw [Sys.calculate, if_pos ⟨rfl, hs⟩]

/-- So a result may be read that belongs to a direction matrix other than the one of the last call. -/
theorem C50_direction_stale : ∃ s, run echo (none, 0) (Sys.init ℚ Unit _) (demo ++ [.calculate 0 7]) = .ok s ∧
    s.result 0 0 = .ok (⟨⟨⟨0, 0⟩, 1⟩, some 1⟩, (some 200, 0)) := by
  refine ⟨⟨[⟨1, 200, 1 / 3, 1⟩, ⟨0, 50, 1 / 3, 1⟩], [[()]], [⟨⟨⟨0, 0⟩, 1⟩, some 1⟩],
    [[(⟨⟨⟨0, 0⟩, 1⟩, some 1⟩, (some 200, 0))]], 0, .all, 0,
    some ⟨[1, 0], [⟨⟨⟨0, 0⟩, 1⟩, some 1⟩], [[()]]⟩⟩, by decide +kernel, by decide +kernel⟩

/-- **C50** fails when `calculate` is asked for the kind of another routine: after `calc_accurate` and a change of a
modulus, `calculate(accurate)` reads a cache that `calc_accurate` filled. -/
theorem C50_foreign_cache : run echo (none, 0) (Sys.init ℚ Unit _)
    [.addlayer ⟨0, 100, 1 / 3, 1⟩ none, .addload 0 (), .addpoint ⟨⟨⟨0, 0⟩, 1⟩, none⟩, .special 0xFF 0, .emod 0 200,
      .calculate 0xFF 0] = .ub := by decide +kernel

/-! ## C50 and back-calculation -/

section back
variable (num : Num K L R Q) (zero : R)

/-- All points of a system are deflection points, and so are the points the data belong to. -/
structure FromDefl (ds : List (P3 K × Nat)) (s : Sys K L R) : Prop where
  pts : ∀ p ∈ s.points, p.toP3 ∈ ds.map Prod.fst
  dat : s.state ≠ .empty → ∀ row ∈ s.data, ∀ d ∈ row, d.1.toP3 ∈ ds.map Prod.fst

theorem fill_pts (f : List L → PP K → R) (S : P3 K → Prop) (gs : List (List L)) (rows out : List (List (PP K × R)))
    (hr : ∀ row ∈ rows, ∀ d ∈ row, S d.1.toP3) (h : fill f gs rows = .ok out) :
    ∀ row ∈ out, ∀ d ∈ row, S d.1.toP3 := by
  induction gs generalizing rows out with
  | nil => cases h; exact hr
  | cons g gs ih => cases rows with
    | nil => cases h
    | cons r rs =>
      rw [fill, Res.bind_eq_ok] at h
      obtain ⟨o, h1, h2⟩ := h
      cases h2
      intro row hrow
      rcases List.mem_cons.1 hrow with rfl | hrow
      · intro d hd
        obtain ⟨d', hd', rfl⟩ := List.mem_map.1 hd
        exact hr r List.mem_cons_self d' hd'
      · exact ih rs o (fun row m => hr row (List.mem_cons_of_mem _ m)) h1 row hrow

theorem placePoint_P3 (ls : List (Layer K)) (d : PP K) : (placePoint ls d).2.toP3 = d.toP3 := by
  simp only [placePoint]
  split_ifs
  · rfl
  · split <;> rfl

theorem check_from (ds : List (P3 K × Nat)) (s : Sys K L R) (hs : FromDefl ds s) :
    FromDefl ds (Sys.check zero s).2 := by
  simp only [Sys.check]
  split_ifs
  · exact hs
  · exact hs
  · refine ⟨fun p hp => ?_, fun _ row hrow d hd => ?_⟩
    · obtain ⟨q, hq, rfl⟩ := List.mem_map.1 hp
      rw [placePoint_P3]; exact hs.pts q hq
    · obtain ⟨g, _, rfl⟩ := List.mem_map.1 hrow
      obtain ⟨q, hq, rfl⟩ := List.mem_map.1 hd
      obtain ⟨p, hp, rfl⟩ := List.mem_map.1 hq
      show (placePoint _ p).2.toP3 ∈ _
      rw [placePoint_P3]; exact hs.pts p hp

theorem calculate_from (ds : List (P3 K × Nat)) (s : Sys K L R) (hs : FromDefl ds s) (code : Nat) (q : Q)
    (r : Sys K L R × Ret) (h : s.calculate num zero code q = .ok r) : FromDefl ds r.1 := by
  unfold Sys.calculate at h
  by_cases h1 : s.res = code ∧ s.state = .all
  · rw [if_pos h1] at h; cases h; exact hs
  · rw [if_neg h1] at h
    dsimp only at h
    have h2 : FromDefl ds ({ (if s.res = code ∧ s.state ≠ .empty then s else { s with state := .empty, cache := none })
        with res := failure } : Sys K L R) := by
      split_ifs
      · exact ⟨hs.pts, hs.dat⟩
      · exact ⟨hs.pts, fun e => absurd rfl e⟩
    have hc := check_from zero ds _ h2
    have hfresh : (Sys.check zero ({ (if s.res = code ∧ s.state ≠ .empty then s
        else { s with state := .empty, cache := none }) with res := failure } : Sys K L R)).1 = true →
        ∀ row ∈ (Sys.check zero ({ (if s.res = code ∧ s.state ≠ .empty then s
        else { s with state := .empty, cache := none }) with res := failure } : Sys K L R)).2.data,
        ∀ d ∈ row, d.1.toP3 ∈ ds.map Prod.fst := by
      intro ht
      by_cases h4 : s.res = code ∧ s.state ≠ .empty
      · apply hc.dat
        rw [(check_state zero _).1]
        simp only [if_pos h4]; exact h4.2
      · simp only [if_neg h4] at ht ⊢
        rw [check_empty zero _ rfl ht]
        intro row hrow d hd
        obtain ⟨g, _, rfl⟩ := List.mem_map.1 hrow
        obtain ⟨q, hq, rfl⟩ := List.mem_map.1 hd
        obtain ⟨p, hp, rfl⟩ := List.mem_map.1 hq
        show (placePoint _ p).2.toP3 ∈ _
        rw [placePoint_P3]; exact hs.pts p hp
    generalize Sys.check zero ({ (if s.res = code ∧ s.state ≠ .empty then s
      else { s with state := .empty, cache := none }) with res := failure } : Sys K L R) = c at *
    have go : ∀ g : Geo K L, c.1 = true →
        (fill (fun gr p => num code q g (mech c.2.layers) gr p) c.2.groups c.2.data >>=
          fun d => Res.ok ({ c.2 with data := d, cache := some g, res := code, state := .all }, Ret.bool true)) = .ok r →
        FromDefl ds r.1 := by
      intro g ht hg
      rw [Res.bind_eq_ok] at hg
      obtain ⟨d, hd, e⟩ := hg
      cases e
      exact ⟨hc.pts, fun _ => fill_pts _ (fun p => p ∈ ds.map Prod.fst) _ _ d (hfresh ht) hd⟩
    split_ifs at h with h3 h4
    · cases h; exact hc
    · exact go _ (by simpa using h3) h
    · split at h
      · cases h
      · exact go _ (by simpa using h3) h

theorem soft_from (ds : List (P3 K × Nat)) (s : Sys K L R) (hs : FromDefl ds s) (i : Nat) (x : K) (get : Layer K → K)
    (put : Layer K → Layer K) (r : Sys K L R × Ret) (h : s.soft i x get put = .ok r) : FromDefl ds r.1 := by
  unfold Sys.soft Sys.layerIx at h
  split_ifs at h with h0
  · cases h
  · simp only [Res.ok_bind, Res.ok.injEq] at h
    subst h
    split_ifs
    · exact ⟨hs.pts, hs.dat⟩
    · exact ⟨hs.pts, fun e => hs.dat (touch_emod_empty s e)⟩

theorem setE_from (ds : List (P3 K × Nat)) (es : List K) (s : Sys K L R) (i : Nat) (hs : FromDefl ds s)
    (s' : Sys K L R) (h : setE s i es = .ok s') : FromDefl ds s' := by
  induction es generalizing s i with
  | nil => cases h; exact hs
  | cons e es ih =>
    rw [setE, Res.bind_eq_ok] at h
    obtain ⟨r, h1, h2⟩ := h
    exact ih r.1 (i + 1) (soft_from ds s hs i e _ _ r h1) h2

theorem trajectory_from (ds : List (P3 K × Nat)) (t : List (List K × Nat × Q)) (s : Sys K L R) (hs : FromDefl ds s)
    (s' : Sys K L R) (h : trajectory num zero s t = .ok s') : FromDefl ds s' := by
  induction t generalizing s with
  | nil => cases h; exact hs
  | cons e t ih =>
    obtain ⟨es, code, q⟩ := e
    rw [trajectory, Res.bind_eq_ok] at h
    obtain ⟨s1, h1, h2⟩ := h
    rw [Res.bind_eq_ok] at h2
    obtain ⟨r, h2, h3⟩ := h2
    exact ih r.1 (calculate_from num zero ds s1 (setE_from ds es s 0 hs s1 h1) code q r h2) h3

theorem addPoint_mem (ps : List (PP K)) (p t : PP K) (h : t ∈ addPoint ps p) : t.toP3 ∈ (p :: ps).map PP.toP3 := by
  unfold addPoint at h
  split at h
  · rename_i i _
    obtain ⟨m, hm⟩ := List.mem_iff_getElem?.1 h
    rw [List.getElem?_modify] at hm
    cases hy : ps[m]? with
    | none => rw [hy] at hm; simp at hm
    | some y =>
      rw [hy] at hm
      have hyin := List.mem_of_getElem? hy
      by_cases e : i = m
      · simp only [e, if_true, Option.map_some, Option.some.injEq, Option.map_eq_map] at hm
        subst hm
        rw [List.map_cons]
        apply List.mem_cons.2
        left
        unfold asgP
        split_ifs <;> rfl
      · simp only [e, if_false] at hm
        simp at hm
        subst hm
        exact List.mem_map_of_mem (List.mem_cons_of_mem _ hyin)
  · rcases List.mem_append.1 h with h | h
    · exact List.mem_map_of_mem (List.mem_cons_of_mem _ h)
    · rw [List.mem_singleton.1 h]; exact List.mem_map_of_mem List.mem_cons_self

theorem addDefl_from (ds all : List (P3 K × Nat)) (hsub : ∀ d ∈ ds, d.1 ∈ all.map Prod.fst) (s : Sys K L R)
    (hs : FromDefl all s) : FromDefl all (addDefl s ds).1 := by
  induction ds generalizing s with
  | nil => exact hs
  | cons d ds ih =>
    obtain ⟨p, g⟩ := d
    rw [addDefl]
    split_ifs
    · apply ih (fun d m => hsub d (List.mem_cons_of_mem _ m))
      refine ⟨fun t ht => ?_, fun e => absurd (touch_empty_state s) e⟩
      have := addPoint_mem _ _ t ht
      rw [List.map_cons] at this
      rcases List.mem_cons.1 this with h | h
      · rw [h]; exact hsub _ List.mem_cons_self
      · obtain ⟨y, hy, e⟩ := List.mem_map.1 h
        rw [← e]; exact hs.pts y hy
    · exact hs

/-- **C50** fails after a back-calculation that runs to its end, in general: the points are those the user had before,
as many results are offered as there are such points, but everything that can be read belongs to a deflection point. -/
theorem C50_backcalc_points (s : Sys K L R) (ds : List (P3 K × Nat)) (o : Script K Q) (s' : Sys K L R)
    (hl : s.layers ≠ []) (hd : ds ≠ []) (he : o.early = false)
    (h : s.backcalc num zero ds o = .ok (s', .bool o.conv)) :
    s'.points = s.points ∧ ∀ g i d, s'.result g i = .ok d → d.1.toP3 ∈ ds.map Prod.fst := by
  unfold Sys.backcalc at h
  dsimp only at h
  rw [if_neg (by rintro (h | h) <;> contradiction)] at h
  have h0 : FromDefl ds (addDefl s.removepoints ds).1 :=
    addDefl_from ds ds (fun d m => List.mem_map_of_mem m) _
      ⟨fun p hp => absurd hp List.not_mem_nil, fun e => absurd (touch_empty_state s) e⟩
  by_cases h1 : (addDefl s.removepoints ds).2 = false
  · rw [if_pos h1] at h; cases h
  · rw [if_neg h1, Res.bind_eq_ok] at h
    obtain ⟨s1, e1, h⟩ := h
    have f1 := trajectory_from num zero ds _ _ h0 s1 e1
    simp only [he, Bool.false_eq_true, if_false] at h
    rw [Res.bind_eq_ok] at h
    obtain ⟨s2, e2, h⟩ := h
    have f2 := trajectory_from num zero ds _ _ f1 s2 e2
    rw [Res.bind_eq_ok] at h
    obtain ⟨s3, e3, h⟩ := h
    have f3 := setE_from ds _ _ _ f2 s3 e3
    rw [Res.bind_eq_ok] at h
    obtain ⟨r, e4, h⟩ := h
    have f4 := calculate_from num zero ds s3 f3 _ _ r e4
    split at h
    · cases h
      refine ⟨rfl, fun g i d hr => ?_⟩
      unfold Sys.result at hr
      split_ifs at hr with hs
      split at hr
      · cases hr
      · rename_i row hrow
        split at hr
        · cases hr
        · rename_i d' hd'
          cases hr
          exact f4.dat (by simp only [ne_eq, not_not] at hs; rw [hs]; simp) row (List.mem_of_getElem? hrow) _
            (List.mem_of_getElem? hd')
    · cases h
    · cases h

/-- **C50** fails after a back-calculation that converges at once: the user's points are gone, all points are deflection
points. -/
theorem C50_backcalc_early (s : Sys K L R) (ds : List (P3 K × Nat)) (o : Script K Q) (s' : Sys K L R)
    (hl : s.layers ≠ []) (hd : ds ≠ []) (he : o.early = true)
    (h : s.backcalc num zero ds o = .ok (s', .bool true)) : ∀ p ∈ s'.points, p.toP3 ∈ ds.map Prod.fst := by
  unfold Sys.backcalc at h
  dsimp only at h
  rw [if_neg (by rintro (h | h) <;> contradiction)] at h
  have h0 : FromDefl ds (addDefl s.removepoints ds).1 :=
    addDefl_from ds ds (fun d m => List.mem_map_of_mem m) _
      ⟨fun p hp => absurd hp List.not_mem_nil, fun e => absurd (touch_empty_state s) e⟩
  by_cases h1 : (addDefl s.removepoints ds).2 = false
  · rw [if_pos h1] at h; cases h
  · rw [if_neg h1, Res.bind_eq_ok] at h
    obtain ⟨s1, e1, h⟩ := h
    have f1 := trajectory_from num zero ds _ _ h0 s1 e1
    simp only [he, if_true] at h
    cases h
    exact f1.pts

end back

/-- The system of the demonstration after its calculation. -/
def demoSys : Sys ℚ Unit (Option ℚ × Nat) := ⟨[⟨1, 200, 1 / 3, 1⟩, ⟨0, 50, 1 / 3, 1⟩], [[()]],
  [⟨⟨⟨0, 0⟩, 1⟩, some 1⟩], [[(⟨⟨⟨0, 0⟩, 1⟩, some 1⟩, (some 200, 0))]], 0, .all, 0,
    some ⟨[1, 0], [⟨⟨⟨0, 0⟩, 1⟩, some 1⟩], [[()]]⟩⟩

/-- A concrete back-calculation: after it the result of the only point, which is at depth 1, is that of the deflection
point at the surface. -/
theorem C50_backcalc_stale : ∃ s', demoSys.backcalc echo (none, 0) [(⟨⟨0, 0⟩, 0⟩, 0)]
      ⟨[], false, [], [300, 60], 0, true⟩ = .ok (s', .bool true) ∧ s'.results = 1 ∧
    s'.points = [⟨⟨⟨0, 0⟩, 1⟩, some 1⟩] ∧ s'.result 0 0 = .ok (⟨⟨⟨0, 0⟩, 0⟩, some 0⟩, (some 300, 0)) := by
  refine ⟨⟨[⟨1, 300, 1 / 3, 1⟩, ⟨0, 60, 1 / 3, 1⟩], [[()]], [⟨⟨⟨0, 0⟩, 1⟩, some 1⟩],
    [[(⟨⟨⟨0, 0⟩, 0⟩, some 0⟩, (some 300, 0))]], 0, .all, 0x0100,
    some ⟨[1, 0], [⟨⟨⟨0, 0⟩, 0⟩, some 0⟩], [[()]]⟩⟩, by decide +kernel, by decide +kernel, rfl, by decide +kernel⟩

/-- A concrete back-calculation converging at once. -/
example : ∃ s', demoSys.backcalc echo (none, 0) [(⟨⟨0, 0⟩, 0⟩, 0)] ⟨[([200, 50], 0x300, 0)], true, [], [], 0, true⟩ =
    .ok (s', .bool true) ∧ s'.points = [⟨⟨⟨0, 0⟩, 0⟩, some 0⟩] := by
  refine ⟨⟨[⟨1, 200, 1 / 3, 1⟩, ⟨0, 50, 1 / 3, 1⟩], [[()]], [⟨⟨⟨0, 0⟩, 0⟩, some 0⟩],
    [[(⟨⟨⟨0, 0⟩, 0⟩, some 0⟩, (some 200, 0))]], 0, .all, 0x0300,
    some ⟨[1, 0], [⟨⟨⟨0, 0⟩, 0⟩, some 0⟩], [[()]]⟩⟩, by decide +kernel, rfl⟩

/-- A deflection for a load group that does not exist: the exception leaves the user without evaluation points. -/
theorem C50_backcalc_throw : ∃ s', demoSys.backcalc echo (none, 0) [(⟨⟨0, 0⟩, 0⟩, 5)]
    ⟨[], false, [], [], 0, true⟩ = .ok (s', .threw) ∧ s'.points = [] := by
  refine ⟨⟨[⟨1, 200, 1 / 3, 1⟩, ⟨0, 50, 1 / 3, 1⟩], [[()]], [],
    [[(⟨⟨⟨0, 0⟩, 1⟩, some 1⟩, (some 200, 0))]], 0, .empty, 0,
    some ⟨[1, 0], [⟨⟨⟨0, 0⟩, 1⟩, some 1⟩], [[()]]⟩⟩, by decide +kernel, rfl⟩

end OP.Pave
