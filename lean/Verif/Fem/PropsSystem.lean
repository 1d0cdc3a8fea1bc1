import Verif.Fem.PropsLoads
import Verif.Fem.PropsSolveUse
import Mathlib.Algebra.Order.Ring.Rat
/-!
# C107: the parts of a mesh fit together

What the solver (C90) expects of a mesh, every mesh that was made by its functions has: the order of the nodes is one, and no value is
prescribed twice or for a node that is not there.
-/
namespace OP.Fem.Nodes

variable {K : Type}

/-- The entry as the solver reads it -/
def Bc.toMesh (b : Bc K) : MeshBc K := ⟨b.n, Fin.ofNat 3 b.i, b.d⟩

/-- No bit is set before the first call of the solver (fem3d/fem3d.cpp:428). -/
def noFlags : Flags := ⟨fun _ _ => false, fun _ => false⟩

theorem countP_lt {α : Type} {p q : α → Bool} : ∀ (l : List α) (c : α), c ∈ l → (∀ a ∈ l, p a = true → q a = true) → p c = false →
    q c = true → l.countP p < l.countP q := by
  intro l
  induction l with
  | nil => intro c h; cases h
  | cons a l ih =>
    intro c hc h hp hq
    rw [List.countP_cons, List.countP_cons]
    have hle : l.countP p ≤ l.countP q := List.countP_mono_left fun x hx => h x (by simp [hx])
    rcases List.mem_cons.1 hc with rfl | hc
    · rw [if_neg (by simp [hp]), if_pos hq]; omega
    · have := ih c hc (fun x hx => h x (by simp [hx])) hp hq
      by_cases hpa : p a = true
      · rw [if_pos hpa, if_pos (h a (by simp) hpa)]; omega
      · rw [if_neg hpa]; omega

/-- The place in the order -/
def Spec.rank (s : Spec) (a : Nat) : Nat := match s.keys[a]? with
  | none => 0
  | some c => s.keys.countP fun b => decide (b.before c)

theorem rank_order {s : Spec} (hn : s.keys.Nodup) : IsOrder s.rank s.length := by
  have hlen : s.keys.length = s.length := by simp [Spec.keys]
  constructor
  · intro a ha
    have hget := List.getElem?_eq_getElem (show a < s.keys.length by omega)
    simp only [Spec.rank, hget]
    have := countP_lt (p := fun b => decide (b.before s.keys[a])) (q := fun _ => true) s.keys s.keys[a] (List.getElem_mem _)
      (fun _ _ _ => rfl) (decide_eq_false (before_irrefl _)) rfl
    rw [List.countP_true] at this
    exact Nat.lt_of_lt_of_le this (Nat.le_of_eq hlen)
  · intro a ha b hb h
    have hga := List.getElem?_eq_getElem (show a < s.keys.length by omega)
    have hgb := List.getElem?_eq_getElem (show b < s.keys.length by omega)
    simp only [Spec.rank, hga, hgb] at h
    by_contra hne
    have hkey : s.keys[a] ≠ s.keys[b] := fun e => hne ((List.Nodup.getElem_inj_iff hn).1 e)
    have strict : ∀ c c' : C3, c ∈ s.keys → c.before c' →
        (s.keys.countP fun b => decide (b.before c)) < s.keys.countP fun b => decide (b.before c') := by
      intro c c' hc hb
      exact countP_lt s.keys c hc (fun x _ hx => by simpa using before_trans (by simpa using hx) hb)
        (by simpa using before_irrefl c) (by simpa using hb)
    have h0 : s.keys[a].compare s.keys[b] ≠ 0 := fun e => hkey ((cmp_zero _ _).1 e)
    rcases lt_trichotomy (s.keys[a].compare s.keys[b]) 0 with g | g | g
    · have := strict _ _ (List.getElem_mem _) ((cmp_neg _ _).1 g)
      omega
    · exact h0 g
    · have := strict _ _ (List.getElem_mem _) ((cmp_pos _ _).1 g)
      omega

/-- Only three directions are ever used. -/
def LSpec.Three (s : LSpec K) : Prop := ∀ c i, 3 ≤ i → s.disp c i = none ∧ s.force c i = none

theorem has_three (f : Dof) {i : Nat} (h : 3 ≤ i) : f.has i = false := by
  obtain ⟨j, rfl⟩ : ∃ j, i = j + 3 := ⟨i - 3, by omega⟩
  rfl

theorem LSpec.step_three [AddCommMonoid K] {s : LSpec K} {op : LOp K} {r : LSpec K × Bool} (h : s.step op = some r) (g : s.Three) :
    r.1.Three := by
  cases op with
  | node op =>
    simp only [LSpec.step, Option.map_eq_some_iff] at h
    obtain ⟨n, _, rfl⟩ := h
    exact g
  | bc p f d =>
    simp only [LSpec.step] at h
    by_cases hp : p ∈ s.nodes.keys
    · rw [if_pos hp] at h
      cases h
      intro c i hi
      simp only [has_three f hi]
      simpa using g c i hi
    · rw [if_neg hp] at h; cases h; exact g
  | plane o p c f d =>
    simp only [LSpec.step] at h
    by_cases ho : ((o.x && o.y) || (o.x && o.z) || (o.y && o.z)) = true
    · rw [if_pos ho] at h; cases h
    · rw [if_neg ho] at h
      cases h
      intro c i hi
      simp only [has_three f hi]
      simpa using g c i hi
  | force p f d =>
    simp only [LSpec.step] at h
    by_cases hp : p ∈ s.nodes.keys
    · rw [if_pos hp] at h
      cases h
      intro c i hi
      simp only [has_three f hi]
      simpa using g c i hi
    · rw [if_neg hp] at h; cases h; exact g

theorem LSpec.run_three [AddCommMonoid K] : ∀ (ops : List (LOp K)) (s : LSpec K) (r : LSpec K × List Bool), s.run ops = some r →
    s.Three → r.1.Three := by
  intro ops
  induction ops with
  | nil => intro s r h g; cases h; exact g
  | cons op ops ih =>
    intro s r h g
    simp only [LSpec.run, Option.bind_eq_some_iff, Option.map_eq_some_iff] at h
    obtain ⟨q, h1, q', h2, rfl⟩ := h
    exact ih q.1 q' h2 (LSpec.step_three h1 g)

/-- A table that lists what is prescribed, as the solver reads it -/
theorem Lists.solver {ks : List C3} {t : SetFam.Keyed.KI (Bc K)} {g : C3 → Nat → Option K} (h : Lists ks t g)
    (h3 : ∀ c i, 3 ≤ i → g c i = none) :
    Unique (t.vals.map Bc.toMesh) ∧ (∀ u ∈ t.vals.map Bc.toMesh, u.n < ks.length) ∧
    ∀ a (i : Fin 3), given (t.vals.map Bc.toMesh) a i = (ks[a]?).bind fun c => g c i := by
  obtain ⟨h1, h2⟩ := h
  have hi : ∀ b ∈ t.vals, b.i < 3 := by
    intro b hb
    obtain ⟨c, _, e⟩ := (h1 b).1 hb
    by_contra hc
    rw [h3 c b.i (by omega)] at e
    cases e
  have hU : Unique (t.vals.map Bc.toMesh) := by
    unfold Unique
    rw [List.pairwise_map]
    have h2' : t.vals.Pairwise fun a b => (a.n, a.i) ≠ (b.n, b.i) := List.pairwise_map.1 h2
    refine h2'.imp_of_mem ?_
    intro a b ha hb hab
    rintro ⟨e1, e2⟩
    refine hab (Prod.ext e1 ?_)
    have := congrArg Fin.val e2
    simp only [Bc.toMesh, Fin.val_ofNat] at this
    have := hi a ha
    have := hi b hb
    show a.i = b.i
    omega
  refine ⟨hU, ?_, ?_⟩
  · intro u hu
    obtain ⟨b, hb, rfl⟩ := List.mem_map.1 hu
    obtain ⟨c, e, _⟩ := (h1 b).1 hb
    exact (List.getElem?_eq_some_iff.1 e).1
  · intro a i
    unfold given
    cases hf : (t.vals.map Bc.toMesh).find? (fun u => decide (u.n = a ∧ u.i = i)) with
    | some u =>
      have hp := List.find?_some hf
      simp only [decide_eq_true_eq] at hp
      obtain ⟨b, hb, rfl⟩ := List.mem_map.1 (List.mem_of_find?_eq_some hf)
      obtain ⟨c, e1, e2⟩ := (h1 b).1 hb
      obtain ⟨p1, p2⟩ := hp
      have hbi : b.i = i.val := by
        rw [← p2]
        simp only [Bc.toMesh, Fin.val_ofNat]
        have := hi b hb
        omega
      rw [← p1, ← hbi]
      simp only [Bc.toMesh, e1, Option.map_some, Option.bind_some, e2]
    | none =>
      rw [List.find?_eq_none] at hf
      symm
      rw [Option.map_none, Option.bind_eq_none_iff]
      intro c hc
      by_contra hne
      obtain ⟨d, hd⟩ := Option.ne_none_iff_exists'.1 hne
      have := (h1 ⟨a, i.val, d⟩).2 ⟨c, hc, hd⟩
      refine hf (Bc.toMesh ⟨a, i.val, d⟩) (List.mem_map.2 ⟨_, this, rfl⟩) ?_
      simp only [Bc.toMesh, decide_eq_true_eq, true_and]
      apply Fin.ext
      simp only [Fin.val_ofNat]
      omega

/-- C107: whatever was done to a mesh, the solver finds in it what C90 asks for: the order of the nodes by `getorder`, forces and
displacements for its nodes, each at most once, and with the values of the specification. -/
theorem C107_system [Field K] (ops : List (LOp K)) (s : LSpec K) (answers : List Bool)
    (hs : LSpec.run ({} : LSpec K) ops = some (s, answers)) :
    ∃ m n2o, Mesh.run ({} : Mesh K) ops = .ok (m, answers) ∧ m.node.size = s.nodes.length ∧
      (∀ a < m.node.size, m.node.getorder (depth m.node.size) a = .ok (n2o a)) ∧
      (∀ els : List (SElem K), (∀ e ∈ els, e.Ok m.node.size) → Few els m.node.size →
        MeshOk m.node.size n2o (m.fext.vals.map Bc.toMesh) (m.disp.vals.map Bc.toMesh) noFlags els) ∧
      (∀ a (i : Fin 3), given (m.disp.vals.map Bc.toMesh) a i = (s.nodes.keys[a]?).bind fun c => s.disp c i) ∧
      ∀ a (i : Fin 3), given (m.fext.vals.map Bc.toMesh) a i = (s.nodes.keys[a]?).bind fun c => s.force c i := by
  have I : MInv ({} : Mesh K) ({} : LSpec K) .nil 0 :=
    ⟨Inv.init, ⟨_, SetFam.Keyed.KIRep.nil, fun k i => by simp [SetFam.Keyed.Map.nil, Spec.keys]⟩,
      ⟨_, SetFam.Keyed.KIRep.nil, fun k i => by simp [SetFam.Keyed.Map.nil, Spec.keys]⟩, fun _ _ _ => rfl, fun _ _ _ => rfl⟩
  have hr := MInv.run ops _ _ _ _ I
  have h3 := LSpec.run_three ops _ _ hs (fun _ _ _ => ⟨rfl, rfl⟩)
  rw [hs] at hr
  obtain ⟨m, t, h, e1, e2⟩ := hr
  obtain ⟨d1, d2, d3⟩ := Lists.solver e2.disp.lists (fun c i hi => (h3 c i hi).1)
  obtain ⟨f1, f2, f3⟩ := Lists.solver e2.fext.lists (fun c i hi => (h3 c i hi).2)
  have hsz := e2.inv.size
  have hlen : s.nodes.keys.length = m.node.size := by rw [hsz]; simp [Spec.keys]
  refine ⟨m, s.nodes.rank, e1, hsz, ?_, ?_, d3, f3⟩
  · intro a ha
    have hd : 3 * Nat.log 2 (s.nodes.length + 1) ≤ Nodes.depth m.node.size := by
      rw [hsz]; show 3 * Nat.log 2 (s.nodes.length + 1) ≤ Nodes.depth s.nodes.length; unfold Nodes.depth; omega
    have hget := List.getElem?_eq_getElem (show a < s.nodes.keys.length by omega)
    rw [e2.inv.getorder _ hd a _ hget]
    simp only [Spec.rank, hget]
    rfl
  · intro els h1 h2
    exact ⟨hsz ▸ rank_order e2.inv.nodup, f1, d1, fun u hu => hlen ▸ f2 u hu, fun u hu => hlen ▸ d2 u hu,
      (fun a i h => by cases h), h1, h2⟩

/-- A history that meets the hypothesis -/
example : ∃ r, LSpec.run ({} : LSpec Rat) [.node (.add ⟨0, 0, 0⟩), .node (.add ⟨0, 0, -8⟩),
    .plane ⟨false, false, true⟩ ⟨false, true, false⟩ 0 ⟨true, true, true⟩ 0, .force ⟨0, 0, 0⟩ ⟨false, false, true⟩ 7] = some r :=
  ⟨_, rfl⟩

end OP.Fem.Nodes
