import Verif.Fem.Loads
import Mathlib.Algebra.Group.Defs
import Mathlib.Algebra.Ring.Int.Defs
/-!
# C107: boundary conditions and forces

A user relies on this: a displacement is prescribed at exactly the nodes and directions named, with the value given last; forces on
the same node and direction add up; a call that names a place without a node says so and changes nothing.
-/
namespace OP.Fem.Nodes

open OP.SetFam.Keyed

variable {K : Type}

/-! ### Specification -/

/-- Direction `i` is among those named. -/
def Dof.has (f : Dof) : Nat → Bool
  | 0 => f.x
  | 1 => f.y
  | 2 => f.z
  | _ => false

def Side.holds (p : Side) (x c : Int) : Bool := (p.eq && x = c) || (p.below && x < c) || (p.above && c < x)

/-- The place is on the named side of the plane across the named direction. -/
def onSide (o : Dof) (p : Side) (c : Int) (n : C3) : Bool :=
  if o.x then p.holds n.x c else if o.y then p.holds n.y c else if o.z then p.holds n.z c else false

/-- What a caller does -/
inductive LOp (K : Type) where
  | node (op : Op)
  | bc (p : C3) (f : Dof) (d : K)
  | plane (o : Dof) (p : Side) (c : Int) (f : Dof) (d : K)
  | force (p : C3) (f : Dof) (d : K)

/-- The nodes, and what is prescribed at a place in a direction -/
structure LSpec (K : Type) where
  nodes : Spec := []
  disp : C3 → Nat → Option K := fun _ _ => none
  force : C3 → Nat → Option K := fun _ _ => none

/-- A step with the answer of the call; nothing if the call is an error -/
def LSpec.step [AddCommMonoid K] (s : LSpec K) : LOp K → Option (LSpec K × Bool)
  | .node op => (s.nodes.step op).map fun n => ({ s with nodes := n }, true)
  | .bc p f d =>
    if p ∈ s.nodes.keys then some ({ s with disp := fun c i => if c = p ∧ f.has i then some d else s.disp c i }, true)
    else some (s, false)
  | .plane o p c f d =>
    if (o.x && o.y) || (o.x && o.z) || (o.y && o.z) then none
    else some ({ s with disp := fun n i => if n ∈ s.nodes.keys ∧ onSide o p c n ∧ f.has i then some d else s.disp n i }, true)
  | .force p f d =>
    if p ∈ s.nodes.keys then
      some ({ s with force := fun c i => if c = p ∧ f.has i then some ((s.force c i).getD 0 + d) else s.force c i }, true)
    else some (s, false)

def LSpec.run [AddCommMonoid K] : LSpec K → List (LOp K) → Option (LSpec K × List Bool)
  | s, [] => some (s, [])
  | s, op :: ops =>
    (s.step op).bind fun r => (LSpec.run r.1 ops).map fun q => (q.1, r.2 :: q.2)

/-- The same by the program -/
def Mesh.step [Add K] (m : Mesh K) : LOp K → Res (Mesh K × Bool)
  | .node op => do return ({ m with node := ← Nodes.step m.node op }, true)
  | .bc p f d => m.add_bc p f d
  | .plane o p c f d => m.add_bc_plane o p c f d
  | .force p f d => m.add_fext p f d

def Mesh.run [Add K] : Mesh K → List (LOp K) → Res (Mesh K × List Bool)
  | m, [] => .ok (m, [])
  | m, op :: ops => do
    let r ← m.step op
    let q ← Mesh.run r.1 ops
    return (q.1, r.2 :: q.2)

/-- The table lists what is prescribed, once for every node and direction. -/
def Lists (keys : List C3) (t : KI (Bc K)) (g : C3 → Nat → Option K) : Prop :=
  (∀ b : Bc K, b ∈ t.vals ↔ ∃ c, keys[b.n]? = some c ∧ g c b.i = some b.d) ∧ (t.vals.map fun b => (b.n, b.i)).Nodup

/-! ### Proofs -/

/-- What the table holds, by node number -/
def Tab (s : KI (Bc K)) (g : Nat → Nat → Option K) : Prop :=
  ∃ m, KIRep Bc.key s m ∧ ∀ k i, (m.val (toLex (k, i))).map Bc.d = g k i

theorem Tab.mem {s : KI (Bc K)} {g : Nat → Nat → Option K} (h : Tab s g) (b : Bc K) : b ∈ s.vals ↔ g b.n b.i = some b.d := by
  obtain ⟨m, h1, h2⟩ := h
  constructor
  · intro hb
    have := h1.rep.val b hb
    rw [← h2, show toLex (b.n, b.i) = b.key from rfl, this]
    rfl
  · intro hb
    rw [← h2] at hb
    obtain ⟨w, e1, e2⟩ := Option.map_eq_some_iff.1 hb
    have hin : toLex (b.n, b.i) ∈ m.order := by
      by_contra hn
      rw [h1.rep.out _ hn] at e1
      cases e1
    rw [← h1.rep.order] at hin
    obtain ⟨v, v1, v2⟩ := List.mem_map.1 hin
    have := h1.rep.val v v1
    rw [v2, e1] at this
    have hwv : w = v := by simpa using this
    subst hwv
    have : w = b := by
      obtain ⟨n, i, d⟩ := b
      obtain ⟨n', i', d'⟩ := w
      have v3 := congrArg ofLex v2
      simp only [Bc.key, ofLex_toLex, Prod.mk.injEq] at v3
      simp only at e2
      simp [v3, e2]
    rw [← this]; exact v1

theorem Tab.nodup {s : KI (Bc K)} {g : Nat → Nat → Option K} (h : Tab s g) : (s.vals.map fun b => (b.n, b.i)).Nodup := by
  obtain ⟨m, h1, h2⟩ := h
  have := h1.rep.nodup
  rw [← h1.rep.order] at this
  have h3 := this.map (f := ofLex) (fun a b h => by simpa using h)
  rw [List.map_map] at h3
  exact h3

theorem Tab.put {s : KI (Bc K)} {g : Nat → Nat → Option K} (h : Tab s g) (k i : Nat) (d : K) :
    ∃ s', s.copyOne Bc.key ⟨k, i, d⟩ = .ok s' ∧ Tab s' fun k' i' => if k' = k ∧ i' = i then some d else g k' i' := by
  obtain ⟨m, h1, h2⟩ := h
  obtain ⟨s', e1, e2⟩ := h1.copyOne ⟨k, i, d⟩
  refine ⟨s', e1, _, e2, ?_⟩
  intro k' i'
  simp only [Map.put, Function.update_apply, Bc.key]
  by_cases hk : k' = k ∧ i' = i
  · rw [if_pos (by rw [hk.1, hk.2]), if_pos hk]; rfl
  · rw [if_neg (fun e => hk (by simpa using congrArg ofLex e)), if_neg hk]; exact h2 k' i'

theorem Tab.congr {s : KI (Bc K)} {g g' : Nat → Nat → Option K} (h : Tab s g) (e : ∀ k i, g k i = g' k i) : Tab s g' := by
  obtain ⟨m, h1, h2⟩ := h
  exact ⟨m, h1, fun k i => (h2 k i).trans (e k i)⟩

theorem Tab.putIf {s : KI (Bc K)} {g : Nat → Nat → Option K} (h : Tab s g) (b : Bool) (k i : Nat) (d : K) :
    ∃ s', putIf b s ⟨k, i, d⟩ = .ok s' ∧ Tab s' fun k' i' => if k' = k ∧ i' = i ∧ b = true then some d else g k' i' := by
  cases b with
  | false => exact ⟨s, rfl, h.congr fun k' i' => by simp⟩
  | true =>
    obtain ⟨s', e1, e2⟩ := h.put k i d
    exact ⟨s', e1, e2.congr fun k' i' => by simp⟩

theorem Tab.sumIf [AddCommMonoid K] {s : KI (Bc K)} {g : Nat → Nat → Option K} (h : Tab s g) (b : Bool) (k i : Nat) (d : K) :
    ∃ s', sumIf b s ⟨k, i, d⟩ = .ok s' ∧
      Tab s' fun k' i' => if k' = k ∧ i' = i ∧ b = true then some ((g k' i').getD 0 + d) else g k' i' := by
  cases b with
  | false => exact ⟨s, rfl, h.congr fun k' i' => by simp⟩
  | true =>
    have hT := h
    obtain ⟨m, h1, h2⟩ := h
    unfold Nodes.sumIf
    rw [if_pos rfl]
    rcases h1.haskey (Bc.key ⟨k, i, d⟩) with ⟨e1, e2⟩ | ⟨p, e1, hp, e2⟩
    · obtain ⟨s', f1, f2⟩ := hT.put k i d
      refine ⟨s', by rw [e1]; exact f1, f2.congr fun k' i' => ?_⟩
      by_cases hk : k' = k ∧ i' = i
      · have : g k' i' = none := by
          rw [← h2, hk.1, hk.2, show toLex (k, i) = Bc.key ⟨k, i, d⟩ from rfl, h1.rep.out _ e2]; rfl
        rw [if_pos hk, if_pos ⟨hk.1, hk.2, rfl⟩, this]
        simp
      · rw [if_neg hk, if_neg (fun h => hk ⟨h.1, h.2.1⟩)]
    · have hg : g k i = some s.vals[p].d := by
        rw [← h2, show toLex (k, i) = Bc.key ⟨k, i, d⟩ from rfl, ← e2, h1.rep.val _ (List.getElem_mem hp)]; rfl
      obtain ⟨s', f1, f2⟩ := hT.put k i (d + s.vals[p].d)
      refine ⟨s', ?_, f2.congr fun k' i' => ?_⟩
      · rw [e1]
        simp only [Res.ok_bind]
        rw [List.getElem?_eq_getElem hp]
        exact f1
      · by_cases hk : k' = k ∧ i' = i
        · obtain ⟨rfl, rfl⟩ := hk
          simp [hg, add_comm]
        · rw [if_neg hk, if_neg (fun h => hk ⟨h.1, h.2.1⟩)]

/-- Node `k` gets `d` in the directions `f`. -/
def setB (g : Nat → Nat → Option K) (k : Nat) (f : Dof) (d : K) : Nat → Nat → Option K :=
  fun k' i => if k' = k ∧ f.has i then some d else g k' i

theorem Mesh.add_bc_ok {m : Mesh K} {g : Nat → Nat → Option K} (h : Tab m.disp g) {p : C3} {k : Nat}
    (hk : m.node.haskey (depth m.node.size) p = .ok (some k)) (f : Dof) (d : K) :
    ∃ s, m.add_bc p f d = .ok ({ m with disp := s }, true) ∧ Tab s (setB g k f d) := by
  obtain ⟨s1, a1, b1⟩ := h.putIf f.x k 0 d
  obtain ⟨s2, a2, b2⟩ := b1.putIf f.y k 1 d
  obtain ⟨s3, a3, b3⟩ := b2.putIf f.z k 2 d
  refine ⟨s3, ?_, b3.congr fun k' i' => ?_⟩
  · simp [Mesh.add_bc, hk, a1, a2, a3]
  · unfold setB
    by_cases hk' : k' = k
    · rcases i' with _ | _ | _ | n <;> simp [hk', Dof.has]
    · simp [hk']

theorem Mesh.add_fext_ok [AddCommMonoid K] {m : Mesh K} {g : Nat → Nat → Option K} (h : Tab m.fext g) {p : C3} {k : Nat}
    (hk : m.node.haskey (depth m.node.size) p = .ok (some k)) (f : Dof) (d : K) :
    ∃ s, m.add_fext p f d = .ok ({ m with fext := s }, true) ∧
      Tab s fun k' i => if k' = k ∧ f.has i then some ((g k' i).getD 0 + d) else g k' i := by
  obtain ⟨s1, a1, b1⟩ := h.sumIf f.x k 0 d
  obtain ⟨s2, a2, b2⟩ := b1.sumIf f.y k 1 d
  obtain ⟨s3, a3, b3⟩ := b2.sumIf f.z k 2 d
  refine ⟨s3, ?_, b3.congr fun k' i' => ?_⟩
  · simp [Mesh.add_fext, hk, a1, a2, a3]
  · by_cases hk' : k' = k
    · rcases i' with _ | _ | _ | n <;> simp [hk', Dof.has]
    · simp [hk']

theorem planeAt_ok {m : Mesh K} {g : Nat → Nat → Option K} (h : Tab m.disp g) {n : C3} {k : Nat}
    (hk : m.node.haskey (depth m.node.size) n = .ok (some k)) (x : Int) (p : Side) (c : Int) (f : Dof) (d : K) :
    ∃ s, planeAt m n x p c f d = .ok { m with disp := s } ∧ Tab s (if p.holds x c then setB g k f d else g) := by
  obtain ⟨s, e1, e2⟩ := Mesh.add_bc_ok h hk f d
  unfold planeAt Side.holds
  rcases lt_trichotomy x c with hx | hx | hx
  · have h1 : x ≠ c := by omega
    have h2 : ¬ c < x := by omega
    cases hp : p.below with
    | true => exact ⟨s, by simp [h1, h2, hx, e1], by simpa [hx] using e2⟩
    | false => exact ⟨m.disp, by simp [h1, h2], by simpa [h1, h2] using h⟩
  · subst hx
    cases hp : p.eq with
    | true => exact ⟨s, by simp [e1], by simpa using e2⟩
    | false => exact ⟨m.disp, by simp, by simpa using h⟩
  · have h1 : x ≠ c := by omega
    have h2 : ¬ x < c := by omega
    cases hp : p.above with
    | true => exact ⟨s, by simp [h1, h2, hx, e1], by simpa [hx] using e2⟩
    | false => exact ⟨m.disp, by simp [h1, h2], by simpa [h1, h2] using h⟩

/-- The nodes and the tables hold what they should. -/
structure MInv (m : Mesh K) (s : LSpec K) (t : T) (h : Nat) : Prop where
  inv : Inv m.node s.nodes t h
  disp : Tab m.disp fun k i => (s.nodes.keys[k]?).bind fun c => s.disp c i
  fext : Tab m.fext fun k i => (s.nodes.keys[k]?).bind fun c => s.force c i
  dispOut : ∀ c, c ∉ s.nodes.keys → ∀ i, s.disp c i = none
  fextOut : ∀ c, c ∉ s.nodes.keys → ∀ i, s.force c i = none

theorem haskey_node {l : NL} {s : Spec} {t : T} {h : Nat} (I : Inv l s t h) {k : Nat} {c : C3} (hk : s.keys[k]? = some c) :
    l.haskey (depth l.size) c = .ok (some k) := by
  have hd : 3 * Nat.log 2 (s.length + 1) ≤ Nodes.depth l.size := by rw [I.size]; unfold Nodes.depth; omega
  rcases I.haskey c _ hd with ⟨j, g1, g2⟩ | ⟨g1, g2⟩
  · have hj' := (List.getElem?_eq_some_iff.1 g1)
    have hi' := (List.getElem?_eq_some_iff.1 hk)
    have : j = k := (List.Nodup.getElem_inj_iff I.nodup).1 (hj'.2.trans hi'.2.symm)
    rw [g2, this]
  · exact absurd (List.mem_of_getElem? hk) g1

theorem planeLoop_ok (s : Spec) (t : T) (h : Nat) (o : Dof) (ho : ((o.x && o.y) || (o.x && o.z) || (o.y && o.z)) = false)
    (p : Side) (c : Int) (f : Dof) (d : K) : ∀ (k i : Nat) (m : Mesh K) (g : Nat → Nat → Option K), Inv m.node s t h → Tab m.disp g →
    i + k = s.length → ∃ u, planeLoop o p c f d k i m = .ok { m with disp := u } ∧
      Tab u fun k' j => if i ≤ k' ∧ (∃ n, s.keys[k']? = some n ∧ onSide o p c n) ∧ f.has j then some d else g k' j := by
  intro k
  induction k with
  | zero =>
    intro i m g I hT hk
    refine ⟨m.disp, rfl, hT.congr fun k' j => ?_⟩
    rw [if_neg]
    rintro ⟨h1, ⟨n, h2, _⟩, _⟩
    have := (List.getElem?_eq_some_iff.1 h2).1
    simp only [Spec.keys, List.length_map] at this
    omega
  | succ k ih =>
    intro i m g I hT hk
    have hi : i < s.length := by omega
    have hget := List.getElem?_eq_getElem hi
    generalize s[i] = e at hget
    have hkey : s.keys[i]? = some e.1 := by simp [Spec.keys, List.getElem?_map, hget]
    have hhk := haskey_node I hkey
    have hone : ∃ u, planeOne o p c f d m e.1 = .ok { m with disp := u } ∧
        Tab u (if onSide o p c e.1 then setB g i f d else g) := by
      unfold planeOne
      obtain ⟨ox, oy, oz⟩ := o
      unfold onSide
      cases ox <;> cases oy <;> cases oz <;> simp only [Bool.and_self, Bool.and_true, Bool.and_false, Bool.or_true, Bool.or_false,
        Bool.or_self, Bool.true_eq_false, reduceCtorEq] at ho
      · exact ⟨m.disp, by simp, by simpa using hT⟩
      · simpa using planeAt_ok hT hhk e.1.z p c f d
      · simpa using planeAt_ok hT hhk e.1.y p c f d
      · simpa using planeAt_ok hT hhk e.1.x p c f d
    obtain ⟨u, u1, u2⟩ := hone
    obtain ⟨w, w1, w2⟩ := ih (i + 1) { m with disp := u } _ I u2 (by omega)
    refine ⟨w, ?_, w2.congr fun k' j => ?_⟩
    · simp only [planeLoop]
      rw [(I.val i e hget).1, u1]
      exact w1
    · by_cases hj : f.has j = true
      · by_cases hki : k' = i
        · subst hki
          rw [if_neg (by rintro ⟨h, _⟩; omega)]
          by_cases hs : onSide o p c e.1 = true
          · rw [if_pos hs, if_pos ⟨le_refl _, ⟨e.1, hkey, hs⟩, hj⟩]
            simp [setB, hj]
          · rw [if_neg hs, if_neg]
            rintro ⟨_, ⟨n, h1, h2⟩, _⟩
            rw [hkey] at h1
            cases h1
            exact hs h2
        · have e1 : (i + 1 ≤ k') ↔ i ≤ k' := by omega
          simp only [e1]
          have e2 : (if onSide o p c e.1 = true then setB g i f d else g) k' j = g k' j := by
            by_cases hs : onSide o p c e.1 = true
            · rw [if_pos hs]; simp [setB, hki]
            · rw [if_neg hs]
          rw [e2]
      · by_cases hs : onSide o p c e.1 = true <;> simp [hs, setB, hj]

theorem step_keys {s s' : Spec} {op : Op} (h : s.step op = some s') :
    s'.keys = s.keys ∨ ∃ c, c ∉ s.keys ∧ s'.keys = s.keys ++ [c] := by
  cases op with
  | add c =>
    simp only [Spec.step, Option.some.injEq, Spec.add] at h
    by_cases hc : c ∈ s.keys
    · rw [if_pos hc] at h; left; rw [h]
    · rw [if_neg hc] at h; right; exact ⟨c, hc, by rw [← h]; simp [Spec.keys]⟩
  | nbr i g =>
    left
    simp only [Spec.step] at h
    cases hi : s[i]? with
    | none => rw [hi] at h; cases h
    | some d =>
      rw [hi] at h
      simp only [Option.map_eq_some_iff] at h
      obtain ⟨n, _, rfl⟩ := h
      have hi' := List.getElem?_eq_some_iff.1 hi
      apply List.ext_getElem?
      intro j
      simp only [Spec.keys, List.getElem?_map, List.getElem?_set]
      by_cases hj : i = j
      · subst hj; simp [hi'.1, hi'.2]
      · simp [hj]

theorem bind_keys {g : C3 → Nat → Option K} {ks : List C3} {c : C3} (hg : ∀ i, g c i = none) (k i : Nat) :
    ((ks ++ [c])[k]?).bind (fun c => g c i) = (ks[k]?).bind fun c => g c i := by
  by_cases hk : k < ks.length
  · rw [List.getElem?_append_left hk]
  · rw [List.getElem?_append_right (by omega), List.getElem?_eq_none (l := ks) (by omega)]
    by_cases hk' : k - ks.length = 0
    · rw [hk']; simp [hg]
    · rw [List.getElem?_eq_none (by simp; omega)]

theorem MInv.step [AddCommMonoid K] {m : Mesh K} {s : LSpec K} {t : T} {h : Nat} (I : MInv m s t h) (op : LOp K) :
    match s.step op with
    | none => m.step op = .ub
    | some r => ∃ m' t' h', m.step op = .ok (m', r.2) ∧ MInv m' r.1 t' h' := by
  have hd : 3 * Nat.log 2 (s.nodes.length + 1) ≤ Nodes.depth m.node.size := by
    rw [I.inv.size]; unfold Nodes.depth; omega
  have nokey : ∀ p, p ∉ s.nodes.keys → m.node.haskey (depth m.node.size) p = .ok none := by
    intro p hp
    rcases I.inv.haskey p _ hd with ⟨i, g1, g2⟩ | ⟨g1, g2⟩
    · exact absurd (List.mem_of_getElem? g1) hp
    · exact g2
  have only : ∀ {p : C3} {k k' : Nat} {c : C3}, s.nodes.keys[k]? = some p → s.nodes.keys[k']? = some c → (k' = k ↔ c = p) := by
    intro p k k' c h1 h2
    constructor
    · rintro rfl; rw [h1] at h2; cases h2; rfl
    · rintro rfl
      have a1 := List.getElem?_eq_some_iff.1 h1
      have a2 := List.getElem?_eq_some_iff.1 h2
      exact (List.Nodup.getElem_inj_iff I.inv.nodup).1 (a2.2.trans a1.2.symm)
  cases op with
  | node op =>
    have hn := I.inv.step op
    simp only [LSpec.step, Mesh.step]
    cases hs : s.nodes.step op with
    | none =>
      rw [hs] at hn
      simp only at hn
      simp only [Option.map_none]
      rw [hn]; rfl
    | some s1 =>
      rw [hs] at hn
      obtain ⟨l', t', h', e1, e2⟩ := hn
      refine ⟨{ m with node := l' }, t', h', by rw [e1]; rfl, ⟨e2, ?_, ?_, ?_, ?_⟩⟩
      · rcases step_keys hs with hk | ⟨c, hc, hk⟩
        · exact I.disp.congr fun k i => by simp only [hk]
        · exact I.disp.congr fun k i => by simp only [hk]; rw [bind_keys (I.dispOut c hc)]
      · rcases step_keys hs with hk | ⟨c, hc, hk⟩
        · exact I.fext.congr fun k i => by simp only [hk]
        · exact I.fext.congr fun k i => by simp only [hk]; rw [bind_keys (I.fextOut c hc)]
      · intro c hc
        refine I.dispOut c fun h => hc ?_
        rcases step_keys hs with hk | ⟨c', hc', hk⟩ <;> simp only [hk] <;> simp [h]
      · intro c hc
        refine I.fextOut c fun h => hc ?_
        rcases step_keys hs with hk | ⟨c', hc', hk⟩ <;> simp only [hk] <;> simp [h]
  | bc p f d =>
    simp only [LSpec.step, Mesh.step]
    by_cases hp : p ∈ s.nodes.keys
    · rw [if_pos hp]
      obtain ⟨k, hk⟩ := List.getElem?_of_mem hp
      obtain ⟨u, e1, e2⟩ := Mesh.add_bc_ok I.disp (haskey_node I.inv hk) f d
      refine ⟨_, t, h, e1, ⟨I.inv, e2.congr fun k' i => ?_, I.fext, ?_, I.fextOut⟩⟩
      · simp only [setB]
        cases hk' : s.nodes.keys[k']? with
        | none =>
          have : k' ≠ k := by rintro rfl; rw [hk] at hk'; cases hk'
          simp [this]
        | some c =>
          simp only [Option.bind_some, only hk hk']
      · intro c hc i
        have : c ≠ p := by rintro rfl; exact hc hp
        simp only [this, false_and, if_false]
        exact I.dispOut c hc i
    · rw [if_neg hp]
      exact ⟨m, t, h, by simp [Mesh.add_bc, nokey p hp], I⟩
  | plane o p c f d =>
    simp only [LSpec.step, Mesh.step, Mesh.add_bc_plane]
    cases ho : ((o.x && o.y) || (o.x && o.z) || (o.y && o.z)) with
    | true => simp
    | false =>
      obtain ⟨u, e1, e2⟩ := planeLoop_ok s.nodes t h o ho p c f d m.node.size 0 m _ I.inv I.disp (by rw [I.inv.size]; simp)
      simp only [Bool.false_eq_true, if_false]
      refine ⟨{ m with disp := u }, t, h, by rw [e1]; rfl, ⟨I.inv, e2.congr fun k' i => ?_, I.fext, ?_, I.fextOut⟩⟩
      · cases hk' : s.nodes.keys[k']? with
        | none => simp
        | some n =>
          have hmem := List.mem_of_getElem? hk'
          simp [hmem]
      · intro n hn i
        simp only [hn, false_and, if_false]
        exact I.dispOut n hn i
  | force p f d =>
    simp only [LSpec.step, Mesh.step]
    by_cases hp : p ∈ s.nodes.keys
    · rw [if_pos hp]
      obtain ⟨k, hk⟩ := List.getElem?_of_mem hp
      obtain ⟨u, e1, e2⟩ := Mesh.add_fext_ok I.fext (haskey_node I.inv hk) f d
      refine ⟨_, t, h, e1, ⟨I.inv, I.disp, e2.congr fun k' i => ?_, I.dispOut, ?_⟩⟩
      · cases hk' : s.nodes.keys[k']? with
        | none =>
          have : k' ≠ k := by rintro rfl; rw [hk] at hk'; cases hk'
          simp [this]
        | some c =>
          simp only [Option.bind_some, only hk hk']
      · intro c hc i
        have : c ≠ p := by rintro rfl; exact hc hp
        simp only [this, false_and, if_false]
        exact I.fextOut c hc i
    · rw [if_neg hp]
      exact ⟨m, t, h, by simp [Mesh.add_fext, nokey p hp], I⟩

theorem MInv.run [AddCommMonoid K] : ∀ (ops : List (LOp K)) (m : Mesh K) (s : LSpec K) (t : T) (h : Nat), MInv m s t h →
    match s.run ops with
    | none => m.run ops = .ub
    | some r => ∃ m' t' h', m.run ops = .ok (m', r.2) ∧ MInv m' r.1 t' h' := by
  intro ops
  induction ops with
  | nil => intro m s t h I; exact ⟨m, t, h, rfl, I⟩
  | cons op ops ih =>
    intro m s t h I
    have hst := I.step op
    simp only [LSpec.run, Mesh.run]
    cases hs : s.step op with
    | none => rw [hs] at hst; simp only at hst; simp only [Option.bind_none]; rw [hst]; rfl
    | some r =>
      rw [hs] at hst
      obtain ⟨m1, t1, h1, e1, e2⟩ := hst
      have hr := ih m1 r.1 t1 h1 e2
      simp only [Option.bind_some]
      rw [e1]
      cases hq : LSpec.run r.1 ops with
      | none => rw [hq] at hr; simp only at hr; simp only [Option.map_none, Res.ok_bind]; rw [hr]; rfl
      | some q =>
        rw [hq] at hr
        obtain ⟨m2, t2, h2, f1, f2⟩ := hr
        exact ⟨m2, t2, h2, by simp [f1], f2⟩

theorem Tab.lists {s : KI (Bc K)} {ks : List C3} {g : C3 → Nat → Option K}
    (h : Tab s fun k i => (ks[k]?).bind fun c => g c i) : Lists ks s g := by
  refine ⟨fun b => ?_, h.nodup⟩
  rw [h.mem b]
  simp [Option.bind_eq_some_iff]

/-! ### Theorem -/

/-- C107: for every history of nodes, prescribed displacements and forces, the answers are those of the specification, and the
tables that the solver reads hold exactly what it says. -/
theorem C107_loads [AddCommMonoid K] (ops : List (LOp K)) :
    match LSpec.run ({} : LSpec K) ops with
    | none => Mesh.run ({} : Mesh K) ops = .ub
    | some (s, answers) => ∃ m, Mesh.run ({} : Mesh K) ops = .ok (m, answers) ∧ Agrees m.node s.nodes ∧
        Lists s.nodes.keys m.disp s.disp ∧ Lists s.nodes.keys m.fext s.force := by
  have I : MInv ({} : Mesh K) ({} : LSpec K) .nil 0 :=
    ⟨Inv.init, ⟨_, KIRep.nil, fun k i => by simp [Map.nil, Spec.keys]⟩, ⟨_, KIRep.nil, fun k i => by simp [Map.nil, Spec.keys]⟩,
      fun _ _ _ => rfl, fun _ _ _ => rfl⟩
  have hr := MInv.run ops _ _ _ _ I
  cases hs : LSpec.run ({} : LSpec K) ops with
  | none => rw [hs] at hr; exact hr
  | some r =>
    rw [hs] at hr
    obtain ⟨m, t, h, e1, e2⟩ := hr
    exact ⟨m, e1, e2.inv.agrees, e2.disp.lists, e2.fext.lists⟩

/-- A history: two nodes, all directions fixed below, then one released to a value, two forces, and a place without a node -/
example : (Mesh.run ({} : Mesh Int) [.node (.add ⟨0, 0, 0⟩), .node (.add ⟨0, 0, -8⟩),
    .plane ⟨false, false, true⟩ ⟨false, true, false⟩ 0 ⟨true, true, true⟩ 0, .bc ⟨0, 0, -8⟩ ⟨false, false, true⟩ 5,
    .force ⟨0, 0, 0⟩ ⟨false, false, true⟩ 7, .force ⟨0, 0, 0⟩ ⟨true, false, true⟩ 4, .force ⟨9, 9, 9⟩ ⟨true, false, true⟩ 4]
    >>= fun r => .ok (r.1.disp.vals, r.1.fext.vals, r.2)) =
    .ok ([⟨1, 0, 0⟩, ⟨1, 1, 0⟩, ⟨1, 2, 5⟩], [⟨0, 2, 11⟩, ⟨0, 0, 4⟩], [true, true, true, true, true, true, false]) := by
  decide +kernel

end OP.Fem.Nodes
