import Verif.Fem.NodesRun
import Mathlib.Tactic.NormNum
/-!
# C106: the nodes of a mesh

A user of a mesh relies on this: a place has one node however often it is asked for; nodes are numbered in the order in which
they first came; a place is found if and only if it has a node; the sorted access lists the nodes from the top down and then by x
and y; a known neighbour stays.
-/
namespace OP.Fem.Nodes

/-! ### Specification -/

/-- What a caller does -/
inductive Op where
  | add (c : C3)
  | nbr (i : Nat) (g : Nbr)

/-- One direction: nothing new, or new, or the same again -/
def meet : Option Nat → Option Nat → Option (Option Nat)
  | old, none => some old
  | none, some n => some (some n)
  | some o, some n => if o = n then some (some n) else none

/-- What is known about the neighbours together; nothing if there is a contradiction -/
def Nbr.meet (a b : Nbr) : Option Nbr := do
  return ⟨← Nodes.meet a.xm b.xm, ← Nodes.meet a.xp b.xp, ← Nodes.meet a.ym b.ym, ← Nodes.meet a.yp b.yp,
    ← Nodes.meet a.zm b.zm, ← Nodes.meet a.zp b.zp⟩

/-- The nodes in the order of their numbers -/
abbrev Spec := List (C3 × Nbr)

def Spec.keys (s : Spec) : List C3 := s.map Prod.fst

def Spec.add (s : Spec) (c : C3) : Spec := if c ∈ s.keys then s else s ++ [(c, ⟨none, none, none, none, none, none⟩)]

/-- A step; nothing if there is no such node or its neighbours would contradict each other -/
def Spec.step (s : Spec) : Op → Option Spec
  | .add c => some (s.add c)
  | .nbr i g =>
    match s[i]? with
    | none => none
    | some d => (d.2.meet g).map fun n => s.set i (d.1, n)

def Spec.run : Spec → List Op → Option Spec
  | s, [] => some s
  | s, op :: ops => (s.step op).bind fun s => Spec.run s ops

/-- The same by the program -/
def step (l : NL) : Op → Res NL
  | .add c => do return (← addnode l c).1
  | .nbr i g => setnbr l i g

def run : NL → List Op → Res NL
  | l, [] => .ok l
  | l, op :: ops => step l op >>= fun l => run l ops

/-- What the mesh says is what the specification says.  Every loop over the tree of `n` nodes makes at most `3·log₂(n+1)` steps,
and a recursion to add a node is at most `2·log₂(n+1) + 1` deep. -/
structure Agrees (l : NL) (s : Spec) : Prop where
  size : l.size = s.length
  node : ∀ i d, s[i]? = some d → (l.val i).key = d.1 ∧ (l.val i).nbr = d.2
  once : s.keys.Nodup
  found : ∀ c ∈ s.keys, hasnode l c = .ok (some (s.keys.idxOf c))
  absent : ∀ c, c ∉ s.keys → hasnode l c = .ok none
  number : ∀ c, ∃ l', addnode l c = .ok (l', (s.add c).keys.idxOf c)
  order : ∀ c ∈ s.keys, getorderofnode l c = .ok (s.keys.countP fun a => decide (a.before c))
  noorder : ∀ c, c ∉ s.keys → getorderofnode l c = .ub
  ordered : ∀ i, i < s.length → ∃ c ∈ s.keys, ∃ d, getorderednode l i = .ok d ∧ d.key = c ∧
    (s.keys.countP fun a => decide (a.before c)) = i
  noordered : ∀ i, s.length ≤ i → getorderednode l i = .ub
  steps : ∀ f, 3 * Nat.log 2 (s.length + 1) ≤ f → ∀ c, NL.haskey f l c = hasnode l c
  depth : ∀ f, 2 * Nat.log 2 (s.length + 1) + 1 ≤ f → ∀ c, c ∉ s.keys → ∃ l', NL.add true f l c = .ok l' ∧ l'.size = l.size + 1

/-! ### Proofs -/

theorem Inv.agrees {l : NL} {s : Spec} {t : T} {h : Nat} (I : Inv l s t h) : Agrees l s := by
  have hd : 3 * Nat.log 2 (s.length + 1) ≤ Nodes.depth l.size := by rw [I.size]; unfold Nodes.depth; omega
  have hd2 : 2 * Nat.log 2 (s.length + 1) + 1 ≤ Nodes.depth l.size := by rw [I.size]; unfold Nodes.depth; omega
  have key : ∀ c f, 3 * Nat.log 2 (s.length + 1) ≤ f → c ∈ s.keys → NL.haskey f l c = .ok (some (s.keys.idxOf c)) := by
    intro c f hf hc
    rcases I.haskey c f hf with ⟨i, g1, g2⟩ | ⟨g1, g2⟩
    · rw [g2]
      obtain ⟨hi, hc'⟩ := List.getElem?_eq_some_iff.1 g1
      have := I.nodup.idxOf_getElem i hi
      rw [hc'] at this
      unfold Spec.keys
      rw [this]
    · exact absurd hc g1
  have nokey : ∀ c f, 3 * Nat.log 2 (s.length + 1) ≤ f → c ∉ s.keys → NL.haskey f l c = .ok none := by
    intro c f hf hc
    rcases I.haskey c f hf with ⟨i, g1, g2⟩ | ⟨g1, g2⟩
    · exact absurd (List.mem_of_getElem? g1) hc
    · exact g2
  have idx : ∀ c ∈ s.keys, s.keys[s.keys.idxOf c]? = some c := by
    intro c hc
    rw [List.getElem?_eq_getElem (List.idxOf_lt_length_iff.2 hc), List.getElem_idxOf]
  refine ⟨I.size, I.val, I.nodup, fun c hc => key c _ hd hc, fun c hc => nokey c _ hd hc, ?_, ?_, ?_, ?_, ?_, ?_, ?_⟩
  · intro c
    unfold addnode Spec.add
    by_cases hc : c ∈ s.keys
    · rw [key c _ hd hc, if_pos hc]
      exact ⟨_, rfl⟩
    · rw [nokey c _ hd hc, if_neg hc]
      obtain ⟨l', t', h', e1, e2⟩ := I.add true c hc _ hd2
      refine ⟨l', ?_⟩
      simp only [Res.ok_bind, e1, Res.pure_eq, Spec.keys, List.map_append, List.map_cons, List.map_nil]
      rw [List.idxOf_append_of_notMem (show c ∉ s.map Prod.fst from hc), I.size]
      simp
  · intro c hc
    unfold getorderofnode
    rw [key c _ hd hc]
    exact I.getorder _ hd _ c (idx c hc)
  · intro c hc
    unfold getorderofnode
    rw [nokey c _ hd hc]
    rfl
  · intro i hi
    have hi' : i < t.toList.length := by rw [I.perm.length_eq]; simpa using hi
    have hget := List.getElem?_eq_getElem hi'
    generalize t.toList[i] = a at hget
    have hmem := List.mem_of_getElem? hget
    have hk := (I.mem a.1 a.2).1 hmem
    refine ⟨a.1, List.mem_of_getElem? hk, l.val a.2, ?_, ?_, ?_⟩
    · unfold getorderednode
      rw [I.getindex _ hd, hget]
      rfl
    · rw [List.getElem?_map] at hk
      obtain ⟨d, h1, h2⟩ := Option.map_eq_some_iff.1 hk
      rw [(I.val a.2 d h1).1, h2]
    · unfold Spec.keys
      rw [← I.countP_eq]
      exact Inv.sorted_count _ I.sorted i a hget
  · intro i hi
    unfold getorderednode
    rw [I.getindex _ hd, List.getElem?_eq_none (by rw [I.perm.length_eq]; simpa using hi)]
    rfl
  · intro f hf c
    unfold hasnode
    by_cases hc : c ∈ s.keys
    · rw [key c f hf hc, key c _ hd hc]
    · rw [nokey c f hf hc, nokey c _ hd hc]
  · intro f hf c hc
    obtain ⟨l', t', h', e1, e2⟩ := I.add true c hc f hf
    exact ⟨l', e1, by rw [e2.size, I.size]; simp⟩

theorem setN_meet (a b : Option Nat) : setN a b = match meet a b with | some x => .ok x | none => .ub := by
  cases b with
  | none => cases a <;> rfl
  | some n =>
    cases a with
    | none => rfl
    | some o =>
      simp only [setN, meet, Option.some.injEq, reduceCtorEq, false_or]
      by_cases h : o = n <;> simp [h]

theorem setneighbours_meet (n : Nd) (g : Nbr) :
    n.setneighbours g = match n.nbr.meet g with | some x => .ok { n with nbr := x } | none => .ub := by
  simp only [Nd.setneighbours, Nbr.meet, setN_meet]
  cases meet n.nbr.xm g.xm with
  | none => rfl
  | some a =>
    cases meet n.nbr.xp g.xp with
    | none => rfl
    | some a =>
      cases meet n.nbr.ym g.ym with
      | none => rfl
      | some a =>
        cases meet n.nbr.yp g.yp with
        | none => rfl
        | some a =>
          cases meet n.nbr.zm g.zm with
          | none => rfl
          | some a => cases meet n.nbr.zp g.zp <;> rfl

theorem Inv.step {l : NL} {s : Spec} {t : T} {h : Nat} (I : Inv l s t h) (op : Op) :
    match s.step op with
    | none => Nodes.step l op = .ub
    | some s' => ∃ l' t' h', Nodes.step l op = .ok l' ∧ Inv l' s' t' h' := by
  have hd : 3 * Nat.log 2 (s.length + 1) ≤ Nodes.depth l.size := by rw [I.size]; unfold Nodes.depth; omega
  have hd2 : 2 * Nat.log 2 (s.length + 1) + 1 ≤ Nodes.depth l.size := by rw [I.size]; unfold Nodes.depth; omega
  cases op with
  | add c =>
    simp only [Spec.step, Nodes.step, addnode, Spec.add]
    rcases I.haskey c _ hd with ⟨i, g1, g2⟩ | ⟨g1, g2⟩
    · rw [g2, if_pos (show c ∈ s.keys from List.mem_of_getElem? g1)]
      exact ⟨l, t, h, rfl, I⟩
    · rw [g2, if_neg (show c ∉ s.keys from g1)]
      obtain ⟨l', t', h', e1, e2⟩ := I.add true c g1 _ hd2
      exact ⟨l', t', h', by simp [e1], e2⟩
  | nbr i g =>
    simp only [Spec.step, Nodes.step, setnbr]
    by_cases hi : i < s.length
    · have hget := List.getElem?_eq_getElem hi
      generalize hdd : s[i] = d at hget
      rw [hget, I.size, if_pos hi, setneighbours_meet, (I.val i d hget).2]
      dsimp only
      cases hm : d.2.meet g with
      | none => simp
      | some n =>
        simp only [Option.map_some, Res.ok_bind, updatenode]
        have hc : (s.map Prod.fst)[i]? = some d.1 := by rw [List.getElem?_map, hget]; rfl
        rcases I.haskey d.1 _ hd with ⟨j, g1, g2⟩ | ⟨g1, g2⟩
        · have hij : j = i := by
            have hj' := (List.getElem?_eq_some_iff.1 g1)
            have hi' := (List.getElem?_eq_some_iff.1 hc)
            exact (List.Nodup.getElem_inj_iff I.nodup).1 (hj'.2.trans hi'.2.symm)
          subst hij
          refine ⟨_, t, h, ?_, I.store j d hget n⟩
          rw [← (I.val j d hget).1] at g2
          rw [g2]
          rfl
        · exact absurd (List.mem_of_getElem? hc) g1
    · rw [List.getElem?_eq_none (by omega), I.size, if_neg hi]

theorem run_inv : ∀ (ops : List Op) (l : NL) (s : Spec) (t : T) (h : Nat), Inv l s t h →
    match s.run ops with
    | none => run l ops = .ub
    | some s' => ∃ l' t' h', run l ops = .ok l' ∧ Inv l' s' t' h' := by
  intro ops
  induction ops with
  | nil => intro l s t h I; exact ⟨l, t, h, rfl, I⟩
  | cons op ops ih =>
    intro l s t h I
    have hst := I.step op
    simp only [Spec.run, run]
    cases hs : s.step op with
    | none => rw [hs] at hst; simp only at hst; simp only [Option.bind_none]; rw [hst]; rfl
    | some s1 =>
      rw [hs] at hst
      obtain ⟨l1, t1, h1, e1, e2⟩ := hst
      simp only [Option.bind_some]
      rw [e1]
      exact ih l1 s1 t1 h1 e2

/-! ### Theorems -/

/-- C106: for every history of added nodes and noted neighbours, the mesh agrees with the specification.  The history ends early
exactly when it names a node that is not there or contradicts a known neighbour. -/
theorem C106_nodes (ops : List Op) :
    match Spec.run [] ops with
    | none => run {} ops = .ub
    | some s => ∃ l, run {} ops = .ok l ∧ Agrees l s := by
  have h := run_inv ops {} [] .nil 0 Inv.init
  cases hs : Spec.run [] ops with
  | none => rw [hs] at h; exact h
  | some s =>
    rw [hs] at h
    obtain ⟨l, t, k, e, I⟩ := h
    exact ⟨l, e, I.agrees⟩

/-- Adding nodes alone never fails, and the nodes are the places without repetition. -/
theorem C106_addnodes (cs : List C3) : ∃ l s, run {} (cs.map .add) = .ok l ∧ Agrees l s ∧ (∀ c, c ∈ s.keys ↔ c ∈ cs) := by
  have key : ∀ (cs : List C3) (s : Spec), ∃ s', s.run (cs.map .add) = some s' ∧ ∀ c, c ∈ s'.keys ↔ c ∈ s.keys ∨ c ∈ cs := by
    intro cs
    induction cs with
    | nil => intro s; exact ⟨s, rfl, by simp⟩
    | cons c cs ih =>
      intro s
      obtain ⟨s', e1, e2⟩ := ih (s.add c)
      refine ⟨s', by simpa [Spec.run, Spec.step] using e1, ?_⟩
      intro x
      rw [e2 x]
      unfold Spec.add
      by_cases hc : c ∈ s.keys
      · rw [if_pos hc, List.mem_cons]
        constructor
        · tauto
        · rintro (h | rfl | h)
          · exact Or.inl h
          · exact Or.inl hc
          · exact Or.inr h
      · rw [if_neg hc]
        simp only [Spec.keys, List.map_append, List.map_cons, List.map_nil, List.mem_append, List.mem_cons,
          List.not_mem_nil, or_false]
        tauto
  obtain ⟨s, e1, e2⟩ := key cs []
  have h := C106_nodes (cs.map .add)
  rw [e1] at h
  obtain ⟨l, h1, h2⟩ := h
  exact ⟨l, s, h1, h2, fun c => by rw [e2 c]; simp [Spec.keys]⟩

/-- The order of the nodes: `compare` is zero for the same place, and its sign is that of a strict total order, from the top down,
then along x, then along y. -/
theorem C106_compare (a b c : C3) :
    (a.compare b = 0 ↔ a = b) ∧ (a.compare b < 0 ↔ 0 < b.compare a) ∧
    (a.compare b < 0 → b.compare c < 0 → a.compare c < 0) ∧
    (a.compare b < 0 ↔ b.z < a.z ∨ a.z = b.z ∧ (a.x < b.x ∨ a.x = b.x ∧ a.y < b.y)) := by
  refine ⟨cmp_zero a b, by rw [cmp_neg, cmp_pos], ?_, cmp_neg a b⟩
  rw [cmp_neg, cmp_neg, cmp_neg]
  exact before_trans

/-- C106: after every history, storing a node is refused exactly when there is no node at its place, and then changes nothing;
otherwise it changes the one node there and no other. -/
theorem C106_update (ops : List Op) (s : Spec) (hs : Spec.run [] ops = some s) : ∃ l, run {} ops = .ok l ∧ Agrees l s ∧
    ∀ n : Nd, (n.key ∉ s.keys → updatenode l n = .ok (l, false)) ∧
      ∀ i, s.keys[i]? = some n.key → ∃ l', updatenode l n = .ok (l', true) ∧ l'.size = l.size ∧ l'.val i = n ∧
        ∀ j, j ≠ i → l'.val j = l.val j := by
  have h := run_inv ops {} [] .nil 0 Inv.init
  rw [hs] at h
  obtain ⟨l, t, k, e, I⟩ := h
  have hd : 3 * Nat.log 2 (s.length + 1) ≤ Nodes.depth l.size := by rw [I.size]; unfold Nodes.depth; omega
  refine ⟨l, e, I.agrees, fun n => ⟨fun hn => ?_, fun i hi => ?_⟩⟩
  · rcases I.haskey n.key _ hd with ⟨i, g1, g2⟩ | ⟨g1, g2⟩
    · exact absurd (List.mem_of_getElem? g1) hn
    · rw [updatenode, g2]; rfl
  · rcases I.haskey n.key _ hd with ⟨j, g1, g2⟩ | ⟨g1, g2⟩
    · have hij : j = i := by
        have hj' := (List.getElem?_eq_some_iff.1 g1)
        have hi' := (List.getElem?_eq_some_iff.1 hi)
        exact (List.Nodup.getElem_inj_iff I.nodup).1 (hj'.2.trans hi'.2.symm)
      subst hij
      refine ⟨{ l with val := l.val.set j n }, ?_, rfl, ?_, fun m hm => ?_⟩
      · rw [updatenode, g2]; rfl
      · exact set_same _ _ _
      · exact set_other _ _ hm
    · exact absurd (List.mem_of_getElem? hi) g1

/-- `updatenode` stores the links of the tree as well.  A copy of a node that is older than the last added node takes that node
out of the tree again: it is counted but no longer found, and asking for it again gives it a second number. -/
theorem C106_stale_copy_wrong : (do
    let l ← run {} [.add ⟨1, 0, 0⟩]
    let copy := l.val 0
    let l ← step l (.add ⟨0, 0, 0⟩)
    let u ← updatenode l copy
    let before ← hasnode l ⟨0, 0, 0⟩
    let after ← hasnode u.1 ⟨0, 0, 0⟩
    let again ← addnode u.1 ⟨0, 0, 0⟩
    return (u.2, u.1.size, before, after, again.2)) = .ok (true, 2, some 1, none, 2) := by decide +kernel

/-- Without assertions, `node_list::add` of a place that has a node counts a node that is not there: the sorted access, which is by
these counts, then fails. -/
theorem C106_duplicate_wrong : (do
    let l ← run {} [.add ⟨1, 0, 0⟩, .add ⟨0, 0, 0⟩]
    let l' ← l.add false 9 ⟨0, 0, 0⟩
    let last ← getorderednode l 1
    return (l'.size, last.key, getorderednode l' 1, (l.add true 9 ⟨0, 0, 0⟩ >>= fun l => .ok l.size))) =
      .ok (2, ⟨1, 0, 0⟩, .ub, .ub) := by decide +kernel

/-- A history that meets the hypotheses: five places, one of them twice, and a neighbour -/
example : ∃ s, Spec.run [] [.add ⟨0, 0, 0⟩, .add ⟨5, 0, 0⟩, .add ⟨0, 0, -3⟩, .add ⟨5, 0, 0⟩, .add ⟨0, 7, 0⟩, .add ⟨0, 0, 9⟩,
    .nbr 0 { xp := some 1 }] = some s ∧ s.length = 5 := ⟨_, rfl, rfl⟩

end OP.Fem.Nodes
