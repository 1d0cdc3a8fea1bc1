import Verif.Tree.RbState
import Mathlib.Logic.Function.Basic
import Mathlib.Algebra.Order.Group.Nat
/-!
# Properties C16, C17 and C63: the red-black trees `ktree_llrb` and `BST`
-/
namespace OP.Tree.Rb
open OP.Tree
open OP.Tree.Avl (Sorted Ins sorted_node kv)

variable {K V : Type}

/-! ## Specification of the shape -/

/-- No red link leans right. -/
def NoRightRed : T (D K V) → Prop
  | .nil => True
  | .node _ _ l r => isRed r = false ∧ NoRightRed l ∧ NoRightRed r

/-- Number of red links in a row, going left from the link to this node. -/
def redRun : T (D K V) → Nat
  | .nil => 0
  | .node _ d l _ => if d.red then redRun l + 1 else 0

/-- There are never three red links in a row. -/
def NoThreeReds : T (D K V) → Prop
  | .nil => True
  | .node i d l r => redRun (.node i d l r) ≤ 2 ∧ NoThreeReds l ∧ NoThreeReds r

/-- Every path down has `n` black nodes. -/
def BlackHeight : Nat → T (D K V) → Prop
  | n, .nil => n = 0
  | n, .node _ d l r => if d.red then BlackHeight n l ∧ BlackHeight n r
      else ∃ m, n = m + 1 ∧ BlackHeight m l ∧ BlackHeight m r

/-- A left-leaning red-black tree with a black root. -/
structure LeftLeaning (t : T (D K V)) : Prop where
  root : isRed t = false
  right : NoRightRed t
  run : NoThreeReds t
  height : ∃ n, BlackHeight n t
  /-- so the depth is at most `3 log₂ (n+1)` -/
  depth : 2 ^ t.ht ≤ (t.size + 1) ^ 3

theorem Sh.spec {c : Kind} {n : Nat} {t : T (D K V)} (h : Sh c n t) : NoRightRed t ∧ NoThreeReds t ∧ BlackHeight n t ∧
    redRun t = (match c with | .B => 0 | .R1 => 1 | .R2 => 2) := by
  induction h with
  | nil => exact ⟨trivial, trivial, rfl, rfl⟩
  | black hl hr hd ihl ihr =>
    obtain ⟨a1, a2, a3, a4⟩ := ihl
    obtain ⟨b1, b2, b3, b4⟩ := ihr
    exact ⟨⟨hr.B_red, a1, b1⟩, ⟨by simp [redRun, hd], a2, b2⟩, by simp [BlackHeight, hd, a3, b3], by simp [redRun, hd]⟩
  | red1 hl hr hd ihl ihr =>
    obtain ⟨a1, a2, a3, a4⟩ := ihl
    obtain ⟨b1, b2, b3, b4⟩ := ihr
    exact ⟨⟨hr.B_red, a1, b1⟩, ⟨by simp [redRun, hd, a4], a2, b2⟩, by simp [BlackHeight, hd, a3, b3],
      by simp [redRun, hd, a4]⟩
  | red2 hl hr hd ihl ihr =>
    obtain ⟨a1, a2, a3, a4⟩ := ihl
    obtain ⟨b1, b2, b3, b4⟩ := ihr
    exact ⟨⟨hr.B_red, a1, b1⟩, ⟨by simp [redRun, hd, a4], a2, b2⟩, by simp [BlackHeight, hd, a3, b3],
      by simp [redRun, hd, a4]⟩

variable [LinearOrder K]

theorem Sh.leftLeaning {n : Nat} {t : T (D K V)} (h : Sh .B n t) : LeftLeaning t :=
  ⟨h.B_red, h.spec.1, h.spec.2.1, ⟨n, h.spec.2.2.1⟩, h.depth⟩

/-! ## Specification of the contents -/

/-- The map after inserting the entries in turn. -/
def specAdd (es : List (K × V)) : K → Option V :=
  es.foldl (fun f e => Function.update f e.1 (some e.2)) fun _ => none

/-- `L` is the map `f` written as a list with increasing keys. -/
structure SortedView (f : K → Option V) (L : List (K × V)) : Prop where
  increasing : L.Pairwise fun a b => a.1 < b.1
  entries : ∀ k v, (k, v) ∈ L ↔ f k = some v

/-- A history of `add`s. -/
def addAll (s : S K V) : List (K × V) → Res (S K V)
  | [] => .ok s
  | e :: es => add s e.1 e.2 >>= fun s => addAll s es

theorem ins_view {k : K} {v : V} {n p n' : Nat} {L L' : List (Nat × K × V)} {f : K → Option V}
    (h : Ins k v n p n' L L') (hf : SortedView f (kv L)) : SortedView (Function.update f k (some v)) (kv L') := by
  have hs : Sorted L := by rw [Sorted]; have := hf.increasing; rw [kv, List.pairwise_map] at this; exact this
  have hs' := h.sorted hs
  refine ⟨by rw [kv, List.pairwise_map]; exact hs', ?_⟩
  intro k' v'
  have hk := hf.entries k' v'
  have mem : ∀ {M : List (Nat × K × V)} {x : K × V}, x ∈ kv M → ∃ i, (i, x.1, x.2) ∈ M := by
    intro M x hx
    obtain ⟨⟨i, y⟩, h1, rfl⟩ := List.mem_map.1 hx
    exact ⟨i, h1⟩
  have kvn : ∀ (A B : List (Nat × K × V)) x, kv (A ++ x :: B) = kv A ++ x.2 :: kv B := by
    intro A B x; simp [kv]
  rcases h with ⟨A, B, rfl, rfl, -⟩ | ⟨A, B, v0, rfl, rfl, -⟩
  · obtain ⟨-, -, h3, h4⟩ := sorted_node hs'
    have hab : kv (A ++ B) = kv A ++ kv B := by simp [kv]
    rw [hab, List.mem_append] at hk
    rw [kvn, List.mem_append, List.mem_cons]
    by_cases hkk : k' = k
    · subst hkk
      rw [Function.update_self]
      constructor
      · rintro (h | h | h)
        · obtain ⟨i, hi⟩ := mem h; exact absurd (h3 _ hi) (lt_irrefl _)
        · simp only [Prod.mk.injEq, true_and] at h; rw [h]
        · obtain ⟨i, hi⟩ := mem h; exact absurd (h4 _ hi) (lt_irrefl _)
      · intro h; simp only [Option.some.injEq] at h; exact .inr (.inl (by rw [h]))
    · rw [Function.update_of_ne hkk, ← hk]
      simp [hkk]
  · obtain ⟨-, -, h3, h4⟩ := sorted_node hs'
    rw [kvn, List.mem_append, List.mem_cons] at hk
    rw [kvn, List.mem_append, List.mem_cons]
    by_cases hkk : k' = k
    · subst hkk
      rw [Function.update_self]
      constructor
      · rintro (h | h | h)
        · obtain ⟨i, hi⟩ := mem h; exact absurd (h3 _ hi) (lt_irrefl _)
        · simp only [Prod.mk.injEq, true_and] at h; rw [h]
        · obtain ⟨i, hi⟩ := mem h; exact absurd (h4 _ hi) (lt_irrefl _)
      · intro h; simp only [Option.some.injEq] at h; exact .inr (.inl (by rw [h]))
    · rw [Function.update_of_ne hkk, ← hk]
      simp [hkk]

theorem addAll_ok (es : List (K × V)) : ∀ {s : S K V} {t : T (D K V)} {f : K → Option V}, SRep s t →
    SortedView f (kv (kvs t)) → ∃ s' t', addAll s es = .ok s' ∧ SRep s' t' ∧
      SortedView (es.foldl (fun f e => Function.update f e.1 (some e.2)) f) (kv (kvs t')) := by
  induction es with
  | nil => intro s t f h hf; exact ⟨s, t, rfl, h, hf⟩
  | cons e es ih =>
    intro s t f h hf
    obtain ⟨s1, t1, p, n', h1, h2, h3⟩ := add_ok h e.1 e.2
    obtain ⟨s2, t2, h4, h5, h6⟩ := ih h2 (ins_view h3 hf)
    exact ⟨s2, t2, by rw [addAll, h1]; exact h4, h5, h6⟩

/-! ## C16 -/

/-- C16: after any history of insertions the array holds one left-leaning red-black tree that uses every
position once; lookups give the last value added for a key, ranks are exact in both
directions. -/
theorem C16_llrb (es : List (K × V)) :
    ∃ s t L, addAll S.init es = .ok s ∧ s.root = t.root ∧ Rep s.mem t ∧ t.ids.Perm (List.range (length s)) ∧
      LeftLeaning t ∧ SortedView (specAdd es) L ∧ t.inord.map (fun e => (e.2.k, e.2.v)) = L ∧ L.length = length s ∧
      (∀ k, match specAdd es k with
        | none => haskey s k = .ok none
        | some v => ∃ p, haskey s k = .ok (some p) ∧ at_ s p = .ok (k, v) ∧
            getorder s p = .ok ((L.countP fun e => e.1 < k : Nat) : Int)) ∧
      (∀ i (h : i < L.length), getindex s i = .ok L[i]) := by
  obtain ⟨s, t, h1, h2, h3⟩ := addAll_ok es (s := S.init) (t := .nil) (f := fun _ => none) SRep.init
    ⟨List.Pairwise.nil, by simp [kv]⟩
  obtain ⟨n, hsh⟩ := h2.sh
  refine ⟨s, t, kv (kvs t), h1, h2.root, h2.rep, h2.perm, hsh.leftLeaning, h3, ?_, ?_, ?_, ?_⟩
  · simp [kv, kvs]
  · simp [kv, kvs_length, h2.size, length]
  · intro k
    rcases findLoop_ok k s.mem t s.mem.length h2.rep h2.sorted h2.ht_le with ⟨i, v, a1, a2, m, a3, a4, a5⟩ | ⟨a1, a2⟩
    · have hv : specAdd es k = some v := (h3.entries k v).1 (List.mem_map.2 ⟨_, a2, rfl⟩)
      rw [hv]
      refine ⟨i, by rw [haskey, h2.root]; exact a1, by simp [at_, get_ok a3, a4, a5], ?_⟩
      rw [getorder, get_ok a3]
      simp only [Res.ok_bind, a4]
      rw [h2.root, ofLoop_ok k s.mem t s.mem.length 0 h2.rep h2.ord h2.sorted h2.ht_le]
      simp [kv, List.countP_map, Function.comp_def]
    · have hv : specAdd es k = none := by
        cases hv : specAdd es k with
        | none => rfl
        | some v =>
          obtain ⟨x, b1, b2⟩ := List.mem_map.1 ((h3.entries k v).2 hv)
          exact absurd (by rw [b2]) (a2 x b1)
      rw [hv]
      simpa [haskey, h2.root] using a1
  · intro i hi
    rw [getindex, h2.root, atLoop_ok s.mem t s.mem.length i 0 h2.rep h2.ord h2.ht_le (by omega)]
    have hi' : i < (kvs t).length := by simpa [kv] using hi
    have : ((i : Int) - 0).toNat = i := by omega
    rw [this, List.getElem?_eq_getElem hi']
    obtain ⟨n, b1, b2, b3⟩ := rep_mem h2.rep _ (List.getElem_mem hi')
    simp [at_, get_ok b1, b2, b3, kv]

/-- Ascending insertion of five keys, one of them twice. -/
example : ((addAll S.init [(1, 0), (2, 0), (3, 0), (4, 0), (5, 0), (2, 7)] : Res (S Nat Nat)) >>= fun s =>
    .ok (s.root, s.mem.map fun n => (n.d.k, n.d.v, n.d.o, n.d.red))) =
    .ok (some 1, [(1, 0, 0, false), (2, 7, 1, false), (3, 0, 0, true), (4, 0, 1, true), (5, 0, 2, false)]) := by decide

/-! ## C17 and C63: `BST` -/

/-- The calls on a `BST`. -/
inductive Op (K V : Type) where
  | insert (k : K) (v : V)
  | remove (k : K)

/-- What a call means for the map. -/
def specStep (f : K → Option V) : Op K V → K → Option V
  | .insert k v => Function.update f k (some v)
  | .remove k => Function.update f k none

/-- A call on the model; the address of a new node does not matter. -/
def step (t : T (D K V)) : Op K V → Res (T (D K V))
  | .insert k v => insert k v 0 t
  | .remove k => remove k t

/-- A history of calls. -/
def run (t : T (D K V)) : List (Op K V) → Res (T (D K V))
  | [] => .ok t
  | op :: ops => step t op >>= fun t => run t ops

/-- Every key that the history removes is present when it is removed. -/
def Present (f : K → Option V) : List (Op K V) → Prop
  | [] => True
  | .insert k v :: ops => Present (specStep f (.insert k v)) ops
  | .remove k :: ops => (f k).isSome ∧ Present (specStep f (.remove k)) ops

theorem view_remove {f : K → Option V} {L : List (K × V)} (h : SortedView f L) (k : K) :
    SortedView (Function.update f k none) (without k L) := by
  refine ⟨without_inc h.increasing, ?_⟩
  intro k' v'
  simp only [without, List.mem_filter, decide_eq_true_eq, h.entries]
  by_cases hk : k' = k
  · subst hk; simp
  · simp [hk]

theorem step_ok {t : T (D K V)} {f : K → Option V} (h : Valid t) (hf : SortedView f (ents t)) (op : Op K V)
    (hp : ∀ k, op = .remove k → (f k).isSome) :
    ∃ t', step t op = .ok t' ∧ Valid t' ∧ SortedView (specStep f op) (ents t') := by
  cases op with
  | insert k v =>
    obtain ⟨t', p, n', h1, h2, h3⟩ := insert_ok h k v 0
    rw [ents_kv] at hf
    exact ⟨t', h1, h2, by rw [ents_kv]; exact ins_view h3 hf⟩
  | remove k =>
    rcases remove_ok h k with ⟨h1, h2, -⟩ | ⟨t', h1, h2, h3⟩
    · obtain ⟨v, hv⟩ := Option.isSome_iff_exists.1 (hp k rfl)
      exact absurd rfl (h2 _ ((hf.entries k v).2 hv))
    · exact ⟨t', h1, h2, by rw [h3]; exact view_remove hf k⟩

theorem run_ok (ops : List (Op K V)) : ∀ {t : T (D K V)} {f : K → Option V}, Valid t → SortedView f (ents t) →
    Present f ops → ∃ t', run t ops = .ok t' ∧ Valid t' ∧ SortedView (ops.foldl specStep f) (ents t') := by
  induction ops with
  | nil => intro t f h hf _; exact ⟨t, rfl, h, hf⟩
  | cons op ops ih =>
    intro t f h hf hp
    have : (∀ k, op = .remove k → (f k).isSome) ∧ Present (specStep f op) ops := by
      cases op with
      | insert k v => exact ⟨fun _ h => by simp at h, hp⟩
      | remove k => exact ⟨fun k' h => by simp at h; subst h; exact hp.1, hp.2⟩
    obtain ⟨t1, h1, h2, h3⟩ := step_ok h hf op this.1
    obtain ⟨t2, h4, h5, h6⟩ := ih h2 h3 this.2
    exact ⟨t2, by rw [run, h1]; exact h4, h5, h6⟩

theorem lookup_view {t : T (D K V)} {f : K → Option V} (h : Valid t) (hf : SortedView f (ents t)) (k : K) :
    lookup k t = f k := by
  cases hv : f k with
  | some v => exact (lookup_ok h.inc k v).2 ((hf.entries k v).2 hv)
  | none =>
    cases hl : lookup k t with
    | none => rfl
    | some v => rw [(hf.entries k v).1 ((lookup_ok h.inc k v).1 hl)] at hv; simp at hv

/-- C63: a history of insertions and of removals of present keys never dereferences a null pointer, keeps
the tree a left-leaning red-black tree, and lookups answer as the finite map does. -/
theorem C63_bst_is_a_map (ops : List (Op K V)) (hp : Present (fun _ => none) ops) :
    ∃ t, run .nil ops = .ok t ∧ LeftLeaning t ∧ ∀ k, lookup k t = ops.foldl specStep (fun _ => none) k := by
  obtain ⟨t, h1, h2, h3⟩ := run_ok ops Valid.nil ⟨List.Pairwise.nil, by simp [ents]⟩ hp
  obtain ⟨n, hsh⟩ := h2.sh
  exact ⟨t, h1, hsh.leftLeaning, lookup_view h2 h3⟩

/-- A history with removals at both ends and in the middle. -/
example : Present (fun _ => none) ([.insert 4 "a", .insert 2 "b", .insert 9 "c", .insert 7 "d", .insert 5 "e",
    .remove 4, .remove 2, .insert 4 "f", .remove 9] : List (Op Nat String)) := by
  simp [Present, specStep, Function.update]

/-- C17, the part that holds: after such a history, removing an absent key either dereferences a null
pointer or leaves every lookup as it was; and it is harmless when the key is below every stored key.
(Missing: that it never dereferences a null pointer; see `C17_remove_missing_wrong`.) -/
theorem C17_remove_missing_partial (ops : List (Op K V)) (hp : Present (fun _ => none) ops) (k : K)
    (hk : ops.foldl specStep (fun _ => none) k = none) :
    ∃ t, run .nil ops = .ok t ∧
      (remove k t = .ub ∨ ∃ t', remove k t = .ok t' ∧ LeftLeaning t' ∧ ∀ k', lookup k' t' = lookup k' t) ∧
      ((∀ k', (lookup k' t).isSome → k < k') → remove k t ≠ .ub) := by
  obtain ⟨t, h1, h2, h3⟩ := run_ok ops Valid.nil ⟨List.Pairwise.nil, by simp [ents]⟩ hp
  refine ⟨t, h1, ?_, ?_⟩
  · rcases remove_ok h2 k with ⟨a1, -⟩ | ⟨t', a1, a2, a3⟩
    · exact .inl a1
    · obtain ⟨n, hsh⟩ := a2.sh
      refine .inr ⟨t', a1, hsh.leftLeaning, fun k' => ?_⟩
      rw [lookup_view h2 h3, lookup_view a2 (by rw [a3]; exact view_remove h3 k)]
      by_cases hkk : k' = k
      · subst hkk; rw [Function.update_self, hk]
      · rw [Function.update_of_ne hkk]
  · intro hlt hub
    rcases remove_ok h2 k with ⟨-, -, e, a2, a3⟩ | ⟨t', a1, -⟩
    · have := hlt e.1 (by rw [(lookup_ok h2.inc e.1 e.2).2 a2]; rfl)
      exact lt_asymm a3 this
    · rw [a1] at hub; simp at hub

/-- An absent key below and one above the stored ones. -/
example : (([.insert 4 "a", .insert 2 "b"] : List (Op Nat String)).foldl specStep (fun _ => none) 1) = none := by
  simp [specStep, Function.update]

/-- C17 is false: after any history that leaves something in the tree, removing a key larger
than every stored key dereferences a null pointer. -/
theorem C17_remove_missing_wrong (ops : List (Op K V)) (hp : Present (fun _ => none) ops) (k k0 : K)
    (h0 : (ops.foldl specStep (fun _ => none) k0).isSome)
    (hk : ∀ k', (ops.foldl specStep (fun _ => none) k').isSome → k' < k) :
    ∃ t, run .nil ops = .ok t ∧ remove k t = .ub := by
  obtain ⟨t, h1, h2, h3⟩ := run_ok ops Valid.nil ⟨List.Pairwise.nil, by simp [ents]⟩ hp
  refine ⟨t, h1, ?_⟩
  have hn : t ≠ .nil := by
    rintro rfl
    obtain ⟨v, hv⟩ := Option.isSome_iff_exists.1 h0
    have := (h3.entries k0 v).2 hv
    simp [ents] at this
  have := rem_big (t.size + 1) k t hn (fun e he => hk e.1 (by rw [(h3.entries e.1 e.2).1 he]; rfl)) (by omega)
  cases t with
  | nil => exact absurd rfl hn
  | node i d l r => simp [remove, this]

/-- The smallest case: `{1}.remove(2)`. -/
example : (run .nil [.insert 1 0] >>= fun t => remove 2 t : Res (T (D Nat Nat))) = .ub := by
  obtain ⟨t, h1, h2⟩ := C17_remove_missing_wrong (K := Nat) (V := Nat) [.insert 1 0] trivial 2 1
    (by simp [specStep]) (by
      intro k' h
      simp only [specStep, List.foldl] at h
      by_cases hk : k' = 1
      · omega
      · simp [Function.update_of_ne hk] at h)
  rw [h1]; exact h2

end OP.Tree.Rb
