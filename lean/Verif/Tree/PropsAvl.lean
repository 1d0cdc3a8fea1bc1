import Verif.Tree.AvlState
import Mathlib.Logic.Function.Basic
import Mathlib.NumberTheory.Real.GoldenRatio
/-!
# Properties C12–C15 and C62: the AVL tree `ktree_avl`
-/
namespace OP.Tree.Avl
open OP.Tree

variable {K V : Type} [LinearOrder K]

/-! ## Specification: histories on a finite map -/

/-- The calls on a tree. -/
inductive Op (K V : Type) where
  | add (k : K) (v : V)
  | remove (k : K)
  | empty

/-- What a call means for the map. -/
def specStep (f : K → Option V) : Op K V → K → Option V
  | .add k v => Function.update f k (some v)
  | .remove k => Function.update f k none
  | .empty => fun _ => none

/-- The map after a history. -/
def spec (ops : List (Op K V)) : K → Option V := ops.foldl specStep fun _ => none

/-- A call on the model, with a key that is not part of the tree. -/
def step (mg : Bool) (s : S K V) : Op K V → Res (S K V)
  | .add k v => add mg s k v
  | .remove k => remove mg s (.ext k)
  | .empty => .ok (empty s)

/-- A history of calls. -/
def run (mg : Bool) (s : S K V) : List (Op K V) → Res (S K V)
  | [] => .ok s
  | op :: ops => step mg s op >>= fun s => run mg s ops

/-- The tree answers every query as the finite map `f` would. -/
structure Answers (s : S K V) (f : K → Option V) : Prop where
  lookup : ∀ k, getv s k = match f k with | some v => .ok v | none => .throw
  has : ∀ k, haskey s k = .ok (f k).isSome
  count : ∃ ks : List K, ks.Nodup ∧ (∀ k, k ∈ ks ↔ (f k).isSome) ∧ ks.length = length s

/-! ## Helpers tying trees to maps -/

/-- The entries of the tree are those of the map. -/
def Holds (t : T (D K V)) (f : K → Option V) : Prop := ∀ k v, (k, v) ∈ kv (kvs t) ↔ f k = some v

theorem keys_nodup {L : List (Nat × K × V)} (h : Sorted L) : ((kv L).map Prod.fst).Nodup := by
  rw [sorted_kv] at h
  rw [List.Nodup, List.pairwise_map]
  exact h.imp fun h => ne_of_lt h

theorem mem_kv {L : List (Nat × K × V)} {k : K} {v : V} : (k, v) ∈ kv L ↔ ∃ i, (i, k, v) ∈ L := by
  simp [kv]

theorem answers {s : S K V} {t : T (D K V)} {f : K → Option V} (h : SRep s t) (hf : Holds t f) :
    Answers s f := by
  have hno : ∀ k, (∀ e ∈ kvs t, e.2.1 ≠ k) → f k = none := by
    intro k hk
    cases hv : f k with
    | none => rfl
    | some v =>
      obtain ⟨i, hi⟩ := mem_kv.1 ((hf k v).2 hv)
      exact absurd rfl (hk _ hi)
  refine ⟨?_, ?_, (kv (kvs t)).map Prod.fst, keys_nodup h.sorted, ?_, ?_⟩
  · intro k
    rcases getposition_ok h k with ⟨i, v, h1, h2, h3, h4, h5⟩ | ⟨h1, h2, h3⟩
    · rw [h3, (hf k v).1 (mem_kv.2 ⟨i, h2⟩)]
    · rw [h2, hno k h3]
  · intro k
    rcases getposition_ok h k with ⟨i, v, h1, h2, h3, h4, h5⟩ | ⟨h1, h2, h3⟩
    · rw [haskey, h1, (hf k v).1 (mem_kv.2 ⟨i, h2⟩)]; rfl
    · rw [haskey, h1, hno k h3]; rfl
  · intro k
    rw [Option.isSome_iff_exists]
    simp only [List.mem_map, Prod.exists, exists_and_right, exists_eq_right]
    exact exists_congr fun v => hf k v
  · simp [length_kv, kvs_length, h.size, length]

theorem holds_ins {t t' : T (D K V)} {f : K → Option V} (hf : Holds t f) (hs : Sorted (kvs t))
    {k : K} {v : V} {n p n' : Nat} (h : Ins k v n p n' (kvs t) (kvs t')) :
    Holds t' (Function.update f k (some v)) := by
  intro k' v'
  rcases h with ⟨A, B, e1, e2, h3, h4, -, -⟩ | ⟨A, B, v0, e1, e2, -⟩
  · have hk := hf k' v'
    rw [e1] at hk
    rw [e2]
    by_cases hkk : k' = k
    · subst hkk
      simp only [Function.update_self, kv_append, kv_cons, List.mem_append, List.mem_cons]
      constructor
      · rintro (h | h | h)
        · obtain ⟨i, hi⟩ := mem_kv.1 h; exact absurd (h3 _ hi) (lt_irrefl _)
        · simp at h; rw [h]
        · obtain ⟨i, hi⟩ := mem_kv.1 h; exact absurd (h4 _ hi) (lt_irrefl _)
      · intro h; simp at h; simp [h]
    · rw [Function.update_of_ne hkk, ← hk]
      simp [hkk]
  · have hk := hf k' v'
    rw [e1] at hk
    rw [e1] at hs
    rw [e2]
    obtain ⟨-, -, h3, h4⟩ := sorted_node hs
    by_cases hkk : k' = k
    · subst hkk
      simp only [Function.update_self, kv_append, kv_cons, List.mem_append, List.mem_cons]
      constructor
      · rintro (h | h | h)
        · obtain ⟨i, hi⟩ := mem_kv.1 h; exact absurd (h3 _ hi) (lt_irrefl _)
        · simp at h; rw [h]
        · obtain ⟨i, hi⟩ := mem_kv.1 h; exact absurd (h4 _ hi) (lt_irrefl _)
      · intro h; simp at h; simp [h]
    · rw [Function.update_of_ne hkk, ← hk]
      simp [hkk]

theorem holds_absent {t : T (D K V)} {f : K → Option V} (hf : Holds t f) {k : K}
    (h : ∀ e ∈ kvs t, e.2.1 ≠ k) : f k = none := by
  cases hv : f k with
  | none => rfl
  | some v =>
    obtain ⟨i, hi⟩ := mem_kv.1 ((hf k v).2 hv)
    exact absurd rfl (h _ hi)

theorem holds_gone {t t' : T (D K V)} {f : K → Option V} (hf : Holds t f) (hs : Sorted (kvs t))
    {k : K} {v : V} {A B : List (K × V)} (e1 : kv (kvs t) = A ++ (k, v) :: B)
    (e2 : kv (kvs t') = A ++ B) : Holds t' (Function.update f k none) := by
  intro k' v'
  have hk := hf k' v'
  rw [e1] at hk
  rw [e2]
  rw [sorted_kv, e1] at hs
  simp only [List.pairwise_append, List.pairwise_cons, List.mem_cons] at hs
  by_cases hkk : k' = k
  · subst hkk
    simp only [Function.update_self, List.mem_append]
    constructor
    · rintro (h | h)
      · exact absurd (hs.2.2 _ h _ (.inl rfl)) (lt_irrefl _)
      · exact absurd (hs.2.1.1 _ h) (lt_irrefl _)
    · intro h; simp at h
  · rw [Function.update_of_ne hkk, ← hk]
    simp [hkk]

theorem step_merged {s : S K V} {t : T (D K V)} {f : K → Option V} (h : SRep s t) (hf : Holds t f)
    (op : Op K V) : ∃ s' t', step true s op = .ok s' ∧ SRep s' t' ∧ Holds t' (specStep f op) := by
  cases op with
  | add k v =>
    obtain ⟨s', t', p, h1, h2, h3⟩ := add_ok true h k v
    exact ⟨s', t', h1, h2, holds_ins hf h.sorted h3⟩
  | remove k =>
    obtain ⟨s', t', h1, h2, h3⟩ := remove_ok true h k
    refine ⟨s', t', h1, h2, ?_⟩
    simp only [specStep]
    cases h3 with
    | absent h4 e =>
      have : Function.update f k none = f := by
        rw [← holds_absent hf h4, Function.update_eq_self]
      rw [this]
      intro k' v'; rw [e]; exact hf k' v'
    | swapped hm _ => simp at hm
    | gone q M h4 _ e =>
      obtain ⟨A, v, B, I, J, e1, e2, -⟩ := h4
      exact holds_gone hf h.sorted e1 (by rw [e, ← e2]; simp [kv])
  | empty => exact ⟨S.init, .nil, rfl, SRep.init, by intro k v; simp [specStep]⟩

theorem run_merged (ops : List (Op K V)) : ∀ {s : S K V} {t : T (D K V)} {f : K → Option V},
    SRep s t → Holds t f → ∃ s' t', run true s ops = .ok s' ∧ SRep s' t' ∧ Holds t' (ops.foldl specStep f) := by
  induction ops with
  | nil => intro s t f h hf; exact ⟨s, t, rfl, h, hf⟩
  | cons op ops ih =>
    intro s t f h hf
    obtain ⟨s1, t1, h1, h2, h3⟩ := step_merged h hf op
    obtain ⟨s2, t2, h4, h5, h6⟩ := ih h2 h3
    exact ⟨s2, t2, by rw [run, h1]; exact h4, h5, h6⟩

theorem holds_nil : Holds (.nil : T (D K V)) (fun _ => none) := by intro k v; simp

/-! ## C12 -/

/-- C12 for self-keyed values: any history runs without undefined behaviour or exception, and the tree
then answers as the finite map does. -/
theorem C12_avl_merged_is_a_map (ops : List (Op K V)) :
    ∃ s, run true S.init ops = .ok s ∧ Answers s (spec ops) := by
  obtain ⟨s, t, h1, h2, h3⟩ := run_merged ops SRep.init (holds_nil (K := K) (V := V))
  exact ⟨s, h1, answers h2 h3⟩

/-- A history with rotations, an overwrite and the removal of an inner node. -/
example : ((run true S.init [.add 5 "a", .add 2 "b", .add 8 "c", .add 9 "d", .add 10 "e", .add 8 "f",
    .remove 5, .remove 7] : Res (S Nat String)) >>= fun s => .ok (s.mem.map fun n => (n.d.k, n.d.v)))
    = .ok [(8, "f"), (2, "b"), (9, "d"), (10, "e")] := by decide

/-- With separate keys and values: what a removal may do to the map instead.  Either it is right, or
it leaves `k` in place and exchanges the values of `k` and of the next larger key. -/
inductive SepStep (f : K → Option V) : Op K V → (K → Option V) → Prop where
  | right (op : Op K V) : SepStep f op (specStep f op)
  | swap (k k2 : K) (v v2 : V) (h1 : f k = some v) (h2 : f k2 = some v2) (hlt : k < k2)
      (hnext : ∀ k', k < k' → k' < k2 → f k' = none) :
      SepStep f (.remove k) (Function.update (Function.update f k (some v2)) k2 (some v))

/-- A history of possible maps. -/
inductive SepRun : (K → Option V) → List (Op K V) → (K → Option V) → Prop where
  | nil (f : K → Option V) : SepRun f [] f
  | cons {f g h : K → Option V} {op : Op K V} {ops : List (Op K V)} (h1 : SepStep f op g)
      (h2 : SepRun g ops h) : SepRun f (op :: ops) h

theorem step_separate {s : S K V} {t : T (D K V)} {f : K → Option V} (h : SRep s t) (hf : Holds t f)
    (op : Op K V) : ∃ s' t' g, step false s op = .ok s' ∧ SRep s' t' ∧ Holds t' g ∧ SepStep f op g := by
  cases op with
  | add k v =>
    obtain ⟨s', t', p, h1, h2, h3⟩ := add_ok false h k v
    exact ⟨s', t', _, h1, h2, holds_ins hf h.sorted h3, .right (.add k v)⟩
  | remove k =>
    obtain ⟨s', t', h1, h2, h3⟩ := remove_ok false h k
    cases h3 with
    | absent h4 e =>
      refine ⟨s', t', _, h1, h2, ?_, .right (.remove k)⟩
      simp only [specStep]
      have : Function.update f k none = f := by
        rw [← holds_absent hf h4, Function.update_eq_self]
      rw [this]
      intro k' v'; rw [e]; exact hf k' v'
    | swapped hm hsw =>
      obtain ⟨A, B, i, j, v, k2, v2, e1, e2⟩ := hsw
      have hs := h.sorted
      rw [sorted_kv, e1] at hs
      simp only [kv_append, kv_cons, List.pairwise_append, List.pairwise_cons, List.mem_cons] at hs
      obtain ⟨a1, ⟨a2, a3, a4⟩, a5⟩ := hs
      have hlt : k < k2 := a2 _ (.inl rfl)
      refine ⟨s', t', _, h1, h2, ?_, .swap k k2 v v2 ((hf k v).1 (by rw [e1]; simp))
        ((hf k2 v2).1 (by rw [e1]; simp)) hlt ?_⟩
      · intro k' v'
        rw [e2]
        have hk := hf k' v'
        rw [e1] at hk
        by_cases hk2 : k' = k2
        · subst hk2
          simp only [Function.update_self, kv_append, kv_cons, List.mem_append, List.mem_cons]
          constructor
          · rintro (h | h | h | h)
            · exact absurd (a5 _ h _ (.inr (.inl rfl))) (lt_irrefl _)
            · simp only [Prod.mk.injEq] at h; exact absurd h.1.symm (ne_of_lt hlt)
            · simp only [Prod.mk.injEq, true_and] at h; rw [h]
            · exact absurd (a3 _ h) (lt_irrefl _)
          · intro h; simp only [Option.some.injEq] at h; simp [h]
        rw [Function.update_of_ne hk2]
        by_cases hkk : k' = k
        · subst hkk
          simp only [Function.update_self, kv_append, kv_cons, List.mem_append, List.mem_cons]
          constructor
          · rintro (h | h | h | h)
            · exact absurd (a5 _ h _ (.inl rfl)) (lt_irrefl _)
            · simp only [Prod.mk.injEq, true_and] at h; rw [h]
            · simp only [Prod.mk.injEq] at h; exact absurd h.1 (ne_of_lt hlt)
            · exact absurd (lt_trans hlt (a3 _ h)) (lt_irrefl _)
          · intro h; simp only [Option.some.injEq] at h; simp [h]
        rw [Function.update_of_ne hkk, ← hk]
        simp [hkk, hk2]
      · intro k' hk1 hk2
        cases hv : f k' with
        | none => rfl
        | some v' =>
          exfalso
          have hm := (hf k' v').2 hv
          rw [e1] at hm
          simp only [kv_append, kv_cons, List.mem_append, List.mem_cons] at hm
          rcases hm with hm | hm | hm | hm
          · exact absurd (lt_trans hk1 (a5 _ hm _ (.inl rfl))) (lt_irrefl _)
          · simp only [Prod.mk.injEq] at hm; exact absurd hm.1.symm (ne_of_lt hk1)
          · simp only [Prod.mk.injEq] at hm; exact absurd hm.1 (ne_of_lt hk2)
          · exact absurd (lt_trans hk2 (a3 _ hm)) (lt_irrefl _)
    | gone q M h4 _ e =>
      obtain ⟨A, v, B, I, J, e1, e2, -⟩ := h4
      exact ⟨s', t', _, h1, h2, holds_gone hf h.sorted e1 (by rw [e, ← e2]; simp [kv]), .right (.remove k)⟩
  | empty => exact ⟨S.init, .nil, _, rfl, SRep.init, by intro k v; simp [specStep], .right .empty⟩

theorem run_separate (ops : List (Op K V)) : ∀ {s : S K V} {t : T (D K V)} {f : K → Option V},
    SRep s t → Holds t f → ∃ s' t' g, run false s ops = .ok s' ∧ SRep s' t' ∧ Holds t' g ∧ SepRun f ops g := by
  induction ops with
  | nil => intro s t f h hf; exact ⟨s, t, f, rfl, h, hf, .nil f⟩
  | cons op ops ih =>
    intro s t f h hf
    obtain ⟨s1, t1, g1, h1, h2, h3, h4⟩ := step_separate h hf op
    obtain ⟨s2, t2, g2, h5, h6, h7, h8⟩ := ih h2 h3
    exact ⟨s2, t2, g2, by rw [run, h1]; exact h5, h6, h7, .cons h4 h8⟩

/-- C12 for separate keys and values, the part that holds: every history runs, and each `remove` of a
present key either does its job or exchanges two values; all other calls are right. (Missing: that
`remove` removes; see `C12_avl_separate_wrong`.) -/
theorem C12_avl_separate_partial (ops : List (Op K V)) :
    ∃ s g, run false S.init ops = .ok s ∧ SepRun (fun _ => none) ops g ∧ Answers s g := by
  obtain ⟨s, t, g, h1, h2, h3, h4⟩ := run_separate ops SRep.init (holds_nil (K := K) (V := V))
  exact ⟨s, g, h1, h4, answers h2 h3⟩

/-- Histories without `remove` have one outcome, so C12 holds for them also with separate values. -/
theorem C12_avl_separate_no_remove_partial (ops : List (Op K V)) (hops : ∀ op ∈ ops, ∀ k, op ≠ .remove k) :
    ∃ s, run false S.init ops = .ok s ∧ Answers s (spec ops) := by
  obtain ⟨s, g, h1, h2, h3⟩ := C12_avl_separate_partial ops
  have : ∀ (f g : K → Option V), SepRun f ops g → g = ops.foldl specStep f := by
    clear h1 h2 h3
    induction ops with
    | nil => intro f g h; cases h; rfl
    | cons op ops ih =>
      intro f g h
      cases h with
      | cons h1 h2 =>
        cases h1 with
        | right => exact ih (fun o ho => hops o (by simp [ho])) _ _ h2
        | swap k => exact absurd rfl (hops (.remove k) (by simp) k)
  rw [this _ _ h2] at h3
  exact ⟨s, h1, h3⟩

/-- C12 is false for separate keys and values: for any two keys in order and any two values, removing
the smaller of two keys removes nothing and exchanges the two values. -/
theorem C12_avl_separate_wrong (a b : K) (hab : a < b) (x y : V) :
    ∃ s, run false S.init [.add a x, .add b y, .remove a] = .ok s ∧ length s = 2 ∧
      haskey s a = .ok true ∧ getv s a = .ok y ∧ getv s b = .ok x := by
  have h1 : ¬ b < a := not_lt.2 (le_of_lt hab)
  have h2 : ¬ a = b := ne_of_lt hab
  have h3 : ¬ b = a := ne_of_gt hab
  refine ⟨⟨[⟨⟨a, y, 2, 2⟩, none, some 1⟩, ⟨⟨b, x, 1, 1⟩, none, none⟩], some 0⟩, ?_, rfl, ?_, ?_, ?_⟩
  · simp [run, step, add, append, S.init, get, put, upd, finish, refresh, newWeight, newHeight, weight, height,
      rebalance, balance, remove, removeAt, KRef.read, minLoop, swapV, assignV, h1, h2, h3, hab]
  · simp [haskey, getposition, findLoop, get]
  · simp [getv, getposition, findLoop, get, getatposition]
  · simp [getv, getposition, findLoop, get, getatposition, h1, h2]

/-- Two keys in order exist. -/
example : ∃ s : S Int Nat, run false S.init [.add 1 10, .add 2 20, .remove 1] = .ok s ∧ length s = 2 :=
  let ⟨s, h, l, _⟩ := C12_avl_separate_wrong (1 : Int) 2 (by decide) 10 20; ⟨s, h, l⟩

/-! ## C62: removing through a reference into the tree -/

/-- C62, the part that holds: if no node with that key has a right child, removing through a reference
to the stored key is removing the key. (Missing: nodes with a right child; see `C62_alias_wrong`.) -/
theorem C62_alias_partial (mg : Bool) (s : S K V) (i : Nat) (n : Node (D K V)) (hi : s.mem[i]? = some n)
    (hleaf : ∀ (j : Nat) (n' : Node (D K V)), s.mem[j]? = some n' → n'.d.k = n.d.k → n'.right = none) :
    remove mg s (.cell i) = remove mg s (.ext n.d.k) := by
  have key : ∀ f r, removeAt mg (.cell i) f s.mem r = removeAt mg (.ext n.d.k) f s.mem r := by
    intro f
    induction f with
    | zero => intro r; rfl
    | succ f ih =>
      intro r
      cases r with
      | none => rfl
      | some r =>
        rw [removeAt, removeAt]
        cases hr : s.mem[r]? with
        | none => simp [get, hr]
        | some n' =>
          rw [get_ok hr]
          simp only [Res.ok_bind, KRef.read, get_ok hi]
          by_cases he : n'.d.k = n.d.k
          · rw [if_pos he, if_pos he, hleaf r n' hr he]
          · rw [if_neg he, if_neg he, ih, ih]
  rw [remove, remove, key]

/-- The hypotheses hold for the right leaf of a two element tree. -/
example : let s : S Nat Nat := ⟨[⟨⟨1, 1, 2, 2⟩, none, some 1⟩, ⟨⟨2, 2, 1, 1⟩, none, none⟩], some 0⟩
    run true S.init [.add 1 1, .add 2 2] = .ok s ∧ s.mem[1]? = some ⟨⟨2, 2, 1, 1⟩, none, none⟩ := by decide

/-- C62 is false: with two stored elements `a < b`, `t.remove(t.getatorder(0))` removes nothing and
leaves the tree out of order, so that the key `a` can no longer be found. -/
theorem C62_alias_wrong (a b : K) (hab : a < b) (x y : V) :
    ∃ s s', run true S.init [.add a x, .add b y] = .ok s ∧ getatorder s 0 = .ok (a, x) ∧
      getposition s a = .ok (some 0) ∧ remove true s (.cell 0) = .ok s' ∧ length s' = 2 ∧
      getatorder s' 0 = .ok (b, y) ∧ getatorder s' 1 = .ok (a, x) ∧ haskey s' a = .ok false := by
  have h1 : ¬ b < a := not_lt.2 (le_of_lt hab)
  have h2 : ¬ a = b := ne_of_lt hab
  have h3 : ¬ b = a := ne_of_gt hab
  refine ⟨⟨[⟨⟨a, x, 2, 2⟩, none, some 1⟩, ⟨⟨b, y, 1, 1⟩, none, none⟩], some 0⟩,
    ⟨[⟨⟨b, y, 2, 2⟩, none, some 1⟩, ⟨⟨a, x, 1, 1⟩, none, none⟩], some 0⟩, ?_, ?_, ?_, ?_, rfl, ?_, ?_, ?_⟩
  · simp [run, step, add, append, S.init, get, put, upd, finish, refresh, newWeight, newHeight, weight, height,
      rebalance, balance, h1, h2]
  · simp [getatorder, atLoop, get, order, weight]
  · simp [getposition, findLoop, get]
  · simp [get, put, upd, finish, refresh, height,
      rebalance, balance, remove, removeAt, KRef.read, minLoop, swapV, assignV, h1, h2, hab]
  · simp [getatorder, atLoop, get, order, weight]
  · simp [getatorder, atLoop, get, order, weight]
  · simp [haskey, getposition, findLoop, get, h3, hab]

/-! ## C13 -/

/-- Stored heights and weights are the true heights and sizes, and siblings differ by at most one
level. -/
def Balanced : T (D K V) → Prop
  | .nil => True
  | .node i d l r => Balanced l ∧ Balanced r ∧ d.h = (T.node i d l r).ht ∧
      d.w = (T.node i d l r).size ∧ l.ht ≤ r.ht + 1 ∧ r.ht ≤ l.ht + 1

theorem Inv.balanced {t : T (D K V)} (h : Inv t) : Balanced t := by
  induction t with
  | nil => trivial
  | node i d l r hl hr =>
    obtain ⟨h1, h2, h3, h4, h5⟩ := h
    exact ⟨hl h1, hr h2, by rw [h4]; simp [T.ht], by rw [h3]; simp [T.size], h5⟩

theorem fib_le {t : T (D K V)} (h : Balanced t) : Nat.fib (t.ht + 2) ≤ t.size + 1 := by
  induction t with
  | nil => simp [T.ht, T.size]
  | node i d l r hl hr =>
    obtain ⟨h1, h2, _, _, h4, h5⟩ := h
    have a := hl h1
    have b := hr h2
    simp only [T.ht, T.size]
    have hmono : ∀ {x y}, x ≤ y → Nat.fib x ≤ Nat.fib y := fun h => Nat.fib_mono h
    rcases Nat.le_total l.ht r.ht with hle | hle
    · have : max l.ht r.ht = r.ht := Nat.max_eq_right hle
      rw [this, Nat.fib_add_two (n := r.ht + 1)]
      have := hmono (show r.ht + 1 ≤ l.ht + 2 by omega)
      have e : r.ht + 1 + 1 = r.ht + 2 := rfl
      rw [e]; omega
    · have : max l.ht r.ht = l.ht := Nat.max_eq_left hle
      rw [this, Nat.fib_add_two (n := l.ht + 1)]
      have := hmono (show l.ht + 1 ≤ r.ht + 2 by omega)
      have e : l.ht + 1 + 1 = l.ht + 2 := rfl
      rw [e]; omega

theorem pow_le_fib (n : Nat) : Real.goldenRatio ^ n ≤ (Nat.fib (n + 2) : ℝ) := by
  have key : ∀ n : Nat, Real.goldenRatio ^ n ≤ (Nat.fib (n + 2) : ℝ) ∧
      Real.goldenRatio ^ (n + 1) ≤ (Nat.fib (n + 3) : ℝ) := by
    intro n
    induction n with
    | zero => exact ⟨by simp, by
        have := Real.goldenRatio_lt_two
        have e : Nat.fib 3 = 2 := rfl
        simp only [zero_add, pow_one, e]; push_cast; linarith⟩
    | succ n ih =>
      refine ⟨ih.2, ?_⟩
      have e : Real.goldenRatio ^ (n + 1 + 1) = Real.goldenRatio ^ n + Real.goldenRatio ^ (n + 1) := by
        have := Real.goldenRatio_sq
        rw [show n + 1 + 1 = n + 2 by omega, pow_add, this]; ring
      rw [e, show n + 1 + 3 = n + 2 + 2 by omega, Nat.fib_add_two]
      push_cast
      exact add_le_add ih.1 ih.2
  exact (key n).1

theorem two_pow_le (h n : Nat) (hn : Real.goldenRatio ^ h ≤ (n : ℝ)) : 2 ^ (20 * h) ≤ n ^ 29 := by
  have h1 : (2 : ℝ) ^ 20 ≤ Real.goldenRatio ^ 29 := by
    have hφ : (1.617 : ℝ) ≤ Real.goldenRatio := by
      rw [Real.goldenRatio]
      have : (2.234 : ℝ) ≤ Real.sqrt 5 := Real.le_sqrt_of_sq_le (by norm_num)
      linarith
    calc (2 : ℝ) ^ 20 ≤ (1.617 : ℝ) ^ 29 := by norm_num
      _ ≤ Real.goldenRatio ^ 29 := pow_le_pow_left₀ (by norm_num) hφ 29
  have h2 : (2 : ℝ) ^ (20 * h) ≤ (n : ℝ) ^ 29 := by
    calc (2 : ℝ) ^ (20 * h) = ((2 : ℝ) ^ 20) ^ h := by rw [pow_mul]
      _ ≤ (Real.goldenRatio ^ 29) ^ h := pow_le_pow_left₀ (by positivity) h1 h
      _ = (Real.goldenRatio ^ h) ^ 29 := by rw [← pow_mul, ← pow_mul, Nat.mul_comm]
      _ ≤ (n : ℝ) ^ 29 := pow_le_pow_left₀ (by have := Real.goldenRatio_pos; positivity) hn 29
  exact_mod_cast h2

/-- C13: after any history, in either layout, the array holds a binary tree using every position
exactly once, whose keys strictly increase in order, whose stored heights are true, whose siblings
differ by at most one level, and whose depth `h` satisfies `φ^h ≤ n+1`, hence `h ≤ 1.45 log₂(n+1)`. -/
theorem C13_avl_balanced (mg : Bool) (ops : List (Op K V)) :
    ∃ s t, run mg S.init ops = .ok s ∧ s.root = t.root ∧ Rep s.mem t ∧
      t.ids.Perm (List.range (length s)) ∧ (t.inord.map fun e => e.2.k).Pairwise (· < ·) ∧ Balanced t ∧
      Real.goldenRatio ^ t.ht ≤ (length s + 1 : ℕ) ∧ 2 ^ (20 * t.ht) ≤ (length s + 1) ^ 29 := by
  have : ∃ s t, run mg S.init ops = .ok s ∧ SRep s t := by
    cases mg with
    | true =>
      obtain ⟨s, t, h1, h2, -⟩ := run_merged ops SRep.init (holds_nil (K := K) (V := V))
      exact ⟨s, t, h1, h2⟩
    | false =>
      obtain ⟨s, t, g, h1, h2, -⟩ := run_separate ops SRep.init (holds_nil (K := K) (V := V))
      exact ⟨s, t, h1, h2⟩
  obtain ⟨s, t, h1, h2⟩ := this
  have hg : Real.goldenRatio ^ t.ht ≤ (length s + 1 : ℕ) := by
    refine le_trans (pow_le_fib t.ht) ?_
    have := fib_le h2.inv.balanced
    rw [h2.size] at this
    exact_mod_cast this
  refine ⟨s, t, h1, h2.root, h2.rep, h2.perm, ?_, h2.inv.balanced, hg, two_pow_le _ _ hg⟩
  have := h2.sorted
  simp only [Sorted, kvs, List.pairwise_map] at this
  rw [List.pairwise_map]
  exact this

/-- Ascending insertion of seven keys gives three levels. -/
example : ((run true S.init ((List.range 7).map fun i => .add i i) : Res (S Nat Nat)) >>= fun s =>
    .ok (s.root, s.mem.map fun n => (n.d.h, n.d.w))) =
    .ok (some 3, [(1, 1), (2, 3), (1, 1), (3, 7), (1, 1), (2, 3), (1, 1)]) := by decide

/-! ## C14 -/

/-- `L` is the map `f` written as a list with increasing keys. -/
structure SortedView (f : K → Option V) (L : List (K × V)) : Prop where
  increasing : L.Pairwise fun a b => a.1 < b.1
  entries : ∀ k v, (k, v) ∈ L ↔ f k = some v

/-- C14: after any history, `getatorder(i)` is the `i`-th entry in key order and throws past the end,
`getorderof(k)` counts the smaller keys, or says "absent"; the two are inverse to each other. -/
theorem C14_avl_ranks (ops : List (Op K V)) :
    ∃ s L, run true S.init ops = .ok s ∧ SortedView (spec ops) L ∧ L.length = length s ∧
      (∀ i, getatorder s i = match L[i]? with | some e => .ok e | none => .throw) ∧
      (∀ k, getorderof s k = .ok (if (spec ops k).isSome then some ((L.countP fun e => e.1 < k : Nat) : Int)
        else none)) ∧
      (∀ i k v, getatorder s i = .ok (k, v) → getorderof s k = .ok (some (i : Int))) ∧
      (∀ k i, getorderof s k = .ok (some (i : Int)) → 0 ≤ i ∧ ∃ v, getatorder s i.toNat = .ok (k, v)) := by
  obtain ⟨s, t, h1, h2, h3⟩ := run_merged ops SRep.init (holds_nil (K := K) (V := V))
  change Holds t (spec ops) at h3
  have hsv : SortedView (spec ops) (kv (kvs t)) := ⟨sorted_kv.1 h2.sorted, h3⟩
  have hat := getatorder_ok h2
  have hcnt : ∀ (A B : List (K × V)) (k : K) (v : V), kv (kvs t) = A ++ (k, v) :: B →
      (kv (kvs t)).countP (fun e => e.1 < k) = A.length := by
    intro A B k v he
    have hs := hsv.increasing
    rw [he] at hs ⊢
    simp only [List.pairwise_append, List.pairwise_cons, List.mem_cons] at hs
    rw [List.countP_append, List.countP_cons, List.countP_eq_length.2, List.countP_eq_zero.2]
    · simp
    · intro e he; have := hs.2.1.1 e he; simpa using le_of_lt this
    · intro e he; have := hs.2.2 e he (k, v) (.inl rfl); simpa using this
  have hof : ∀ k, getorderof s k = .ok (if (spec ops k).isSome then
      some (((kv (kvs t)).countP fun e => e.1 < k : Nat) : Int) else none) := by
    intro k
    rcases ofLoop_ok k s.mem t s.mem.length 0 h2.rep h2.inv h2.sorted h2.ht_le with ⟨A, v, B, e1, e2⟩ | ⟨e1, e2⟩
    · rw [getorderof, h2.root, e2, hcnt A B k v e1, (h3 k v).1 (by rw [e1]; simp)]
      simp
    · rw [getorderof, h2.root, e1, holds_absent h3 e2]; simp
  refine ⟨s, kv (kvs t), h1, hsv, by rw [length_kv, kvs_length, h2.size, length], hat, hof, ?_, ?_⟩
  · intro i k v hi
    rw [hat i] at hi
    cases he : (kv (kvs t))[i]? with
    | none => rw [he] at hi; simp at hi
    | some e =>
      rw [he] at hi
      simp only [Res.ok.injEq] at hi
      subst hi
      obtain ⟨hi, hie⟩ := List.getElem?_eq_some_iff.1 he
      have hsplit : kv (kvs t) = (kv (kvs t)).take i ++ (k, v) :: (kv (kvs t)).drop (i + 1) := by
        rw [← hie, ← List.drop_eq_getElem_cons hi, List.take_append_drop]
      rw [hof k, hcnt _ _ k v hsplit, (h3 k v).1 (List.mem_of_getElem? he)]
      simp only [Option.isSome_some, if_true, List.length_take]
      rw [Nat.min_eq_left (by omega)]
  · intro k i hi
    rcases ofLoop_ok k s.mem t s.mem.length 0 h2.rep h2.inv h2.sorted h2.ht_le with ⟨A, v, B, e1, e2⟩ | ⟨e1, e2⟩
    · rw [getorderof, h2.root, e2] at hi
      simp only [Res.ok.injEq, Option.some.injEq] at hi
      refine ⟨by omega, v, ?_⟩
      rw [hat, e1]
      have : i.toNat = A.length := by omega
      rw [this, List.getElem?_append_right (Nat.le_refl _)]
      simp
    · rw [getorderof, h2.root, e1] at hi; simp at hi

/-- Ranks after a removal. -/
example : ((run true S.init [.add 5 0, .add 2 0, .add 8 0, .add 9 0, .remove 5] : Res (S Nat Nat)) >>= fun s =>
    getatorder s 1 >>= fun e => getorderof s 9 >>= fun o => .ok (e.1, o)) = .ok (8, some 2) := by decide

/-! ## C15 -/

/-- Position of the `j`-th element in key order. -/
def posAt (s : S K V) (j : Nat) : Res (Option Nat) := getatorder s j >>= fun e => getposition s e.1

theorem posAt_ok {s : S K V} {t : T (D K V)} (h : SRep s t) (j : Nat) :
    posAt s j = match ((kvs t).map Prod.fst)[j]? with | some i => .ok (some i) | none => .throw := by
  rw [posAt, getatorder_ok h, kv, List.getElem?_map, List.getElem?_map]
  cases he : (kvs t)[j]? with
  | none => rfl
  | some e =>
    simp only [Option.map_some, Res.ok_bind]
    have hm := List.mem_of_getElem? he
    rcases getposition_ok h e.2.1 with ⟨i, v, h1, h2, -⟩ | ⟨h1, h2, h3⟩
    · rw [h1]
      -- same key, same entry
      have : (i, e.2.1, v) = e := by
        have hs := h.sorted
        obtain ⟨A, B, e1⟩ := List.append_of_mem hm
        rw [e1] at hs h2
        obtain ⟨-, -, a3, a4⟩ := sorted_node hs
        rcases List.mem_append.1 h2 with hx | hx
        · exact absurd (a3 _ hx) (lt_irrefl _)
        · rcases List.mem_cons.1 hx with hx | hx
          · exact hx
          · exact absurd (a4 _ hx) (lt_irrefl _)
      rw [← this]
    · exact absurd rfl (h3 e hm)

/-- C15, the part that holds: positions `0..n-1` are exactly the stored elements; and removing the
key of rank `r` frees one cell, that of some rank `r' ≥ r`: the elements ranked between `r` and `r'` each
take the cell of their predecessor, every other element keeps its cell, and cells above the freed one
move down by one. (Missing: `r' = r`, that no other element moves; see `C15_positions_wrong`.) -/
theorem C15_avl_positions_partial (ops : List (Op K V)) (k : K) :
    ∃ s s', run true S.init ops = .ok s ∧ remove true s (.ext k) = .ok s' ∧
      (∀ p, p < length s → ∃ k' v', getkey s p = .ok k' ∧ getatposition s p = .ok v' ∧
        getposition s k' = .ok (some p) ∧ spec ops k' = some v') ∧
      (∀ p, length s ≤ p → getkey s p = .throw ∧ getatposition s p = .throw) ∧
      ((spec ops k).isSome → length s' + 1 = length s ∧
        ∃ r r' q : Nat, r ≤ r' ∧ getorderof s k = .ok (some (r : Int)) ∧ posAt s r' = .ok (some q) ∧ q < length s ∧
          ∀ j, j < length s' → ∃ p, posAt s (if j < r' then j else j + 1) = .ok (some p) ∧ p ≠ q ∧
            posAt s' j = .ok (some (if p > q then p - 1 else p))) := by
  obtain ⟨s, t, h1, h2, h3⟩ := run_merged ops SRep.init (holds_nil (K := K) (V := V))
  change Holds t (spec ops) at h3
  obtain ⟨s', t', g1, g2, g3⟩ := remove_ok true h2 k
  refine ⟨s, s', h1, g1, ?_, ?_, ?_⟩
  · intro p hp
    have hm : p ∈ t.ids := h2.perm.mem_iff.2 (List.mem_range.2 hp)
    rw [← kvs_ids] at hm
    obtain ⟨e, he, rfl⟩ := List.mem_map.1 hm
    obtain ⟨n, hn1, hn2, hn3⟩ := rep_mem h2.rep e he
    obtain ⟨j, hj⟩ := List.getElem?_of_mem he
    have hpos := posAt_ok h2 j
    rw [posAt, getatorder_ok h2, kv, List.getElem?_map, List.getElem?_map, hj] at hpos
    exact ⟨e.2.1, e.2.2, by simp [getkey, hn1, hn2], by simp [getatposition, hn1, hn3], hpos,
      (h3 _ _).1 (mem_kv.2 ⟨e.1, he⟩)⟩
  · intro p hp
    have : s.mem[p]? = none := List.getElem?_eq_none hp
    simp [getkey, getatposition, this]
  · intro hk
    obtain ⟨v, hv⟩ := Option.isSome_iff_exists.1 hk
    have hmem := (h3 k v).2 hv
    cases g3 with
    | absent h4 e =>
      obtain ⟨i, hi⟩ := mem_kv.1 hmem
      exact absurd rfl (h4 _ hi)
    | swapped hm => simp at hm
    | gone q M h4 _ e =>
      obtain ⟨A, v', B, I, J, e1, e2, e3, e4, e5⟩ := h4
      have hids' : (kvs t').map Prod.fst = (I ++ J).map (dec q) := by
        rw [e, ← e4]; simp
      have hlen : length s = (I ++ q :: J).length := by
        rw [← e3, List.length_map, kvs_length, h2.size, length]
      have hlen' : length s' = (I ++ J).length := by
        rw [length, ← g2.size, ← kvs_length, ← List.length_map (f := Prod.fst), hids', List.length_map]
      have hnd : (I ++ q :: J).Nodup := by rw [← e3, kvs_ids]; exact h2.nodup
      rw [List.perm_middle.nodup_iff, List.nodup_cons] at hnd
      have hof : getorderof s k = .ok (some ((A.length : Nat) : Int)) := by
        rcases ofLoop_ok k s.mem t s.mem.length 0 h2.rep h2.inv h2.sorted h2.ht_le with ⟨A', w, B', z1, z2⟩ | ⟨z1, z2⟩
        · rw [getorderof, h2.root, z2]
          -- the split is unique
          have hs := sorted_kv.1 h2.sorted
          have c1 : (kv (kvs t)).countP (fun e => e.1 < k) = A.length := by
            have hs' := hs
            rw [e1] at hs' ⊢
            simp only [List.pairwise_append, List.pairwise_cons, List.mem_cons] at hs'
            rw [List.countP_append, List.countP_cons, List.countP_eq_length.2, List.countP_eq_zero.2]
            · simp
            · intro e he; have := hs'.2.1.1 e he; simpa using le_of_lt this
            · intro e he; have := hs'.2.2 e he (k, v') (.inl rfl); simpa using this
          have c2 : (kv (kvs t)).countP (fun e => e.1 < k) = A'.length := by
            have hs' := hs
            rw [z1] at hs' ⊢
            simp only [List.pairwise_append, List.pairwise_cons, List.mem_cons] at hs'
            rw [List.countP_append, List.countP_cons, List.countP_eq_length.2, List.countP_eq_zero.2]
            · simp
            · intro e he; have := hs'.2.1.1 e he; simpa using le_of_lt this
            · intro e he; have := hs'.2.2 e he (k, w) (.inl rfl); simpa using this
          have : A'.length = A.length := by omega
          rw [this]; simp
        · obtain ⟨i, hi⟩ := mem_kv.1 hmem
          exact absurd rfl (z2 _ hi)
      refine ⟨by rw [hlen, hlen']; simp; omega, A.length, I.length, q, e5, hof, ?_, ?_, ?_⟩
      · rw [posAt_ok h2, e3, List.getElem?_append_right (Nat.le_refl _)]; simp
      · have : q ∈ t.ids := by rw [← kvs_ids, e3]; simp
        exact h2.rep.lt q this
      · intro j hj
        rw [hlen'] at hj
        have hj' : (I ++ J)[j]? = some (I ++ J)[j] := List.getElem?_eq_getElem hj
        refine ⟨(I ++ J)[j], ?_, ?_, ?_⟩
        · rw [posAt_ok h2, e3]
          have : (I ++ q :: J)[if j < I.length then j else j + 1]? = (I ++ J)[j]? := by
            split
            · rename_i hlt
              rw [List.getElem?_append_left hlt, List.getElem?_append_left hlt]
            · rename_i hge
              rw [List.getElem?_append_right (by omega), List.getElem?_append_right (by omega),
                show j + 1 - I.length = (j - I.length) + 1 by omega, List.getElem?_cons_succ]
          rw [this, hj']
        · intro h
          exact hnd.1 (h ▸ List.getElem_mem hj)
        · rw [posAt_ok g2, hids', List.getElem?_map, hj']
          rfl

/-- The hypotheses are met by removing the root of a tree of three. -/
example : (spec ([.add 2 0, .add 1 0, .add 3 0] : List (Op Nat Nat)) 2).isSome = true := by decide

/-- C15 is false: after adding 2, 1, 3 the keys are at positions 0, 1, 2.  Removing 2 should leave 1 at 0
and 3 at 1, but 3 takes position 0 and 1 stays at position 1. -/
theorem C15_positions_wrong : ∃ s s' : S Nat Nat,
    run true S.init [.add 2 0, .add 1 0, .add 3 0] = .ok s ∧ getkey s 0 = .ok 2 ∧ getkey s 1 = .ok 1 ∧
      getkey s 2 = .ok 3 ∧ remove true s (.ext 2) = .ok s' ∧ getkey s' 0 = .ok 3 ∧ getkey s' 1 = .ok 1 :=
  ⟨⟨[⟨⟨2, 0, 3, 2⟩, some 1, some 2⟩, ⟨⟨1, 0, 1, 1⟩, none, none⟩, ⟨⟨3, 0, 1, 1⟩, none, none⟩], some 0⟩,
    ⟨[⟨⟨3, 0, 2, 2⟩, some 1, none⟩, ⟨⟨1, 0, 1, 1⟩, none, none⟩], some 0⟩, by decide⟩

end OP.Tree.Avl
