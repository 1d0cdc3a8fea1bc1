import Verif.Fem.Sparse
import Mathlib.Data.List.Perm.Basic
import Mathlib.Algebra.BigOperators.Group.List.Basic
/-!
# C88: the sparse matrix of the finite elements
-/
namespace OP.Fem

variable {K : Type} [Field K]

/-! ## Specification -/

/-- What adding the block `t` at `(i,j)` adds at `(a,b)` to a matrix that is symmetric. -/
def contribution (a b : Nat) (op : Nat × Nat × Blk K) : Blk K :=
  if op.1 = a ∧ op.2.1 = b then op.2.2 else if op.1 = b ∧ op.2.1 = a then tr op.2.2 else 0

/-- The symmetric matrix to which the blocks were added. -/
def total (ops : List (Nat × Nat × Blk K)) (a b : Nat) : Blk K := (ops.map (contribution a b)).sum

/-- The block of the matrix at `(a,b)` as read by following the pointers: 0 where there is no node, and transposed below the
diagonal. -/
def SMat.read (A : SMat K) (a b : Nat) : Res (Blk K) :=
  if a = b then .ok (A a).val
  else (A (max a b)).chain >>= fun l => .ok (match l.find? (fun n => n.i = min a b) with
    | none => 0
    | some n => if a < b then n.val else tr n.val)

/-- Additions to an empty matrix. -/
def build (ops : List (Nat × Nat × Blk K)) : Res (SMat K) :=
  ops.foldl (fun R op => R >>= fun A => A.append op.1 op.2.1 op.2.2) (.ok (SMat.new 0))

/-! ## Columns -/

/-- From the pointer `h` the nodes `l` are met in this order, and then the pointer `h'`. -/
def Seg (nodes : List (SNode K)) : Option Nat → List Nat → Option Nat → Prop
  | h, [], h' => h = h'
  | h, p :: l, h' => h = some p ∧ ∃ n, nodes[p]? = some n ∧ Seg nodes n.next l h'

/-- The rows are in order. -/
def Rows (nodes : List (SNode K)) (l : List Nat) : Prop :=
  l.Pairwise fun p q => ∀ n m, nodes[p]? = some n → nodes[q]? = some m → n.i < m.i

/-- The pointers of a column lead to each node once, in the order of the rows, which are above the diagonal. -/
def SCol.Good (d : SCol K) (c : Nat) : Prop :=
  (∃ l, Seg d.nodes d.head l none ∧ l.Perm (List.range d.nodes.length) ∧ Rows d.nodes l) ∧ ∀ n ∈ d.nodes, n.i < c

/-- The sum of the blocks in a row. -/
def SCol.at (d : SCol K) (r : Nat) : Blk K := (d.nodes.map fun n => if n.i = r then n.val else 0).sum

/-- The column has a node in the row. -/
def SCol.has (d : SCol K) (r : Nat) : Prop := r ∈ d.nodes.map SNode.i

theorem Seg.append {nodes : List (SNode K)} {h h' : Option Nat} {l m : List Nat} :
    Seg nodes h (l ++ m) h' ↔ ∃ x, Seg nodes h l x ∧ Seg nodes x m h' := by
  induction l generalizing h with
  | nil => simp [Seg]
  | cons p l ih =>
    simp only [List.cons_append, Seg, ih]
    constructor
    · rintro ⟨a, n, b, x, c, d⟩; exact ⟨x, ⟨a, n, b, c⟩, d⟩
    · rintro ⟨x, ⟨a, n, b, c⟩, d⟩; exact ⟨a, n, b, x, c, d⟩

theorem Seg.congr {nodes nodes' : List (SNode K)} {h h' : Option Nat} {l : List Nat}
    (e : ∀ p ∈ l, (nodes'[p]?).map SNode.next = (nodes[p]?).map SNode.next) (s : Seg nodes h l h') : Seg nodes' h l h' := by
  induction l generalizing h with
  | nil => exact s
  | cons p l ih =>
    obtain ⟨a, n, b, c⟩ := s
    have hp := e p List.mem_cons_self
    rw [b] at hp
    cases hn : nodes'[p]? with
    | none => rw [hn] at hp; simp at hp
    | some n' =>
      rw [hn] at hp
      simp only [Option.map_some, Option.some.injEq] at hp
      exact ⟨a, n', hn, ih (fun q hq => e q (List.mem_cons_of_mem _ hq)) (hp ▸ c)⟩

theorem Seg.head {nodes : List (SNode K)} {h : Option Nat} {l : List Nat} (s : Seg nodes h l none) : h = l.head? := by
  cases l with
  | nil => exact s
  | cons p l => exact s.1

theorem Rows.congr {nodes nodes' : List (SNode K)} {l : List Nat}
    (e : ∀ p ∈ l, (nodes'[p]?).map SNode.i = (nodes[p]?).map SNode.i) (s : Rows nodes l) : Rows nodes' l := by
  refine List.Pairwise.imp_of_mem ?_ s
  intro p q hp hq h n' m' hn hm
  have e1 := e p hp; have e2 := e q hq
  rw [hn] at e1; rw [hm] at e2
  cases hn0 : nodes[p]? with
  | none => rw [hn0] at e1; simp at e1
  | some n =>
    cases hm0 : nodes[q]? with
    | none => rw [hm0] at e2; simp at e2
    | some m =>
      rw [hn0] at e1; rw [hm0] at e2
      simp only [Option.map_some, Option.some.injEq] at e1 e2
      rw [e1, e2]; exact h n m hn0 hm0

theorem follow_seg {nodes : List (SNode K)} {l : List Nat} {h : Option Nat} {f : Nat} (hf : l.length ≤ f)
    (s : Seg nodes h l none) : follow nodes f h = .ok (l.filterMap (nodes[·]?)) := by
  induction l generalizing h f with
  | nil => rw [show h = none from s]; cases f <;> rfl
  | cons p l ih =>
    obtain ⟨a, n, b, c⟩ := s
    subst a
    cases f with
    | zero => simp at hf
    | succ f =>
      simp only [follow, b]
      rw [ih (by simpa using hf) c, List.filterMap_cons, b]
      rfl

theorem walk_seg {nodes : List (SNode K)} (r : Nat) {l : List Nat} {h : Option Nat} {f : Nat} (hf : l.length ≤ f)
    (s : Seg nodes h l none) (hs : Rows nodes l) (o : Option Nat) :
    ∃ a b, l = a ++ b ∧ walk nodes r f o h = .ok ((a.getLast?).or o, b.head?) ∧
      (∀ p ∈ a, ∀ n, nodes[p]? = some n → n.i < r) ∧ ∀ p ∈ b, ∀ n, nodes[p]? = some n → r ≤ n.i := by
  induction l generalizing h f o with
  | nil => rw [show h = none from s]; exact ⟨[], [], rfl, by cases f <;> rfl, by simp, by simp⟩
  | cons p l ih =>
    obtain ⟨e, n, b, c⟩ := s
    subst e
    cases f with
    | zero => simp at hf
    | succ f =>
      simp only [walk, b]
      obtain ⟨h1, h2⟩ := List.pairwise_cons.1 hs
      by_cases hr : n.i < r
      · obtain ⟨x, y, e1, e2, e3, e4⟩ := ih (by simpa using hf) c h2 (some p)
        refine ⟨p :: x, y, by rw [e1]; rfl, ?_, ?_, e4⟩
        · rw [if_pos hr, e2]
          congr 2
          cases x with
          | nil => simp
          | cons u x =>
            rw [List.getLast?_cons_cons]
            cases hx : (u :: x).getLast? with
            | none => simp at hx
            | some w => simp
        · intro q hq m hm
          rcases List.mem_cons.1 hq with rfl | hq
          · rw [b] at hm; cases hm; exact hr
          · exact e3 q hq m hm
      · refine ⟨[], p :: l, rfl, by rw [if_neg hr]; simp, by simp, ?_⟩
        intro q hq m hm
        rcases List.mem_cons.1 hq with rfl | hq
        · rw [b] at hm; cases hm; omega
        · have := h1 q hq n m b hm; omega

theorem at_set {nodes : List (SNode K)} {p : Nat} {n : SNode K} (hp : nodes[p]? = some n) (t : Blk K) (x : Nat) :
    ((nodes.set p { n with val := n.val + t }).map fun n => if n.i = x then n.val else 0).sum =
      (nodes.map fun n => if n.i = x then n.val else 0).sum + if n.i = x then t else 0 := by
  induction nodes generalizing p with
  | nil => simp at hp
  | cons m nodes ih =>
    cases p with
    | zero =>
      simp only [List.getElem?_cons_zero, Option.some.injEq] at hp
      subst hp
      simp only [List.set_cons_zero, List.map_cons, List.sum_cons]
      by_cases h : m.i = x
      · simp only [h, if_true]; rw [add_right_comm]
      · simp [h]
    | succ p =>
      simp only [List.getElem?_cons_succ] at hp
      simp only [List.set_cons_succ, List.map_cons, List.sum_cons, ih hp]
      rw [add_assoc]

theorem at_modify (nodes : List (SNode K)) (o : Nat) (z : Option Nat) (x : Nat) :
    ((nodes.modify o fun n => { n with next := z }).map fun n => if n.i = x then n.val else 0).sum =
      (nodes.map fun n => if n.i = x then n.val else 0).sum := by
  induction nodes generalizing o with
  | nil => simp
  | cons m nodes ih => cases o with
    | zero => simp
    | succ o => simp [ih]

theorem at_insert (d : SCol K) (o p : Option Nat) (r : Nat) (t : Blk K) (x : Nat) :
    (d.insert o p r t).at x = d.at x + if r = x then t else 0 := by
  cases o with
  | none => simp [SCol.insert, SCol.at]
  | some o => simp [SCol.insert, SCol.at, at_modify]

theorem has_insert (d : SCol K) (o p : Option Nat) (r : Nat) (t : Blk K) (x : Nat) :
    (d.insert o p r t).has x ↔ d.has x ∨ x = r := by
  have e : ∀ (l : List (SNode K)) o, (l.modify o fun n => { n with next := some d.nodes.length }).map SNode.i = l.map SNode.i := by
    intro l
    induction l with
    | nil => simp
    | cons m l ih => intro o; cases o with
      | zero => simp
      | succ o => simp [ih]
  cases o with
  | none => simp [SCol.insert, SCol.has]
  | some o => simp only [SCol.insert, SCol.has, List.map_append, e]; simp

theorem good_insert {d : SCol K} {c r : Nat} {a b : List Nat} (s : Seg d.nodes d.head (a ++ b) none)
    (hp : (a ++ b).Perm (List.range d.nodes.length)) (hs : Rows d.nodes (a ++ b)) (hb : ∀ n ∈ d.nodes, n.i < c) (hr : r < c)
    (ha : ∀ p ∈ a, ∀ n, d.nodes[p]? = some n → n.i < r) (hb' : ∀ p ∈ b, ∀ n, d.nodes[p]? = some n → r < n.i) (t : Blk K) :
    (d.insert a.getLast? b.head? r t).Good c := by
  have hlt : ∀ p ∈ a ++ b, p < d.nodes.length := fun p h => List.mem_range.1 (hp.mem_iff.1 h)
  have hnd : (a ++ b).Nodup := hp.nodup_iff.2 List.nodup_range
  obtain ⟨x, s1, s2⟩ := Seg.append.1 s
  have hx := s2.head; subst hx
  -- the new array
  obtain ⟨nodes', e1, e2, e3, e4, e5, hd⟩ : ∃ nodes', (d.insert a.getLast? b.head? r t).nodes = nodes' ∧
      nodes'.length = d.nodes.length + 1 ∧ nodes'[d.nodes.length]? = some ⟨t, r, b.head?⟩ ∧
      (∀ p < d.nodes.length, (nodes'[p]?).map SNode.i = (d.nodes[p]?).map SNode.i) ∧
      (∀ p < d.nodes.length, a.getLast? ≠ some p → nodes'[p]? = d.nodes[p]?) ∧
      ∀ n ∈ nodes', n.i < c := by
    cases ho : a.getLast? with
    | none =>
      refine ⟨d.nodes ++ [⟨t, r, b.head?⟩], rfl, by simp, by simp, ?_, ?_, ?_⟩
      · intro p h; rw [List.getElem?_append_left h]
      · intro p h _; rw [List.getElem?_append_left h]
      · intro n hn
        rcases List.mem_append.1 hn with hn | hn
        · exact hb n hn
        · rw [List.mem_singleton.1 hn]; exact hr
    | some o =>
      refine ⟨(d.nodes.modify o fun n => { n with next := some d.nodes.length }) ++ [⟨t, r, b.head?⟩], rfl, by simp, ?_, ?_, ?_, ?_⟩
      · rw [List.getElem?_append_right (by simp)]; simp
      · intro p h
        rw [List.getElem?_append_left (by simpa using h), List.getElem?_modify]
        cases d.nodes[p]? with
        | none => rfl
        | some n => by_cases hop : o = p <;> simp [hop]
      · intro p h hne
        rw [List.getElem?_append_left (by simpa using h), List.getElem?_modify]
        have : o ≠ p := fun h => hne (by rw [h])
        simp [this]
      · intro n hn
        rcases List.mem_append.1 hn with hn | hn
        · obtain ⟨i, hi⟩ := List.mem_iff_getElem?.1 hn
          rw [List.getElem?_modify] at hi
          cases hm : d.nodes[i]? with
          | none => rw [hm] at hi; simp at hi
          | some m =>
            rw [hm] at hi
            have := hb m (List.mem_of_getElem? hm)
            by_cases hop : o = i <;> simp [hop] at hi <;> rw [← hi] <;> exact this
        · rw [List.mem_singleton.1 hn]; exact hr
  refine ⟨⟨a ++ d.nodes.length :: b, ?_, ?_, ?_⟩, by rw [e1]; exact hd⟩
  · rw [e1]
    have hbseg : Seg nodes' b.head? b none := by
      refine Seg.congr ?_ s2
      intro p hpb
      rw [e5 p (hlt p (by simp [hpb]))]
      intro hl
      have : p ∈ a := List.mem_of_getLast? hl
      exact (List.disjoint_of_nodup_append hnd) this hpb
    have hnew : Seg nodes' (some d.nodes.length) (d.nodes.length :: b) none := ⟨rfl, _, e3, hbseg⟩
    rw [Seg.append]
    refine ⟨some d.nodes.length, ?_, hnew⟩
    rcases List.eq_nil_or_concat a with rfl | ⟨a', o, rfl⟩
    · simp [SCol.insert, Seg]
    · rw [List.concat_eq_append] at *
      have hl : (a' ++ [o]).getLast? = some o := by simp
      rw [hl] at e5 e1 ⊢
      obtain ⟨y, s3, s4⟩ := Seg.append.1 s1
      obtain ⟨rfl, n, hn, -⟩ := s4
      have hh : (d.insert (some o) b.head? r t).head = d.head := rfl
      rw [hh, Seg.append]
      refine ⟨some o, ?_, rfl, { n with next := some d.nodes.length }, ?_, rfl⟩
      · refine Seg.congr ?_ s3
        intro p hpa
        rw [e5 p (hlt p (by simp [hpa]))]
        intro hop
        simp only [Option.some.injEq] at hop
        subst hop
        have hnd' := (List.nodup_append.1 hnd).1
        exact (List.disjoint_of_nodup_append hnd') hpa (by simp)
      · have ho : o < d.nodes.length := hlt o (by simp)
        rw [← e1]
        simp only [SCol.insert]
        rw [List.getElem?_append_left (by simpa using ho), List.getElem?_modify, hn]
        simp
  · rw [e1, e2, List.range_succ]
    exact (List.perm_middle.trans (hp.cons _)).trans (List.perm_append_singleton _ _).symm
  · rw [e1]
    have hs' : Rows nodes' (a ++ b) := hs.congr fun p h => e4 p (hlt p h)
    obtain ⟨p1, p2, p3⟩ := List.pairwise_append.1 hs'
    refine List.pairwise_append.2 ⟨p1, List.pairwise_cons.2 ⟨?_, p2⟩, ?_⟩
    · intro q hq n m hn hm
      rw [e3] at hn; cases hn
      have := e4 q (hlt q (by simp [hq]))
      rw [hm] at this
      cases hm0 : d.nodes[q]? with
      | none => rw [hm0] at this; simp at this
      | some m0 =>
        rw [hm0] at this
        simp only [Option.map_some, Option.some.injEq] at this
        rw [this]; exact hb' q hq m0 hm0
    · intro q hq w hw n m hn hm
      rcases List.mem_cons.1 hw with rfl | hw
      · rw [e3] at hm; cases hm
        have := e4 q (hlt q (by simp [hq]))
        rw [hn] at this
        cases hm0 : d.nodes[q]? with
        | none => rw [hm0] at this; simp at this
        | some m0 =>
          rw [hm0] at this
          simp only [Option.map_some, Option.some.injEq] at this
          rw [this]; exact ha q hq m0 hm0
      · exact p3 q hq w hw n m hn hm

theorem good_append {d : SCol K} {c r : Nat} (g : d.Good c) (hr : r < c) (t : Blk K) :
    ∃ d', d.append r t = .ok d' ∧ d'.Good c ∧ d'.val = d.val ∧ (∀ x, d'.at x = d.at x + if r = x then t else 0) ∧
      ∀ x, d'.has x ↔ d.has x ∨ x = r := by
  obtain ⟨⟨l, s, hp, hs⟩, hc⟩ := g
  have hlen : l.length = d.nodes.length := by rw [hp.length_eq, List.length_range]
  obtain ⟨a, b, rfl, hw, ha, hb⟩ := walk_seg r (f := d.nodes.length + 1) (by omega) s hs none
  simp only [Option.or_none] at hw
  unfold SCol.append
  rw [hw, Res.ok_bind]
  cases hb0 : b.head? with
  | none =>
    have : b = [] := by simpa using hb0
    subst this
    refine ⟨_, rfl, ?_, ?_, fun x => at_insert _ _ _ _ _ _, fun x => has_insert _ _ _ _ _ _⟩
    · exact good_insert s hp hs hc hr ha (by simp) t
    · cases a.getLast? <;> rfl
  | some p =>
    obtain ⟨b', rfl⟩ : ∃ b', b = p :: b' := by
      cases b with
      | nil => simp at hb0
      | cons q b => simp at hb0; exact ⟨b, by rw [hb0]⟩
    obtain ⟨x, -, s2⟩ := Seg.append.1 s
    obtain ⟨-, n, hn, -⟩ := s2
    dsimp only
    rw [hn]
    dsimp only
    by_cases hi : n.i = r
    · rw [if_pos hi]
      refine ⟨_, rfl, ⟨⟨a ++ p :: b', ?_, by simpa using hp, ?_⟩, ?_⟩, rfl, ?_, ?_⟩
      · refine Seg.congr ?_ s
        intro q _
        rw [List.getElem?_set]
        split_ifs with h1 h2
        · subst h1; rw [hn]; rfl
        · subst h1; rw [List.getElem?_eq_none (by omega)]
        · rfl
      · refine Rows.congr ?_ hs
        intro q _
        dsimp only
        rw [List.getElem?_set]
        split_ifs with h1 h2
        · subst h1; rw [hn]; rfl
        · subst h1; rw [List.getElem?_eq_none (by omega)]
        · rfl
      · intro m hm
        rcases List.mem_or_eq_of_mem_set hm with hm | rfl
        · exact hc m hm
        · exact hc n (List.mem_of_getElem? hn)
      · intro x
        rw [← hi]; exact at_set hn t x
      · intro x
        have e : (d.nodes.set p { n with val := n.val + t }).map SNode.i = d.nodes.map SNode.i := by
          refine List.ext_getElem? fun q => ?_
          rw [List.getElem?_map, List.getElem?_map, List.getElem?_set]
          split_ifs with h1 h2
          · subst h1; rw [hn]; rfl
          · subst h1; rw [List.getElem?_eq_none (by omega)]
          · rfl
        unfold SCol.has
        dsimp only
        rw [e]
        refine ⟨Or.inl, fun h => h.elim id fun h => ?_⟩
        rw [h, ← hi]; exact List.mem_map_of_mem (List.mem_of_getElem? hn)
    · rw [if_neg hi]
      refine ⟨_, rfl, ?_, ?_, fun x => at_insert _ _ _ _ _ _, fun x => has_insert _ _ _ _ _ _⟩
      · refine good_insert s hp hs hc hr ha ?_ t
        intro q hq m hm
        rcases List.mem_cons.1 hq with rfl | hq
        · rw [hn] at hm; cases hm
          have := hb q (by simp) n hn; omega
        · have h1 := hb p (by simp) n hn
          have h2 := (List.pairwise_cons.1 (List.pairwise_append.1 hs).2.1).1 q hq n m hn hm
          omega
      · cases a.getLast? <;> rfl

/-- The pointers of a good column give the nodes in the order of the rows. -/
theorem good_chain {d : SCol K} {c : Nat} (g : d.Good c) :
    ∃ l, d.chain = .ok l ∧ l.Perm d.nodes ∧ l.Pairwise (fun n m => n.i < m.i) := by
  obtain ⟨⟨l, s, hp, hs⟩, hc⟩ := g
  have hlen : l.length = d.nodes.length := by rw [hp.length_eq, List.length_range]
  refine ⟨_, follow_seg (by omega) s, ?_, ?_⟩
  · refine (hp.filterMap _).trans ?_
    have : (List.range d.nodes.length).filterMap (d.nodes[·]?) = d.nodes := by
      refine List.ext_getElem? fun i => ?_
      have e : (List.range d.nodes.length).filterMap (d.nodes[·]?) =
          (List.range d.nodes.length).attach.map fun x => d.nodes[x.1]'(List.mem_range.1 x.2) := by
        conv_lhs => rw [← List.attach_map_subtype_val (List.range d.nodes.length), List.filterMap_map]
        rw [← List.filterMap_eq_map]
        refine List.filterMap_congr ?_
        intro x _
        simp only [Function.comp_apply]
        rw [List.getElem?_eq_getElem (List.mem_range.1 x.2)]
      rw [e]
      by_cases hi : i < d.nodes.length
      · simp [hi]
      · simp [hi]
    rw [this]
  · rw [List.pairwise_filterMap]
    exact hs.imp fun h n hn m hm => h n m hn hm

theorem find_sum {l : List (SNode K)} (h : l.Pairwise fun n m => n.i < m.i) (r : Nat) :
    (match l.find? (fun n => decide (n.i = r)) with
      | none => 0
      | some n => n.val) = (l.map fun n => if n.i = r then n.val else 0).sum := by
  induction l with
  | nil => rfl
  | cons n l ih =>
    obtain ⟨h1, h2⟩ := List.pairwise_cons.1 h
    rw [List.find?_cons, List.map_cons, List.sum_cons]
    by_cases hr : n.i = r
    · simp only [hr, decide_true, if_true]
      have : (l.map fun n => if n.i = r then n.val else 0) = l.map fun _ => (0 : Blk K) := by
        refine List.map_congr_left fun m hm => ?_
        have := h1 m hm
        rw [if_neg (by omega)]
      rw [this]; simp
    · simp only [hr, decide_false, if_false, zero_add]
      exact ih h2

/-! ## Matrices -/

/-- All columns are good. -/
def SMat.Good (A : SMat K) : Prop := ∀ c, (A c).Good c

/-- The block at `(a,b)`. -/
def SMat.entry (A : SMat K) (a b : Nat) : Blk K :=
  if a = b then (A a).val else if a < b then (A b).at a else tr ((A a).at b)

theorem good_read {A : SMat K} (g : A.Good) (a b : Nat) : A.read a b = .ok (A.entry a b) := by
  unfold SMat.read SMat.entry
  by_cases hab : a = b
  · rw [if_pos hab, if_pos hab]
  · rw [if_neg hab, if_neg hab]
    obtain ⟨l, h1, h2, h3⟩ := good_chain (g (max a b))
    rw [h1, Res.ok_bind]
    have hf := find_sum h3 (min a b)
    have hat : (A (max a b)).at (min a b) = (l.map fun n => if n.i = min a b then n.val else 0).sum :=
      ((h2.map _).sum_eq).symm
    rw [← hat] at hf
    congr 1
    by_cases hlt : a < b
    · rw [max_eq_right hlt.le, min_eq_left hlt.le] at *
      simp only [if_pos hlt]
      rw [← hf]
    · rw [max_eq_left (by omega), min_eq_right (by omega)] at *
      simp only [if_neg hlt]
      rw [← hf]
      cases l.find? fun n => decide (n.i = b) <;> rfl

theorem tr_add (s t : Blk K) : tr (s + t) = tr s + tr t := rfl
theorem tr_tr (t : Blk K) : tr (tr t) = t := rfl

theorem good_new (d : K) : (SMat.new d).Good := fun _ => ⟨⟨[], rfl, by simp [SMat.new], List.Pairwise.nil⟩, by simp [SMat.new]⟩

theorem good_mat_append {A : SMat K} (g : A.Good) (i j : Nat) (t : Blk K) :
    ∃ B, A.append i j t = .ok B ∧ B.Good ∧ (∀ a b, B.entry a b = A.entry a b + contribution a b (i, j, t)) ∧
      ∀ c x, (B c).has x ↔ (A c).has x ∨ x < c ∧ ((x = i ∧ c = j) ∨ (x = j ∧ c = i)) := by
  unfold SMat.append
  by_cases hij : i = j
  · subst hij
    rw [if_pos rfl]
    refine ⟨_, rfl, ?_, ?_, ?_⟩
    · intro c
      by_cases hc : c = i
      · subst hc; rw [Function.update_self]; exact g c
      · rw [Function.update_of_ne hc]; exact g c
    · intro a b
      simp only [SMat.entry, contribution]
      by_cases hab : a = b
      · subst hab
        by_cases hia : i = a
        · subst hia; simp
        · simp [hia, Ne.symm hia]
      · have h1 : ¬(i = a ∧ i = b) := fun h => hab (h.1.symm.trans h.2)
        have h2 : ¬(i = b ∧ i = a) := fun h => hab (h.2.symm.trans h.1)
        have hat : ∀ c x, ((Function.update A i { A i with val := (A i).val + t }) c).at x = (A c).at x := by
          intro c x
          by_cases hc : c = i
          · subst hc; rw [Function.update_self]; rfl
          · rw [Function.update_of_ne hc]
        simp [hab, h1, h2, hat]
    · intro c x
      have : ((Function.update A i { A i with val := (A i).val + t }) c).has x ↔ (A c).has x := by
        by_cases hc : c = i
        · subst hc; rw [Function.update_self]; rfl
        · rw [Function.update_of_ne hc]
      rw [this]
      refine ⟨Or.inl, fun h => h.elim id fun h => ?_⟩
      omega
  · rw [if_neg hij]
    obtain ⟨d', e1, e2, e3, e4, e5⟩ := good_append (g (max i j)) (r := min i j) (by omega) (if j < i then tr t else t)
    rw [e1, Res.ok_bind]
    refine ⟨_, rfl, ?_, ?_, ?_⟩
    rotate_left 2
    · intro c x
      by_cases hc : c = max i j
      · subst hc
        rw [Function.update_self, e5]
        refine or_congr Iff.rfl ?_
        omega
      · rw [Function.update_of_ne hc]
        refine ⟨Or.inl, fun h => h.elim id fun h => ?_⟩
        omega
    · intro c
      by_cases hc : c = max i j
      · subst hc; rw [Function.update_self]; exact e2
      · rw [Function.update_of_ne hc]; exact g c
    · intro a b
      have hat : ∀ c x, ((Function.update A (max i j) d') c).at x =
          (A c).at x + if c = max i j ∧ min i j = x then (if j < i then tr t else t) else 0 := by
        intro c x
        by_cases hc : c = max i j
        · subst hc; rw [Function.update_self, e4]; simp
        · rw [Function.update_of_ne hc]; simp [hc]
      simp only [SMat.entry, contribution]
      by_cases hab : a = b
      · subst hab
        have h1 : ¬(i = a ∧ j = a) := fun h => hij (h.1.trans h.2.symm)
        simp only [if_true, h1, if_false, add_zero]
        by_cases hc : a = max i j
        · subst hc; rw [Function.update_self, e3]
        · rw [Function.update_of_ne hc]
      · simp only [if_neg hab, hat]
        by_cases hlt : a < b
        · simp only [if_pos hlt]
          congr 1
          by_cases hji : j < i
          · simp only [if_pos hji]
            have h1 : ¬(i = a ∧ j = b) := by omega
            simp only [if_neg h1]
            refine if_congr ?_ rfl rfl
            omega
          · simp only [if_neg hji]
            have h1 : ¬(i = b ∧ j = a) := by omega
            simp only [if_neg h1]
            refine if_congr ?_ rfl rfl
            omega
        · simp only [if_neg hlt, tr_add]
          congr 1
          by_cases hji : j < i
          · simp only [if_pos hji]
            have h1 : ¬(i = b ∧ j = a) := by omega
            simp only [if_neg h1]
            by_cases h2 : i = a ∧ j = b
            · rw [if_pos h2, if_pos (by omega)]; rfl
            · rw [if_neg h2, if_neg (by omega)]; rfl
          · simp only [if_neg hji]
            have h1 : ¬(i = a ∧ j = b) := by omega
            simp only [if_neg h1]
            by_cases h2 : i = b ∧ j = a
            · rw [if_pos h2, if_pos (by omega)]
            · rw [if_neg h2, if_neg (by omega)]; rfl

theorem good_appends {A : SMat K} (g : A.Good) (ops : List (Nat × Nat × Blk K)) :
    ∃ B, ops.foldl (fun (R : Res (SMat K)) op => R >>= fun A => A.append op.1 op.2.1 op.2.2) (.ok A) = .ok B ∧ B.Good ∧
      (∀ a b, B.entry a b = A.entry a b + total ops a b) ∧
      ∀ c x, (B c).has x ↔ (A c).has x ∨ x < c ∧ ∃ op ∈ ops, (x = op.1 ∧ c = op.2.1) ∨ (x = op.2.1 ∧ c = op.1) := by
  induction ops generalizing A with
  | nil => exact ⟨A, rfl, g, by simp [total], by simp⟩
  | cons op ops ih =>
    obtain ⟨B, e1, e2, e3, e4⟩ := good_mat_append g op.1 op.2.1 op.2.2
    obtain ⟨C, f1, f2, f3, f4⟩ := ih e2
    refine ⟨C, ?_, f2, ?_, fun c x => ?_⟩
    rotate_left 2
    · rw [f4, e4, List.exists_mem_cons_iff, or_assoc, ← and_or_left]
    · rw [List.foldl_cons, Res.ok_bind, e1]; exact f1
    · intro a b
      rw [f3, e3, total, total, List.map_cons, List.sum_cons, add_assoc]

theorem entry_new (a b : Nat) : (SMat.new (0 : K)).entry a b = 0 := by
  unfold SMat.entry SMat.new SCol.at
  split_ifs
  · funext x y; simp
  · rfl
  · rfl

/-- C88: whatever blocks are added, in whatever order and on whichever side of the diagonal, the matrix reads as the symmetric
matrix to which they were added. -/
theorem C88_append (ops : List (Nat × Nat × Blk K)) :
    ∃ A, build ops = .ok A ∧ ∀ a b, A.read a b = .ok (total ops a b) := by
  obtain ⟨A, e1, e2, e3, -⟩ := good_appends (good_new (0 : K)) ops
  exact ⟨A, e1, fun a b => by rw [good_read e2, e3, entry_new, zero_add]⟩

/-! ## Sorting -/

/-- The rows are in order, possibly repeated. -/
def Asc (l : List (SNode K)) : Prop := l.Pairwise fun n m => n.i ≤ m.i

theorem sink_spec (pre : List (SNode K)) (x : SNode K) (post : List (SNode K)) (h : Asc pre) :
    ∃ pre', sink pre.length (pre ++ x :: post) = pre' ++ post ∧ pre'.Perm (pre ++ [x]) ∧ Asc pre' := by
  induction pre using List.reverseRecOn generalizing x post with
  | nil => exact ⟨[x], rfl, List.Perm.refl _, by simp [Asc]⟩
  | append_singleton q a ih =>
    obtain ⟨h1, -, h3⟩ := List.pairwise_append.1 h
    have e0 : (q ++ [a] ++ x :: post)[q.length]? = some a := by simp
    have e1 : (q ++ [a] ++ x :: post)[q.length + 1]? = some x := by simp
    rw [List.length_append, List.length_singleton, sink, e0, e1]
    dsimp only
    by_cases hx : a.i > x.i
    · rw [if_pos hx]
      have e2 : ((q ++ [a] ++ x :: post).set q.length x).set (q.length + 1) a = q ++ x :: (a :: post) := by
        simp
      rw [e2]
      obtain ⟨q', f1, f2, f3⟩ := ih x (a :: post) h1
      refine ⟨q' ++ [a], by rw [f1]; simp, ?_, ?_⟩
      · refine (f2.append_right [a]).trans ?_
        rw [List.append_assoc, List.append_assoc]
        exact List.Perm.append_left q (List.Perm.swap _ _ _)
      · refine List.pairwise_append.2 ⟨f3, by simp, ?_⟩
        intro n hn m hm
        rw [List.mem_singleton.1 hm]
        rcases List.mem_append.1 (f2.mem_iff.1 hn) with hn | hn
        · exact h3 n hn a (by simp)
        · rw [List.mem_singleton.1 hn]; omega
    · rw [if_neg hx]
      refine ⟨q ++ [a] ++ [x], by simp, List.Perm.refl _, ?_⟩
      refine List.pairwise_append.2 ⟨h, by simp, ?_⟩
      intro n hn m hm
      rw [List.mem_singleton.1 hm]
      rcases List.mem_append.1 hn with hn | hn
      · have := h3 n hn a (by simp); omega
      · rw [List.mem_singleton.1 hn]; omega

theorem sort_steps (m : Nat) : ∀ (s rest : List (SNode K)), Asc s → m ≤ rest.length →
    ∃ s', (List.range' s.length m).foldl (fun l j => sink j l) (s ++ rest) = s' ++ rest.drop m ∧
      s'.Perm (s ++ rest.take m) ∧ Asc s' := by
  induction m with
  | zero => intro s rest h _; exact ⟨s, by simp, by simp, h⟩
  | succ m ih =>
    intro s rest h hm
    cases rest with
    | nil => simp at hm
    | cons x rest =>
      obtain ⟨s1, e1, e2, e3⟩ := sink_spec s x rest h
      have hl : s1.length = s.length + 1 := by rw [e2.length_eq]; simp
      obtain ⟨s2, f1, f2, f3⟩ := ih s1 rest e3 (by simpa using hm)
      refine ⟨s2, ?_, ?_, f3⟩
      · rw [List.range'_succ, List.foldl_cons, e1, ← hl, f1]; rfl
      · refine f2.trans ((e2.append_right _).trans ?_)
        simp

theorem insertionSort_spec (l : List (SNode K)) : (insertionSort l).Perm l ∧ Asc (insertionSort l) := by
  cases l with
  | nil => exact ⟨List.Perm.refl _, List.Pairwise.nil⟩
  | cons x rest =>
    obtain ⟨s', e1, e2, e3⟩ := sort_steps rest.length [x] rest (by simp [Asc]) le_rfl
    have : insertionSort (x :: rest) = s' := by
      unfold insertionSort
      simpa using e1
    rw [this]
    exact ⟨by simpa using e2, e3⟩

/-! ## Tidying -/

/-- The nodes of the column lie in the order of the rows, from the first pointer on. -/
def SCol.Tidy (d : SCol K) : Prop := d.array = .ok d.nodes ∧ d.nodes.Pairwise fun n m => n.i < m.i

theorem relink_get (l : List (SNode K)) (j : Nat) : (relink l)[j]? =
    (l[j]?).map fun n => { n with next := if j = l.length - 1 then none else some (j + 1) } := by
  simp [relink]

theorem relink_seg (l : List (SNode K)) (m : Nat) : ∀ k, k + m = l.length → 0 < m →
    Seg (relink l) (some k) (List.range' k m) none := by
  induction m with
  | zero => intro k _ h; omega
  | succ m ih =>
    intro k hk _
    rw [List.range'_succ]
    have hkl : k < l.length := by omega
    refine ⟨rfl, _, by rw [relink_get, List.getElem?_eq_getElem hkl]; rfl, ?_⟩
    dsimp only
    cases m with
    | zero => rw [if_pos (by omega)]; rfl
    | succ m => rw [if_neg (by omega)]; exact ih (k + 1) (by omega) (by omega)

theorem relink_map (l : List (SNode K)) {β : Type} (f : SNode K → β) (hf : ∀ n z, f { n with next := z } = f n) :
    (relink l).map f = l.map f := by
  refine List.ext_getElem? fun j => ?_
  rw [List.getElem?_map, List.getElem?_map, relink_get]
  cases l[j]? with
  | none => rfl
  | some n => simp [hf]

theorem pairwise_map_iff {β : Type} (f : SNode K → β) (R : β → β → Prop) (l m : List (SNode K)) (h : l.map f = m.map f) :
    (l.Pairwise fun a b => R (f a) (f b)) ↔ m.Pairwise fun a b => R (f a) (f b) := by
  exact (List.pairwise_map (f := f) (R := R)).symm.trans (h ▸ List.pairwise_map (f := f) (R := R))

theorem good_distinct {d : SCol K} {c : Nat} (g : d.Good c) : d.nodes.Pairwise fun n m => n.i ≠ m.i := by
  obtain ⟨l, -, h2, h3⟩ := good_chain g
  have : l.Pairwise fun n m => n.i ≠ m.i := h3.imp fun h => by omega
  exact h2.pairwise this fun h => Ne.symm h

theorem head_none {d : SCol K} {c : Nat} (g : d.Good c) : d.head = none ↔ d.nodes = [] := by
  obtain ⟨⟨l, s, hp, -⟩, -⟩ := g
  have hlen : l.length = d.nodes.length := by rw [hp.length_eq, List.length_range]
  cases l with
  | nil =>
    refine ⟨fun _ => ?_, fun _ => s⟩
    exact List.eq_nil_of_length_eq_zero (by simpa using hlen.symm)
  | cons p l =>
    refine ⟨fun h => ?_, fun h => ?_⟩
    · rw [s.1] at h; cases h
    · rw [h] at hlen; simp at hlen

/-- Tidying any nodes with distinct rows above the diagonal. -/
theorem tidy_any {d : SCol K} {c : Nat} (hd : d.nodes.Pairwise fun n m => n.i ≠ m.i) (hc : ∀ n ∈ d.nodes, n.i < c)
    (hh : d.head = none ↔ d.nodes = []) (hn : d.nodes.length ≤ 65535) :
    ∃ d', d.tidy = .ok d' ∧ d'.Good c ∧ d'.Tidy ∧ d'.val = d.val ∧
      (d'.nodes.map fun n => (n.i, n.val)).Perm (d.nodes.map fun n => (n.i, n.val)) := by
  obtain ⟨hp, hs⟩ := insertionSort_spec d.nodes
  have hlen : (insertionSort d.nodes).length = d.nodes.length := hp.length_eq
  have hlen' : (relink (insertionSort d.nodes)).length = d.nodes.length := by simp [relink, hlen]
  have hstrict : (insertionSort d.nodes).Pairwise fun n m => n.i < m.i := by
    have h1 : (insertionSort d.nodes).Pairwise fun n m => n.i ≠ m.i := hp.symm.pairwise hd fun h => Ne.symm h
    exact hs.imp₂ (fun _ _ a b => by omega) h1
  have hstrict' : (relink (insertionSort d.nodes)).Pairwise fun n m => n.i < m.i :=
    (pairwise_map_iff SNode.i (· < ·) _ _ (relink_map _ SNode.i fun _ _ => rfl)).2 hstrict
  have hin : ∀ n ∈ relink (insertionSort d.nodes), n.i < c := by
    intro n hn
    have : n.i ∈ (relink (insertionSort d.nodes)).map SNode.i := List.mem_map_of_mem hn
    rw [relink_map _ SNode.i fun _ _ => rfl] at this
    obtain ⟨m, hm, e⟩ := List.mem_map.1 this
    rw [← e]; exact hc m (hp.mem_iff.1 hm)
  unfold SCol.tidy
  rw [if_neg (by omega)]
  refine ⟨_, rfl, ⟨⟨List.range d.nodes.length, ?_, ?_, ?_⟩, hin⟩, ⟨?_, hstrict'⟩, rfl, ?_⟩
  · dsimp only
    cases hn0 : d.head with
    | none => rw [hh.1 hn0]; rfl
    | some h =>
      have hne : d.nodes ≠ [] := fun e => by rw [hh.2 e] at hn0; cases hn0
      have hpos := List.length_pos_iff.2 hne
      rw [List.range_eq_range']
      exact relink_seg _ _ 0 (by omega) hpos
  · dsimp only; rw [hlen']
  · dsimp only
    rw [Rows, List.pairwise_iff_getElem]
    intro i j hi hj hij n m hn hm
    rw [List.getElem_range] at hn hm
    obtain ⟨h1, e1⟩ := List.getElem?_eq_some_iff.1 hn
    obtain ⟨h2, e2⟩ := List.getElem?_eq_some_iff.1 hm
    rw [← e1, ← e2]
    exact List.pairwise_iff_getElem.1 hstrict' i j h1 h2 hij
  · unfold SCol.array
    cases hn0 : d.head with
    | none =>
      dsimp only [Option.map_none]
      rw [hlen', hh.1 hn0]; rfl
    | some h =>
      dsimp only [Option.map_some]
      rw [if_pos (by omega), List.drop_zero, List.take_length]
  · dsimp only
    rw [relink_map _ (fun n => (n.i, n.val)) fun _ _ => rfl]
    exact hp.map _

theorem at_perm {d d' : SCol K} (h : (d'.nodes.map fun n => (n.i, n.val)).Perm (d.nodes.map fun n => (n.i, n.val))) (r : Nat) :
    d'.at r = d.at r := by
  have e : ∀ d : SCol K, d.at r = ((d.nodes.map fun n => (n.i, n.val)).map fun x => if x.1 = r then x.2 else 0).sum := by
    intro d; rw [List.map_map]; rfl
  rw [e, e]; exact (h.map _).sum_eq

theorem has_perm {d d' : SCol K} (h : (d'.nodes.map fun n => (n.i, n.val)).Perm (d.nodes.map fun n => (n.i, n.val))) (r : Nat) :
    d'.has r ↔ d.has r := by
  have e : ∀ d : SCol K, d.nodes.map SNode.i = (d.nodes.map fun n => (n.i, n.val)).map Prod.fst := by
    intro d; rw [List.map_map]; rfl
  unfold SCol.has
  rw [e, e]; exact (h.map _).mem_iff

/-- Two columns hold the same blocks. -/
def Same (d' d : SCol K) : Prop :=
  d'.val = d.val ∧ (d'.nodes.map fun n => (n.i, n.val)).Perm (d.nodes.map fun n => (n.i, n.val))

theorem tidy_mat {A : SMat K} {nnd : Nat} (h : ∀ c < nnd, ((A c).nodes.Pairwise fun n m => n.i ≠ m.i) ∧
      (∀ n ∈ (A c).nodes, n.i < c) ∧ ((A c).head = none ↔ (A c).nodes = []) ∧ (A c).nodes.length ≤ 65535) :
    ∃ B, A.tidy nnd = .ok B ∧ (∀ c < nnd, (B c).Good c ∧ (B c).Tidy ∧ Same (B c) (A c)) ∧ ∀ c, nnd ≤ c → B c = A c := by
  induction nnd with
  | zero => exact ⟨A, rfl, by omega, fun _ _ => rfl⟩
  | succ n ih =>
    obtain ⟨B, e1, e2, e3⟩ := ih fun c hc => h c (by omega)
    have hn := h n (by omega)
    obtain ⟨d, f1, f2, f3, f4, f5⟩ := tidy_any (d := B n) (c := n) (by rw [e3 n le_rfl]; exact hn.1) (by rw [e3 n le_rfl]; exact hn.2.1)
      (by rw [e3 n le_rfl]; exact hn.2.2.1) (by rw [e3 n le_rfl]; exact hn.2.2.2)
    refine ⟨Function.update B n d, ?_, ?_, ?_⟩
    · unfold SMat.tidy at e1 ⊢
      rw [List.range_succ, List.foldl_append, e1]
      simp [f1]
    · intro c hc
      by_cases hcn : c = n
      · subst hcn
        rw [Function.update_self]
        rw [e3 c le_rfl] at f4 f5
        exact ⟨f2, f3, f4, f5⟩
      · rw [Function.update_of_ne hcn]
        exact e2 c (by omega)
    · intro c hc
      rw [Function.update_of_ne (by omega)]
      exact e3 c (by omega)

theorem entry_same {A B : SMat K} {nnd : Nat} (h1 : ∀ c < nnd, Same (B c) (A c)) (h2 : ∀ c, nnd ≤ c → B c = A c) (a b : Nat) :
    B.entry a b = A.entry a b := by
  have hv : ∀ c, (B c).val = (A c).val := fun c => by
    by_cases hc : c < nnd
    · exact (h1 c hc).1
    · rw [h2 c (by omega)]
  have ha : ∀ c r, (B c).at r = (A c).at r := fun c r => by
    by_cases hc : c < nnd
    · exact at_perm (h1 c hc).2 r
    · rw [h2 c (by omega)]
  unfold SMat.entry
  rw [hv, ha, ha]

theorem good_tidy {A : SMat K} (g : A.Good) {nnd : Nat} (hn : ∀ c < nnd, (A c).nodes.length ≤ 65535) :
    ∃ B, A.tidy nnd = .ok B ∧ B.Good ∧ (∀ c < nnd, (B c).Tidy) ∧ (∀ a b, B.entry a b = A.entry a b) ∧
      ∀ c x, (B c).has x ↔ (A c).has x := by
  obtain ⟨B, e1, e2, e3⟩ := tidy_mat (A := A) (nnd := nnd) fun c hc => ⟨good_distinct (g c), (g c).2, head_none (g c), hn c hc⟩
  refine ⟨B, e1, ?_, fun c hc => (e2 c hc).2.1, entry_same (fun c hc => (e2 c hc).2.2) e3, ?_⟩
  · intro c
    by_cases hc : c < nnd
    · exact (e2 c hc).1
    · rw [e3 c (by omega)]; exact g c
  · intro c x
    by_cases hc : c < nnd
    · exact has_perm (e2 c hc).2.2.2 x
    · rw [e3 c (by omega)]

theorem tidy_chain {d : SCol K} {c : Nat} (g : d.Good c) (h : d.Tidy) : d.chain = .ok d.nodes := by
  obtain ⟨l, h1, h2, h3⟩ := good_chain g
  rw [h1]
  congr 1
  exact h2.eq_of_pairwise (fun a b _ _ u v => by omega) h3 h.2

/-- C88: tidying keeps the matrix, and after it the nodes of each column lie one behind the other as the products expect. -/
theorem C88_tidy {ops : List (Nat × Nat × Blk K)} {A : SMat K} (h : build ops = .ok A) {nnd : Nat}
    (hn : ∀ c < nnd, (A c).nodes.length ≤ 65535) :
    ∃ B, A.tidy nnd = .ok B ∧ (∀ a b, B.read a b = .ok (total ops a b)) ∧ ∀ c < nnd, (B c).array = (B c).chain := by
  obtain ⟨A', e1, e2, e3, -⟩ := good_appends (good_new (0 : K)) ops
  have : A' = A := by
    have := e1.symm.trans h
    injection this
  subst this
  obtain ⟨B, f1, f2, f3, f4, -⟩ := good_tidy e2 hn
  refine ⟨B, f1, fun a b => by rw [good_read f2, f4, e3, entry_new, zero_add], fun c hc => ?_⟩
  rw [(f3 c hc).1, tidy_chain (f2 c) (f3 c hc)]

/-- C88, the code: a column with more nodes is not tidied, as the loop does not end. -/
theorem C88_tidy_wrong {A : SMat K} {nnd c : Nat} (hc : c < nnd) (h : 65535 < (A c).nodes.length) : ∀ B, A.tidy nnd ≠ .ok B := by
  have key : ∀ n, (n ≤ c → ∀ B, A.tidy n = .ok B → B c = A c) ∧ (c < n → ∀ B, A.tidy n ≠ .ok B) := by
    intro n
    induction n with
    | zero => exact ⟨fun _ B hB => by cases hB; rfl, by omega⟩
    | succ n ih =>
      have e : A.tidy (n + 1) = (A.tidy n >>= fun B => (B n).tidy >>= fun d => .ok (Function.update B n d)) := by
        unfold SMat.tidy
        rw [List.range_succ, List.foldl_append]; rfl
      constructor
      · intro hn B hB
        rw [e] at hB
        obtain ⟨C, h1, h2⟩ := Res.bind_eq_ok.1 hB
        obtain ⟨d, -, h3⟩ := Res.bind_eq_ok.1 h2
        cases h3
        rw [Function.update_of_ne (by omega)]
        exact ih.1 (by omega) C h1
      · intro hn B hB
        rw [e] at hB
        obtain ⟨C, h1, h2⟩ := Res.bind_eq_ok.1 hB
        by_cases hcn : c < n
        · exact ih.2 hcn C h1
        · have : n = c := by omega
          subst this
          obtain ⟨d, h3, -⟩ := Res.bind_eq_ok.1 h2
          rw [ih.1 le_rfl C h1, SCol.tidy, if_pos h] at h3
          cases h3
  exact (key nnd).2 hc

/-- There are such columns. -/
theorem C88_tidy_wrong_case (t : Blk K) : ∃ A, build ((List.range 65536).map fun i => (i, 65536, t)) = .ok A ∧ 65535 < (A 65536).nodes.length := by
  obtain ⟨A, e1, e2, -, e4⟩ := good_appends (good_new (0 : K)) ((List.range 65536).map fun i => (i, 65536, t))
  refine ⟨A, e1, ?_⟩
  have : List.range 65536 ⊆ (A 65536).nodes.map SNode.i := by
    intro x hx
    refine (e4 65536 x).2 (Or.inr ⟨List.mem_range.1 hx, ?_⟩)
    exact ⟨(x, 65536, t), List.mem_map_of_mem hx, Or.inl ⟨rfl, rfl⟩⟩
  have h2 := (List.subperm_of_subset List.nodup_range this).length_le
  rw [List.length_range, List.length_map] at h2
  omega

/-- C88: the copy reads as the matrix. -/
theorem copy_col {A B : SMat K} (g : A.Good) (gB : B.Good) (i : Nat) : ∃ C, A.copyCol B i = .ok C ∧ C.Good ∧
    (∀ a b, C.entry a b = B.entry a b + if max a b = i then A.entry a b else 0) ∧
    ∀ c x, (C c).has x ↔ (B c).has x ∨ (c = i ∧ (A c).has x) := by
  obtain ⟨B1, e1, e2, e3, e4⟩ := good_mat_append gB i i (A i).val
  obtain ⟨l, h1, h2, h3⟩ := good_chain (g i)
  obtain ⟨C, f1, f2, f3, f4⟩ := good_appends e2 (l.map fun n => (n.i, i, n.val))
  refine ⟨C, ?_, f2, ?_, ?_⟩
  · unfold SMat.copyCol
    rw [e1, Res.ok_bind, h1, Res.ok_bind, ← f1, List.foldl_map]
  · intro a b
    rw [f3, e3, add_assoc]
    congr 1
    have hl : ∀ n ∈ l, n.i < i := fun n hn => (g i).2 n (h2.mem_iff.1 hn)
    have hat : ∀ r, (A i).at r = (l.map fun n => if n.i = r then n.val else 0).sum := fun r => ((h2.map _).sum_eq).symm
    have htr : ∀ r, tr ((A i).at r) = (l.map fun n => if n.i = r then tr n.val else 0).sum := by
      intro r
      rw [hat]
      clear h1 h2 h3 f1 f3 hl hat f4
      induction l with
      | nil => rfl
      | cons n l ih =>
        rw [List.map_cons, List.sum_cons, tr_add, ih, List.map_cons, List.sum_cons]
        congr 1
        split_ifs <;> rfl
    unfold total
    rw [List.map_map, show contribution a b ∘ (fun n : SNode K => (n.i, i, n.val)) = fun n =>
      if n.i = a ∧ i = b then n.val else if n.i = b ∧ i = a then tr n.val else 0 from rfl]
    simp only [SMat.entry, contribution]
    by_cases hab : a = b
    · subst hab
      have : (l.map fun n : SNode K => if n.i = a ∧ i = a then n.val else if n.i = a ∧ i = a then tr n.val else 0) = l.map fun _ => (0 : Blk K) := by
        refine List.map_congr_left fun n hn => ?_
        have := hl n hn
        rw [if_neg (by omega), if_neg (by omega)]
      rw [this]
      rw [show (l.map fun _ => (0 : Blk K)).sum = 0 by simp]
      simp only [max_self, if_true, add_zero, and_self]
      by_cases hia : i = a
      · subst hia; simp
      · simp [hia, Ne.symm hia]
    · have hno : ¬(i = a ∧ i = b) := by omega
      have hno' : ¬(i = b ∧ i = a) := by omega
      simp only [if_neg hab, if_neg hno, if_neg hno', zero_add]
      by_cases hlt : a < b
      · rw [max_eq_right hlt.le, if_pos hlt]
        by_cases hb : b = i
        · subst hb
          rw [if_pos rfl, hat]
          congr 1
          refine List.map_congr_left fun n hn => ?_
          simp only [and_true]
          by_cases hna : n.i = a
          · rw [if_pos hna, if_pos hna]
          · rw [if_neg hna, if_neg hna, if_neg (by omega)]
        · rw [if_neg hb]
          have : (l.map fun n : SNode K => if n.i = a ∧ i = b then n.val else if n.i = b ∧ i = a then tr n.val else 0) = l.map fun _ => (0 : Blk K) := by
            refine List.map_congr_left fun n hn => ?_
            have := hl n hn
            rw [if_neg (by omega), if_neg (by omega)]
          rw [this]; simp
      · rw [max_eq_left (by omega), if_neg hlt]
        by_cases ha : a = i
        · subst ha
          rw [if_pos rfl, htr]
          congr 1
          refine List.map_congr_left fun n hn => ?_
          simp only [and_true]
          have := hl n hn
          rw [if_neg (by omega)]
        · rw [if_neg ha]
          have : (l.map fun n : SNode K => if n.i = a ∧ i = b then n.val else if n.i = b ∧ i = a then tr n.val else 0) = l.map fun _ => (0 : Blk K) := by
            refine List.map_congr_left fun n hn => ?_
            have := hl n hn
            rw [if_neg (by omega), if_neg (by omega)]
          rw [this]; simp
  · intro c x
    rw [f4, e4]
    have hh : (A i).has x ↔ ∃ n ∈ l, n.i = x := by
      unfold SCol.has
      rw [← (h2.map SNode.i).mem_iff]; simp
    constructor
    · rintro ((h | ⟨h, h'⟩) | ⟨hx, op, hop, h⟩)
      · exact Or.inl h
      · omega
      · obtain ⟨n, hn, rfl⟩ := List.mem_map.1 hop
        have := (g i).2 n (h2.mem_iff.1 hn)
        dsimp only at h
        have hc : c = i := by omega
        subst hc
        exact Or.inr ⟨rfl, hh.2 ⟨n, hn, by omega⟩⟩
    · rintro (h | ⟨rfl, h⟩)
      · exact Or.inl (Or.inl h)
      · obtain ⟨n, hn, rfl⟩ := hh.1 h
        exact Or.inr ⟨(g c).2 n (h2.mem_iff.1 hn), _, List.mem_map_of_mem hn, Or.inl ⟨rfl, rfl⟩⟩

theorem good_copy {A : SMat K} (g : A.Good) (nnd : Nat) : ∃ B, A.copy nnd = .ok B ∧ B.Good ∧
    (∀ a < nnd, ∀ b < nnd, B.entry a b = A.entry a b) ∧ ∀ c < nnd, ∀ x, (B c).has x ↔ (A c).has x := by
  have key : ∀ n, ∃ B, A.copy n = .ok B ∧ B.Good ∧ (∀ a b, B.entry a b = if max a b < n then A.entry a b else 0) ∧
      ∀ c x, (B c).has x ↔ c < n ∧ (A c).has x := by
    intro n
    induction n with
    | zero => exact ⟨_, rfl, good_new 0, fun a b => by simp [entry_new], fun c x => by simp [SMat.new, SCol.has]⟩
    | succ n ih =>
      obtain ⟨B, e1, e2, e3, e4⟩ := ih
      obtain ⟨C, f1, f2, f3, f4⟩ := copy_col g e2 n
      refine ⟨C, ?_, f2, ?_, ?_⟩
      · unfold SMat.copy at e1 ⊢
        rw [List.range_succ, List.foldl_append, e1]
        simpa using f1
      · intro a b
        rw [f3, e3]
        by_cases h1 : max a b < n
        · rw [if_pos h1, if_neg (by omega), if_pos (by omega), add_zero]
        · rw [if_neg h1, zero_add]
          exact if_congr (by omega) rfl rfl
      · intro c x
        rw [f4, e4]
        by_cases hc : c = n
        · subst hc; simp
        · have : c < n ↔ c < n + 1 := by omega
          simp [hc, this]
  obtain ⟨B, e1, e2, e3, e4⟩ := key nnd
  exact ⟨B, e1, e2, fun a ha b hb => by rw [e3, if_pos (by omega)], fun c hc x => by rw [e4]; simp [hc]⟩

/-- C88: the copy of a matrix reads as the matrix. -/
theorem C88_copy {ops : List (Nat × Nat × Blk K)} {A : SMat K} (h : build ops = .ok A) (nnd : Nat) :
    ∃ B, A.copy nnd = .ok B ∧ ∀ a < nnd, ∀ b < nnd, B.read a b = .ok (total ops a b) := by
  obtain ⟨A', e1, e2, e3, -⟩ := good_appends (good_new (0 : K)) ops
  have : A' = A := by
    have := e1.symm.trans h
    injection this
  subst this
  obtain ⟨B, f1, f2, f3, -⟩ := good_copy e2 nnd
  exact ⟨B, f1, fun a ha b hb => by rw [good_read f2, f3 a ha b hb, e3, entry_new, zero_add]⟩

end OP.Fem
