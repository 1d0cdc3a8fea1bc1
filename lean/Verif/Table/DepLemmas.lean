import Verif.Table.TableSys
import Verif.Tree.PropsAvl
import Mathlib.Data.Prod.Lex
/-!
# Lemmas on a dependent axis
-/
namespace OP.Table
open OP.Tree
open OP.Tree.Avl (SRep kv kvs)

variable {K : Type} [LinearOrder K]

/-! ## Changing keys in place -/

/-- The tree with every key changed. -/
def mapK (f : Nat → DKey K → DKey K) : T (Avl.D (DKey K) Unit) → T (Avl.D (DKey K) Unit)
  | .nil => .nil
  | .node i d l r => .node i { d with k := f i d.k } (mapK f l) (mapK f r)

/-- A node with its key changed. -/
def nodeK (f : DKey K → DKey K) (n : Node (Avl.D (DKey K) Unit)) : Node (Avl.D (DKey K) Unit) :=
  { n with d := { n.d with k := f n.d.k } }

omit [LinearOrder K] in
theorem mapK_root (f : Nat → DKey K → DKey K) (t : T (Avl.D (DKey K) Unit)) : (mapK f t).root = t.root := by
  cases t <;> rfl

omit [LinearOrder K] in
theorem mapK_ids (f : Nat → DKey K → DKey K) (t : T (Avl.D (DKey K) Unit)) : (mapK f t).ids = t.ids := by
  induction t with
  | nil => rfl
  | node i d l r hl hr => simp [mapK, T.ids, hl, hr]

omit [LinearOrder K] in
theorem mapK_size (f : Nat → DKey K → DKey K) (t : T (Avl.D (DKey K) Unit)) : (mapK f t).size = t.size := by
  rw [← T.ids_length, mapK_ids, T.ids_length]

omit [LinearOrder K] in
theorem mapK_ht (f : Nat → DKey K → DKey K) (t : T (Avl.D (DKey K) Unit)) : (mapK f t).ht = t.ht := by
  induction t with
  | nil => rfl
  | node i d l r hl hr => simp [mapK, T.ht, hl, hr]

omit [LinearOrder K] in
theorem mapK_inv (f : Nat → DKey K → DKey K) {t : T (Avl.D (DKey K) Unit)} (h : Avl.Inv t) : Avl.Inv (mapK f t) := by
  induction t with
  | nil => trivial
  | node i d l r hl hr =>
    obtain ⟨h1, h2, h3, h4, h5, h6⟩ := h
    exact ⟨hl h1, hr h2, by simpa [mapK_size] using h3, by simpa [mapK_ht] using h4, by simpa [mapK_ht] using h5,
      by simpa [mapK_ht] using h6⟩

theorem mapK_kvs (f : Nat → DKey K → DKey K) (t : T (Avl.D (DKey K) Unit)) :
    kvs (mapK f t) = (kvs t).map fun e => (e.1, f e.1 e.2.1, e.2.2) := by
  induction t with
  | nil => rfl
  | node i d l r hl hr => simp [mapK, hl, hr]

omit [LinearOrder K] in
theorem mapK_rep (f : Nat → DKey K → DKey K) {m m' : Mem (Avl.D (DKey K) Unit)} {t : T (Avl.D (DKey K) Unit)}
    (h : Rep m t) (hm : ∀ i ∈ t.ids, m'[i]? = (m[i]?).map (nodeK (f i))) : Rep m' (mapK f t) := by
  induction t with
  | nil => trivial
  | node i d l r hl hr =>
    obtain ⟨h1, h2, h3⟩ := h
    refine ⟨?_, hl h2 fun j hj => hm j (by simp [T.ids, hj]), hr h3 fun j hj => hm j (by simp [T.ids, hj])⟩
    rw [hm i (by simp [T.ids]), h1, mapK_root, mapK_root]; rfl

/-! ## The handler for `add` -/

/-- Effect on the parent position of adding a parent at `p`. -/
def shiftUp (p : Nat) (a : DKey K) : DKey K := toLex (if (ofLex a).1 ≥ p then (ofLex a).1 + 1 else (ofLex a).1, (ofLex a).2)

/-- Effect on the parent position of removing the parent at `p`. -/
def shiftDown (p : Nat) (a : DKey K) : DKey K := toLex (if (ofLex a).1 > p then (ofLex a).1 - 1 else (ofLex a).1, (ofLex a).2)

omit [LinearOrder K] in
theorem onAdd_ok (p : Nat) : ∀ (R A : Mem (Avl.D (DKey K) Unit)),
    onAdd p R.length A.length (A ++ R) = .ok (A ++ R.map (nodeK (shiftUp p))) := by
  intro R
  induction R with
  | nil => intro A; simp [onAdd]
  | cons n R ih =>
    intro A
    have h : (A ++ n :: R)[A.length]? = some n := by simp
    rw [List.length_cons, onAdd, setPi, upd_ok h]
    simp only [Res.ok_bind]
    have hs : (A ++ n :: R).set A.length (nodeK (shiftUp p) n) = (A ++ [nodeK (shiftUp p) n]) ++ R := by
      rw [List.set_append_right _ _ (Nat.le_refl _)]; simp
    have := ih (A ++ [nodeK (shiftUp p) n])
    rw [List.length_append, List.length_singleton] at this
    show onAdd p R.length (A.length + 1) ((A ++ n :: R).set A.length (nodeK (shiftUp p) n)) = _
    rw [hs, this]
    simp

theorem ARep.map {s : Me (DKey K)} {L : List (DKey K)} (h : ARep s L) (g : DKey K → DKey K)
    (hg : (L.map g).Pairwise (· < ·)) : ARep (⟨s.mem.map (nodeK g), s.root⟩ : Me (DKey K)) (L.map g) := by
  obtain ⟨t, h, rfl⟩ := h
  have hk : keysOf (mapK (fun _ => g) t) = (keysOf t).map g := by
    rw [keysOf, mapK_kvs, keysOf, List.map_map, List.map_map]; rfl
  refine ⟨mapK (fun _ => g) t, ⟨?_, ?_, ?_, mapK_inv _ h.inv, ?_, ?_⟩, hk⟩
  · rw [mapK_root]; exact h.root
  · exact mapK_rep _ h.rep fun i _ => by simp
  · rw [mapK_ids]; exact h.nodup
  · rw [← hk] at hg; exact List.pairwise_map.1 hg
  · rw [mapK_size, h.size]; simp

theorem ARep.onAdd {s : Me (DKey K)} {L : List (DKey K)} (h : ARep s L) (p : Nat)
    (hg : (L.map (shiftUp p)).Pairwise (· < ·)) :
    ∃ m, onAdd p s.mem.length 0 s.mem = .ok m ∧ ARep (⟨m, s.root⟩ : Me (DKey K)) (L.map (shiftUp p)) := by
  have := onAdd_ok p s.mem []
  exact ⟨_, by simpa using this, h.map _ hg⟩

/-! ## The handler for `remove` -/

theorem posAtOrder_ok {s : Me (DKey K)} {t : T (Avl.D (DKey K) Unit)} (hr : s.root = t.root) (h : Rep s.mem t)
    (hi : Avl.Inv t) (hsz : t.size = s.mem.length) {A B : List (Nat × DKey K × Unit)} {x : Nat} {a : DKey K} {u : Unit}
    (hk : kvs t = A ++ (x, a, u) :: B) :
    posAtOrder s A.length = .ok x ∧ ∃ n, s.mem[x]? = some n ∧ n.d.k = a := by
  have hht : t.ht ≤ s.mem.length := by rw [← hsz]; exact t.ht_le_size
  constructor
  · rw [posAtOrder, hr, Avl.atLoop_ok s.mem t _ A.length 0 h hi hht (by omega)]
    have : ((A.length : Int) - 0).toNat = A.length := by omega
    rw [this, hk]
    simp
  · obtain ⟨n, h1, h2, -⟩ := Avl.rep_mem h (x, a, u) (by rw [hk]; simp)
    exact ⟨n, h1, h2⟩

/-- No entry belongs to the parent that was removed: positions are moved down, and nothing is announced. -/
theorem onRemove_shift (p : Nat) : ∀ (B A : List (Nat × DKey K × Unit)) (s : Me (DKey K)) (t : T (Avl.D (DKey K) Unit))
    (f : Nat) (log : List Msg), s.root = t.root → Rep s.mem t → Avl.Inv t → t.ids.Nodup → t.size = s.mem.length →
    kvs t = A ++ B → (∀ e ∈ B, (ofLex e.2.1).1 ≠ p) → B.length < f →
    ∃ s' t', onRemove p f A.length s log = .ok (some (s', log)) ∧ s'.root = t'.root ∧ Rep s'.mem t' ∧ Avl.Inv t' ∧
      t'.ids.Nodup ∧ t'.size = s'.mem.length ∧ kvs t' = A ++ B.map fun e => (e.1, shiftDown p e.2.1, e.2.2) := by
  intro B
  induction B with
  | nil =>
    intro A s t f log h1 h2 h3 h4 h5 h6 _ hf
    refine ⟨s, t, ?_, h1, h2, h3, h4, h5, by simpa using h6⟩
    obtain ⟨f, rfl⟩ : ∃ g, f = g + 1 := ⟨f - 1, by simp at hf; omega⟩
    have : Avl.length s = A.length := by
      rw [Avl.length, ← h5, ← Avl.kvs_length, h6]; simp
    rw [onRemove, if_neg (by omega)]
  | cons e B ih =>
    intro A s t f log h1 h2 h3 h4 h5 h6 h7 hf
    obtain ⟨x, a, u⟩ := e
    obtain ⟨f, rfl⟩ : ∃ g, f = g + 1 := ⟨f - 1, by omega⟩
    have hlen : Avl.length s = A.length + (B.length + 1) := by
      rw [Avl.length, ← h5, ← Avl.kvs_length, h6]; simp
    obtain ⟨g1, n, g2, g3⟩ := posAtOrder_ok h1 h2 h3 h5 h6
    have hne : (ofLex a).1 ≠ p := h7 (x, a, u) (by simp)
    rw [onRemove, if_pos (by omega), g1]
    simp only [Res.ok_bind, get_ok g2, g3]
    rw [if_neg hne]
    have hf' : B.length < f := by simp at hf; omega
    by_cases hgt : (ofLex a).1 > p
    · rw [if_pos hgt, setPi, upd_ok g2]
      simp only [Res.ok_bind]
      have hids : t.ids = A.map Prod.fst ++ x :: B.map Prod.fst := by rw [← Avl.kvs_ids, h6]; simp
      have hx : x ∉ A.map Prod.fst ∧ x ∉ B.map Prod.fst := by
        rw [hids] at h4
        rw [List.perm_middle.nodup_iff, List.nodup_cons, List.mem_append, not_or] at h4
        exact h4.1
      let F : Nat → DKey K → DKey K := fun i => if i = x then shiftDown p else id
      have hsd : shiftDown p a = toLex ((ofLex a).1 - 1, (ofLex a).2) := by simp [shiftDown, hgt]
      have hk1 : kvs (mapK F t) = (A ++ [(x, shiftDown p a, u)]) ++ B := by
        rw [mapK_kvs, h6]
        have e1 : ∀ M : List (Nat × DKey K × Unit), x ∉ M.map Prod.fst →
            (M.map fun e => (e.1, F e.1 e.2.1, e.2.2)) = M := by
          intro M hM
          conv_rhs => rw [← List.map_id M]
          apply List.map_congr_left
          intro e he
          have : e.1 ≠ x := fun h => hM (List.mem_map.2 ⟨e, he, h⟩)
          simp [F, this]
        rw [List.map_append, List.map_cons, e1 A hx.1, e1 B hx.2]
        simp [F]
      obtain ⟨s', t', c1, c2, c3, c4, c5, c6, c7⟩ := ih (A ++ [(x, shiftDown p a, u)])
        ⟨s.mem.set x (nodeK (shiftDown p) n), s.root⟩ (mapK F t) f log (by rw [mapK_root]; exact h1)
        (mapK_rep F h2 fun i hi => by
          by_cases hix : x = i
          · subst hix
            rw [set_self g2, g2]; simp [F]
          · rw [set_ne hix]; simp only [F, if_neg (Ne.symm hix)]
            cases s.mem[i]? <;> rfl)
        (mapK_inv _ h3) (by rw [mapK_ids]; exact h4) (by rw [mapK_size, h5]; simp) hk1
        (fun e he => h7 e (by simp [he])) hf'
      refine ⟨s', t', ?_, c2, c3, c4, c5, c6, by rw [c7]; simp⟩
      rw [List.length_append, List.length_singleton] at c1
      rw [← c1]
      congr
      simp [g3]
      intro hle; omega
    · rw [if_neg hgt]
      obtain ⟨s', t', c1, c2, c3, c4, c5, c6, c7⟩ := ih (A ++ [(x, a, u)]) s t f log h1 h2 h3 h4 h5
        (by rw [h6]; simp) (fun e he => h7 e (by simp [he])) hf'
      refine ⟨s', t', ?_, c2, c3, c4, c5, c6, ?_⟩
      · rw [List.length_append, List.length_singleton] at c1; exact c1
      · rw [c7]
        have : shiftDown p a = a := by simp [shiftDown, hgt]
        simp [this]

theorem ARep.onRemove_none {s : Me (DKey K)} {L : List (DKey K)} (h : ARep s L) (p : Nat) {f : Nat} (hf : L.length < f)
    (hp : ∀ a ∈ L, (ofLex a).1 ≠ p) (hg : (L.map (shiftDown p)).Pairwise (· < ·)) (log : List Msg) :
    ∃ s', onRemove p f 0 s log = .ok (some (s', log)) ∧ ARep s' (L.map (shiftDown p)) := by
  obtain ⟨t, h, rfl⟩ := h
  obtain ⟨s', t', c1, c2, c3, c4, c5, c6, c7⟩ := onRemove_shift p (kvs t) [] s t f log h.root h.rep h.inv h.nodup h.size
    rfl (fun e he => hp _ (List.mem_map.2 ⟨e, he, rfl⟩)) (by simpa [keysOf] using hf)
  have hk : keysOf t' = (keysOf t).map (shiftDown p) := by
    rw [keysOf, c7, keysOf, List.nil_append, List.map_map, List.map_map]; rfl
  refine ⟨s', c1, t', ⟨c2, c3, c5, c4, ?_, c6⟩, hk⟩
  rw [← hk] at hg
  exact List.pairwise_map.1 hg

/-- A node with a right child is not the greatest. -/
theorem right_gt {m : Mem (Avl.D (DKey K) Unit)} {t : T (Avl.D (DKey K) Unit)} (h : Rep m t) (hs : Avl.Sorted (kvs t)) :
    ∀ e ∈ kvs t, ∀ n, m[e.1]? = some n → n.right ≠ none → ∃ e' ∈ kvs t, e.2.1 < e'.2.1 := by
  induction t with
  | nil => intro e he; simp at he
  | node i d l r hl hr =>
    obtain ⟨h1, h2, h3⟩ := h
    intro e he n hn hr'
    rw [Avl.kvs_node] at he ⊢
    rw [Avl.kvs_node, Avl.Sorted, List.pairwise_append, List.pairwise_cons] at hs
    obtain ⟨s1, ⟨s2, s3⟩, s4⟩ := hs
    rw [List.mem_append, List.mem_cons] at he
    rcases he with he | rfl | he
    · obtain ⟨e', g1, g2⟩ := hl h2 s1 e he n hn hr'
      exact ⟨e', by simp [g1], g2⟩
    · rw [h1] at hn
      cases hn
      simp only at hr'
      cases r with
      | nil => simp [T.root] at hr'
      | node j d' l' r' =>
        refine ⟨(j, d'.k, d'.v), by simp, ?_⟩
        exact s2 (j, d'.k, d'.v) (by simp)
    · obtain ⟨e', g1, g2⟩ := hr h3 s3 e he n hn hr'
      exact ⟨e', by simp [g1], g2⟩

omit [LinearOrder K] in
theorem keys_split {t : T (Avl.D (DKey K) Unit)} {i : Nat} {k : DKey K} (h : (keysOf t)[i]? = some k) :
    ∃ A x u B, kvs t = A ++ (x, k, u) :: B ∧ A.length = i := by
  rw [keysOf, List.getElem?_map, Option.map_eq_some_iff] at h
  obtain ⟨⟨x, k', u⟩, h1, rfl⟩ := h
  obtain ⟨A, B, h2, h3⟩ := split_at h1
  exact ⟨A, x, u, B, h2, h3⟩

/-- The only entry of the removed parent is the last one: it is removed, and that is announced. -/
theorem ARep.onRemove_last {s : Me (DKey K)} {L : List (DKey K)} {a : DKey K} (h : ARep s (L ++ [a])) {f : Nat}
    (hf : L.length + 2 < f) (hp : ∀ x ∈ L, (ofLex x).1 < (ofLex a).1) (log : List Msg) :
    ∃ s', onRemove (ofLex a).1 f 0 s log = .ok (some (s', log ++ [.remove L.length])) ∧ ARep s' L := by
  have hsort := h.sorted
  have hlen := h.length
  obtain ⟨s', r1, r2⟩ := h.avlRemove (A := L) (B := []) (k := a) rfl
  rw [List.append_nil] at r2
  obtain ⟨t, h, hk⟩ := h
  -- the positions before the last one are skipped
  have skip : ∀ n f i, i + n = L.length → n < f →
      onRemove (ofLex a).1 f i s log = onRemove (ofLex a).1 (f - n) L.length s log := by
    intro n
    induction n with
    | zero => intro f i hi _; rw [Nat.add_zero] at hi; subst hi; rfl
    | succ n ih =>
      intro f i hi hf
      obtain ⟨f, rfl⟩ : ∃ g, f = g + 1 := ⟨f - 1, by omega⟩
      have hiL : i < L.length := by omega
      obtain ⟨A, x, u, B, hsplit, hA⟩ := keys_split (t := t) (i := i) (k := L[i]) (by rw [hk, List.getElem?_append_left hiL, List.getElem?_eq_getElem hiL])
      obtain ⟨g1, n', g2, g3⟩ := posAtOrder_ok h.root h.rep h.inv h.size hsplit
      rw [hA] at g1
      have := hp L[i] (List.getElem_mem _)
      rw [onRemove, if_pos (by rw [hlen]; simp; omega), g1]
      simp only [Res.ok_bind, get_ok g2, g3]
      rw [if_neg (by omega), if_neg (by omega), ih f (i + 1) (by omega) (by omega)]
      congr 1; omega
  obtain ⟨A, x, u, B, hsplit, hA⟩ := keys_split (t := t) (i := L.length) (k := a) (by rw [hk]; simp)
  obtain ⟨g1, n', g2, g3⟩ := posAtOrder_ok h.root h.rep h.inv h.size hsplit
  rw [hA] at g1
  have hmax : ∀ x ∈ keysOf t, x ≤ a := by
    rw [hk]
    intro x hx
    rw [List.pairwise_append] at hsort
    rcases List.mem_append.1 hx with hx | hx
    · exact le_of_lt (hsort.2.2 x hx a (by simp))
    · simp at hx; rw [hx]
  have hal : Avl.remove true s (.cell x) = .ok s' := by
    rw [← r1, ← g3]
    refine Avl.C62_alias_partial true s _ n' g2 fun j nj hj hjk => ?_
    have hjt : j ∈ t.ids := h.perm.mem_iff.2 (List.mem_range.2 (List.getElem?_eq_some_iff.1 hj).1)
    rw [← Avl.kvs_ids] at hjt
    obtain ⟨e, he, rfl⟩ := List.mem_map.1 hjt
    by_contra hr
    obtain ⟨e', he', hlt⟩ := right_gt h.rep h.sorted e he nj hj hr
    obtain ⟨n2, q1, q2, -⟩ := Avl.rep_mem h.rep e he
    rw [hj] at q1
    cases q1
    rw [← q2, hjk, g3] at hlt
    exact absurd hlt (not_lt.2 (hmax _ (List.mem_map.2 ⟨e', he', rfl⟩)))
  refine ⟨s', ?_, r2⟩
  rw [skip L.length f 0 (by omega) (by omega)]
  obtain ⟨f', hf'⟩ : ∃ g, f - L.length = g + 2 := ⟨f - L.length - 2, by omega⟩
  rw [hf', onRemove, if_pos (by rw [hlen]; simp), g1]
  simp only [Res.ok_bind, get_ok g2, g3, if_true, hal]
  rw [onRemove, if_neg (by rw [r2.length]; simp)]

end OP.Table
