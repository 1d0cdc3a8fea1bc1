import Verif.Tree.AvlRemove
import Mathlib.Data.List.Nodup
/-!
# Lemmas on `ktree_avl`: whole objects, `expunge`, lookups and ranks
-/
namespace OP.Tree.Avl
open OP.Tree

variable {K V : Type} [LinearOrder K]

/-- The object `s` holds the tree `t`, and nothing else is stored. -/
structure SRep (s : S K V) (t : T (D K V)) : Prop where
  root : s.root = t.root
  rep : Rep s.mem t
  nodup : t.ids.Nodup
  inv : Inv t
  sorted : Sorted (kvs t)
  size : t.size = s.mem.length

theorem SRep.init : SRep (S.init : S K V) .nil :=
  ⟨rfl, trivial, List.nodup_nil, trivial, List.Pairwise.nil, rfl⟩

/-- Every position is used. -/
theorem SRep.perm {s : S K V} {t : T (D K V)} (h : SRep s t) :
    t.ids.Perm (List.range s.mem.length) := by
  have : t.ids ⊆ List.range s.mem.length := fun i hi => List.mem_range.2 (h.rep.lt i hi)
  exact (List.subperm_of_subset h.nodup this).perm_of_length_le (by simp [T.ids_length, h.size])

theorem add_ok (mg : Bool) {s : S K V} {t : T (D K V)} (h : SRep s t) (k : K) (v : V) :
    ∃ s' t' p, add mg s k v = .ok s' ∧ SRep s' t' ∧
      Ins k v s.mem.length p s'.mem.length (kvs t) (kvs t') := by
  have hle : t.ht < s.mem.length + 1 := by have := t.ht_le_size; rw [h.size] at this; omega
  obtain ⟨m', t', p, h1, h2⟩ := append_ok mg k v (s.mem.length + 1) s.mem t h.rep h.nodup h.inv h.sorted hle
  refine ⟨⟨m', t'.root⟩, t', p, ?_, ⟨rfl, h2.rep, ?_, h2.inv, h2.ins.sorted h.sorted, ?_⟩, h2.ins⟩
  · rw [add, h.root, h1]; rfl
  · rw [← kvs_ids]
    exact h2.ins.nodup (by rw [kvs_ids]; exact h.nodup) (by rw [kvs_ids]; exact h.rep.lt)
  · rw [← kvs_length]
    have hl := h.size
    rw [← kvs_length] at hl
    rcases h2.ins with ⟨A, B, e1, e2, _, _, _, e3⟩ | ⟨A, B, v0, e1, e2, e3⟩
    · rw [e1] at hl; rw [e2]; simp only [List.length_append, List.length_cons] at hl ⊢; omega
    · rw [e1] at hl; rw [e2]; simp only [List.length_append, List.length_cons] at hl ⊢; omega

/-! ## `expunge` -/

/-- Renumber the positions of a tree. -/
def relabel (g : Nat → Nat) : T (D K V) → T (D K V)
  | .nil => .nil
  | .node i d l r => .node (g i) d (relabel g l) (relabel g r)

theorem relabel_root (g : Nat → Nat) (t : T (D K V)) : (relabel g t).root = t.root.map g := by
  cases t <;> rfl

theorem relabel_size (g : Nat → Nat) (t : T (D K V)) : (relabel g t).size = t.size := by
  induction t with
  | nil => rfl
  | node i d l r hl hr => simp [relabel, T.size, hl, hr]

theorem relabel_ht (g : Nat → Nat) (t : T (D K V)) : (relabel g t).ht = t.ht := by
  induction t with
  | nil => rfl
  | node i d l r hl hr => simp [relabel, T.ht, hl, hr]

theorem relabel_ids (g : Nat → Nat) (t : T (D K V)) : (relabel g t).ids = t.ids.map g := by
  induction t with
  | nil => rfl
  | node i d l r hl hr => simp [relabel, T.ids, hl, hr]

theorem relabel_kvs (g : Nat → Nat) (t : T (D K V)) :
    kvs (relabel g t) = (kvs t).map fun e => (g e.1, e.2) := by
  induction t with
  | nil => rfl
  | node i d l r hl hr => simp [relabel, hl, hr]

theorem relabel_kv (g : Nat → Nat) (t : T (D K V)) : kv (kvs (relabel g t)) = kv (kvs t) := by
  rw [relabel_kvs]; simp [kv]

theorem relabel_inv (g : Nat → Nat) (t : T (D K V)) (h : Inv t) : Inv (relabel g t) := by
  induction t with
  | nil => trivial
  | node i d l r hl hr =>
    obtain ⟨h1, h2, h3⟩ := h
    exact ⟨hl h1, hr h2, by rw [relabel_size, relabel_size, relabel_ht, relabel_ht]; exact h3⟩

theorem sorted_kv {L : List (Nat × K × V)} : Sorted L ↔ (kv L).Pairwise fun a b => a.1 < b.1 := by
  simp [Sorted, kv, List.pairwise_map]

theorem dec_inj {p i j : Nat} (hi : i ≠ p) (hj : j ≠ p) (h : dec p i = dec p j) : i = j := by
  simp only [dec] at h
  split at h <;> split at h <;> omega

/-- The cells after `expunge`. -/
theorem expunge_cell {m : Mem (D K V)} {p i : Nat} {n : Node (D K V)} (hi : i ≠ p)
    (h : m[i]? = some n) :
    ((m.eraseIdx p).map fun n => ({ n with left := n.left.map (dec p), right := n.right.map (dec p) } : Node (D K V)))[dec p i]?
      = some { n with left := n.left.map (dec p), right := n.right.map (dec p) } := by
  rw [List.getElem?_map, List.getElem?_eraseIdx]
  simp only [dec]
  split
  · rw [if_neg (by omega), show i - 1 + 1 = i by omega, h]; rfl
  · rw [if_pos (by omega), h]; rfl

theorem expunge_rep {m : Mem (D K V)} {p : Nat} (t : T (D K V)) (h : Rep m t) (hp : p ∉ t.ids) :
    Rep ((m.eraseIdx p).map fun n => { n with left := n.left.map (dec p), right := n.right.map (dec p) })
      (relabel (dec p) t) := by
  induction t with
  | nil => trivial
  | node i d l r hl hr =>
    simp only [T.ids, List.mem_append, List.mem_cons, not_or] at hp
    refine ⟨?_, hl h.2.1 hp.1, hr h.2.2 hp.2.2⟩
    rw [expunge_cell (Ne.symm hp.2.1) h.1, relabel_root, relabel_root]

/-- Effect of a removal on a whole object. -/
inductive Removed (mg : Bool) (k : K) (L L' : List (Nat × K × V)) : Prop where
  | absent (h : ∀ e ∈ L, e.2.1 ≠ k) (same : L' = L)
  | swapped (hm : mg = false) (h : SwapRel k L L')
  | gone (q : Nat) (M : List (Nat × K × V)) (h : RemM k q L M)
      (hm : mg = false → ∃ A v B, L = A ++ (q, k, v) :: B ∧ M = A ++ B)
      (e : L' = M.map fun e => (dec q e.1, e.2))

theorem remove_ok (mg : Bool) {s : S K V} {t : T (D K V)} (h : SRep s t) (k : K) :
    ∃ s' t', remove mg s (.ext k) = .ok s' ∧ SRep s' t' ∧ Removed mg k (kvs t) (kvs t') := by
  have hle : t.ht < s.mem.length + 1 := by have := t.ht_le_size; rw [h.size] at this; omega
  obtain ⟨m', t', p, h1, h2⟩ := removeAt_ok mg k (s.mem.length + 1) s.mem t h.rep h.nodup h.inv h.sorted hle
  rw [remove, h.root, h1]
  simp only [Res.ok_bind]
  have hsub := h2.rel.ids
  have hnd : t'.ids.Nodup := by
    rw [kvs_ids, kvs_ids] at hsub; exact h.nodup.sublist hsub
  cases p with
  | none =>
    refine ⟨_, t', rfl, ⟨rfl, h2.rep, hnd, h2.inv, ?_, ?_⟩, ?_⟩
    · rcases h2.rel with ⟨e, -⟩ | ⟨-, A, B, i, j, v, k2, v2, e1, e2⟩
      · rw [e]; exact h.sorted
      · have := h.sorted
        rw [e1] at this; rw [e2]
        simp only [Sorted, List.pairwise_append, List.pairwise_cons, List.mem_cons] at this ⊢
        obtain ⟨a1, ⟨a2, a3⟩, a4⟩ := this
        refine ⟨a1, ⟨?_, a3⟩, ?_⟩
        · rintro b (rfl | hb)
          · exact a2 (j, k2, v2) (.inl rfl)
          · exact a2 _ (.inr hb)
        · rintro a ha b (rfl | rfl | hb)
          · exact a4 a ha (i, k, v) (.inl rfl)
          · exact a4 a ha (j, k2, v2) (.inr (.inl rfl))
          · exact a4 a ha b (.inr (.inr hb))
    · rw [← kvs_length, h2.rel.len, kvs_length, h.size]; exact h2.frame.1.symm
    · rcases h2.rel with ⟨e, h3⟩ | ⟨e, h3⟩
      · exact .absent h3 e
      · exact .swapped e h3
  | some q =>
    obtain ⟨⟨A, v, B, I, J, e1, e2, e3, e4, e5⟩, h3⟩ := h2.rel
    have hperm : (I ++ q :: J).Nodup := by rw [← e3, kvs_ids]; exact h.nodup
    have hq : q ∉ t'.ids := by
      rw [← kvs_ids, e4]
      rw [List.perm_middle.nodup_iff, List.nodup_cons] at hperm
      exact hperm.1
    have hql : q < m'.length := by
      rw [h2.frame.1]
      apply h.rep.lt
      rw [← kvs_ids, e3]; simp
    refine ⟨_, relabel (dec q) t', by simp only [expunge]; rw [if_pos hql], ⟨(relabel_root _ _).symm, expunge_rep t' h2.rep hq, ?_,
      relabel_inv _ _ h2.inv, ?_, ?_⟩, .gone q (kvs t') ⟨A, v, B, I, J, e1, e2, e3, e4, e5⟩ h3 (relabel_kvs _ _)⟩
    · rw [relabel_ids]
      refine List.Nodup.map_on ?_ hnd
      intro x hx y hy hxy
      exact dec_inj (by rintro rfl; exact hq hx) (by rintro rfl; exact hq hy) hxy
    · rw [sorted_kv, relabel_kv, e2]
      have := h.sorted
      rw [sorted_kv, e1] at this
      exact this.sublist (List.Sublist.append (List.Sublist.refl _) (List.sublist_cons_self _ _))
    · rw [relabel_size, List.length_map, List.length_eraseIdx, if_pos hql, h2.frame.1, ← h.size,
        ← kvs_length, ← kvs_length, ← length_kv, ← length_kv, e1, e2]
      simp

/-! ## Lookups -/

theorem findLoop_ok (k : K) (m : Mem (D K V)) : ∀ (t : T (D K V)) (f : Nat), Rep m t →
    Sorted (kvs t) → t.ht ≤ f →
    (∃ i v, findLoop k m f t.root = .ok (some i) ∧ (i, k, v) ∈ kvs t ∧ ∃ n, m[i]? = some n ∧ n.d.k = k ∧ n.d.v = v)
    ∨ (findLoop k m f t.root = .ok none ∧ ∀ e ∈ kvs t, e.2.1 ≠ k) := by
  intro t
  induction t with
  | nil => intro f _ _ _; right; cases f <;> simp [findLoop, T.root]
  | node i d l r ihl ihr =>
    intro f hr hs hf
    rw [kvs_node] at hs
    obtain ⟨hs1, hs2, hs3, hs4⟩ := sorted_node hs
    simp only [T.ht] at hf
    obtain ⟨f, rfl⟩ : ∃ g, f = g + 1 := ⟨f - 1, by omega⟩
    rw [T.root, findLoop, get_ok hr.1]
    simp only [Res.ok_bind]
    by_cases he : d.k = k
    · rw [if_pos he]
      exact .inl ⟨i, d.v, rfl, by simp [he], _, hr.1, he, rfl⟩
    rw [if_neg he]
    by_cases hlt : k < d.k
    · rw [if_pos hlt]
      rcases ihl f hr.2.1 hs1 (by omega) with ⟨j, v, h1, h2, h3⟩ | ⟨h1, h2⟩
      · exact .inl ⟨j, v, h1, by simp [h2], h3⟩
      · refine .inr ⟨h1, ?_⟩
        intro e hm
        simp only [kvs_node, List.mem_append, List.mem_cons] at hm
        rcases hm with hm | rfl | hm
        exacts [h2 e hm, he, ne_of_gt (lt_trans hlt (hs4 e hm))]
    · rw [if_neg hlt]
      have hgt : d.k < k := lt_of_le_of_ne (not_lt.1 hlt) he
      rcases ihr f hr.2.2 hs2 (by omega) with ⟨j, v, h1, h2, h3⟩ | ⟨h1, h2⟩
      · exact .inl ⟨j, v, h1, by simp [h2], h3⟩
      · refine .inr ⟨h1, ?_⟩
        intro e hm
        simp only [kvs_node, List.mem_append, List.mem_cons] at hm
        rcases hm with hm | rfl | hm
        exacts [ne_of_lt (lt_trans (hs3 e hm) hgt), he, h2 e hm]

theorem SRep.ht_le {s : S K V} {t : T (D K V)} (h : SRep s t) : t.ht ≤ s.mem.length := by
  have := t.ht_le_size; rw [h.size] at this; exact this

theorem getposition_ok {s : S K V} {t : T (D K V)} (h : SRep s t) (k : K) :
    (∃ i v, getposition s k = .ok (some i) ∧ (i, k, v) ∈ kvs t ∧ getv s k = .ok v ∧ getatposition s i = .ok v ∧
      getkey s i = .ok k)
    ∨ (getposition s k = .ok none ∧ getv s k = .throw ∧ ∀ e ∈ kvs t, e.2.1 ≠ k) := by
  rcases findLoop_ok k s.mem t s.mem.length h.rep h.sorted h.ht_le with ⟨i, v, h1, h2, n, h3, h4, h5⟩ | ⟨h1, h2⟩
  · rw [← h.root] at h1
    have hp : getposition s k = .ok (some i) := h1
    exact .inl ⟨i, v, hp, h2, by simp [getv, hp, getatposition, h3, h5], by simp [getatposition, h3, h5],
      by simp [getkey, h3, h4]⟩
  · rw [← h.root] at h1
    have hp : getposition s k = .ok none := h1
    exact .inr ⟨hp, by simp [getv, hp], h2⟩

/-- The cell of an in-order entry. -/
theorem rep_mem {m : Mem (D K V)} {t : T (D K V)} (h : Rep m t) :
    ∀ e ∈ kvs t, ∃ n, m[e.1]? = some n ∧ n.d.k = e.2.1 ∧ n.d.v = e.2.2 := by
  induction t with
  | nil => simp
  | node i d l r hl hr =>
    intro e he
    simp only [kvs_node, List.mem_append, List.mem_cons] at he
    rcases he with he | rfl | he
    · exact hl h.2.1 e he
    · exact ⟨_, h.1, rfl, rfl⟩
    · exact hr h.2.2 e he

theorem atLoop_ok (m : Mem (D K V)) : ∀ (t : T (D K V)) (f : Nat) (i o : Int), Rep m t → Inv t →
    t.ht ≤ f → o ≤ i →
    atLoop m i f t.root o = .ok (((kvs t)[(i - o).toNat]?).map Prod.fst) := by
  intro t
  induction t with
  | nil => intro f i o _ _ _ _; cases f <;> simp [atLoop, T.root]
  | node j d l r ihl ihr =>
    intro f i o hr hi hf ho
    simp only [T.ht] at hf
    obtain ⟨f, rfl⟩ : ∃ g, f = g + 1 := ⟨f - 1, by omega⟩
    rw [T.root, atLoop, get_ok hr.1]
    simp only [Res.ok_bind, order]
    rw [weight_ok hr.2.1 hi.1]
    simp only [Res.ok_bind]
    have hll := kvs_length l
    by_cases he : i = o + l.size
    · rw [if_pos he, kvs_node, List.getElem?_append_right (by omega)]
      have : (i - o).toNat - (kvs l).length = 0 := by omega
      rw [this]; rfl
    rw [if_neg he]
    by_cases hlt : i < o + l.size
    · rw [if_pos hlt, ihl f i o hr.2.1 hi.1 (by omega) ho, kvs_node, List.getElem?_append_left (by omega)]
    · rw [if_neg hlt, ihr f i _ hr.2.2 hi.2.1 (by omega) (by omega), kvs_node,
        List.getElem?_append_right (by omega)]
      obtain ⟨c, hc⟩ : ∃ c, (i - o).toNat - (kvs l).length = c + 1 := ⟨(i - o).toNat - (kvs l).length - 1, by omega⟩
      rw [hc, List.getElem?_cons_succ]
      congr 3
      omega

theorem getatorder_ok {s : S K V} {t : T (D K V)} (h : SRep s t) (i : Nat) :
    getatorder s i = match (kv (kvs t))[i]? with | some e => .ok e | none => .throw := by
  rw [getatorder, h.root, atLoop_ok s.mem t s.mem.length i 0 h.rep h.inv h.ht_le (by omega)]
  simp only [Res.ok_bind, kv, List.getElem?_map]
  have : ((i : Int) - 0).toNat = i := by omega
  rw [this]
  cases he : (kvs t)[i]? with
  | none => rfl
  | some e =>
    obtain ⟨n, h1, h2, h3⟩ := rep_mem h.rep e (List.mem_of_getElem? he)
    simp [get_ok h1, h2, h3]

theorem ofLoop_ok (k : K) (m : Mem (D K V)) : ∀ (t : T (D K V)) (f : Nat) (o : Int), Rep m t → Inv t →
    Sorted (kvs t) → t.ht ≤ f →
    (∃ A v B, kv (kvs t) = A ++ (k, v) :: B ∧ ofLoop k m f t.root o = .ok (some (o + A.length)))
    ∨ (ofLoop k m f t.root o = .ok none ∧ ∀ e ∈ kvs t, e.2.1 ≠ k) := by
  intro t
  induction t with
  | nil => intro f o _ _ _ _; right; cases f <;> simp [ofLoop, T.root]
  | node i d l r ihl ihr =>
    intro f o hr hi hs hf
    rw [kvs_node] at hs
    obtain ⟨hs1, hs2, hs3, hs4⟩ := sorted_node hs
    simp only [T.ht] at hf
    obtain ⟨f, rfl⟩ : ∃ g, f = g + 1 := ⟨f - 1, by omega⟩
    rw [T.root, ofLoop, get_ok hr.1]
    simp only [Res.ok_bind, order]
    rw [weight_ok hr.2.1 hi.1]
    simp only [Res.ok_bind]
    have hll : (kv (kvs l)).length = l.size := by rw [length_kv, kvs_length]
    by_cases he : d.k = k
    · rw [if_pos he]
      exact .inl ⟨kv (kvs l), d.v, kv (kvs r), by simp [he], by rw [hll]⟩
    rw [if_neg he]
    by_cases hlt : k < d.k
    · rw [if_pos hlt]
      rcases ihl f o hr.2.1 hi.1 hs1 (by omega) with ⟨A, v, B, h1, h2⟩ | ⟨h1, h2⟩
      · exact .inl ⟨A, v, B ++ (d.k, d.v) :: kv (kvs r), by simp [h1], h2⟩
      · refine .inr ⟨h1, ?_⟩
        intro e hm
        simp only [kvs_node, List.mem_append, List.mem_cons] at hm
        rcases hm with hm | rfl | hm
        exacts [h2 e hm, he, ne_of_gt (lt_trans hlt (hs4 e hm))]
    · rw [if_neg hlt]
      have hgt : d.k < k := lt_of_le_of_ne (not_lt.1 hlt) he
      rcases ihr f (o + (l.size + 1)) hr.2.2 hi.2.1 hs2 (by omega) with ⟨A, v, B, h1, h2⟩ | ⟨h1, h2⟩
      · refine .inl ⟨kv (kvs l) ++ (d.k, d.v) :: A, v, B, by simp [h1], ?_⟩
        rw [h2]
        congr 2
        simp only [List.length_append, List.length_cons, hll]
        push_cast
        omega
      · refine .inr ⟨h1, ?_⟩
        intro e hm
        simp only [kvs_node, List.mem_append, List.mem_cons] at hm
        rcases hm with hm | rfl | hm
        exacts [ne_of_lt (lt_trans (hs3 e hm) hgt), he, h2 e hm]

end OP.Tree.Avl
