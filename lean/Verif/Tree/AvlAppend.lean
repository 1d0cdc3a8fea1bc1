import Verif.Tree.AvlLemmas
/-!
# Lemmas on `ktree_avl`: `append`
-/
namespace OP.Tree.Avl
open OP.Tree

variable {K V : Type} [LinearOrder K]

theorem finish_some {m : Mem (D K V)} {i : Nat} {d : D K V} {l r : T (D K V)}
    (h : Rep m (.node i d l r)) (hn : (T.node i d l r).ids.Nodup) (hl : Inv l) (hr : Inv r)
    (hb1 : l.ht ≤ r.ht + 2) (hb2 : r.ht ≤ l.ht + 2) (p : Nat) :
    ∃ m' t', finish m i (some p) = .ok (m', t'.root, some p) ∧
      Rebal m m' (.node i d l r) t' l.ht r.ht := by
  have hn' := hn
  simp only [T.ids, List.nodup_append, List.nodup_cons, List.mem_cons] at hn'
  have hil : i ∉ l.ids := fun h => hn'.2.2 i h i (.inl rfl) rfl
  have hir : i ∉ r.ids := hn'.2.1.1
  rw [finish, refresh, newWeight_ok h hl hr]
  simp only [Option.isSome_some, if_true, Res.ok_bind]
  rw [upd_ok h.1]
  simp only [Res.ok_bind]
  have h1 : Rep (m.set i ⟨{ d with w := (l.size : Int) + r.size + 1 }, l.root, r.root⟩)
      (.node i { d with w := (l.size : Int) + r.size + 1 } l r) :=
    ⟨set_self h.1, h.2.1.set hil, h.2.2.set hir⟩
  rw [newHeight_ok h1 hl hr]
  simp only [Res.ok_bind]
  rw [upd_ok h1.1]
  simp only [Res.ok_bind, List.set_set]
  have h2 : Rep (m.set i ⟨⟨d.k, d.v, (l.size : Int) + r.size + 1, max (l.ht : Int) r.ht + 1⟩, l.root, r.root⟩)
      (.node i ⟨d.k, d.v, (l.size : Int) + r.size + 1, max (l.ht : Int) r.ht + 1⟩ l r) :=
    ⟨set_self h.1, h.2.1.set hil, h.2.2.set hir⟩
  obtain ⟨m', t', x, g1, g2, g3⟩ := rebalance_ok h2 hn hl hr (by simp) (by simp only; omega) hb1 hb2
  rw [g1]
  refine ⟨m', t', by simp [g2], g3.rep, by rw [g3.same]; simp, g3.inv, ?_, g3.keep, g3.lo, g3.hi⟩
  exact Frame.trans (Frame.set _ (by simp [T.ids]) _) g3.frame

theorem finish_none {m : Mem (D K V)} {i : Nat} {d : D K V} {l r : T (D K V)}
    (h : Rep m (.node i d l r)) (hn : (T.node i d l r).ids.Nodup) (hi : Inv (.node i d l r)) :
    ∃ m' t', finish m i none = .ok (m', t'.root, none) ∧
      Rebal m m' (.node i d l r) t' l.ht r.ht := by
  obtain ⟨hl, hr, hw, hh, hb1, hb2⟩ := hi
  obtain ⟨m', t', x, g1, g2, g3⟩ := rebalance_ok h hn hl hr hw hh (by omega) (by omega)
  exact ⟨m', t', by simp [finish, refresh, g1, g2], g3⟩

/-- Keys strictly increase. -/
def Sorted (L : List (Nat × K × V)) : Prop := L.Pairwise fun a b => a.2.1 < b.2.1

/-- `L'` is `L` with the entry `(k,v)` inserted at position `n`, or with the value of `k` replaced. -/
def Ins (k : K) (v : V) (n p n' : Nat) (L L' : List (Nat × K × V)) : Prop :=
  (∃ A B, L = A ++ B ∧ L' = A ++ (n, k, v) :: B ∧ (∀ e ∈ A, e.2.1 < k) ∧ (∀ e ∈ B, k < e.2.1) ∧
    p = n ∧ n' = n + 1) ∨
  (∃ A B v0, L = A ++ (p, k, v0) :: B ∧ L' = A ++ (p, k, v) :: B ∧ n' = n)

theorem Ins.left {k : K} {v : V} {n p n' : Nat} {L L' R : List (Nat × K × V)} {x : Nat × K × V}
    (h : Ins k v n p n' L L') (hx : k < x.2.1) (hR : ∀ e ∈ R, k < e.2.1) :
    Ins k v n p n' (L ++ x :: R) (L' ++ x :: R) := by
  rcases h with ⟨A, B, rfl, rfl, h3, h4, h5, h6⟩ | ⟨A, B, v0, rfl, rfl, h3⟩
  · refine .inl ⟨A, B ++ x :: R, by simp, by simp, h3, ?_, h5, h6⟩
    intro e he
    simp only [List.mem_append, List.mem_cons] at he
    rcases he with he | rfl | he
    exacts [h4 e he, hx, hR e he]
  · exact .inr ⟨A, B ++ x :: R, v0, by simp, by simp, h3⟩

theorem Ins.right {k : K} {v : V} {n p n' : Nat} {L R R' : List (Nat × K × V)} {x : Nat × K × V}
    (h : Ins k v n p n' R R') (hx : x.2.1 < k) (hL : ∀ e ∈ L, e.2.1 < k) :
    Ins k v n p n' (L ++ x :: R) (L ++ x :: R') := by
  rcases h with ⟨A, B, rfl, rfl, h3, h4, h5, h6⟩ | ⟨A, B, v0, rfl, rfl, h3⟩
  · refine .inl ⟨L ++ x :: A, B, by simp, by simp, ?_, h4, h5, h6⟩
    intro e he
    simp only [List.mem_append, List.mem_cons] at he
    rcases he with he | rfl | he
    exacts [hL e he, hx, h3 e he]
  · exact .inr ⟨L ++ x :: A, B, v0, by simp, by simp, h3⟩

theorem Ins.nodup {k : K} {v : V} {n p n' : Nat} {L L' : List (Nat × K × V)}
    (h : Ins k v n p n' L L') (hn : (L.map Prod.fst).Nodup) (hlt : ∀ i ∈ L.map Prod.fst, i < n) :
    (L'.map Prod.fst).Nodup := by
  rcases h with ⟨A, B, rfl, rfl, h3, h4, h5, h6⟩ | ⟨A, B, v0, rfl, rfl, h3⟩
  · simp only [List.map_append, List.map_cons] at hn hlt ⊢
    rw [List.perm_middle.nodup_iff, List.nodup_cons]
    exact ⟨fun hm => Nat.lt_irrefl _ (hlt n hm), hn⟩
  · simpa using hn

theorem Ins.sorted {k : K} {v : V} {n p n' : Nat} {L L' : List (Nat × K × V)}
    (h : Ins k v n p n' L L') (hs : Sorted L) : Sorted L' := by
  rcases h with ⟨A, B, rfl, rfl, h3, h4, h5, h6⟩ | ⟨A, B, v0, rfl, rfl, h3⟩
  · simp only [Sorted, List.pairwise_append, List.pairwise_cons, List.mem_cons] at hs ⊢
    refine ⟨hs.1, ⟨h4, hs.2.1⟩, ?_⟩
    rintro a ha b (rfl | hb)
    · exact h3 a ha
    · exact hs.2.2 a ha b hb
  · simp only [Sorted, List.pairwise_append, List.pairwise_cons, List.mem_cons] at hs ⊢
    refine ⟨hs.1, hs.2.1, ?_⟩
    rintro a ha b (rfl | hb)
    · exact hs.2.2 a ha (p, k, v0) (.inl rfl)
    · exact hs.2.2 a ha b (.inr hb)

theorem sorted_node {L R : List (Nat × K × V)} {x : Nat × K × V} (h : Sorted (L ++ x :: R)) :
    Sorted L ∧ Sorted R ∧ (∀ e ∈ L, e.2.1 < x.2.1) ∧ (∀ e ∈ R, x.2.1 < e.2.1) := by
  simp only [Sorted, List.pairwise_append, List.pairwise_cons, List.mem_cons] at h
  exact ⟨h.1, h.2.1.2, fun e he => h.2.2 e he x (.inl rfl), h.2.1.1⟩

/-- Outcome of `append` on a subtree. -/
structure App (k : K) (v : V) (m m' : Mem (D K V)) (t t' : T (D K V)) (p : Nat) : Prop where
  rep : Rep m' t'
  inv : Inv t'
  ins : Ins k v m.length p m'.length (kvs t) (kvs t')
  frame : ∀ j, j < m.length → j ∉ t.ids → m'[j]? = m[j]?
  lo : t.ht ≤ t'.ht
  hi : t'.ht ≤ t.ht + 1

theorem Ins.len {k : K} {v : V} {n p n' : Nat} {L L' : List (Nat × K × V)}
    (h : Ins k v n p n' L L') : n ≤ n' := by
  rcases h with ⟨A, B, _, _, _, _, _, h6⟩ | ⟨A, B, v0, _, _, h3⟩ <;> omega

theorem append_ok (mg : Bool) (k : K) (v : V) : ∀ (f : Nat) (m : Mem (D K V)) (t : T (D K V)),
    Rep m t → t.ids.Nodup → Inv t → Sorted (kvs t) → t.ht < f →
    ∃ m' t' p, append mg k v f m t.root = .ok (m', t'.root, some p) ∧ App k v m m' t t' p := by
  intro f
  induction f with
  | zero => intro m t _ _ _ _ h; omega
  | succ f ih =>
    intro m t hr hn hi hs hf
    cases t with
    | nil =>
      refine ⟨m ++ [⟨⟨k, v, 1, 1⟩, none, none⟩], .node m.length ⟨k, v, 1, 1⟩ .nil .nil, m.length, rfl,
        ⟨by simp [T.root], trivial, trivial⟩, ⟨trivial, trivial, by simp [T.size], by simp [T.ht], by simp [T.ht],
          by simp [T.ht]⟩, .inl ⟨[], [], rfl, rfl, by simp, by simp, rfl, by simp⟩, ?_, by simp [T.ht], by simp [T.ht]⟩
      intro j hj _
      exact List.getElem?_append_left hj
    | node i d l r =>
      have hlt := hr.lt
      have hn' := hn
      simp only [T.ids, List.nodup_append, List.nodup_cons, List.mem_cons] at hn'
      rw [kvs_node] at hs
      obtain ⟨hs1, hs2, hs3, hs4⟩ := sorted_node hs
      have hil : i ∉ l.ids := fun h => hn'.2.2 i h i (.inl rfl) rfl
      have hir : i ∉ r.ids := hn'.2.1.1
      have hi0 := hi
      obtain ⟨hl, hr', hw, hh, hb1, hb2⟩ := hi
      simp only [T.ht] at hf
      rw [T.root, append, get_ok hr.1]
      simp only [Res.ok_bind]
      by_cases he : d.k = k
      · rw [if_pos he, put_ok hr.1]
        simp only [Res.ok_bind]
        have hk : (assignV mg d k v).k = k := by simp only [assignV]; split <;> simp [he]
        have hv : (assignV mg d k v).v = v := by simp only [assignV]; split <;> simp
        have hw' : (assignV mg d k v).w = d.w := by simp only [assignV]; split <;> simp
        have hh' : (assignV mg d k v).h = d.h := by simp only [assignV]; split <;> simp
        refine ⟨_, .node i (assignV mg d k v) l r, i, rfl,
          ⟨set_self hr.1, hr.2.1.set hil, hr.2.2.set hir⟩,
          ⟨hl, hr', by rw [hw', hw], by rw [hh', hh], hb1, hb2⟩, ?_, ?_, Nat.le_refl _, by simp [T.ht]⟩
        · exact .inr ⟨kvs l, kvs r, d.v, by simp [he], by simp [hk, hv], by simp⟩
        · intro j _ hj
          exact set_ne (by rintro rfl; exact hj (by simp [T.ids]))
      rw [if_neg he]
      by_cases hlk : k < d.k
      · rw [if_pos hlk]
        obtain ⟨m1, t1, p, h1, h2⟩ := ih m l hr.2.1 hn'.1 hl hs1 (by omega)
        rw [h1]
        simp only [Res.ok_bind]
        have hi1 : m1[i]? = some ⟨d, l.root, r.root⟩ := (h2.frame i (hlt i (by simp [T.ids])) hil).trans hr.1
        rw [upd_ok hi1]
        simp only [Res.ok_bind]
        have hins : Ins k v m.length p m1.length (kvs (.node i d l r)) (kvs (.node i d t1 r)) := by
          rw [kvs_node, kvs_node]
          exact h2.ins.left hlk fun e he => lt_trans hlk (hs4 e he)
        have hnd : (T.node i d t1 r).ids.Nodup := by
          rw [← kvs_ids]
          exact hins.nodup (by rw [kvs_ids]; exact hn) (by rw [kvs_ids]; exact hlt)
        have hnd' := hnd
        simp only [T.ids, List.nodup_append, List.nodup_cons, List.mem_cons] at hnd'
        have hR : Rep (m1.set i ⟨d, t1.root, r.root⟩) (.node i d t1 r) :=
          ⟨set_self hi1, h2.rep.set fun h => hnd'.2.2 i h i (.inl rfl) rfl,
            (hr.2.2.frame fun j hj => h2.frame j (hlt j (by simp [T.ids, hj]))
              fun h => hn'.2.2 j h j (.inr hj) rfl).set hir⟩
        have ha := h2.lo
        have hb := h2.hi
        obtain ⟨m', t', g1, g2⟩ := finish_some hR hnd h2.inv hr' (by omega) (by omega) p
        have hl2 : m'.length = m1.length := by rw [g2.frame.1]; simp
        have := g2.keep
        have := g2.lo
        have := g2.hi
        refine ⟨m', t', p, g1, g2.rep, g2.inv, by rw [hl2, g2.same]; exact hins, ?_, ?_, ?_⟩
        · intro j hj hj'
          have hj2 : j ∉ (T.node i d t1 r).ids := by
            rw [← kvs_ids, kvs_node]
            simp only [T.ids, List.mem_append, List.mem_cons, not_or] at hj'
            simp only [List.map_append, List.map_cons, List.mem_append, List.mem_cons, not_or, kvs_ids]
            refine ⟨?_, hj'.2⟩
            rw [← kvs_ids]
            intro hm
            rcases h2.ins with ⟨A, B, e1, e2, _⟩ | ⟨A, B, v0, e1, e2, _⟩
            · apply hj'.1; rw [← kvs_ids, e1]
              rw [e2] at hm
              simp only [List.map_append, List.map_cons, List.mem_append, List.mem_cons] at hm ⊢
              rcases hm with hm | hm | hm
              exacts [.inl hm, by omega, .inr hm]
            · apply hj'.1; rw [← kvs_ids, e1]; rw [e2] at hm; simpa using hm
          rw [g2.frame.2 j hj2, set_ne, h2.frame j hj]
          · intro h; apply hj'; simp [T.ids, h]
          · rintro rfl; apply hj'; simp [T.ids]
        · simp only [T.ht]; omega
        · simp only [T.ht]; omega
      · rw [if_neg hlk]
        have hgt : d.k < k := lt_of_le_of_ne (not_lt.1 hlk) he
        obtain ⟨m1, t1, p, h1, h2⟩ := ih m r hr.2.2 hn'.2.1.2 hr' hs2 (by omega)
        rw [h1]
        simp only [Res.ok_bind]
        have hi1 : m1[i]? = some ⟨d, l.root, r.root⟩ := (h2.frame i (hlt i (by simp [T.ids])) hir).trans hr.1
        rw [upd_ok hi1]
        simp only [Res.ok_bind]
        have hins : Ins k v m.length p m1.length (kvs (.node i d l r)) (kvs (.node i d l t1)) := by
          rw [kvs_node, kvs_node]
          exact h2.ins.right hgt fun e he => lt_trans (hs3 e he) hgt
        have hnd : (T.node i d l t1).ids.Nodup := by
          rw [← kvs_ids]
          exact hins.nodup (by rw [kvs_ids]; exact hn) (by rw [kvs_ids]; exact hlt)
        have hnd' := hnd
        simp only [T.ids, List.nodup_append, List.nodup_cons, List.mem_cons] at hnd'
        have hR : Rep (m1.set i ⟨d, l.root, t1.root⟩) (.node i d l t1) :=
          ⟨set_self hi1, (hr.2.1.frame fun j hj => h2.frame j (hlt j (by simp [T.ids, hj]))
              fun h => hn'.2.2 j hj j (.inr h) rfl).set hil, h2.rep.set hnd'.2.1.1⟩
        have ha := h2.lo
        have hb := h2.hi
        obtain ⟨m', t', g1, g2⟩ := finish_some hR hnd hl h2.inv (by omega) (by omega) p
        have hl2 : m'.length = m1.length := by rw [g2.frame.1]; simp
        have := g2.keep
        have := g2.lo
        have := g2.hi
        refine ⟨m', t', p, g1, g2.rep, g2.inv, by rw [hl2, g2.same]; exact hins, ?_, ?_, ?_⟩
        · intro j hj hj'
          have hj2 : j ∉ (T.node i d l t1).ids := by
            rw [← kvs_ids, kvs_node]
            simp only [T.ids, List.mem_append, List.mem_cons, not_or] at hj'
            simp only [List.map_append, List.map_cons, List.mem_append, List.mem_cons, not_or, kvs_ids]
            refine ⟨hj'.1, hj'.2.1, ?_⟩
            rw [← kvs_ids]
            intro hm
            rcases h2.ins with ⟨A, B, e1, e2, _⟩ | ⟨A, B, v0, e1, e2, _⟩
            · apply hj'.2.2; rw [← kvs_ids, e1]
              rw [e2] at hm
              simp only [List.map_append, List.map_cons, List.mem_append, List.mem_cons] at hm ⊢
              rcases hm with hm | hm | hm
              exacts [.inl hm, by omega, .inr hm]
            · apply hj'.2.2; rw [← kvs_ids, e1]; rw [e2] at hm; simpa using hm
          rw [g2.frame.2 j hj2, set_ne, h2.frame j hj]
          · intro h; apply hj'; simp [T.ids, h]
          · rintro rfl; apply hj'; simp [T.ids]
        · simp only [T.ht]; omega
        · simp only [T.ht]; omega

end OP.Tree.Avl
