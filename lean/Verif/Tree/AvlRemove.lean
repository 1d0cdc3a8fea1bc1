import Verif.Tree.AvlAppend
/-!
# Lemmas on `ktree_avl`: `remove`
-/
namespace OP.Tree.Avl
open OP.Tree

variable {K V : Type} [LinearOrder K]

/-- The leftmost node: the loop finds it, and overwriting its data keeps the tree. -/
theorem minLoop_ok : ∀ (t : T (D K V)) (m : Mem (D K V)) (f i : Nat), Rep m t → t.ids.Nodup → Inv t →
    t.root = some i → t.ht ≤ f →
    ∃ x d B rr, minLoop m f i = .ok x ∧ kvs t = (x, d.k, d.v) :: B ∧ m[x]? = some ⟨d, none, rr⟩ ∧
      ∀ d' : D K V, d'.w = d.w → d'.h = d.h → ∃ t', t'.root = t.root ∧ t'.ht = t.ht ∧ t'.size = t.size ∧
        t'.ids = t.ids ∧ Inv t' ∧ kvs t' = (x, d'.k, d'.v) :: B ∧ Rep (m.set x ⟨d', none, rr⟩) t' := by
  intro t
  induction t with
  | nil => intro m f i _ _ _ h; simp [T.root] at h
  | node j d l r ihl _ =>
    intro m f i hr hn hi hroot hf
    simp only [T.root, Option.some.injEq] at hroot
    subst hroot
    have hn' := hn
    simp only [T.ids, List.nodup_append, List.nodup_cons, List.mem_cons] at hn'
    have hil : j ∉ l.ids := fun h => hn'.2.2 j h j (.inl rfl) rfl
    have hir : j ∉ r.ids := hn'.2.1.1
    simp only [T.ht] at hf
    obtain ⟨f, rfl⟩ : ∃ g, f = g + 1 := ⟨f - 1, by omega⟩
    rw [minLoop, get_ok hr.1]
    simp only [Res.ok_bind]
    cases l with
    | nil =>
      refine ⟨j, d, kvs r, r.root, rfl, by simp, hr.1, ?_⟩
      intro d' hw hh
      exact ⟨.node j d' .nil r, rfl, rfl, rfl, rfl, ⟨trivial, hi.2.1, by rw [hw]; exact hi.2.2.1,
        by rw [hh]; exact hi.2.2.2.1, hi.2.2.2.2⟩, by simp, ⟨set_self hr.1, trivial, hr.2.2.set hir⟩⟩
    | node y e a b =>
      obtain ⟨x, d0, B, rr, h1, h2, h3, h4⟩ := ihl m f y hr.2.1 hn'.1 hi.1 rfl (by omega)
      simp only [T.root]
      refine ⟨x, d0, B ++ (j, d.k, d.v) :: kvs r, rr, h1, by rw [kvs_node, h2]; simp, h3, ?_⟩
      intro d' hw hh
      obtain ⟨t', g1, g2, g3, g4, g5, g6, g7⟩ := h4 d' hw hh
      have hxl : x ∈ (T.node y e a b).ids := by rw [← kvs_ids, h2]; simp
      have hxj : x ≠ j := by rintro rfl; exact hil hxl
      refine ⟨.node j d t' r, rfl, by simp only [T.ht] at g2 ⊢; rw [g2], by simp only [T.size] at g3 ⊢; rw [g3],
        by simp only [T.ids] at g4 ⊢; rw [g4], ⟨g5, hi.2.1, by rw [g3]; exact hi.2.2.1,
          by rw [g2]; exact hi.2.2.2.1, by rw [g2]; exact hi.2.2.2.2⟩, by rw [kvs_node, g6]; simp,
        ⟨?_, g7, hr.2.2.set ?_⟩⟩
      · rw [set_ne hxj, g1]; exact hr.1
      · intro hx; exact hn'.2.2 x hxl x (.inr hx) rfl

/-- Keys and values in order, without positions. -/
def kv (L : List (Nat × K × V)) : List (K × V) := L.map Prod.snd

@[simp] theorem kv_nil : kv ([] : List (Nat × K × V)) = [] := rfl
@[simp] theorem kv_cons (x : Nat × K × V) (L : List (Nat × K × V)) : kv (x :: L) = x.2 :: kv L := rfl
@[simp] theorem kv_append (L L' : List (Nat × K × V)) : kv (L ++ L') = kv L ++ kv L' := by simp [kv]

theorem length_kv (L : List (Nat × K × V)) : (kv L).length = L.length := by simp [kv]

/-- The entry of `k` is gone, and so is position `q`. -/
def RemM (k : K) (q : Nat) (L L' : List (Nat × K × V)) : Prop :=
  ∃ A v B I J, kv L = A ++ (k, v) :: B ∧ kv L' = A ++ B ∧
    L.map Prod.fst = I ++ q :: J ∧ L'.map Prod.fst = I ++ J ∧ A.length ≤ I.length

/-- The values of `k` and of the next key were exchanged. -/
def SwapRel (k : K) (L L' : List (Nat × K × V)) : Prop :=
  ∃ A B i j v k2 v2, L = A ++ (i, k, v) :: (j, k2, v2) :: B ∧ L' = A ++ (i, k, v2) :: (j, k2, v) :: B

/-- What `remove` does to the in-order list. -/
def RemRel (mg : Bool) (k : K) (p : Option Nat) (L L' : List (Nat × K × V)) : Prop :=
  match p with
  | none => (L' = L ∧ ∀ e ∈ L, e.2.1 ≠ k) ∨ (mg = false ∧ SwapRel k L L')
  | some q => RemM k q L L' ∧ (mg = false → ∃ A v B, L = A ++ (q, k, v) :: B ∧ L' = A ++ B)

theorem RemRel.left {mg : Bool} {k : K} {p : Option Nat} {L L' R : List (Nat × K × V)} {x : Nat × K × V}
    (h : RemRel mg k p L L') (hx : x.2.1 ≠ k) (hR : ∀ e ∈ R, e.2.1 ≠ k) :
    RemRel mg k p (L ++ x :: R) (L' ++ x :: R) := by
  cases p with
  | none =>
    rcases h with ⟨rfl, h⟩ | ⟨hm, A, B, i, j, v, k2, v2, rfl, rfl⟩
    · refine .inl ⟨rfl, ?_⟩
      intro e he
      simp only [List.mem_append, List.mem_cons] at he
      rcases he with he | rfl | he
      exacts [h e he, hx, hR e he]
    · exact .inr ⟨hm, A, B ++ x :: R, i, j, v, k2, v2, by simp, by simp⟩
  | some q =>
    obtain ⟨⟨A, v, B, I, J, h1, h2, h3, h4, h6⟩, h5⟩ := h
    refine ⟨⟨A, v, B ++ x.2 :: kv R, I, J ++ x.1 :: R.map Prod.fst, by simp [h1], by simp [h2], by simp [h3], by simp [h4], h6⟩, ?_⟩
    intro hm
    obtain ⟨A, v, B, rfl, rfl⟩ := h5 hm
    exact ⟨A, v, B ++ x :: R, by simp, by simp⟩

theorem RemRel.right {mg : Bool} {k : K} {p : Option Nat} {L R R' : List (Nat × K × V)} {x : Nat × K × V}
    (h : RemRel mg k p R R') (hx : x.2.1 ≠ k) (hL : ∀ e ∈ L, e.2.1 ≠ k) :
    RemRel mg k p (L ++ x :: R) (L ++ x :: R') := by
  cases p with
  | none =>
    rcases h with ⟨rfl, h⟩ | ⟨hm, A, B, i, j, v, k2, v2, rfl, rfl⟩
    · refine .inl ⟨rfl, ?_⟩
      intro e he
      simp only [List.mem_append, List.mem_cons] at he
      rcases he with he | rfl | he
      exacts [hL e he, hx, h e he]
    · exact .inr ⟨hm, L ++ x :: A, B, i, j, v, k2, v2, by simp, by simp⟩
  | some q =>
    obtain ⟨⟨A, v, B, I, J, h1, h2, h3, h4, h6⟩, h5⟩ := h
    refine ⟨⟨kv L ++ x.2 :: A, v, B, L.map Prod.fst ++ x.1 :: I, J, by simp [h1], by simp [h2], by simp [h3], by simp [h4], by simp [length_kv]; omega⟩, ?_⟩
    intro hm
    obtain ⟨A, v, B, rfl, rfl⟩ := h5 hm
    exact ⟨L ++ x :: A, v, B, by simp, by simp⟩

/-- Outcome of `remove` on a subtree. -/
structure Remd (mg : Bool) (k : K) (m m' : Mem (D K V)) (t t' : T (D K V)) (p : Option Nat) : Prop where
  rep : Rep m' t'
  inv : Inv t'
  rel : RemRel mg k p (kvs t) (kvs t')
  frame : Frame m m' t.ids
  lo : t.ht ≤ t'.ht + 1
  hi : t'.ht ≤ t.ht
  same : p = none → t'.ht = t.ht

/-- Positions after `remove` are among those before, still distinct. -/
theorem RemRel.ids {mg : Bool} {k : K} {p : Option Nat} {L L' : List (Nat × K × V)}
    (h : RemRel mg k p L L') : List.Sublist (L'.map Prod.fst) (L.map Prod.fst) := by
  cases p with
  | none =>
    rcases h with ⟨rfl, h⟩ | ⟨hm, A, B, i, j, v, k2, v2, rfl, rfl⟩
    · exact List.Sublist.refl _
    · simp
  | some q =>
    obtain ⟨⟨A, v, B, I, J, h1, h2, h3, h4, h6⟩, h5⟩ := h
    rw [h3, h4]
    exact List.Sublist.append (List.Sublist.refl _) (List.sublist_cons_self _ _)

theorem RemRel.len {mg : Bool} {k : K} {L L' : List (Nat × K × V)}
    (h : RemRel mg k none L L') : L'.length = L.length := by
  rcases h with ⟨rfl, h⟩ | ⟨hm, A, B, i, j, v, k2, v2, rfl, rfl⟩ <;> simp

theorem kvs_length (t : T (D K V)) : (kvs t).length = t.size := by
  rw [kvs, List.length_map, T.inord_length]

/-- The way back up after a recursive call into the left subtree. -/
theorem up_left {mg : Bool} {k : K} {m m1 : Mem (D K V)} {i : Nat} {d : D K V} {l l1 r : T (D K V)}
    {p : Option Nat} (hr : Rep m (.node i d l r)) (hn : (T.node i d l r).ids.Nodup)
    (hi : Inv (.node i d l r)) (h2 : Remd mg k m m1 l l1 p)
    (hrel : RemRel mg k p (kvs (.node i d l r)) (kvs (.node i d l1 r))) :
    ∃ m' t', (upd m1 i (fun n => { n with left := l1.root }) >>= fun m => finish m i p)
      = .ok (m', t'.root, p) ∧ Remd mg k m m' (.node i d l r) t' p := by
  have hn' := hn
  simp only [T.ids, List.nodup_append, List.nodup_cons, List.mem_cons] at hn'
  have hil : i ∉ l.ids := fun h => hn'.2.2 i h i (.inl rfl) rfl
  have hir : i ∉ r.ids := hn'.2.1.1
  have hi1 : m1[i]? = some ⟨d, l.root, r.root⟩ := (h2.frame.2 i hil).trans hr.1
  have hsub : List.Sublist l1.ids l.ids := by rw [← kvs_ids, ← kvs_ids]; exact h2.rel.ids
  have hnd : (T.node i d l1 r).ids.Nodup := by
    have := hrel.ids
    rw [kvs_ids, kvs_ids] at this
    exact hn.sublist this
  have hR : Rep (m1.set i ⟨d, l1.root, r.root⟩) (.node i d l1 r) :=
    ⟨set_self hi1, h2.rep.set fun h => hil (hsub.subset h),
      (h2.frame.rep hr.2.2 fun j hj h => hn'.2.2 j h j (.inr hj) rfl).set hir⟩
  rw [upd_ok hi1]
  simp only [Res.ok_bind]
  obtain ⟨hl, hr', hw, hh, hb1, hb2⟩ := hi
  have ha := h2.lo
  have hb := h2.hi
  have hfr : ∀ m', Frame (m1.set i ⟨d, l1.root, r.root⟩) m' (T.node i d l1 r).ids →
      Frame m m' (T.node i d l r).ids := by
    intro m' hf
    refine Frame.trans (h2.frame.mono ?_) (Frame.trans (Frame.set _ (i := i) ?_ _) (hf.mono ?_))
    · intro x hx; simp [T.ids, hx]
    · simp [T.ids]
    · intro x hx
      simp only [T.ids, List.mem_append, List.mem_cons] at hx ⊢
      rcases hx with hx | hx
      · exact .inl (hsub.subset hx)
      · exact .inr hx
  cases p with
  | none =>
    have hh' := h2.same rfl
    have hsz : l1.size = l.size := by rw [← kvs_length, ← kvs_length]; exact h2.rel.len
    have hinv : Inv (.node i d l1 r) := ⟨h2.inv, hr', by rw [hsz]; exact hw, by rw [hh']; exact hh,
      by omega, by omega⟩
    obtain ⟨m', t', g1, g2⟩ := finish_none hR hnd hinv
    have := g2.keep (by omega) (by omega)
    refine ⟨m', t', g1, g2.rep, g2.inv, by rw [g2.same]; exact hrel, hfr _ g2.frame, ?_, ?_, ?_⟩
    all_goals simp only [T.ht]; omega
  | some q =>
    obtain ⟨m', t', g1, g2⟩ := finish_some hR hnd h2.inv hr' (by omega) (by omega) q
    have := g2.keep
    have := g2.lo
    have := g2.hi
    refine ⟨m', t', g1, g2.rep, g2.inv, by rw [g2.same]; exact hrel, hfr _ g2.frame, ?_, ?_, ?_⟩
    · simp only [T.ht]; omega
    · simp only [T.ht]; omega
    · intro h; simp at h

/-- The way back up after a recursive call into the right subtree. -/
theorem up_right {mg : Bool} {k : K} {m m1 : Mem (D K V)} {i : Nat} {d : D K V} {l r1 r : T (D K V)}
    {p : Option Nat} (hr : Rep m (.node i d l r)) (hn : (T.node i d l r).ids.Nodup)
    (hi : Inv (.node i d l r)) (h2 : Remd mg k m m1 r r1 p) :
    ∃ m' t', (upd m1 i (fun n => { n with right := r1.root }) >>= fun m => finish m i p)
      = .ok (m', t'.root, p) ∧ Rep m' t' ∧ Inv t' ∧ kvs t' = kvs (.node i d l r1) ∧
        Frame m m' (T.node i d l r).ids ∧ (T.node i d l r).ht ≤ t'.ht + 1 ∧
        t'.ht ≤ (T.node i d l r).ht ∧ (p = none → t'.ht = (T.node i d l r).ht) := by
  have hn' := hn
  simp only [T.ids, List.nodup_append, List.nodup_cons, List.mem_cons] at hn'
  have hil : i ∉ l.ids := fun h => hn'.2.2 i h i (.inl rfl) rfl
  have hir : i ∉ r.ids := hn'.2.1.1
  have hi1 : m1[i]? = some ⟨d, l.root, r.root⟩ := (h2.frame.2 i hir).trans hr.1
  have hsub : List.Sublist r1.ids r.ids := by rw [← kvs_ids, ← kvs_ids]; exact h2.rel.ids
  have hnd : (T.node i d l r1).ids.Nodup := by
    refine hn.sublist ?_
    simp only [T.ids]
    exact List.Sublist.append (List.Sublist.refl _) (hsub.cons_cons _)
  have hR : Rep (m1.set i ⟨d, l.root, r1.root⟩) (.node i d l r1) :=
    ⟨set_self hi1, (h2.frame.rep hr.2.1 fun j hj h => hn'.2.2 j hj j (.inr h) rfl).set hil,
      h2.rep.set fun h => hir (hsub.subset h)⟩
  rw [upd_ok hi1]
  simp only [Res.ok_bind]
  obtain ⟨hl, hr', hw, hh, hb1, hb2⟩ := hi
  have ha := h2.lo
  have hb := h2.hi
  have hfr : ∀ m', Frame (m1.set i ⟨d, l.root, r1.root⟩) m' (T.node i d l r1).ids →
      Frame m m' (T.node i d l r).ids := by
    intro m' hf
    refine Frame.trans (h2.frame.mono ?_) (Frame.trans (Frame.set _ (i := i) ?_ _) (hf.mono ?_))
    · intro x hx; simp [T.ids, hx]
    · simp [T.ids]
    · intro x hx
      simp only [T.ids, List.mem_append, List.mem_cons] at hx ⊢
      rcases hx with hx | hx | hx
      · exact .inl hx
      · exact .inr (.inl hx)
      · exact .inr (.inr (hsub.subset hx))
  cases p with
  | none =>
    have hh' := h2.same rfl
    have hsz : r1.size = r.size := by rw [← kvs_length, ← kvs_length]; exact h2.rel.len
    have hinv : Inv (.node i d l r1) := ⟨hl, h2.inv, by rw [hsz]; exact hw, by rw [hh']; exact hh,
      by omega, by omega⟩
    obtain ⟨m', t', g1, g2⟩ := finish_none hR hnd hinv
    have := g2.keep (by omega) (by omega)
    refine ⟨m', t', g1, g2.rep, g2.inv, g2.same, hfr _ g2.frame, ?_, ?_, ?_⟩
    all_goals simp only [T.ht]; omega
  | some q =>
    obtain ⟨m', t', g1, g2⟩ := finish_some hR hnd hl h2.inv (by omega) (by omega) q
    have := g2.keep
    have := g2.lo
    have := g2.hi
    refine ⟨m', t', g1, g2.rep, g2.inv, g2.same, hfr _ g2.frame, ?_, ?_, ?_⟩
    · simp only [T.ht]; omega
    · simp only [T.ht]; omega
    · intro h; simp at h

theorem removeAt_ok (mg : Bool) (k : K) : ∀ (f : Nat) (m : Mem (D K V)) (t : T (D K V)),
    Rep m t → t.ids.Nodup → Inv t → Sorted (kvs t) → t.ht < f →
    ∃ m' t' p, removeAt mg (.ext k) f m t.root = .ok (m', t'.root, p) ∧ Remd mg k m m' t t' p := by
  intro f
  induction f with
  | zero => intro m t _ _ _ _ h; omega
  | succ f ih =>
    intro m t hr hn hi hs hf
    cases t with
    | nil =>
      exact ⟨m, .nil, none, rfl, trivial, trivial, .inl ⟨rfl, by simp⟩, .refl _ _, by simp, by simp, by simp⟩
    | node i d l r =>
      have hlt := hr.lt
      have hn' := hn
      simp only [T.ids, List.nodup_append, List.nodup_cons, List.mem_cons] at hn'
      have hs0 := hs
      rw [kvs_node] at hs
      obtain ⟨hs1, hs2, hs3, hs4⟩ := sorted_node hs
      have hil : i ∉ l.ids := fun h => hn'.2.2 i h i (.inl rfl) rfl
      have hir : i ∉ r.ids := hn'.2.1.1
      have hi0 := hi
      obtain ⟨hl, hr', hw, hh, hb1, hb2⟩ := hi
      simp only [T.ht] at hf
      rw [T.root, removeAt, get_ok hr.1]
      simp only [Res.ok_bind, KRef.read]
      by_cases he : d.k = k
      · rw [if_pos he]
        cases r with
        | nil =>
          simp only [T.root]
          rw [put_ok hr.1]
          simp only [Res.ok_bind]
          simp only [T.ht] at hb1 hb2
          refine ⟨_, l, some i, rfl, hr.2.1.set hil, hl, ⟨⟨kv (kvs l), d.v, [], l.ids, [], by simp [he], by simp,
            by simp [kvs_ids], by simp [kvs_ids],
            by simp [length_kv, kvs_length, T.ids_length]⟩, fun _ => ⟨kvs l, d.v, [], by simp [he], by simp⟩⟩,
            Frame.set _ (by simp [T.ids]) _, ?_, ?_, by simp⟩
          · simp only [T.ht]; omega
          · simp only [T.ht]; omega
        | node y e a b =>
          simp only [T.root]
          have hsz := hr.2.2.size_le hn'.2.1.2
          have hht := T.ht_le_size (T.node y e a b)
          obtain ⟨x, d0, B, rr, h1, h2, h3, h4⟩ := minLoop_ok _ m m.length y hr.2.2 hn'.2.1.2 hr' rfl (by omega)
          rw [h1]
          simp only [Res.ok_bind]
          have hxr : x ∈ (T.node y e a b).ids := by rw [← kvs_ids, h2]; simp
          have hxi : i ≠ x := by rintro rfl; exact hir hxr
          have hxl : x ∉ l.ids := fun h => hn'.2.2 x h x (.inr hxr) rfl
          rw [swapV, get_ok hr.1]
          simp only [Res.ok_bind]
          rw [get_ok h3]
          simp only [Res.ok_bind]
          rw [put_ok hr.1]
          simp only [Res.ok_bind]
          have h3' := (set_ne (n' := (⟨assignV mg d d0.k d0.v, l.root, (T.node y e a b).root⟩ : Node (D K V))) hxi).trans h3
          rw [get_ok h3']
          simp only [Res.ok_bind]
          rw [put_ok h3']
          simp only [Res.ok_bind]
          obtain ⟨r1, g1, g2, g3, g4, g5, g6, g7⟩ := h4 (assignV mg d0 d.k d.v)
            (by simp only [assignV]; split <;> rfl) (by simp only [assignV]; split <;> rfl)
          -- the tree after the swap
          have hR : Rep ((m.set i ⟨assignV mg d d0.k d0.v, l.root, (T.node y e a b).root⟩).set x
              ⟨assignV mg d0 d.k d.v, none, rr⟩) (.node i (assignV mg d d0.k d0.v) l r1) := by
            refine ⟨?_, (hr.2.1.set hil).set hxl, ?_⟩
            · rw [set_ne (Ne.symm hxi), set_self hr.1, g1]
            · rw [List.set_comm _ _ hxi]
              exact g7.set (by rw [g4]; exact hir)
          have hnd : (T.node i (assignV mg d d0.k d0.v) l r1).ids.Nodup := by
            simp only [T.ids] at hn ⊢; rw [g4]; exact hn
          have hinv : Inv (.node i (assignV mg d d0.k d0.v) l r1) := by
            have e1 : (assignV mg d d0.k d0.v).w = d.w := by simp only [assignV]; split <;> rfl
            have e2 : (assignV mg d d0.k d0.v).h = d.h := by simp only [assignV]; split <;> rfl
            exact ⟨hl, g5, by rw [e1, g3]; exact hw, by rw [e2, g2]; exact hh, by rw [g2]; exact hb1, by rw [g2]; exact hb2⟩
          rw [h2] at hs2 hs4
          simp only [Sorted, List.pairwise_cons] at hs2
          have hk0 : k < d0.k := by rw [← he]; exact hs4 (x, d0.k, d0.v) (List.mem_cons_self ..)
          have hsr1 : Sorted (kvs r1) := by
            rw [g6]
            simp only [Sorted, List.pairwise_cons]
            refine ⟨?_, hs2.2⟩
            intro e' he'
            simp only [assignV]
            split
            · simp only [he]; exact lt_trans hk0 (hs2.1 e' he')
            · exact hs2.1 e' he'
          obtain ⟨m1, t1, p, q1, q2⟩ := ih _ r1 (by exact hR.2.2) (by rw [g4]; exact hn'.2.1.2) g5 hsr1 (by rw [g2]; omega)
          have hroot : r1.root = some y := g1
          rw [hroot] at q1
          rw [q1]
          simp only [Res.ok_bind]
          obtain ⟨m', t', u1, u2, u3, u4, u5, u6, u7, u8⟩ := up_right hR hnd hinv q2
          refine ⟨m', t', p, u1, u2, u3, ?_, ?_, ?_, ?_, ?_⟩
          · -- the effect on the in-order list
            rw [u4, kvs_node i, kvs_node i, h2]
            have hrel := q2.rel
            rw [g6] at hrel
            cases mg with
            | true =>
              simp only [assignV, if_true] at hrel ⊢
              cases p with
              | none =>
                rcases hrel with ⟨_, h⟩ | ⟨h, _⟩
                · exact absurd he (h _ (List.mem_cons_self ..))
                · simp at h
              | some q =>
                obtain ⟨⟨A, v, B', I, J, z1, z2, z3, z4, z5⟩, -⟩ := hrel
                have hA : A = [] := by
                  cases A with
                  | nil => rfl
                  | cons w A =>
                    exfalso
                    simp only [kv_cons, List.cons_append, List.cons.injEq] at z1
                    have hm : (k, v) ∈ kv B := by rw [z1.2]; simp
                    obtain ⟨e', he', hee⟩ := List.mem_map.1 hm
                    have := hs2.1 e' he'
                    rw [hee] at this
                    exact absurd hk0 (not_lt.2 (le_of_lt this))
                subst hA
                simp only [kv_cons, List.nil_append, List.cons.injEq] at z1 z2
                have hids : (kvs (T.node y e a b)).map Prod.fst = I ++ q :: J := by
                  rw [h2]; exact z3
                rw [h2] at hids
                refine ⟨⟨kv (kvs l), d.v, (d0.k, d0.v) :: kv B, l.ids ++ i :: I, J, by simp [he], ?_, ?_, ?_,
                  by simp [length_kv, kvs_length, T.ids_length]⟩, by simp⟩
                · simp [z2, z1.2]
                · simp only [List.map_append, List.map_cons, kvs_ids]
                  simp only [List.map_cons] at hids
                  rw [hids]; simp
                · simp only [List.map_append, List.map_cons, kvs_ids] at z4 ⊢
                  rw [z4]; simp
            | false =>
              simp only [assignV] at hrel ⊢
              have hno : ∀ e' ∈ (x, d0.k, d.v) :: B, e'.2.1 ≠ k := by
                intro e' he'
                rcases List.mem_cons.1 he' with rfl | he'
                · exact ne_of_gt hk0
                · exact ne_of_gt (lt_trans hk0 (hs2.1 e' he'))
              cases p with
              | none =>
                rcases hrel with ⟨z, _⟩ | ⟨_, A, B', i', j', v, k2, v2, z1, z2⟩
                · right
                  refine ⟨rfl, kvs l, B, i, x, d.v, d0.k, d0.v, by simp [he], ?_⟩
                  rw [z]
                  simp [he]
                · exfalso
                  have : (i', k, v) ∈ A ++ (i', k, v) :: (j', k2, v2) :: B' := by simp
                  rw [← z1] at this
                  exact hno _ this rfl
              | some q =>
                exfalso
                obtain ⟨_, h⟩ := hrel
                obtain ⟨A, v, B', z1, z2⟩ := h rfl
                have : (q, k, v) ∈ A ++ (q, k, v) :: B' := by simp
                rw [← z1] at this
                exact hno _ this rfl
          · refine Frame.trans (Frame.set _ (i := i) (by simp [T.ids]) _)
              (Frame.trans (Frame.set _ (i := x) ?_ _) (u5.mono ?_))
            · simp only [T.ids, List.mem_append, List.mem_cons] at hxr ⊢
              tauto
            · intro z hz
              simp only [T.ids] at hz g4 ⊢
              rw [g4] at hz; exact hz
          · simp only [T.ht] at u6 g2 ⊢; rw [g2] at u6; exact u6
          · simp only [T.ht] at u7 g2 ⊢; rw [g2] at u7; exact u7
          · intro h; have := u8 h; simp only [T.ht] at this g2 ⊢; rw [g2] at this; exact this
      rw [if_neg he]
      by_cases hlk : k < d.k
      · rw [if_pos hlk]
        obtain ⟨m1, t1, p, h1, h2⟩ := ih m l hr.2.1 hn'.1 hl hs1 (by omega)
        rw [h1]
        simp only [Res.ok_bind]
        obtain ⟨m', t', u1, u2⟩ := up_left hr hn hi0 h2 (by
          rw [kvs_node, kvs_node]
          exact h2.rel.left he fun e h => ne_of_gt (lt_trans hlk (hs4 e h)))
        exact ⟨m', t', p, u1, u2⟩
      · rw [if_neg hlk]
        have hgt : d.k < k := lt_of_le_of_ne (not_lt.1 hlk) he
        obtain ⟨m1, t1, p, h1, h2⟩ := ih m r hr.2.2 hn'.2.1.2 hr' hs2 (by omega)
        rw [h1]
        simp only [Res.ok_bind]
        obtain ⟨m', t', u1, u2, u3, u4, u5, u6, u7, u8⟩ := up_right hr hn hi0 h2
        refine ⟨m', t', p, u1, u2, u3, ?_, u5, u6, u7, u8⟩
        rw [u4, kvs_node, kvs_node]
        exact h2.rel.right he fun e h => ne_of_lt (lt_trans (hs3 e h) hgt)

end OP.Tree.Avl
