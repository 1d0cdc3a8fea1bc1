import Verif.Tree.RbLemmas
/-!
# `ktree_llrb::append` on the array does what `ins` does on trees
-/
namespace OP.Tree.Rb
open OP.Tree

variable {K V : Type}

theorem Same.ids {t t' : T (D K V)} (h : Same t t') : t'.ids = t.ids := by
  rw [← kvs_ids, ← kvs_ids, h.kvs]

variable [LinearOrder K]

theorem splitM_ok {m : Mem (D K V)} {i : Nat} {d : D K V} {l r : T (D K V)} (h : Rep m (.node i d l r))
    (hn : (T.node i d l r).ids.Nodup) {j : Nat} {e : D K V} {a b : T (D K V)}
    (hs : split (.node i d l r) = .ok (.node j e a b)) :
    ∃ m', splitM m i = .ok (m', j) ∧ Rep m' (.node j e a b) ∧ m'.length = m.length ∧
      ∀ x, x ∉ (T.node i d l r).ids → m'[x]? = m[x]? := by
  by_cases hd : doubleRed (.node i d l r) = true
  · cases l with
    | nil => simp [doubleRed, isRed] at hd
    | node x ex lx rx =>
      cases lx with
      | nil => simp [doubleRed, isRed] at hd
      | node y ey ly ry =>
        simp only [doubleRed, isRed, Bool.and_eq_true] at hd
        rw [split, if_pos (by simp [doubleRed, isRed, hd])] at hs
        simp only [rotR, Res.ok_bind, paint, Res.ok.injEq, T.node.injEq] at hs
        obtain ⟨rfl, rfl, rfl, rfl⟩ := hs
        obtain ⟨h1, ⟨h2, ⟨h3, h4, h5⟩, h6⟩, h7⟩ := h
        simp only [T.ids] at hn
        simp only [List.nodup_append, List.nodup_cons, List.mem_append, List.mem_cons, List.append_assoc,
          List.cons_append] at hn
        have hxy : x ≠ y := by intro h; subst h; simp_all
        have hxi : x ≠ i := by intro h; subst h; simp_all
        have hyi : y ≠ i := by intro h; subst h; simp_all
        have e1 := upd_ok h1 (fun n => { n with left := rx.root })
        have g2 : (m.set i ⟨d, rx.root, r.root⟩)[x]? = some ⟨ex, some y, rx.root⟩ := by
          rw [set_ne hxi.symm]; exact h2
        have e2 := upd_ok g2 (fun n => { n with right := some i })
        have g3 : ((m.set i ⟨d, rx.root, r.root⟩).set x ⟨ex, some y, some i⟩)[x]? = some ⟨ex, some y, some i⟩ :=
          set_self g2
        have g4 : ((m.set i ⟨d, rx.root, r.root⟩).set x ⟨ex, some y, some i⟩)[i]? = some ⟨d, rx.root, r.root⟩ := by
          rw [set_ne hxi, set_self h1]
        have e4 := upd_ok g4 (fun n => { n with d := { n.d with o := n.d.o - (ex.o + 1) } })
        have g5 : (((m.set i ⟨d, rx.root, r.root⟩).set x ⟨ex, some y, some i⟩).set i
            ⟨{ d with o := d.o - (ex.o + 1) }, rx.root, r.root⟩)[y]? = some ⟨ey, ly.root, ry.root⟩ := by
          rw [set_ne hyi.symm, set_ne hxy, set_ne hyi.symm]; exact h3
        have e5 := upd_ok g5 (fun n => { n with d := { n.d with red := false } })
        refine ⟨(((m.set i ⟨d, rx.root, r.root⟩).set x ⟨ex, some y, some i⟩).set i
            ⟨{ d with o := d.o - (ex.o + 1) }, rx.root, r.root⟩).set y ⟨{ ey with red := false }, ly.root, ry.root⟩,
          ?_, ?_, ?_, ?_⟩
        · rw [splitM, get_ok h1]
          simp only [Res.ok_bind, T.root_node]
          rw [get_ok h2]
          simp only [Res.ok_bind, hd.1, if_true, T.root_node]
          rw [get_ok h3]
          simp only [Res.ok_bind, hd.2, if_true]
          rw [e1]
          simp only [Res.ok_bind]
          rw [e2]
          simp only [Res.ok_bind]
          rw [get_ok g3]
          simp only [Res.ok_bind]
          rw [e4]
          simp only [Res.ok_bind]
          rw [e5]
          rfl
        · refine ⟨?_, ⟨?_, ?_, ?_⟩, ?_, ?_, ?_⟩
          · rw [set_ne hxy.symm, set_ne hxi.symm]; exact g3
          · exact set_self g5
          · exact (((h4.set (by grind)).set (by grind)).set (by grind)).set
              (by grind)
          · exact (((h5.set (by grind)).set (by grind)).set (by grind)).set
              (by grind)
          · rw [set_ne hyi]; exact set_self g4
          · exact (((h6.set (by grind)).set (by grind)).set (by grind)).set
              (by grind)
          · exact (((h7.set (by grind)).set (by grind)).set (by grind)).set
              (by grind)
        · simp
        · intro z hz
          simp only [T.ids, List.mem_append, List.mem_cons, not_or] at hz
          rw [set_ne (by tauto), set_ne (by tauto), set_ne (by tauto), set_ne (by tauto)]
  · rw [split, if_neg hd] at hs
    simp only [Res.ok.injEq, T.node.injEq] at hs
    obtain ⟨rfl, rfl, rfl, rfl⟩ := hs
    refine ⟨m, ?_, h, rfl, fun _ _ => rfl⟩
    obtain ⟨h1, h2, h3⟩ := h
    rw [splitM, get_ok h1]
    cases l with
    | nil => rfl
    | node x ex lx rx =>
      simp only [Res.ok_bind, T.root_node]
      rw [get_ok h2.1]
      simp only [Res.ok_bind]
      by_cases hx : ex.red = true
      · rw [if_pos hx]
        cases lx with
        | nil => rfl
        | node y ey ly ry =>
          simp only [T.root_node]
          rw [get_ok h2.2.1.1]
          simp only [Res.ok_bind]
          rw [if_neg]
          intro hy; exact hd (by simp [doubleRed, isRed, hx, hy])
      · rw [if_neg hx]

theorem leanM_ok {m : Mem (D K V)} {i : Nat} {d : D K V} {l r t' : T (D K V)} (h : Rep m (.node i d l r))
    (hn : (T.node i d l r).ids.Nodup) (hs : fix (.node i d l r) = .ok t') :
    ∃ m' x, leanM m i = .ok (m', x) ∧ t'.root = some x ∧ Rep m' t' ∧ m'.length = m.length ∧
      ∀ x, x ∉ (T.node i d l r).ids → m'[x]? = m[x]? := by
  obtain ⟨h1, h2, h3⟩ := h
  by_cases hd : isRed r = true
  · cases r with
    | nil => simp [isRed] at hd
    | node x ex a b =>
      rw [fix, if_pos hd] at hs
      simp only [isRed] at hd
      simp only [leanLeft, rotL, Res.ok_bind, paint, isRed, Res.ok.injEq] at hs
      subst hs
      obtain ⟨h4, h5, h6⟩ := h3
      simp only [T.ids] at hn
      simp only [List.nodup_append, List.nodup_cons, List.mem_append, List.mem_cons] at hn
      have hxi : x ≠ i := by intro h; subst h; simp_all
      have e1 := upd_ok h1 (fun n => { n with right := a.root })
      have g2 : (m.set i ⟨d, l.root, a.root⟩)[x]? = some ⟨ex, a.root, b.root⟩ := by
        rw [set_ne hxi.symm]; exact h4
      have e2 := upd_ok g2 (fun n => { n with left := some i })
      have g3 : ((m.set i ⟨d, l.root, a.root⟩).set x ⟨ex, some i, b.root⟩)[i]? = some ⟨d, l.root, a.root⟩ := by
        rw [set_ne hxi, set_self h1]
      have g4 : ((m.set i ⟨d, l.root, a.root⟩).set x ⟨ex, some i, b.root⟩)[x]? = some ⟨ex, some i, b.root⟩ :=
        set_self g2
      have e4 := upd_ok g4 (fun nx => { nx with d := { nx.d with o := nx.d.o + (d.o + 1) } })
      have g5 : (((m.set i ⟨d, l.root, a.root⟩).set x ⟨ex, some i, b.root⟩).set x
          ⟨{ ex with o := ex.o + (d.o + 1) }, some i, b.root⟩)[i]? = some ⟨d, l.root, a.root⟩ := by
        rw [set_ne hxi]; exact g3
      have g6 := set_self (n' := ⟨{ ex with o := ex.o + (d.o + 1) }, some i, b.root⟩) g4
      have e6 := upd_ok g6 (fun nx => { nx with d := { nx.d with red := d.red } })
      have g7 : ((((m.set i ⟨d, l.root, a.root⟩).set x ⟨ex, some i, b.root⟩).set x
          ⟨{ ex with o := ex.o + (d.o + 1) }, some i, b.root⟩).set x
          ⟨{ ex with o := ex.o + (d.o + 1), red := d.red }, some i, b.root⟩)[i]? = some ⟨d, l.root, a.root⟩ := by
        rw [set_ne hxi]; exact g5
      have e7 := upd_ok g7 (fun n => { n with d := { n.d with red := true } })
      refine ⟨((((m.set i ⟨d, l.root, a.root⟩).set x ⟨ex, some i, b.root⟩).set x
          ⟨{ ex with o := ex.o + (d.o + 1) }, some i, b.root⟩).set x
          ⟨{ ex with o := ex.o + (d.o + 1), red := d.red }, some i, b.root⟩).set i ⟨{ d with red := true }, l.root, a.root⟩,
        x, ?_, rfl, ?_, ?_, ?_⟩
      · rw [leanM, get_ok h1]
        simp only [Res.ok_bind, T.root_node]
        rw [get_ok h4]
        simp only [Res.ok_bind]
        rw [if_pos hd]
        rw [e1]
        simp only [Res.ok_bind]
        rw [e2]
        simp only [Res.ok_bind]
        rw [get_ok g3]
        simp only [Res.ok_bind]
        rw [e4]
        simp only [Res.ok_bind]
        rw [get_ok g5]
        simp only [Res.ok_bind]
        rw [e6]
        simp only [Res.ok_bind]
        rw [e7]
        rfl
      · refine ⟨?_, ⟨?_, ?_, ?_⟩, ?_⟩
        · rw [set_ne hxi.symm]; exact set_self g6
        · exact set_self g7
        · exact ((((h2.set (by grind)).set (by grind)).set (by grind)).set
            (by grind)).set (by grind)
        · exact ((((h5.set (by grind)).set (by grind)).set (by grind)).set
            (by grind)).set (by grind)
        · exact ((((h6.set (by grind)).set (by grind)).set (by grind)).set
            (by grind)).set (by grind)
      · simp
      · intro z hz
        simp only [T.ids, List.mem_append, List.mem_cons, not_or] at hz
        rw [set_ne (by tauto), set_ne (by tauto), set_ne (by tauto), set_ne (by tauto), set_ne (by tauto)]
  · rw [fix, if_neg hd] at hs
    simp only [Res.ok.injEq] at hs
    subst hs
    refine ⟨m, i, ?_, rfl, ⟨h1, h2, h3⟩, rfl, fun _ _ => rfl⟩
    rw [leanM, get_ok h1]
    cases r with
    | nil => rfl
    | node x ex a b =>
      simp only [Res.ok_bind, T.root_node]
      rw [get_ok h3.1]
      simp only [Res.ok_bind]
      rw [if_neg (by simpa [isRed] using hd)]

/-- Positions of the result. -/
def IdsOk (n : Nat) (g : Bool) (t t' : T (D K V)) : Prop :=
  t'.ids.Perm (if g then n :: t.ids else t.ids)

theorem append_ok (k : K) (v : V) : ∀ (f : Nat) (m : Mem (D K V)) (t t' : T (D K V)) (g : Bool),
    Rep m t → t.ids.Nodup → ins true k v m.length f t = .ok (t', g) →
    ∃ m', append k v f m t.root = .ok (m', t'.root, g) ∧ Rep m' t' ∧
      m'.length = m.length + (if g then 1 else 0) ∧
      (∀ j, j < m.length → j ∉ t.ids → m'[j]? = m[j]?) ∧ IdsOk m.length g t t' := by
  intro f
  induction f with
  | zero => intro m t t' g _ _ h; simp [ins] at h
  | succ f ih =>
    intro m t t' g hrep hnd h
    cases t with
    | nil =>
      simp only [ins, Res.ok.injEq, Prod.mk.injEq] at h
      obtain ⟨rfl, rfl⟩ := h
      refine ⟨m ++ [⟨⟨k, v, 0, true⟩, none, none⟩], rfl, ⟨?_, trivial, trivial⟩, by simp, ?_, by simp [IdsOk, T.ids]⟩
      · simp [T.root]
      · intro j hj _; rw [List.getElem?_append_left hj]
    | node i0 d0 l0 r0 =>
      obtain ⟨i, d, l, r, e1, hsame, -⟩ := split_ok i0 d0 l0 r0
      obtain ⟨m1, e2, hrep1, hlen1, hfr1⟩ := splitM_ok hrep hnd e1
      have hids := hsame.ids
      have hnd1 : (T.node i d l r).ids.Nodup := by rw [hids]; exact hnd
      rw [ins, e1] at h
      simp only [Res.ok_bind] at h
      obtain ⟨c1, c2, c3⟩ := hrep1
      rw [show (T.node i0 d0 l0 r0).root = some i0 from rfl, append, e2]
      simp only [Res.ok_bind]
      rw [get_ok c1]
      simp only [Res.ok_bind]
      have hnd2 := hnd1
      simp only [T.ids, List.nodup_append, List.nodup_cons, List.mem_cons] at hnd2
      obtain ⟨n1, ⟨n2, n3⟩, n4⟩ := hnd2
      have nil' : i ∉ l.ids := fun h => n4 i h i (.inl rfl) rfl
      by_cases hk : k = d.k
      · rw [if_pos hk] at h ⊢
        simp only [if_true, Res.ok.injEq, Prod.mk.injEq] at h
        obtain ⟨rfl, rfl⟩ := h
        rw [put_ok c1]
        refine ⟨_, rfl, ⟨?_, c2.set nil', c3.set n2⟩, by simp [hlen1], ?_, ?_⟩
        · rw [set_self c1]; subst hk; rfl
        · intro j hj hj2
          have : j ≠ i := by rintro rfl; exact hj2 (by rw [← hids]; simp [T.ids])
          rw [set_ne this.symm, hfr1 j hj2]
        · simp only [IdsOk, Bool.false_eq_true, if_false]
          rw [← hids]; exact List.Perm.refl _
      rw [if_neg hk] at h ⊢
      by_cases hlt : k < d.k
      · rw [if_pos hlt] at h ⊢
        simp only [Res.bind_eq_ok] at h
        obtain ⟨⟨l', g'⟩, q1, q2⟩ := h
        rw [← hlen1] at q1
        obtain ⟨m2, a1, a2, a3, a4, a5⟩ := ih m1 l l' g' c2 n1 q1
        obtain ⟨h', q3, q4⟩ := q2
        simp only [Res.ok.injEq, Prod.mk.injEq] at q4
        obtain ⟨rfl, rfl⟩ := q4
        rw [a1]
        simp only [Res.ok_bind]
        have hi1 : i < m1.length := (List.getElem?_eq_some_iff.1 c1).1
        have b1 : m2[i]? = some ⟨d, l.root, r.root⟩ := by rw [a4 i hi1 nil']; exact c1
        rw [upd_ok b1]
        simp only [Res.ok_bind]
        have hl'mem : ∀ x, x ∈ l'.ids → x = m1.length ∨ x ∈ l.ids := by
          intro x hx
          have := a5.mem_iff.1 hx
          cases g' <;> simp_all
        have hil' : i ∉ l'.ids := by
          intro h; rcases hl'mem i h with h | h
          · omega
          · exact nil' h
        have hr2 : Rep m2 r := c3.frame fun x hx => a4 x (c3.lt x hx) (fun h => n4 x h x (.inr hx) rfl)
        have hnode : ∃ m3, (if g' = true then upd (m2.set i ⟨d, l'.root, r.root⟩) i
              (fun n => { n with d := { n.d with o := n.d.o + 1 } }) else .ok (m2.set i ⟨d, l'.root, r.root⟩)) = .ok m3 ∧
            m3 = m2.set i ⟨{ d with o := if g' then d.o + 1 else d.o }, l'.root, r.root⟩ := by
          cases g' with
          | true => rw [if_pos rfl, upd_ok (set_self b1)]; exact ⟨_, rfl, by simp⟩
          | false => exact ⟨_, rfl, by simp⟩
        obtain ⟨m3, f1, rfl⟩ := hnode
        rw [f1]
        simp only [Res.ok_bind]
        have hrep3 : Rep (m2.set i ⟨{ d with o := if g' then d.o + 1 else d.o }, l'.root, r.root⟩)
            (.node i { d with o := if g' then d.o + 1 else d.o } l' r) :=
          ⟨set_self b1, a2.set hil', hr2.set n2⟩
        have hperm : (T.node i { d with o := if g' then d.o + 1 else d.o } l' r).ids.Perm
            (if g' then m1.length :: (T.node i d l r).ids else (T.node i d l r).ids) := by
          simp only [T.ids]
          have := a5.append_right (i :: r.ids)
          cases g' <;> simpa using this
        have hnd3 : (T.node i { d with o := if g' then d.o + 1 else d.o } l' r).ids.Nodup := by
          rw [hperm.nodup_iff]
          cases g' with
          | false => exact hnd1
          | true =>
            rw [if_pos rfl, List.nodup_cons]
            refine ⟨fun h => ?_, hnd1⟩
            have := Rep.lt (t := .node i d l r) ⟨c1, c2, c3⟩ _ h
            omega
        obtain ⟨m4, x, z1, z2, z3, z4, z5⟩ := leanM_ok hrep3 hnd3 q3
        obtain ⟨t'', y1, y2, -⟩ := fix_ok i { d with o := if g' then d.o + 1 else d.o } l' r
        rw [q3] at y1
        simp only [Res.ok.injEq] at y1
        subst y1
        refine ⟨m4, by rw [z1, z2]; rfl, z3, by rw [z4, List.length_set, a3, hlen1], ?_, ?_⟩
        · intro j hj hj2
          rw [← hids] at hj2
          have hj3 : j ∉ (T.node i { d with o := if g' then d.o + 1 else d.o } l' r).ids := by
            intro h
            simp only [T.ids, List.mem_append, List.mem_cons] at h hj2
            rcases h with h | h
            · rcases hl'mem j h with h | h
              · omega
              · exact hj2 (.inl h)
            · exact hj2 (.inr h)
          have hji : j ≠ i := by rintro rfl; exact hj2 (by simp [T.ids])
          rw [z5 j hj3, set_ne hji.symm, a4 j (by omega) (fun h => hj2 (by simp [T.ids, h])), hfr1 j (by rw [← hids]; exact hj2)]
        · rw [IdsOk, y2.ids, ← hids, ← hlen1]; exact hperm
      · rw [if_neg hlt] at h ⊢
        simp only [Res.bind_eq_ok] at h
        obtain ⟨⟨r', g'⟩, q1, q2⟩ := h
        rw [← hlen1] at q1
        obtain ⟨m2, a1, a2, a3, a4, a5⟩ := ih m1 r r' g' c3 n3 q1
        obtain ⟨h', q3, q4⟩ := q2
        simp only [Res.ok.injEq, Prod.mk.injEq] at q4
        obtain ⟨rfl, rfl⟩ := q4
        rw [a1]
        simp only [Res.ok_bind]
        have hi1 : i < m1.length := (List.getElem?_eq_some_iff.1 c1).1
        have b1 : m2[i]? = some ⟨d, l.root, r.root⟩ := by rw [a4 i hi1 n2]; exact c1
        rw [upd_ok b1]
        simp only [Res.ok_bind]
        have hr'mem : ∀ x, x ∈ r'.ids → x = m1.length ∨ x ∈ r.ids := by
          intro x hx
          have := a5.mem_iff.1 hx
          cases g' <;> simp_all
        have hir' : i ∉ r'.ids := by
          intro h; rcases hr'mem i h with h | h
          · omega
          · exact n2 h
        have hl2 : Rep m2 l := c2.frame fun x hx => a4 x (c2.lt x hx) (fun h => n4 x hx x (.inr h) rfl)
        have hrep3 : Rep (m2.set i ⟨d, l.root, r'.root⟩) (.node i d l r') :=
          ⟨set_self b1, hl2.set nil', a2.set hir'⟩
        have hperm : (T.node i d l r').ids.Perm
            (if g' then m1.length :: (T.node i d l r).ids else (T.node i d l r).ids) := by
          simp only [T.ids]
          have := (a5.cons i).append_left l.ids
          cases g' with
          | false => simpa using this
          | true =>
            simp only [if_true] at this ⊢
            refine this.trans ?_
            have h1 : (l.ids ++ i :: m1.length :: r.ids).Perm (l.ids ++ m1.length :: i :: r.ids) :=
              (List.Perm.swap _ _ _).append_left _
            exact h1.trans List.perm_middle
        have hnd3 : (T.node i d l r').ids.Nodup := by
          rw [hperm.nodup_iff]
          cases g' with
          | false => exact hnd1
          | true =>
            rw [if_pos rfl, List.nodup_cons]
            refine ⟨fun h => ?_, hnd1⟩
            have := Rep.lt (t := .node i d l r) ⟨c1, c2, c3⟩ _ h
            omega
        obtain ⟨m4, x, z1, z2, z3, z4, z5⟩ := leanM_ok hrep3 hnd3 q3
        obtain ⟨t'', y1, y2, -⟩ := fix_ok i d l r'
        rw [q3] at y1
        simp only [Res.ok.injEq] at y1
        subst y1
        refine ⟨m4, by rw [z1, z2]; rfl, z3, by rw [z4, List.length_set, a3, hlen1], ?_, ?_⟩
        · intro j hj hj2
          rw [← hids] at hj2
          have hj3 : j ∉ (T.node i d l r').ids := by
            intro h
            simp only [T.ids, List.mem_append, List.mem_cons] at h hj2
            rcases h with h | h | h
            · exact hj2 (.inl h)
            · exact hj2 (.inr (.inl h))
            · rcases hr'mem j h with h | h
              · omega
              · exact hj2 (.inr (.inr h))
          have hji : j ≠ i := by rintro rfl; exact hj2 (by simp [T.ids])
          rw [z5 j hj3, set_ne hji.symm, a4 j (by omega) (fun h => hj2 (by simp [T.ids, h])), hfr1 j (by rw [← hids]; exact hj2)]
        · rw [IdsOk, y2.ids, ← hids, ← hlen1]; exact hperm

end OP.Tree.Rb
