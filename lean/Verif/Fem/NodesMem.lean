import Verif.Fem.NodesTree
/-!
# Lemmas for the nodes of a mesh: the array stands for a tree
-/
namespace OP.Fem.Nodes

theorem set_same (v : Mem) (i : Nat) (d : Nd) : v.set i d i = d := by simp [Mem.set]

theorem set_other (v : Mem) {i j : Nat} (d : Nd) (h : j ≠ i) : v.set i d j = v j := by simp [Mem.set, h]

namespace T

def ids : T → List Nat
  | nil => []
  | node i _ _ _ l r => l.ids ++ i :: r.ids

theorem ids_eq (t : T) : t.ids = t.toList.map Prod.snd := by
  induction t with
  | nil => rfl
  | node i k o b l r hl hr => simp [ids, toList, hl, hr]

/-- The array holds the tree. -/
def Rep (v : Mem) : T → Prop
  | nil => True
  | node i k o b l r => (v i).key = k ∧ (v i).order = o ∧ (v i).red = b ∧ (v i).left = l.link ∧ (v i).right = r.link ∧
      l.Rep v ∧ r.Rep v

theorem Rep_congr {v v' : Mem} {t : T} (h : ∀ i ∈ t.ids, v' i = v i) (g : t.Rep v) : t.Rep v' := by
  induction t with
  | nil => trivial
  | node i k o b l r hl hr =>
    obtain ⟨g1, g2, g3, g4, g5, g6, g7⟩ := g
    have hi := h i (by simp [ids])
    exact ⟨by rw [hi, g1], by rw [hi, g2], by rw [hi, g3], by rw [hi, g4], by rw [hi, g5],
      hl (fun j hj => h j (by simp [ids, hj])) g6, hr (fun j hj => h j (by simp [ids, hj])) g7⟩

theorem Rep_set {v : Mem} {t : T} {i : Nat} {d : Nd} (h : i ∉ t.ids) (g : t.Rep v) : t.Rep (v.set i d) := by
  refine Rep_congr (fun j hj => set_other v d ?_) g
  rintro rfl
  exact h hj

theorem link_mem {t : T} {i : Nat} (h : t.link = some i) : i ∈ t.ids := by
  cases t with
  | nil => cases h
  | node j k o b l r => cases h; simp [ids]

theorem ids_split (t : T) : t.split.ids = t.ids := by rw [ids_eq, toList_split, ids_eq]

theorem ids_lean (t : T) : t.lean.ids = t.ids := by rw [ids_eq, toList_lean, ids_eq]

end T

/-- Same coordinates and neighbours -/
def Keep (v v' : Mem) : Prop := ∀ j, (v' j).key = (v j).key ∧ (v' j).nbr = (v j).nbr

theorem Keep.rfl {v : Mem} : Keep v v := fun _ => ⟨_root_.rfl, _root_.rfl⟩

theorem Keep.trans {v v' v'' : Mem} (h : Keep v v') (g : Keep v' v'') : Keep v v'' :=
  fun j => ⟨(g j).1.trans (h j).1, (g j).2.trans (h j).2⟩

theorem Keep.set {v : Mem} {i : Nat} {d : Nd} (h : d.key = (v i).key) (g : d.nbr = (v i).nbr) : Keep v (v.set i d) := by
  intro j
  by_cases hj : j = i
  · subst hj; rw [set_same]; exact ⟨h, g⟩
  · rw [set_other _ _ hj]; exact ⟨_root_.rfl, _root_.rfl⟩

open T

/-- The array after a split -/
def splitM (v : Mem) (i x y : Nat) : Mem :=
  ((v.set x { v x with right := some i }).set i
    { v i with left := (v x).right, order := (v i).order - ((v x).order + 1) }).set y { v y with red := false }

theorem split_rep {v : Mem} {t : T} {i : Nat} (hl : t.link = some i) (hr : t.Rep v) (hn : t.ids.Nodup) :
    ∃ v' i', split v i = (v', i') ∧ t.split.link = some i' ∧ t.split.Rep v' ∧ (∀ j, j ∉ t.ids → v' j = v j) ∧ Keep v v' := by
  cases t with
  | nil => cases hl
  | node i0 k o b l r =>
  cases hl
  obtain ⟨h1, h2, h3, h4, h5, h6, h7⟩ := hr
  cases l with
  | nil =>
    refine ⟨v, i, ?_, rfl, ⟨h1, h2, h3, h4, h5, h6, h7⟩, fun _ _ => rfl, Keep.rfl⟩
    simp only [split, h4, link]
  | node x kx ox bx lx rx =>
    obtain ⟨x1, x2, x3, x4, x5, x6, x7⟩ := h6
    cases bx with
    | false =>
      refine ⟨v, i, ?_, rfl, ⟨h1, h2, h3, h4, h5, ⟨x1, x2, x3, x4, x5, x6, x7⟩, h7⟩, fun _ _ => rfl, Keep.rfl⟩
      simp [split, h4, link, x3]
    | true =>
      cases lx with
      | nil =>
        refine ⟨v, i, ?_, rfl, ⟨h1, h2, h3, h4, h5, ⟨x1, x2, x3, x4, x5, x6, x7⟩, h7⟩, fun _ _ => rfl, Keep.rfl⟩
        simp [split, h4, link, x3, x4]
      | node y ky oy by' a c =>
        obtain ⟨y1, y2, y3, y4, y5, y6, y7⟩ := x6
        cases by' with
        | false =>
          refine ⟨v, i, ?_, rfl, ⟨h1, h2, h3, h4, h5, ⟨x1, x2, x3, x4, x5, ⟨y1, y2, y3, y4, y5, y6, y7⟩, x7⟩, h7⟩,
            fun _ _ => rfl, Keep.rfl⟩
          simp [split, h4, link, x3, x4, y3]
        | true =>
          have hix : x ≠ i := by
            rintro rfl; simp only [ids] at hn; grind
          have hiy : y ≠ i := by
            rintro rfl; simp only [ids] at hn; grind
          have hxy : y ≠ x := by
            rintro rfl; simp only [ids] at hn; grind
          simp only [ids, List.nodup_append, List.nodup_cons, List.mem_append, List.mem_cons, List.cons_append,
            List.append_assoc] at hn
          have ha : i ∉ a.ids ∧ x ∉ a.ids ∧ y ∉ a.ids :=
            ⟨fun h => by have := hn; grind, fun h => by have := hn; grind, fun h => by have := hn; grind⟩
          have hc : i ∉ c.ids ∧ x ∉ c.ids ∧ y ∉ c.ids :=
            ⟨fun h => by have := hn; grind, fun h => by have := hn; grind, fun h => by have := hn; grind⟩
          have hrx : i ∉ rx.ids ∧ x ∉ rx.ids ∧ y ∉ rx.ids :=
            ⟨fun h => by have := hn; grind, fun h => by have := hn; grind, fun h => by have := hn; grind⟩
          have hr : i ∉ r.ids ∧ x ∉ r.ids ∧ y ∉ r.ids :=
            ⟨fun h => by have := hn; grind, fun h => by have := hn; grind, fun h => by have := hn; grind⟩
          have hs : split v i = (splitM v i x y, x) := by
            simp only [split, h4, link, x3, x4, if_true]
            have : y = x ∨ y = i ∨ (y ≠ x ∧ y ≠ i) := by tauto
            simp only [y3, if_true, splitM]
            refine Prod.ext (funext fun j => ?_) rfl
            by_cases hj : j = i
            · subst hj; simp [Mem.set, hix, hiy, hxy, hix.symm, hiy.symm, hxy.symm]
            · by_cases hj' : j = x
              · subst hj'; simp [Mem.set, hix, hiy, hxy, hix.symm, hiy.symm, hxy.symm]
              · simp [Mem.set, hj, hj', hix, hiy, hxy, hix.symm, hiy.symm, hxy.symm]
          refine ⟨_, _, hs, rfl, ?_, ?_, ?_⟩
          · have hset : ∀ t : T, i ∉ t.ids ∧ x ∉ t.ids ∧ y ∉ t.ids → t.Rep v → t.Rep (splitM v i x y) :=
              fun t ht g => Rep_set ht.2.2 (Rep_set ht.1 (Rep_set ht.2.1 g))
            refine ⟨?_, ?_, ?_, ?_, ?_, ⟨?_, ?_, ?_, ?_, ?_, hset a ha y6, hset c hc y7⟩,
              ⟨?_, ?_, ?_, ?_, ?_, hset rx hrx x7, hset r hr h7⟩⟩ <;>
              simp [splitM, Mem.set, hix, hiy, hxy, hix.symm, hiy.symm, hxy.symm, h1, h2, h3, h5, x1, x2, x3, x4, x5, y1, y2,
                y4, y5, link]
          · intro j hj
            simp only [ids, List.mem_append, List.mem_cons, not_or] at hj
            simp [splitM, Mem.set, hj]
          · refine Keep.trans (Keep.set ?_ ?_) (Keep.trans (Keep.set ?_ ?_) (Keep.set ?_ ?_)) <;>
              simp [Mem.set, hix, hiy, hxy, hix.symm, hiy.symm, hxy.symm]

theorem lean_rep {v : Mem} {t : T} {i : Nat} (hl : t.link = some i) (hr : t.Rep v) (hn : t.ids.Nodup) :
    ∃ v' i', lean v i = (v', i') ∧ t.lean.link = some i' ∧ t.lean.Rep v' ∧ (∀ j, j ∉ t.ids → v' j = v j) ∧ Keep v v' := by
  cases t with
  | nil => cases hl
  | node i0 k o b l r =>
  cases hl
  obtain ⟨h1, h2, h3, h4, h5, h6, h7⟩ := hr
  cases r with
  | nil =>
    refine ⟨v, i, ?_, rfl, ⟨h1, h2, h3, h4, h5, h6, h7⟩, fun _ _ => rfl, Keep.rfl⟩
    simp only [lean, h5, link]
  | node x kx ox bx lx rx =>
    obtain ⟨x1, x2, x3, x4, x5, x6, x7⟩ := h7
    cases bx with
    | false =>
      refine ⟨v, i, ?_, rfl, ⟨h1, h2, h3, h4, h5, h6, ⟨x1, x2, x3, x4, x5, x6, x7⟩⟩, fun _ _ => rfl, Keep.rfl⟩
      simp [lean, h5, link, x3]
    | true =>
      have hix : x ≠ i := by
        rintro rfl; simp only [ids] at hn; grind
      simp only [ids, List.nodup_append, List.nodup_cons, List.mem_append, List.mem_cons, List.cons_append,
        List.append_assoc] at hn
      have ha : i ∉ l.ids ∧ x ∉ l.ids := ⟨fun h => by have := hn; grind, fun h => by have := hn; grind⟩
      have hc : i ∉ lx.ids ∧ x ∉ lx.ids := ⟨fun h => by have := hn; grind, fun h => by have := hn; grind⟩
      have hrx : i ∉ rx.ids ∧ x ∉ rx.ids := ⟨fun h => by have := hn; grind, fun h => by have := hn; grind⟩
      have hs : lean v i = ((v.set x { v x with left := some i, order := (v x).order + ((v i).order + 1), red := (v i).red }).set i
          { v i with right := (v x).left, red := true }, x) := by
        simp only [lean, h5, link, x3, if_true]
        refine Prod.ext (funext fun j => ?_) rfl
        by_cases hj : j = i
        · subst hj; simp [Mem.set, hix, hix.symm]
        · by_cases hj' : j = x
          · subst hj'; simp [Mem.set, hix, hix.symm]
          · simp [Mem.set, hj, hj']
      refine ⟨_, _, hs, rfl, ?_, ?_, ?_⟩
      · refine ⟨?_, ?_, ?_, ?_, ?_, ⟨?_, ?_, ?_, ?_, ?_, Rep_set ha.1 (Rep_set ha.2 h6), Rep_set hc.1 (Rep_set hc.2 x6)⟩,
          Rep_set hrx.1 (Rep_set hrx.2 x7)⟩ <;>
          simp [Mem.set, hix, hix.symm, h1, h2, h3, h4, x1, x2, x4, x5, link]
      · intro j hj
        simp only [ids, List.mem_append, List.mem_cons, not_or] at hj
        simp [Mem.set, hj]
      · refine Keep.trans (Keep.set ?_ ?_) (Keep.set ?_ ?_) <;> simp [Mem.set, hix, hix.symm]

theorem append_rep (dbg : Bool) (c : C3) : ∀ (f : Nat) (v : Mem) (size : Nat) (t t' : T), t.Rep v → t.ids.Nodup →
    (∀ i ∈ t.ids, i < size) → t.Sorted → (∀ a ∈ t.toList, a.1 ≠ c) → ins c size f t = some t' →
    ∃ v' i, append dbg c f v size t.link = .ok (v', size + 1, some i) ∧ t'.link = some i ∧ t'.Rep v' ∧
      (∀ j, j ∉ t.ids → j ≠ size → v' j = v j) ∧ Keep (v.set size { key := c }) v' := by
  intro f
  induction f with
  | zero => intro v size t t' _ _ _ _ _ h; cases h
  | succ f ih =>
    intro v size t t' hr hn hb hs hc h
    cases t with
    | nil =>
      simp only [ins, Option.some.injEq] at h
      subst h
      refine ⟨_, size, rfl, rfl, ?_, fun j _ hj => set_other v _ hj, Keep.rfl⟩
      simp [Rep, set_same, link]
    | node i k o b l r =>
      obtain ⟨v1, i1, e1, e2, e3, e4, e5⟩ := split_rep (t := node i k o b l r) rfl hr hn
      have hl := toList_split (node i k o b l r)
      have hid := ids_split (node i k o b l r)
      rw [← hid] at hn hb e4
      simp only [← hid]
      have hs' : (T.split (node i k o b l r)).Sorted := by unfold T.Sorted; rw [hl]; exact hs
      rw [← hl] at hc
      simp only [ins] at h
      rw [show (node i k o b l r).link = some i from rfl]
      simp only [append, e1]
      generalize hsp : T.split (node i k o b l r) = s at *
      have hk0 : Keep (v.set size { key := c }) (v1.set size { key := c }) := by
        intro j
        by_cases hj : j = size
        · subst hj; simp [set_same]
        · rw [set_other _ _ hj, set_other _ _ hj]; exact e5 j
      clear hr hs hl hid hsp e1 e5
      cases s with
      | nil => cases h
      | node i k o b l r =>
        simp only at h
        have e2' : i = i1 := by cases e2; rfl
        subst e2'
        obtain ⟨g1, g2, g3, g4, g5, g6, g7⟩ := e3
        obtain ⟨hL, hR, hLk, hRk⟩ := Sorted_node hs'
        have hisz : i ≠ size := Nat.ne_of_lt (hb i (by simp [ids]))
        have hn0 := hn
        simp only [ids, List.nodup_append, List.nodup_cons, List.mem_cons] at hn
        obtain ⟨n1, ⟨n2, n3⟩, n4⟩ := hn
        have n5 : i ∉ l.ids := fun h => n4 i h i (Or.inl rfl) rfl
        have hne : c.compare (v1 i).key ≠ 0 := by
          intro h0
          rw [g1] at h0
          exact hc (k, i) (by simp [toList]) ((cmp_zero _ _).1 h0).symm
        rw [if_neg hne, g1]
        by_cases hlt : c.compare k < 0
        · rw [if_pos hlt] at h ⊢
          simp only [Option.map_eq_some_iff] at h
          obtain ⟨l', h1, h2⟩ := h
          obtain ⟨v2, x, f1, f2, f3, f4, f5⟩ := ih v1 size l l' g6 n1 (fun j hj => hb j (by simp [ids, hj])) hL
            (fun a ha => hc a (by simp [toList, ha])) h1
          obtain ⟨A, B, q1, q2, _⟩ := ins_list c size f l l' h1 hL (fun a ha => hc a (by simp [toList, ha]))
          have hid' : ∀ j, j ∈ l'.ids ↔ j ∈ l.ids ∨ j = size := by
            intro j
            rw [ids_eq, ids_eq, q1, q2]
            simp only [List.map_append, List.map_cons, List.mem_append, List.mem_cons]
            tauto
          have hnl : l'.ids.Nodup := by
            have : l'.ids.Perm (size :: l.ids) := by
              rw [ids_eq, ids_eq, q1, q2]
              simp only [List.map_append, List.map_cons]
              exact List.perm_middle
            rw [this.nodup_iff, List.nodup_cons]
            exact ⟨fun h => absurd (hb size (by simp [ids, h])) (lt_irrefl _), n1⟩
          have hvi : v2 i = v1 i := f4 i n5 hisz
          have hs2 : ((v2.set i { v2 i with left := some x }).set i { (v2.set i { v2 i with left := some x }) i with
              order := ((v2.set i { v2 i with left := some x }) i).order + 1 }) =
              v2.set i { v1 i with left := some x, order := o + 1 } := by
            funext j
            by_cases hj : j = i
            · subst hj; simp [set_same, hvi, g2]
            · rw [set_other _ _ hj, set_other _ _ hj, set_other _ _ hj]
          have hrep : (node i k (o + 1) b l' r).Rep (v2.set i { v1 i with left := some x, order := o + 1 }) := by
            refine ⟨?_, ?_, ?_, ?_, ?_, Rep_set ?_ f3, Rep_set n2 (Rep_congr ?_ g7)⟩
            · rw [set_same]; exact g1
            · rw [set_same]
            · rw [set_same]; exact g3
            · rw [set_same]; exact f2.symm
            · rw [set_same]; exact g5
            · rw [hid' i]; push Not; exact ⟨n5, hisz⟩
            · intro j hj
              refine f4 j (fun h => n4 j h j (Or.inr hj) rfl) ?_
              exact Nat.ne_of_lt (hb j (by simp [ids, hj]))
          have hnod : (node i k (o + 1) b l' r).ids.Nodup := by
            simp only [ids, List.nodup_append, List.nodup_cons, List.mem_cons]
            refine ⟨hnl, ⟨n2, n3⟩, ?_⟩
            intro a ha b' hb'
            rcases (hid' a).1 ha with ha | ha
            · exact n4 a ha b' hb'
            · subst ha
              have := hb b' (by simp [ids]; tauto)
              omega
          obtain ⟨v3, y, k1, k2, k3, k4, k5⟩ := lean_rep (t := node i k (o + 1) b l' r) rfl hrep hnod
          refine ⟨v3, y, ?_, ?_, ?_, ?_, ?_⟩
          · rw [g4, f1]
            simp only [Res.ok_bind, hs2, k1, Res.pure_eq]
          · rw [← h2]; exact k2
          · rw [← h2]; exact k3
          · intro j hj hj'
            have hj1 : j ∉ l.ids ∧ j ≠ i ∧ j ∉ r.ids := by simpa [ids] using hj
            rw [k4 j ?_, set_other _ _ hj1.2.1, f4 j hj1.1 hj', e4 j hj]
            simp only [ids, List.mem_append, List.mem_cons, hid' j]
            tauto
          · refine hk0.trans (f5.trans (Keep.trans (Keep.set ?_ ?_) k5))
            · rw [hvi]
            · rw [hvi]
        · rw [if_neg hlt] at h ⊢
          simp only [Option.map_eq_some_iff] at h
          obtain ⟨r', h1, h2⟩ := h
          obtain ⟨v2, x, f1, f2, f3, f4, f5⟩ := ih v1 size r r' g7 n3 (fun j hj => hb j (by simp [ids, hj])) hR
            (fun a ha => hc a (by simp [toList, ha])) h1
          obtain ⟨A, B, q1, q2, _⟩ := ins_list c size f r r' h1 hR (fun a ha => hc a (by simp [toList, ha]))
          have hid' : ∀ j, j ∈ r'.ids ↔ j ∈ r.ids ∨ j = size := by
            intro j
            rw [ids_eq, ids_eq, q1, q2]
            simp only [List.map_append, List.map_cons, List.mem_append, List.mem_cons]
            tauto
          have hnl : r'.ids.Nodup := by
            have : r'.ids.Perm (size :: r.ids) := by
              rw [ids_eq, ids_eq, q1, q2]
              simp only [List.map_append, List.map_cons]
              exact List.perm_middle
            rw [this.nodup_iff, List.nodup_cons]
            exact ⟨fun h => absurd (hb size (by simp [ids, h])) (lt_irrefl _), n3⟩
          have hvi : v2 i = v1 i := f4 i n2 hisz
          have hrep : (node i k o b l r').Rep (v2.set i { v2 i with right := some x }) := by
            refine ⟨?_, ?_, ?_, ?_, ?_, Rep_set n5 (Rep_congr ?_ g6), Rep_set ?_ f3⟩
            · rw [set_same, hvi]; exact g1
            · rw [set_same, hvi]; exact g2
            · rw [set_same, hvi]; exact g3
            · rw [set_same, hvi]; exact g4
            · rw [set_same]; exact f2.symm
            · intro j hj
              refine f4 j (fun h => n4 j hj j (Or.inr h) rfl) ?_
              exact Nat.ne_of_lt (hb j (by simp [ids, hj]))
            · rw [hid' i]; push Not; exact ⟨n2, hisz⟩
          have hnod : (node i k o b l r').ids.Nodup := by
            simp only [ids, List.nodup_append, List.nodup_cons, List.mem_cons]
            refine ⟨n1, ⟨?_, hnl⟩, ?_⟩
            · rw [hid' i]; push Not; exact ⟨n2, hisz⟩
            intro a ha b' hb'
            rcases hb' with rfl | hb'
            · exact n4 a ha b' (Or.inl rfl)
            rcases (hid' b').1 hb' with hb' | hb'
            · exact n4 a ha b' (Or.inr hb')
            · subst hb'
              have := hb a (by simp [ids]; tauto)
              omega
          obtain ⟨v3, y, k1, k2, k3, k4, k5⟩ := lean_rep (t := node i k o b l r') rfl hrep hnod
          refine ⟨v3, y, ?_, ?_, ?_, ?_, ?_⟩
          · rw [g5, f1]
            simp only [Res.ok_bind, k1, Res.pure_eq]
          · rw [← h2]; exact k2
          · rw [← h2]; exact k3
          · intro j hj hj'
            have hj1 : j ∉ l.ids ∧ j ≠ i ∧ j ∉ r.ids := by simpa [ids] using hj
            rw [k4 j ?_, set_other _ _ hj1.2.1, f4 j hj1.2.2 hj', e4 j hj]
            simp only [ids, List.mem_append, List.mem_cons, hid' j]
            tauto
          · refine hk0.trans (f5.trans (Keep.trans (Keep.set ?_ ?_) k5)) <;> rfl

theorem find_rep {v : Mem} (k : C3) : ∀ (t : T), t.Rep v → t.Sorted → ∀ f, t.height ≤ f →
    (∃ i, (k, i) ∈ t.toList ∧ find v k f t.link = .ok (some i)) ∨
    ((∀ a ∈ t.toList, a.1 ≠ k) ∧ find v k f t.link = .ok none) := by
  intro t
  induction t with
  | nil => intro _ _ f _; right; exact ⟨by simp [toList], by cases f <;> rfl⟩
  | node i kn o b l r hl hr =>
    rintro ⟨g1, g2, g3, g4, g5, g6, g7⟩ hs f hf
    obtain ⟨hL, hR, hLk, hRk⟩ := Sorted_node hs
    simp only [height] at hf
    obtain ⟨f, rfl⟩ : ∃ f', f = f' + 1 := ⟨f - 1, by omega⟩
    rw [show (node i kn o b l r).link = some i from rfl]
    simp only [find, g1]
    by_cases h0 : k.compare kn = 0
    · rw [if_pos h0]
      left
      rw [(cmp_zero _ _).1 h0]
      exact ⟨i, by simp [toList], rfl⟩
    · rw [if_neg h0]
      by_cases hlt : k.compare kn < 0
      · rw [if_pos hlt, g4]
        rcases hl g6 hL f (by omega) with ⟨x, e1, e2⟩ | ⟨e1, e2⟩
        · exact Or.inl ⟨x, by simp [toList, e1], e2⟩
        · refine Or.inr ⟨?_, e2⟩
          intro a ha
          have hck := (cmp_neg _ _).1 hlt
          simp only [toList, List.mem_append, List.mem_cons] at ha
          rcases ha with ha | rfl | ha
          · exact e1 a ha
          · rintro rfl; exact before_irrefl _ hck
          · rintro rfl; exact before_asymm hck (hRk a ha)
      · rw [if_neg hlt, g5]
        have hck := (cmp_pos _ _).1 (show 0 < k.compare kn by omega)
        rcases hr g7 hR f (by omega) with ⟨x, e1, e2⟩ | ⟨e1, e2⟩
        · exact Or.inl ⟨x, by simp [toList, e1], e2⟩
        · refine Or.inr ⟨?_, e2⟩
          intro a ha
          simp only [toList, List.mem_append, List.mem_cons] at ha
          rcases ha with ha | rfl | ha
          · rintro rfl; exact before_asymm hck (hLk a ha)
          · rintro rfl; exact before_irrefl _ hck
          · exact e1 a ha

theorem nth_rep {v : Mem} : ∀ (t : T), t.Rep v → t.OK → ∀ f, t.height ≤ f → ∀ order j,
    nth v (order + j) f order t.link = match t.toList[j]? with | some a => .ok a.2 | none => .ub := by
  intro t
  induction t with
  | nil => intro _ _ f _ order j; cases f <;> rfl
  | node i kn o b l r hl hr =>
    rintro ⟨g1, g2, g3, g4, g5, g6, g7⟩ ⟨hk, hL, hR⟩ f hf order j
    simp only [height] at hf
    obtain ⟨f, rfl⟩ : ∃ f', f = f' + 1 := ⟨f - 1, by omega⟩
    rw [show (node i kn o b l r).link = some i from rfl]
    simp only [nth, g2, g4, g5]
    have hlen := length_toList l
    by_cases h0 : j = o
    · rw [if_pos (by omega)]
      simp only [toList]
      rw [List.getElem?_append_right (by omega), show j - l.toList.length = 0 by omega]
      rfl
    · rw [if_neg (by omega)]
      by_cases h1 : j < o
      · rw [if_pos (by omega), hl g6 hL f (by omega)]
        simp only [toList]
        rw [List.getElem?_append_left (by omega)]
      · rw [if_neg (by omega), show order + j = order + (o + 1) + (j - (o + 1)) by omega, hr g7 hR f (by omega)]
        simp only [toList]
        rw [List.getElem?_append_right (by omega), show j - l.toList.length = (j - (o + 1)) + 1 by omega]
        rfl

theorem rank_rep {v : Mem} (k : C3) : ∀ (t : T), t.Rep v → t.OK → t.Sorted → ∀ f, t.height ≤ f → ∀ order,
    rank v k f order t.link = .ok (order + t.toList.countP fun a => decide (a.1.before k)) := by
  intro t
  induction t with
  | nil => intro _ _ _ f _ order; cases f <;> rfl
  | node i kn o b l r hl hr =>
    rintro ⟨g1, g2, g3, g4, g5, g6, g7⟩ ⟨hk, hL, hR⟩ hs f hf order
    obtain ⟨sL, sR, hLk, hRk⟩ := Sorted_node hs
    simp only [height] at hf
    obtain ⟨f, rfl⟩ : ∃ f', f = f' + 1 := ⟨f - 1, by omega⟩
    rw [show (node i kn o b l r).link = some i from rfl]
    simp only [rank, g1, g2, g4, g5, toList, List.countP_append, List.countP_cons]
    have hlen := length_toList l
    have allL : ∀ k', k' = kn ∨ kn.before k' → l.toList.countP (fun a => decide (a.1.before k')) = l.card := by
      intro k' h
      rw [← hlen, List.countP_eq_length]
      intro a ha
      rcases h with rfl | h
      · simpa using hLk a ha
      · simpa using before_trans (hLk a ha) h
    have noR : ∀ k', k' = kn ∨ k'.before kn → r.toList.countP (fun a => decide (a.1.before k')) = 0 := by
      intro k' h
      rw [List.countP_eq_zero]
      intro a ha
      rcases h with rfl | h
      · simpa using before_asymm (hRk a ha)
      · simpa using before_asymm (before_trans h (hRk a ha))
    by_cases h0 : k.compare kn = 0
    · rw [if_pos h0]
      have e := (cmp_zero _ _).1 h0
      rw [allL k (Or.inl e), noR k (Or.inl e), if_neg (by simpa [e] using before_irrefl kn), hk]
      simp
    · rw [if_neg h0]
      by_cases hlt : k.compare kn < 0
      · have hck := (cmp_neg _ _).1 hlt
        rw [if_pos hlt, hl g6 hL sL f (by omega), noR k (Or.inr hck), if_neg (by simpa using before_asymm hck)]
        simp
      · have hck := (cmp_pos _ _).1 (show 0 < k.compare kn by omega)
        rw [if_neg hlt, hr g7 hR sR f (by omega), allL k (Or.inr hck), if_pos (by simpa using hck)]
        congr 1
        omega

end OP.Fem.Nodes
