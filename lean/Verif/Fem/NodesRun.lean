import Verif.Fem.NodesMem
import Mathlib.Data.List.Nodup
/-!
# Lemmas for the nodes of a mesh: the invariant of a list of nodes
-/
namespace OP.Fem.Nodes

open T

/-- The list of nodes holds the nodes `s`, in the order in which they were added. -/
structure Inv (l : NL) (s : List (C3 × Nbr)) (t : T) (h : Nat) : Prop where
  rep : t.Rep l.val
  link : t.link = l.root
  ok : t.OK
  sorted : t.Sorted
  bal : t.Bal h 0
  perm : t.toList.Perm (s.map Prod.fst).zipIdx
  size : l.size = s.length
  val : ∀ i d, s[i]? = some d → (l.val i).key = d.1 ∧ (l.val i).nbr = d.2
  blk : 0 < l.block

theorem Inv.init : Inv {} [] .nil 0 :=
  ⟨trivial, rfl, trivial, List.Pairwise.nil, ⟨rfl, rfl⟩, List.Perm.nil, rfl, by simp, by simp⟩

namespace Inv
variable {l : NL} {s : List (C3 × Nbr)} {t : T} {h : Nat}

theorem card (I : Inv l s t h) : t.card = s.length := by
  rw [← length_toList, I.perm.length_eq]; simp

theorem mem (I : Inv l s t h) (c : C3) (i : Nat) : (c, i) ∈ t.toList ↔ (s.map Prod.fst)[i]? = some c := by
  rw [I.perm.mem_iff, List.mem_zipIdx_iff_getElem?]

theorem mem_keys (I : Inv l s t h) (c : C3) : (∀ a ∈ t.toList, a.1 ≠ c) ↔ c ∉ s.map Prod.fst := by
  constructor
  · intro g hc
    obtain ⟨i, hi⟩ := List.getElem?_of_mem hc
    exact g (c, i) ((I.mem c i).2 hi) rfl
  · rintro g ⟨a, i⟩ ha rfl
    exact g (List.mem_of_getElem? ((I.mem a i).1 ha))

theorem nodup (I : Inv l s t h) : (s.map Prod.fst).Nodup := by
  have h1 : (t.toList.map Prod.fst).Nodup := by
    have := I.sorted
    unfold T.Sorted at this
    rw [List.Nodup, List.pairwise_map]
    refine this.imp ?_
    intro a b hab e
    rw [e] at hab
    exact before_irrefl _ hab
  have h2 : (t.toList.map Prod.fst).Perm (s.map Prod.fst) := by
    have := I.perm.map Prod.fst
    rwa [List.zipIdx_map_fst] at this
  exact h2.nodup_iff.1 h1

theorem permKeys (I : Inv l s t h) : (t.toList.map Prod.fst).Perm (s.map Prod.fst) := by
  have := I.perm.map Prod.fst
  rwa [List.zipIdx_map_fst] at this

theorem ids_lt (I : Inv l s t h) : ∀ i ∈ t.ids, i < l.size := by
  intro i hi
  rw [ids_eq] at hi
  obtain ⟨⟨c, j⟩, hj, rfl⟩ := List.mem_map.1 hi
  have := (I.mem c j).1 hj
  have := (List.getElem?_eq_some_iff.1 this).1
  rw [I.size]
  simpa using this

theorem ids_nodup (I : Inv l s t h) : t.ids.Nodup := by
  rw [ids_eq, (I.perm.map Prod.snd).nodup_iff, List.zipIdx_map_snd]
  exact List.nodup_range'

theorem log_le (I : Inv l s t h) : h ≤ Nat.log 2 (s.length + 1) := I.card ▸ Bal_log I.bal

theorem height_le (I : Inv l s t h) : t.height ≤ 3 * Nat.log 2 (s.length + 1) := by
  have := (Bal_bounds t h 0 I.bal).1
  have := I.log_le
  omega

theorem haskey (I : Inv l s t h) (c : C3) (f : Nat) (hf : 3 * Nat.log 2 (s.length + 1) ≤ f) :
    (∃ i, (s.map Prod.fst)[i]? = some c ∧ l.haskey f c = .ok (some i)) ∨
    (c ∉ s.map Prod.fst ∧ l.haskey f c = .ok none) := by
  have hh := I.height_le
  unfold NL.haskey
  rw [← I.link]
  rcases find_rep c t I.rep I.sorted f (by omega) with ⟨i, g1, g2⟩ | ⟨g1, g2⟩
  · exact Or.inl ⟨i, (I.mem c i).1 g1, g2⟩
  · exact Or.inr ⟨(I.mem_keys c).1 g1, g2⟩

theorem add (I : Inv l s t h) (dbg : Bool) (c : C3) (hc : c ∉ s.map Prod.fst) (f : Nat)
    (hf : 2 * Nat.log 2 (s.length + 1) + 1 ≤ f) :
    ∃ l' t' h', l.add dbg f c = .ok l' ∧ Inv l' (s ++ [(c, ({} : Nbr))]) t' h' := by
  have hlog := I.log_le
  obtain ⟨t1, e1, e2⟩ := ins_good c l.size h t I.bal f (by omega)
  have hc' := (I.mem_keys c).2 hc
  obtain ⟨A, B, p1, p2, p3, p4⟩ := ins_list c l.size f t t1 e1 I.sorted hc'
  obtain ⟨k1, k2⟩ := ins_OK c l.size f t t1 e1 I.ok
  obtain ⟨v', i, a1, a2, a3, a4, a5⟩ := append_rep dbg c f l.val l.size t t1 I.rep I.ids_nodup I.ids_lt I.sorted hc' e1
  obtain ⟨h', b1⟩ := black_Bal e2
  have hblk := SetFam.growBlock_pos (l.size + 1) l.block I.blk
  have hbuf : l.size < (l.allocate (l.size + 1)).buffer := by
    have := SetFam.roundUp_ge (l.size + 1) (SetFam.growBlock (l.size + 1) l.block) hblk
    simp only [NL.allocate, SetFam.bufsize]
    omega
  refine ⟨{ l.allocate (l.size + 1) with val := v'.set i { v' i with red := false }, size := l.size + 1, root := some i },
    t1.black, h', ?_, ?_⟩
  · unfold NL.add
    have hsz : (l.allocate (l.size + 1)).size = l.size := rfl
    simp only [hsz]
    rw [if_pos hbuf, show (l.allocate (l.size + 1)).val = l.val from rfl,
      show (l.allocate (l.size + 1)).root = t.link from I.link.symm, a1]
    rfl
  · have hperm : t1.toList.Perm ((c, l.size) :: t.toList) := by rw [p1, p2]; exact List.perm_middle
    have hkeep : Keep v' (v'.set i { v' i with red := false }) := Keep.set rfl rfl
    refine ⟨?_, ?_, black_OK k1, ?_, b1, ?_, ?_, ?_, hblk⟩
    · show t1.black.Rep (v'.set i { v' i with red := false })
      cases t1 with
      | nil => cases a2
      | node j k o b lt rt =>
        have hj : j = i := by cases a2; rfl
        subst hj
        have hnd : (node j k o b lt rt).ids.Nodup := by
          rw [ids_eq, (hperm.map Prod.snd).nodup_iff, List.map_cons, ← ids_eq, List.nodup_cons]
          exact ⟨fun h => absurd (I.ids_lt _ h) (lt_irrefl _), I.ids_nodup⟩
        simp only [ids, List.nodup_append, List.nodup_cons, List.mem_cons] at hnd
        obtain ⟨n1, ⟨n2, n3⟩, n4⟩ := hnd
        have n5 : j ∉ lt.ids := fun h => n4 j h j (Or.inl rfl) rfl
        obtain ⟨r1, r2, r3, r4, r5, r6, r7⟩ := a3
        exact ⟨by rw [set_same]; exact r1, by rw [set_same]; exact r2, by rw [set_same], by rw [set_same]; exact r4,
          by rw [set_same]; exact r5, Rep_set n5 r6, Rep_set n2 r7⟩
    · rw [black_link, a2]
    · unfold T.Sorted
      rw [black_toList, p2]
      have := I.sorted
      unfold T.Sorted at this
      rw [p1] at this
      rw [List.pairwise_append] at this ⊢
      obtain ⟨q1, q2, q3⟩ := this
      refine ⟨q1, List.pairwise_cons.2 ⟨p4, q2⟩, ?_⟩
      intro a ha b hb
      rcases List.mem_cons.1 hb with rfl | hb
      · exact p3 a ha
      · exact q3 a ha b hb
    · rw [black_toList]
      refine hperm.trans ?_
      rw [List.map_append, List.zipIdx_append]
      refine List.Perm.trans ?_ (List.perm_append_comm)
      simp only [List.map_cons, List.map_nil, List.length_map, List.zipIdx_cons, List.zipIdx_nil, List.cons_append,
        List.nil_append, Nat.zero_add]
      rw [I.size]
      exact List.Perm.cons _ I.perm
    · simp [I.size]
    · intro j d hd
      show (v'.set i { v' i with red := false } j).key = d.1 ∧ (v'.set i { v' i with red := false } j).nbr = d.2
      have hk := (a5.trans hkeep) j
      rw [hk.1, hk.2]
      by_cases hj : j < s.length
      · rw [List.getElem?_append_left hj] at hd
        rw [set_other _ _ (by rw [I.size]; omega)]
        exact I.val j d hd
      · rw [List.getElem?_append_right (by omega)] at hd
        have : j - s.length = 0 := by
          by_contra hne
          rw [List.getElem?_eq_none (by simp; omega)] at hd
          cases hd
        rw [this] at hd
        have hd' : (c, ({} : Nbr)) = d := by simpa using hd
        rw [show j = l.size by rw [I.size]; omega, set_same, ← hd']
        exact ⟨rfl, rfl⟩

/-- Storing a node with other neighbours -/
theorem store (I : Inv l s t h) (i : Nat) (d : C3 × Nbr) (hd : s[i]? = some d) (g : Nbr) :
    Inv { l with val := l.val.set i { l.val i with nbr := g } } (s.set i (d.1, g)) t h := by
  have hi := (List.getElem?_eq_some_iff.1 hd)
  have hmap : (s.set i (d.1, g)).map Prod.fst = s.map Prod.fst := by
    apply List.ext_getElem?
    intro j
    simp only [List.getElem?_map, List.getElem?_set]
    by_cases hj : i = j
    · subst hj; simp [hi.1, hi.2]
    · simp [hj]
  refine ⟨?_, I.link, I.ok, I.sorted, I.bal, ?_, ?_, ?_, I.blk⟩
  · have : ∀ t : T, t.Rep l.val → t.Rep (l.val.set i { l.val i with nbr := g }) := by
      intro t
      induction t with
      | nil => intro _; trivial
      | node j k o b lt rt h1 h2 =>
        rintro ⟨r1, r2, r3, r4, r5, r6, r7⟩
        have hs : ∀ j, (l.val.set i { l.val i with nbr := g } j).key = (l.val j).key ∧
            (l.val.set i { l.val i with nbr := g } j).order = (l.val j).order ∧
            (l.val.set i { l.val i with nbr := g } j).red = (l.val j).red ∧
            (l.val.set i { l.val i with nbr := g } j).left = (l.val j).left ∧
            (l.val.set i { l.val i with nbr := g } j).right = (l.val j).right := by
          intro j
          by_cases hj : j = i
          · subst hj; rw [set_same]; exact ⟨rfl, rfl, rfl, rfl, rfl⟩
          · rw [set_other _ _ hj]; exact ⟨rfl, rfl, rfl, rfl, rfl⟩
        obtain ⟨s1, s2, s3, s4, s5⟩ := hs j
        exact ⟨s1.trans r1, s2.trans r2, s3.trans r3, s4.trans r4, s5.trans r5, h1 r6, h2 r7⟩
    exact this t I.rep
  · rw [hmap]; exact I.perm
  · simp [I.size]
  · intro j e he
    rw [List.getElem?_set] at he
    by_cases hj : i = j
    · subst hj
      have he' : (d.1, g) = e := by simpa [hi.1] using he
      simp only [set_same, ← he']
      exact ⟨(I.val i d hd).1, trivial⟩
    · rw [if_neg hj] at he
      simp only [set_other _ _ (fun h => hj h.symm)]
      exact I.val j e he

theorem getindex (I : Inv l s t h) (f : Nat) (hf : 3 * Nat.log 2 (s.length + 1) ≤ f) (i : Nat) :
    l.getindex f i = match t.toList[i]? with | some a => .ok a.2 | none => .ub := by
  have hh := I.height_le
  unfold NL.getindex
  rw [← I.link]
  have := nth_rep t I.rep I.ok f (by omega) 0 i
  rwa [Nat.zero_add] at this

theorem countP_eq (I : Inv l s t h) (k : C3) : (t.toList.countP fun a => decide (a.1.before k)) =
    (s.map Prod.fst).countP fun a => decide (a.before k) := by
  rw [← I.permKeys.countP_eq, List.countP_map]
  rfl

theorem getorder (I : Inv l s t h) (f : Nat) (hf : 3 * Nat.log 2 (s.length + 1) ≤ f) (i : Nat) (c : C3)
    (hc : (s.map Prod.fst)[i]? = some c) :
    l.getorder f i = .ok ((s.map Prod.fst).countP fun a => decide (a.before c)) := by
  have hh := I.height_le
  have hi := (List.getElem?_eq_some_iff.1 hc).1
  rw [List.length_map] at hi
  unfold NL.getorder
  rw [if_pos (by rw [I.size]; exact hi), ← I.link, rank_rep _ t I.rep I.ok I.sorted f (by omega), I.countP_eq, Nat.zero_add]
  have hv := I.val i s[i] (List.getElem?_eq_getElem hi)
  rw [List.getElem?_map, List.getElem?_eq_getElem hi] at hc
  have : s[i].1 = c := by simpa using hc
  rw [hv.1, this]

/-- The place of an element of a sorted list is the number of elements before it. -/
theorem sorted_count (L : List (C3 × Nat)) (hs : L.Pairwise fun a b => a.1.before b.1) (i : Nat) (a : C3 × Nat)
    (ha : L[i]? = some a) : (L.countP fun b => decide (b.1.before a.1)) = i := by
  induction L generalizing i with
  | nil => simp at ha
  | cons b L ih =>
    rw [List.pairwise_cons] at hs
    rw [List.countP_cons]
    cases i with
    | zero =>
      have hb : b = a := by simpa using ha
      subst hb
      rw [if_neg (by simpa using before_irrefl b.1), List.countP_eq_zero.2]
      intro x hx
      simpa using before_asymm (hs.1 x hx)
    | succ i =>
      rw [List.getElem?_cons_succ] at ha
      rw [ih hs.2 i ha, if_pos (by simpa using hs.1 a (List.mem_of_getElem? ha))]

end Inv
end OP.Fem.Nodes
