import Verif.Tree.Avl
/-!
# Lemmas on `ktree_avl`: rotations and rebalancing
-/
namespace OP.Tree.Avl
open OP.Tree

variable {K V : Type} [LinearOrder K]

/-- Balanced, with true heights and weights stored at every node. -/
def Inv : T (D K V) → Prop
  | .nil => True
  | .node _ d l r => Inv l ∧ Inv r ∧ d.w = l.size + r.size + 1 ∧ d.h = max l.ht r.ht + 1 ∧
      l.ht ≤ r.ht + 1 ∧ r.ht ≤ l.ht + 1

/-- In-order keys and values. -/
def kvs (t : T (D K V)) : List (Nat × K × V) := t.inord.map fun e => (e.1, e.2.k, e.2.v)

@[simp] theorem kvs_nil : kvs (.nil : T (D K V)) = [] := rfl
@[simp] theorem kvs_node (i : Nat) (d : D K V) (l r : T (D K V)) :
    kvs (.node i d l r) = kvs l ++ (i, d.k, d.v) :: kvs r := by simp [kvs, T.inord]

theorem kvs_ids (t : T (D K V)) : (kvs t).map Prod.fst = t.ids := by
  simp only [kvs, List.map_map, ← T.inord_ids]; rfl

theorem weight_ok {m : Mem (D K V)} {t : T (D K V)} (h : Rep m t) (hi : Inv t) :
    weight m t.root = .ok (t.size : Int) := by
  cases t with
  | nil => rfl
  | node i d l r => simp [weight, T.root, get_ok h.1, T.size, hi.2.2.1]

theorem height_ok {m : Mem (D K V)} {t : T (D K V)} (h : Rep m t) (hi : Inv t) :
    height m t.root = .ok (t.ht : Int) := by
  cases t with
  | nil => rfl
  | node i d l r => simp [height, T.root, get_ok h.1, T.ht, hi.2.2.2.1]

theorem balance_ok {m : Mem (D K V)} {i : Nat} {d : D K V} {l r : T (D K V)}
    (h : Rep m (.node i d l r)) (hl : Inv l) (hr : Inv r) :
    balance m i = .ok ((r.ht : Int) - l.ht) := by
  simp [balance, get_ok h.1, height_ok h.2.1 hl, height_ok h.2.2 hr]

theorem newHeight_ok {m : Mem (D K V)} {i : Nat} {d : D K V} {l r : T (D K V)}
    (h : Rep m (.node i d l r)) (hl : Inv l) (hr : Inv r) :
    newHeight m i = .ok (max (l.ht : Int) r.ht + 1) := by
  simp [newHeight, get_ok h.1, height_ok h.2.1 hl, height_ok h.2.2 hr]

theorem newWeight_ok {m : Mem (D K V)} {i : Nat} {d : D K V} {l r : T (D K V)}
    (h : Rep m (.node i d l r)) (hl : Inv l) (hr : Inv r) :
    newWeight m i = .ok ((l.size : Int) + r.size + 1) := by
  simp [newWeight, get_ok h.1, weight_ok h.2.1 hl, weight_ok h.2.2 hr]

/-- A change confined to the cells `js`. -/
def Frame (m m' : Mem (D K V)) (js : List Nat) : Prop :=
  m'.length = m.length ∧ ∀ j, j ∉ js → m'[j]? = m[j]?

theorem Frame.rep {m m' : Mem (D K V)} {js : List Nat} (h : Frame m m' js) {t : T (D K V)}
    (ht : Rep m t) (hd : ∀ j ∈ t.ids, j ∉ js) : Rep m' t :=
  ht.frame fun i hi => h.2 i (hd i hi)

theorem Frame.trans {m m' m'' : Mem (D K V)} {js : List Nat} (h : Frame m m' js)
    (h' : Frame m' m'' js) : Frame m m'' js :=
  ⟨h'.1.trans h.1, fun j hj => (h'.2 j hj).trans (h.2 j hj)⟩

theorem Frame.mono {m m' : Mem (D K V)} {js ks : List Nat} (h : Frame m m' js)
    (hs : ∀ j ∈ js, j ∈ ks) : Frame m m' ks :=
  ⟨h.1, fun j hj => h.2 j fun h => hj (hs j h)⟩

theorem Frame.refl (m : Mem (D K V)) (js : List Nat) : Frame m m js := ⟨rfl, fun _ _ => rfl⟩

theorem Frame.set (m : Mem (D K V)) {js : List Nat} {i : Nat} (hi : i ∈ js) (n : Node (D K V)) :
    Frame m (m.set i n) js :=
  ⟨by simp, fun j hj => set_ne (by rintro rfl; exact hj hi)⟩

/-- Left rotation. -/
theorem rotateLeft_ok {m : Mem (D K V)} {i j : Nat} {d e : D K V} {l a b : T (D K V)}
    (h : Rep m (.node i d l (.node j e a b))) (hn : (T.node i d l (.node j e a b)).ids.Nodup)
    (hl : Inv l) (ha : Inv a) (hb : Inv b)
    (hd : d.w = l.size + (a.size + b.size + 1) + 1) (he : e.w = a.size + b.size + 1) :
    ∃ m', rotateLeft m i = .ok (m', j) ∧
      Rep m' (.node j ⟨e.k, e.v, (l.size + a.size + 1 : Int) + b.size + 1,
          max (max (l.ht : Int) a.ht + 1) b.ht + 1⟩
        (.node i ⟨d.k, d.v, l.size + a.size + 1, max (l.ht : Int) a.ht + 1⟩ l a) b) ∧
      Frame m m' (T.node i d l (.node j e a b)).ids := by
  obtain ⟨h1, h2, h3, h4, h5⟩ := h
  change m[i]? = some ⟨d, l.root, some j⟩ at h1
  simp only [T.ids, List.nodup_append, List.nodup_cons, List.mem_append, List.mem_cons, not_or] at hn
  obtain ⟨hn1, ⟨⟨hia, hij, hib⟩, hna, ⟨hjb, hnb⟩, hn3⟩, hn4⟩ := hn
  have hil : i ∉ l.ids := fun h => hn4 i h i (.inl rfl) rfl
  have hjl : j ∉ l.ids := fun h => hn4 j h j (.inr (.inr (.inl rfl))) rfl
  have hja : j ∉ a.ids := fun h => hn3 j h j (.inl rfl) rfl
  rw [rotateLeft, get_ok h1]
  simp only [Res.ok_bind]
  rw [get_ok h3]
  simp only [Res.ok_bind]
  rw [upd_ok h1]
  simp only [Res.ok_bind]
  have s1 := set_self (n' := (⟨d, l.root, a.root⟩ : Node (D K V))) h1
  have s1j : (m.set i (⟨d, l.root, a.root⟩ : Node (D K V)))[j]? = _ := (set_ne hij).trans h3
  have r1l := h2.set (n := (⟨d, l.root, a.root⟩ : Node (D K V))) hil
  have r1a := h4.set (n := (⟨d, l.root, a.root⟩ : Node (D K V))) hia
  have r1b := h5.set (n := (⟨d, l.root, a.root⟩ : Node (D K V))) hib
  revert s1 s1j r1l r1a r1b
  have hlen1 : (m.set i (⟨d, l.root, a.root⟩ : Node (D K V))).length = m.length := by simp
  have hfr1 : ∀ x, x ≠ i → (m.set i (⟨d, l.root, a.root⟩ : Node (D K V)))[x]? = m[x]? :=
    fun x hx => set_ne (Ne.symm hx)
  revert hlen1 hfr1
  generalize m.set i (⟨d, l.root, a.root⟩ : Node (D K V)) = m1
  intro hlen1 hfr1 s1 s1j r1l r1a r1b
  rw [show weight m1 (some j) = .ok e.w from by simp [weight, get_ok s1j]]
  simp only [Res.ok_bind]
  rw [weight_ok r1a ha]
  simp only [Res.ok_bind]
  rw [upd_ok s1]
  simp only [Res.ok_bind, hd, he]
  have hw : ((l.size : Int) + (a.size + b.size + 1) + 1 - (a.size + b.size + 1 - a.size))
      = l.size + a.size + 1 := by omega
  rw [hw]
  have s2 := set_self (n' := (⟨⟨d.k, d.v, l.size + a.size + 1, d.h⟩, l.root, a.root⟩ : Node (D K V))) s1
  have s2j : (m1.set i (⟨⟨d.k, d.v, l.size + a.size + 1, d.h⟩, l.root, a.root⟩ : Node (D K V)))[j]? = _ :=
    (set_ne hij).trans s1j
  have r2l := r1l.set (n := (⟨⟨d.k, d.v, l.size + a.size + 1, d.h⟩, l.root, a.root⟩ : Node (D K V))) hil
  have r2a := r1a.set (n := (⟨⟨d.k, d.v, l.size + a.size + 1, d.h⟩, l.root, a.root⟩ : Node (D K V))) hia
  rw [newHeight_ok (l := l) (r := a) ⟨s2, r2l, r2a⟩ hl ha]
  simp only [Res.ok_bind]
  rw [upd_ok s2]
  simp only [Res.ok_bind, List.set_set]
  have s3 := set_self (n' := (⟨⟨d.k, d.v, l.size + a.size + 1, max (l.ht : Int) a.ht + 1⟩, l.root, a.root⟩ : Node (D K V))) s1
  have s3j : (m1.set i (⟨⟨d.k, d.v, l.size + a.size + 1, max (l.ht : Int) a.ht + 1⟩, l.root, a.root⟩ : Node (D K V)))[j]? = _ :=
    (set_ne hij).trans s1j
  have r3l := r1l.set (n := (⟨⟨d.k, d.v, l.size + a.size + 1, max (l.ht : Int) a.ht + 1⟩, l.root, a.root⟩ : Node (D K V))) hil
  have r3a := r1a.set (n := (⟨⟨d.k, d.v, l.size + a.size + 1, max (l.ht : Int) a.ht + 1⟩, l.root, a.root⟩ : Node (D K V))) hia
  have r3b := r1b.set (n := (⟨⟨d.k, d.v, l.size + a.size + 1, max (l.ht : Int) a.ht + 1⟩, l.root, a.root⟩ : Node (D K V))) hib
  have hfr3 : ∀ x, x ≠ i → (m1.set i (⟨⟨d.k, d.v, l.size + a.size + 1, max (l.ht : Int) a.ht + 1⟩, l.root, a.root⟩ : Node (D K V)))[x]? = m[x]? :=
    fun x hx => (set_ne (Ne.symm hx)).trans (hfr1 x hx)
  have hlen3 : (m1.set i (⟨⟨d.k, d.v, l.size + a.size + 1, max (l.ht : Int) a.ht + 1⟩, l.root, a.root⟩ : Node (D K V))).length = m.length := by
    simpa using hlen1
  revert s3 s3j r3l r3a r3b hfr3 hlen3
  generalize m1.set i (⟨⟨d.k, d.v, l.size + a.size + 1, max (l.ht : Int) a.ht + 1⟩, l.root, a.root⟩ : Node (D K V)) = m3
  intro s3 s3j r3l r3a r3b hfr3 hlen3
  rw [show weight m3 (some i) = .ok ((l.size : Int) + a.size + 1) from by simp [weight, get_ok s3]]
  simp only [Res.ok_bind]
  rw [get_ok s3j]
  simp only [Res.ok_bind]
  rw [weight_ok r3a ha]
  simp only [Res.ok_bind]
  rw [upd_ok s3j]
  simp only [Res.ok_bind, he]
  have hw' : ((a.size : Int) + b.size + 1 + (l.size + a.size + 1 - a.size))
      = l.size + a.size + 1 + b.size + 1 := by omega
  rw [hw']
  have s4 := set_self (n' := (⟨⟨e.k, e.v, l.size + a.size + 1 + b.size + 1, e.h⟩, a.root, b.root⟩ : Node (D K V))) s3j
  rw [upd_ok s4]
  simp only [Res.ok_bind, List.set_set]
  have s5 := set_self (n' := (⟨⟨e.k, e.v, l.size + a.size + 1 + b.size + 1, e.h⟩, some i, b.root⟩ : Node (D K V))) s3j
  have r5b := r3b.set (n := (⟨⟨e.k, e.v, l.size + a.size + 1 + b.size + 1, e.h⟩, some i, b.root⟩ : Node (D K V))) hjb
  have s5i := (set_ne (n' := (⟨⟨e.k, e.v, l.size + a.size + 1 + b.size + 1, e.h⟩, some i, b.root⟩ : Node (D K V))) (Ne.symm hij)).trans s3
  rw [show newHeight (m3.set j (⟨⟨e.k, e.v, l.size + a.size + 1 + b.size + 1, e.h⟩, some i, b.root⟩ : Node (D K V))) j
      = .ok (max (max (l.ht : Int) a.ht + 1) b.ht + 1) from by
    rw [newHeight, get_ok s5]
    simp only [Res.ok_bind]
    rw [height_ok r5b hb, height, get_ok s5i]
    rfl]
  simp only [Res.ok_bind]
  rw [upd_ok s5]
  simp only [Res.ok_bind, List.set_set]
  refine ⟨_, rfl, ⟨set_self s3j, ⟨(set_ne (Ne.symm hij)).trans s3, r3l.set hjl, r3a.set hja⟩, r3b.set hjb⟩, ?_, ?_⟩
  · simpa using hlen3
  · intro x hx
    simp only [T.ids, List.mem_append, List.mem_cons, not_or] at hx
    rw [set_ne (Ne.symm hx.2.2.2.1)]
    exact hfr3 x hx.2.1

/-- Right rotation. -/
theorem rotateRight_ok {m : Mem (D K V)} {i j : Nat} {d e : D K V} {l a b : T (D K V)}
    (h : Rep m (.node i d (.node j e b a) l)) (hn : (T.node i d (.node j e b a) l).ids.Nodup)
    (hl : Inv l) (ha : Inv a) (hb : Inv b)
    (hd : d.w = l.size + (a.size + b.size + 1) + 1) (he : e.w = a.size + b.size + 1) :
    ∃ m', rotateRight m i = .ok (m', j) ∧
      Rep m' (.node j ⟨e.k, e.v, (l.size + a.size + 1 : Int) + b.size + 1,
          max (b.ht : Int) (max (a.ht : Int) l.ht + 1) + 1⟩
        b (.node i ⟨d.k, d.v, l.size + a.size + 1, max (a.ht : Int) l.ht + 1⟩ a l)) ∧
      Frame m m' (T.node i d (.node j e b a) l).ids := by
  obtain ⟨h1, ⟨h3, h5, h4⟩, h2⟩ := h
  change m[i]? = some ⟨d, some j, l.root⟩ at h1
  simp only [T.ids, List.nodup_append, List.nodup_cons, List.mem_append, List.mem_cons, not_or] at hn
  obtain ⟨⟨hnb, ⟨hja, hna⟩, hn3⟩, ⟨hil, hnl⟩, hn4⟩ := hn
  have hib : i ∉ b.ids := fun h => hn4 i (.inl h) i (.inl rfl) rfl
  have hia : i ∉ a.ids := fun h => hn4 i (.inr (.inr h)) i (.inl rfl) rfl
  have hij : i ≠ j := fun h => hn4 i (.inr (.inl h)) i (.inl rfl) rfl
  have hjl : j ∉ l.ids := fun h => hn4 j (.inr (.inl rfl)) j (.inr h) rfl
  have hjb : j ∉ b.ids := fun h => hn3 j h j (.inl rfl) rfl
  rw [rotateRight, get_ok h1]
  simp only [Res.ok_bind]
  rw [get_ok h3]
  simp only [Res.ok_bind]
  rw [upd_ok h1]
  simp only [Res.ok_bind]
  have s1 := set_self (n' := (⟨d, a.root, l.root⟩ : Node (D K V))) h1
  have s1j : (m.set i (⟨d, a.root, l.root⟩ : Node (D K V)))[j]? = _ := (set_ne hij).trans h3
  have r1l := h2.set (n := (⟨d, a.root, l.root⟩ : Node (D K V))) hil
  have r1a := h4.set (n := (⟨d, a.root, l.root⟩ : Node (D K V))) hia
  have r1b := h5.set (n := (⟨d, a.root, l.root⟩ : Node (D K V))) hib
  revert s1 s1j r1l r1a r1b
  have hlen1 : (m.set i (⟨d, a.root, l.root⟩ : Node (D K V))).length = m.length := by simp
  have hfr1 : ∀ x, x ≠ i → (m.set i (⟨d, a.root, l.root⟩ : Node (D K V)))[x]? = m[x]? :=
    fun x hx => set_ne (Ne.symm hx)
  revert hlen1 hfr1
  generalize m.set i (⟨d, a.root, l.root⟩ : Node (D K V)) = m1
  intro hlen1 hfr1 s1 s1j r1l r1a r1b
  rw [show weight m1 (some j) = .ok e.w from by simp [weight, get_ok s1j]]
  simp only [Res.ok_bind]
  rw [weight_ok r1a ha]
  simp only [Res.ok_bind]
  rw [upd_ok s1]
  simp only [Res.ok_bind, hd, he]
  have hw : ((l.size : Int) + (a.size + b.size + 1) + 1 - (a.size + b.size + 1 - a.size))
      = l.size + a.size + 1 := by omega
  rw [hw]
  have s2 := set_self (n' := (⟨⟨d.k, d.v, l.size + a.size + 1, d.h⟩, a.root, l.root⟩ : Node (D K V))) s1
  have s2j : (m1.set i (⟨⟨d.k, d.v, l.size + a.size + 1, d.h⟩, a.root, l.root⟩ : Node (D K V)))[j]? = _ :=
    (set_ne hij).trans s1j
  have r2l := r1l.set (n := (⟨⟨d.k, d.v, l.size + a.size + 1, d.h⟩, a.root, l.root⟩ : Node (D K V))) hil
  have r2a := r1a.set (n := (⟨⟨d.k, d.v, l.size + a.size + 1, d.h⟩, a.root, l.root⟩ : Node (D K V))) hia
  rw [newHeight_ok (l := a) (r := l) ⟨s2, r2a, r2l⟩ ha hl]
  simp only [Res.ok_bind]
  rw [upd_ok s2]
  simp only [Res.ok_bind, List.set_set]
  have s3 := set_self (n' := (⟨⟨d.k, d.v, l.size + a.size + 1, max (a.ht : Int) l.ht + 1⟩, a.root, l.root⟩ : Node (D K V))) s1
  have s3j : (m1.set i (⟨⟨d.k, d.v, l.size + a.size + 1, max (a.ht : Int) l.ht + 1⟩, a.root, l.root⟩ : Node (D K V)))[j]? = _ :=
    (set_ne hij).trans s1j
  have r3l := r1l.set (n := (⟨⟨d.k, d.v, l.size + a.size + 1, max (a.ht : Int) l.ht + 1⟩, a.root, l.root⟩ : Node (D K V))) hil
  have r3a := r1a.set (n := (⟨⟨d.k, d.v, l.size + a.size + 1, max (a.ht : Int) l.ht + 1⟩, a.root, l.root⟩ : Node (D K V))) hia
  have r3b := r1b.set (n := (⟨⟨d.k, d.v, l.size + a.size + 1, max (a.ht : Int) l.ht + 1⟩, a.root, l.root⟩ : Node (D K V))) hib
  have hfr3 : ∀ x, x ≠ i → (m1.set i (⟨⟨d.k, d.v, l.size + a.size + 1, max (a.ht : Int) l.ht + 1⟩, a.root, l.root⟩ : Node (D K V)))[x]? = m[x]? :=
    fun x hx => (set_ne (Ne.symm hx)).trans (hfr1 x hx)
  have hlen3 : (m1.set i (⟨⟨d.k, d.v, l.size + a.size + 1, max (a.ht : Int) l.ht + 1⟩, a.root, l.root⟩ : Node (D K V))).length = m.length := by
    simpa using hlen1
  revert s3 s3j r3l r3a r3b hfr3 hlen3
  generalize m1.set i (⟨⟨d.k, d.v, l.size + a.size + 1, max (a.ht : Int) l.ht + 1⟩, a.root, l.root⟩ : Node (D K V)) = m3
  intro s3 s3j r3l r3a r3b hfr3 hlen3
  rw [show weight m3 (some i) = .ok ((l.size : Int) + a.size + 1) from by simp [weight, get_ok s3]]
  simp only [Res.ok_bind]
  rw [get_ok s3j]
  simp only [Res.ok_bind]
  rw [weight_ok r3a ha]
  simp only [Res.ok_bind]
  rw [upd_ok s3j]
  simp only [Res.ok_bind, he]
  have hw' : ((a.size : Int) + b.size + 1 + (l.size + a.size + 1 - a.size))
      = l.size + a.size + 1 + b.size + 1 := by omega
  rw [hw']
  have s4 := set_self (n' := (⟨⟨e.k, e.v, l.size + a.size + 1 + b.size + 1, e.h⟩, b.root, a.root⟩ : Node (D K V))) s3j
  rw [upd_ok s4]
  simp only [Res.ok_bind, List.set_set]
  have s5 := set_self (n' := (⟨⟨e.k, e.v, l.size + a.size + 1 + b.size + 1, e.h⟩, b.root, some i⟩ : Node (D K V))) s3j
  have r5b := r3b.set (n := (⟨⟨e.k, e.v, l.size + a.size + 1 + b.size + 1, e.h⟩, b.root, some i⟩ : Node (D K V))) hjb
  have s5i := (set_ne (n' := (⟨⟨e.k, e.v, l.size + a.size + 1 + b.size + 1, e.h⟩, b.root, some i⟩ : Node (D K V))) (Ne.symm hij)).trans s3
  rw [show newHeight (m3.set j (⟨⟨e.k, e.v, l.size + a.size + 1 + b.size + 1, e.h⟩, b.root, some i⟩ : Node (D K V))) j
      = .ok (max (b.ht : Int) (max (a.ht : Int) l.ht + 1) + 1) from by
    rw [newHeight, get_ok s5]
    simp only [Res.ok_bind]
    rw [height_ok r5b hb, height, get_ok s5i]
    rfl]
  simp only [Res.ok_bind]
  rw [upd_ok s5]
  simp only [Res.ok_bind, List.set_set]
  refine ⟨_, rfl, ⟨set_self s3j, r3b.set hjb, ⟨(set_ne (Ne.symm hij)).trans s3, r3a.set hja, r3l.set hjl⟩⟩, ?_, ?_⟩
  · simpa using hlen3
  · intro x hx
    simp only [T.ids, List.mem_append, List.mem_cons, not_or] at hx
    rw [set_ne (Ne.symm hx.1.2.1)]
    exact hfr3 x hx.2.1

theorem ids_of_kvs {t t' : T (D K V)} (h : kvs t' = kvs t) : t'.ids = t.ids := by
  rw [← kvs_ids, h, kvs_ids]

local macro "arith" : tactic =>
  `(tactic| ((try simp only [T.size, T.ht]); (try push_cast); (first | done | omega)))

/-- Outcome of a rebalancing step. -/
structure Rebal (m m' : Mem (D K V)) (t t' : T (D K V)) (hl hr : Nat) : Prop where
  rep : Rep m' t'
  same : kvs t' = kvs t
  inv : Inv t'
  frame : Frame m m' t.ids
  keep : hl ≤ hr + 1 → hr ≤ hl + 1 → t'.ht = max hl hr + 1
  lo : max hl hr ≤ t'.ht
  hi : t'.ht ≤ max hl hr + 1

theorem rebalL {m : Mem (D K V)} {i : Nat} {d : D K V} {l r : T (D K V)}
    (h : Rep m (.node i d l r)) (hn : (T.node i d l r).ids.Nodup) (hl : Inv l) (hr : Inv r)
    (hw : d.w = l.size + r.size + 1)
    (hb1 : l.ht ≤ r.ht + 2) (hb2 : r.ht ≤ l.ht + 2) (hL : (r.ht : Int) - l.ht < -1) :
    ∃ m' t' x, (fixLeft m i >>= fun m => rotateRight m i) = .ok (m', x) ∧ t'.root = some x ∧
      Rebal m m' (.node i d l r) t' l.ht r.ht := by
  cases l with
  | nil => simp only [T.ht] at hL; omega
  | node j e a b =>
    have hiw := hl.2.2.1
    have hih := hl.2.2.2.1
    have hib := hl.2.2.2.2
    have hn' := hn
    simp only [T.ids, List.nodup_append, List.nodup_cons, List.mem_append, List.mem_cons, not_or] at hn'
    rw [fixLeft, get_ok h.1]
    simp only [Res.ok_bind, T.root]
    rw [balance_ok h.2.1 hl.1 hl.2.1]
    simp only [Res.ok_bind]
    by_cases hB : (b.ht : Int) - a.ht > 0
    · rw [if_pos hB]
      cases b with
      | nil => simp only [T.ht] at hB; omega
      | node k f b1 b2 =>
        have hb := hl.2.1
        have hn' := hn
        simp only [T.ids, List.nodup_append, List.nodup_cons, List.mem_append, List.mem_cons, not_or] at hn'
        simp only [T.ht, T.size] at *
        have hnl : (T.node j e a (.node k f b1 b2)).ids.Nodup := by
          simp only [T.ids] at hn ⊢
          exact (List.nodup_append.1 hn).1
        obtain ⟨m1, h1, h2, h3⟩ := rotateLeft_ok h.2.1 hnl hl.1 hb.1 hb.2.1
          (by rw [hiw]; push_cast; omega) (by rw [hb.2.2.1]; arith)
        have hil : i ∉ (T.node j e a (.node k f b1 b2)).ids := by
          intro h
          simp only [T.ids, List.mem_append, List.mem_cons] at h
          exact hn'.2.2 i h i (.inl rfl) rfl
        have hi1 := (h3.2 i hil).trans h.1
        rw [h1]
        simp only [Res.ok_bind]
        rw [upd_ok hi1]
        simp only [Res.ok_bind]
        have hrr : Rep m1 r := h3.rep h.2.2 fun x hx hx' => by
          simp only [T.ids, List.mem_append, List.mem_cons] at hx'
          exact hn'.2.2 x hx' x (.inr hx) rfl
        have hR : Rep (m1.set i ⟨d, some k, r.root⟩)
            (.node i d (.node k ⟨f.k, f.v, (a.size + b1.size + 1 : Int) + b2.size + 1,
              max (max (a.ht : Int) b1.ht + 1) b2.ht + 1⟩
            (.node j ⟨e.k, e.v, a.size + b1.size + 1, max (a.ht : Int) b1.ht + 1⟩ a b1) b2) r) := by
          refine ⟨set_self hi1, h2.set ?_, hrr.set hn'.2.1.1⟩
          intro hx; apply hil
          simp only [T.ids, List.mem_append, List.mem_cons] at hx ⊢
          tauto
        have hinv1 : Inv (.node j ⟨e.k, e.v, a.size + b1.size + 1, max (a.ht : Int) b1.ht + 1⟩ a b1) := by
          refine ⟨hl.1, hb.1, by arith, by arith, ?_, ?_⟩ <;>
          · have := hb.2.2.2.2; omega
        obtain ⟨m2, g1, g2, g3⟩ := rotateRight_ok hR (by
            simp only [T.ids] at hn ⊢; simpa using hn) hr hb.2.1 hinv1
          (by simp only [T.size]; push_cast; omega) (by simp only [T.size]; push_cast; omega)
        refine ⟨m2, _, k, g1, rfl, g2, by simp, ?_, ?_, ?_, ?_, ?_⟩
        · have := hb.2.2.2.2
          refine ⟨hinv1, ⟨hb.2.1, hr, ?_, ?_, ?_, ?_⟩, ?_, ?_, ?_, ?_⟩ <;> arith
        · refine Frame.trans (h3.mono ?_) (Frame.trans (Frame.set _ (i := i) ?_ _) (g3.mono ?_))
          · intro x hx; simp only [T.ids, List.mem_append, List.mem_cons] at hx ⊢; tauto
          · simp [T.ids]
          · intro x hx; simp only [T.ids, List.mem_append, List.mem_cons] at hx ⊢; tauto
        all_goals
          simp only [T.ht]
          have := hb.2.2.2.2
          omega
    · rw [if_neg hB]
      simp only [Res.ok_bind]
      simp only [T.ht, T.size] at *
      obtain ⟨m2, g1, g2, g3⟩ := rotateRight_ok h hn hr hl.2.1 hl.1
          (by rw [hw]; push_cast; omega) (by rw [hiw]; arith)
      refine ⟨m2, _, j, g1, rfl, g2, by simp, ?_, g3, ?_, ?_, ?_⟩
      · refine ⟨hl.1, ⟨hl.2.1, hr, ?_, ?_, ?_, ?_⟩, ?_, ?_, ?_, ?_⟩ <;> arith
      all_goals
          simp only [T.ht]
          omega

theorem rebalR {m : Mem (D K V)} {i : Nat} {d : D K V} {l r : T (D K V)}
    (h : Rep m (.node i d l r)) (hn : (T.node i d l r).ids.Nodup) (hl : Inv l) (hr : Inv r)
    (hw : d.w = l.size + r.size + 1)
    (hb1 : l.ht ≤ r.ht + 2) (hb2 : r.ht ≤ l.ht + 2) (hR : (r.ht : Int) - l.ht > 1) :
    ∃ m' t' x, (fixRight m i >>= fun m => rotateLeft m i) = .ok (m', x) ∧ t'.root = some x ∧
      Rebal m m' (.node i d l r) t' l.ht r.ht := by
  cases r with
  | nil => simp only [T.ht] at hR; omega
  | node j e b a =>
    have hiw := hr.2.2.1
    have hih := hr.2.2.2.1
    have hib := hr.2.2.2.2
    have hn' := hn
    simp only [T.ids, List.nodup_append, List.nodup_cons, List.mem_append, List.mem_cons, not_or] at hn'
    rw [fixRight, get_ok h.1]
    simp only [Res.ok_bind, T.root]
    rw [balance_ok h.2.2 hr.1 hr.2.1]
    simp only [Res.ok_bind]
    by_cases hB : (a.ht : Int) - b.ht < 0
    · rw [if_pos hB]
      cases b with
      | nil => simp only [T.ht] at hB; omega
      | node k f b2 b1 =>
        have hb := hr.1
        have hn' := hn
        simp only [T.ids, List.nodup_append, List.nodup_cons, List.mem_append, List.mem_cons, not_or] at hn'
        simp only [T.ht, T.size] at *
        have hnl : (T.node j e (.node k f b2 b1) a).ids.Nodup := by
          simp only [T.ids] at hn ⊢
          exact (List.nodup_cons.1 (List.nodup_append.1 hn).2.1).2
        obtain ⟨m1, h1, h2, h3⟩ := rotateRight_ok h.2.2 hnl hr.2.1 hb.2.1 hb.1
          (by rw [hiw]; push_cast; omega) (by rw [hb.2.2.1]; arith)
        have hil : i ∉ (T.node j e (.node k f b2 b1) a).ids := by
          intro h
          simp only [T.ids, List.mem_append, List.mem_cons] at h
          tauto
        have hi1 := (h3.2 i hil).trans h.1
        rw [h1]
        simp only [Res.ok_bind]
        rw [upd_ok hi1]
        simp only [Res.ok_bind]
        have hrr : Rep m1 l := h3.rep h.2.1 fun x hx hx' => by
          simp only [T.ids, List.mem_append, List.mem_cons] at hx'
          exact hn'.2.2 x hx x (.inr hx') rfl
        have hR : Rep (m1.set i ⟨d, l.root, some k⟩)
            (.node i d l (.node k ⟨f.k, f.v, (a.size + b1.size + 1 : Int) + b2.size + 1,
              max (b2.ht : Int) (max (b1.ht : Int) a.ht + 1) + 1⟩ b2
            (.node j ⟨e.k, e.v, a.size + b1.size + 1, max (b1.ht : Int) a.ht + 1⟩ b1 a))) := by
          refine ⟨set_self hi1, hrr.set (fun hx => hn'.2.2 i hx i (.inl rfl) rfl), h2.set ?_⟩
          intro hx; apply hil
          simp only [T.ids, List.mem_append, List.mem_cons] at hx ⊢
          tauto
        have hinv1 : Inv (.node j ⟨e.k, e.v, a.size + b1.size + 1, max (b1.ht : Int) a.ht + 1⟩ b1 a) := by
          refine ⟨hb.2.1, hr.2.1, by arith, by arith, ?_, ?_⟩ <;>
          · have := hb.2.2.2.2; omega
        obtain ⟨m2, g1, g2, g3⟩ := rotateLeft_ok hR (by
            simp only [T.ids] at hn ⊢; simpa using hn) hl hb.1 hinv1
          (by simp only [T.size]; push_cast; omega) (by simp only [T.size]; push_cast; omega)
        refine ⟨m2, _, k, g1, rfl, g2, by simp, ?_, ?_, ?_, ?_, ?_⟩
        · have := hb.2.2.2.2
          refine ⟨⟨hl, hb.1, ?_, ?_, ?_, ?_⟩, hinv1, ?_, ?_, ?_, ?_⟩ <;> arith
        · refine Frame.trans (h3.mono ?_) (Frame.trans (Frame.set _ (i := i) ?_ _) (g3.mono ?_))
          · intro x hx; simp only [T.ids, List.mem_append, List.mem_cons] at hx ⊢; tauto
          · simp [T.ids]
          · intro x hx; simp only [T.ids, List.mem_append, List.mem_cons] at hx ⊢; tauto
        all_goals
          simp only [T.ht]
          have := hb.2.2.2.2
          omega
    · rw [if_neg hB]
      simp only [Res.ok_bind]
      simp only [T.ht, T.size] at *
      obtain ⟨m2, g1, g2, g3⟩ := rotateLeft_ok h hn hl hr.1 hr.2.1
          (by rw [hw]; push_cast; omega) (by rw [hiw]; arith)
      refine ⟨m2, _, j, g1, rfl, g2, by simp, ?_, g3, ?_, ?_, ?_⟩
      · refine ⟨⟨hl, hr.1, ?_, ?_, ?_, ?_⟩, hr.2.1, ?_, ?_, ?_, ?_⟩ <;> arith
      all_goals
          simp only [T.ht]
          omega

theorem rebalance_ok {m : Mem (D K V)} {i : Nat} {d : D K V} {l r : T (D K V)}
    (h : Rep m (.node i d l r)) (hn : (T.node i d l r).ids.Nodup) (hl : Inv l) (hr : Inv r)
    (hw : d.w = l.size + r.size + 1) (hh : d.h = max l.ht r.ht + 1)
    (hb1 : l.ht ≤ r.ht + 2) (hb2 : r.ht ≤ l.ht + 2) :
    ∃ m' t' x, rebalance m i = .ok (m', x) ∧ t'.root = some x ∧
      Rebal m m' (.node i d l r) t' l.ht r.ht := by
  have hbal := balance_ok h hl hr
  rw [rebalance, get_ok h.1]
  simp only [Res.ok_bind]
  by_cases hlt : d.h < 2
  · rw [if_pos hlt]
    refine ⟨m, .node i d l r, i, rfl, rfl, h, rfl, ⟨hl, hr, hw, hh, by omega, by omega⟩,
      .refl _ _, fun _ _ => rfl, ?_, ?_⟩ <;> simp only [T.ht] <;> omega
  rw [if_neg hlt, hbal]
  simp only [Res.ok_bind]
  by_cases hL : (r.ht : Int) - l.ht < -1
  · rw [if_pos hL]
    exact rebalL h hn hl hr hw hb1 hb2 hL
  rw [if_neg hL]
  by_cases hR : (r.ht : Int) - l.ht > 1
  · rw [if_pos hR]
    exact rebalR h hn hl hr hw hb1 hb2 hR
  · rw [if_neg hR]
    refine ⟨m, .node i d l r, i, rfl, rfl, h, rfl, ⟨hl, hr, hw, hh, by omega, by omega⟩,
      .refl _ _, fun _ _ => rfl, ?_, ?_⟩ <;> simp only [T.ht] <;> omega

end OP.Tree.Avl
