import Verif.Fem.PropsMask
/-!
# C109: the nodes of a variable element
-/
namespace OP.Fem.Nodes

open OP.Fem (Shape getn number nnd)

/-! ### Specification -/

/-- A mesh with the nodes `s` and the known neighbours `A` -/
structure Net (l : NL) (s : Spec) (A : List Arc) : Prop where
  inv : ∃ t h, Inv l s t h
  know : Know s A
  one : Functional A

/-- What a variable element finds: place `u` of its list of extra places has the node at `w`.  A node is found next to the first and
the last corner of a level, if the neighbour there is not the next corner; the centre is next to the node on the west side. -/
inductive Finds (A : List Arc) (b : Brick) : Nat → C3 → Prop where
  | west {n w} : n < b.nz → (.yp, b.place n 0 0, w) ∈ A → w ≠ b.place n 0 1 → Finds A b (4 * n) w
  | north {n w} : n < b.nz → (.xm, b.place n 1 1, w) ∈ A → w ≠ b.place n 0 1 → Finds A b (4 * n + 1) w
  | south {n w} : n < b.nz → (.xp, b.place n 0 0, w) ∈ A → w ≠ b.place n 1 0 → Finds A b (4 * n + 2) w
  | east {n w} : n < b.nz → (.ym, b.place n 1 1, w) ∈ A → w ≠ b.place n 1 0 → Finds A b (4 * n + 3) w
  | centre {n v w} : n < b.nz → n = 0 ∨ n = b.nz - 1 → (.yp, b.place n 0 0, v) ∈ A → v ≠ b.place n 0 1 → (.xp, v, w) ∈ A →
      Finds A b (4 * b.nz + n) w

/-- The corners are different, and what is found on the west sides is not a corner. -/
structure Apart (A : List Arc) (b : Brick) : Prop where
  inj : ∀ t ∈ b.all, ∀ t' ∈ b.all, b.at_ t = b.at_ t' → t = t'
  away : ∀ n < b.nz, ∀ w, (.yp, b.place n 0 0, w) ∈ A → w ≠ b.place n 0 1 → ∀ t ∈ b.all, b.at_ t ≠ w

/-- The known neighbours above and below are those of the element. -/
def Upright (A : List Arc) (b : Brick) : Prop := ∀ d, d = .zm ∨ d = .zp → ∀ p q q', (d, p, q) ∈ A → b.Joins d p q' → q = q'

/-- The neighbours after the element is added: those known, and the element's where none was known -/
def Noted (A : List Arc) (b : Brick) (d : Dir) (p q : C3) : Prop := (d, p, q) ∈ A ∨ b.Joins d p q ∧ ∀ q', (d, p, q') ∉ A

/-- The variable element in the mesh: its nodes are its corners and then the nodes it found, numbered as the shape functions expect
(`number`, `nnd`). -/
structure Fitted (A : List Arc) (b : Brick) (s s' : Spec) (inel : List Nat) (mask : Nat → Nat) (m : Nat → Option C3) : Prop where
  finds : ∀ u w, m u = some w ↔ Finds A b u w
  nodes : ∀ p, p ∈ s'.keys ↔ p ∈ s.keys ∨ ∃ i j k, b.In i j k ∧ b.place i j k = p
  kept : ∃ ext, s'.keys = s.keys ++ ext
  list : inel.map (s'.keys[·]?) = ((b.all.map b.at_) ++ (List.range (5 * b.nz)).filterMap m).map some
  count : inel.length = nnd b.nz fun u => (m u).isSome
  items : ∀ u, mask u = number b.nz (fun u => (m u).isSome) u

/-! ### The places found -/

theorem extra_iff {A : List Arc} (hA : Functional A) {b : Brick} (hz : 0 < b.nz) {u : Nat} {w : C3} :
    extra A b u = some w ↔ Finds A b u w := by
  constructor
  · intro h
    by_cases hu : u < 4 * b.nz
    · obtain ⟨n, r, hr, rfl⟩ : ∃ n r, r < 4 ∧ u = 4 * n + r := ⟨u / 4, u % 4, by omega, by omega⟩
      have hn : n < b.nz := by omega
      have hr4 : r = 0 ∨ r = 1 ∨ r = 2 ∨ r = 3 := by omega
      rcases hr4 with rfl | rfl | rfl | rfl
      · rw [Nat.add_zero, extra_0 hn, mid_iff hA] at h
        exact .west hn h.1 h.2
      · rw [extra_1 hn, mid_iff hA] at h
        exact .north hn h.1 h.2
      · rw [extra_2 hn, mid_iff hA] at h
        exact .south hn h.1 h.2
      · rw [extra_3 hn, mid_iff hA] at h
        exact .east hn h.1 h.2
    · obtain ⟨n, rfl⟩ : ∃ n, u = 4 * b.nz + n := ⟨u - 4 * b.nz, by omega⟩
      rw [extra_4] at h
      by_cases hc : n = 0 ∨ n = b.nz - 1
      · rw [if_pos hc] at h
        obtain ⟨v, h1, h2⟩ := Option.bind_eq_some_iff.1 h
        rw [mid_iff hA] at h1
        exact .centre (by omega) hc h1.1 h1.2 ((kn_iff hA).1 h2)
      · rw [if_neg hc] at h; cases h
  · intro h
    cases h with
    | west h1 h2 h3 => rw [extra_0 h1, mid_iff hA]; exact ⟨h2, h3⟩
    | north h1 h2 h3 => rw [extra_1 h1, mid_iff hA]; exact ⟨h2, h3⟩
    | south h1 h2 h3 => rw [extra_2 h1, mid_iff hA]; exact ⟨h2, h3⟩
    | east h1 h2 h3 => rw [extra_3 h1, mid_iff hA]; exact ⟨h2, h3⟩
    | centre h1 h2 h3 h4 h5 => rw [extra_4, if_pos h2, (mid_iff hA).2 ⟨h3, h4⟩, Option.bind_some, kn_iff hA]; exact h5

theorem finds_mem {A : List Arc} {b : Brick} {u : Nat} {w : C3} (h : Finds A b u w) : ∃ d p, (d, p, w) ∈ A := by
  cases h with
  | west _ h _ => exact ⟨_, _, h⟩
  | north _ h _ => exact ⟨_, _, h⟩
  | south _ h _ => exact ⟨_, _, h⟩
  | east _ h _ => exact ⟨_, _, h⟩
  | centre _ _ _ _ h => exact ⟨_, _, h⟩

/-! ### The corners in order -/

theorem all_tri {b : Brick} (bx : b.nx = 2) (by2 : b.ny = 2) : b.all = (List.range (4 * b.nz)).map tri := by
  unfold Brick.all
  rw [bx, by2]
  obtain ⟨h1, h2⟩ := triples_get b.nz 2 2
  apply List.ext_getElem?
  intro i
  by_cases hi : i < 4 * b.nz
  · have := h2 (i / 4) (by omega) (i % 4 / 2) (by omega) (i % 2) (by omega)
    rw [show i / 4 * (2 * 2) + (i % 4 / 2 * 2 + i % 2) = i by omega] at this
    rw [this, List.getElem?_map, List.getElem?_range hi]
    rfl
  · rw [List.getElem?_eq_none (by rw [h1]; omega), List.getElem?_eq_none (by simp; omega)]

theorem tri_inj {i j : Nat} (h : tri i = tri j) : i = j := by
  unfold tri at h
  simp only [Prod.mk.injEq] at h
  omega

theorem tri_mem {b : Brick} (bx : b.nx = 2) (by2 : b.ny = 2) {i : Nat} (hi : i < 4 * b.nz) : tri i ∈ b.all := by
  rw [all_tri bx by2]
  exact List.mem_map.2 ⟨i, List.mem_range.2 hi, rfl⟩

/-- The neighbours noted by the corners before `i` -/
def noted (A : List Arc) (b : Brick) (i : Nat) : List Arc := (List.range i).flatMap fun i => arcsAt (b.at_ (tri i)) (b.vstar A (tri i))

theorem noted_succ (A : List Arc) (b : Brick) (i : Nat) :
    noted A b (i + 1) = noted A b i ++ arcsAt (b.at_ (tri i)) (b.vstar A (tri i)) := by
  unfold noted
  rw [List.range_succ, List.flatMap_append, List.flatMap_cons, List.flatMap_nil, List.append_nil]

theorem mem_noted {A : List Arc} {b : Brick} {i : Nat} {d : Dir} {p q : C3} :
    (d, p, q) ∈ noted A b i ↔ ∃ j < i, p = b.at_ (tri j) ∧ b.vstar A (tri j) d = some q := by
  unfold noted
  simp only [List.mem_flatMap, List.mem_range, mem_arcsAt]

theorem vstar_flat {A : List Arc} {b : Brick} {t : Nat × Nat × Nat} {d : Dir} (hd : ¬(d = .zm ∨ d = .zp)) :
    b.vstar A t d = (b.star t d).map fun q => (kn A d (b.at_ t)).getD q := by
  cases d <;> first | rfl | simp at hd

theorem vstar_up {A : List Arc} {b : Brick} {t : Nat × Nat × Nat} {d : Dir} (hd : d = .zm ∨ d = .zp) : b.vstar A t d = b.star t d := by
  rcases hd with rfl | rfl <;> rfl

theorem joins_iff {b : Brick} (bx : b.nx = 2) (by2 : b.ny = 2) {d : Dir} {p q : C3} :
    b.Joins d p q ↔ ∃ j < 4 * b.nz, p = b.at_ (tri j) ∧ b.star (tri j) d = some q := by
  rw [← mem_arcs]
  unfold Brick.arcs
  rw [all_tri bx by2, List.mem_flatMap]
  simp only [List.mem_map, List.mem_range]
  constructor
  · rintro ⟨_, ⟨j, hj, rfl⟩, h⟩; exact ⟨j, hj, mem_arcsAt.1 h⟩
  · rintro ⟨j, hj, h⟩; exact ⟨_, ⟨j, hj, rfl⟩, mem_arcsAt.2 h⟩

theorem noted_functional {A : List Arc} (hA : Functional A) {b : Brick} (bx : b.nx = 2) (by2 : b.ny = 2) (hap : Apart A b) :
    Functional (A ++ noted A b (4 * b.nz)) ↔ Upright A b := by
  constructor
  · intro hF d hd p q q' h1 h2
    obtain ⟨j, hj, h3, h4⟩ := (joins_iff bx by2).1 h2
    exact hF d p q q' (List.mem_append_left _ h1) (List.mem_append_right _ (mem_noted.2 ⟨j, hj, h3, by rw [vstar_up hd]; exact h4⟩))
  · intro hU
    have hmix : ∀ d p q q', (d, p, q) ∈ A → (d, p, q') ∈ noted A b (4 * b.nz) → q = q' := by
      intro d p q q' h1 h2
      obtain ⟨j, hj, h3, h4⟩ := mem_noted.1 h2
      by_cases hd : d = .zm ∨ d = .zp
      · rw [vstar_up hd] at h4
        exact hU d hd p q q' h1 ((joins_iff bx by2).2 ⟨j, hj, h3, h4⟩)
      · rw [vstar_flat hd] at h4
        obtain ⟨q0, _, h5⟩ := Option.map_eq_some_iff.1 h4
        rw [← h3, (kn_iff hA).2 h1] at h5
        exact h5
    intro d p q q' h1 h2
    rcases List.mem_append.1 h1 with k1 | k1 <;> rcases List.mem_append.1 h2 with k2 | k2
    · exact hA d p q q' k1 k2
    · exact hmix d p q q' k1 k2
    · exact (hmix d p q' q k2 k1).symm
    · obtain ⟨j, hj, h3, h4⟩ := mem_noted.1 k1
      obtain ⟨j', hj', h3', h4'⟩ := mem_noted.1 k2
      rw [h3] at h3'
      rw [← hap.inj _ (tri_mem bx by2 hj) _ (tri_mem bx by2 hj') h3', h4] at h4'
      exact Option.some.inj h4'

theorem noted_iff {A : List Arc} (hA : Functional A) {b : Brick} (bx : b.nx = 2) (by2 : b.ny = 2) (hU : Upright A b) {d : Dir} {p q : C3} :
    (d, p, q) ∈ A ++ noted A b (4 * b.nz) ↔ Noted A b d p q := by
  unfold Noted
  rw [List.mem_append]
  constructor
  · rintro (h | h)
    · exact Or.inl h
    · obtain ⟨j, hj, h3, h4⟩ := mem_noted.1 h
      cases hk : kn A d p with
      | some q' =>
        have hm := (kn_iff hA).1 hk
        left
        by_cases hd : d = .zm ∨ d = .zp
        · rw [vstar_up hd] at h4
          rw [← hU d hd p q' q hm ((joins_iff bx by2).2 ⟨j, hj, h3, h4⟩)]
          exact hm
        · rw [vstar_flat hd, ← h3, hk] at h4
          obtain ⟨q0, _, h5⟩ := Option.map_eq_some_iff.1 h4
          have : q' = q := h5
          exact this ▸ hm
      | none =>
        right
        refine ⟨(joins_iff bx by2).2 ⟨j, hj, h3, ?_⟩, fun q' hm => by rw [(kn_iff hA).2 hm] at hk; cases hk⟩
        by_cases hd : d = .zm ∨ d = .zp
        · rwa [vstar_up hd] at h4
        · rw [vstar_flat hd, ← h3, hk] at h4
          simpa using h4
  · rintro (h | ⟨h, hno⟩)
    · exact Or.inl h
    · right
      obtain ⟨j, hj, h3, h4⟩ := (joins_iff bx by2).1 h
      refine mem_noted.2 ⟨j, hj, h3, ?_⟩
      by_cases hd : d = .zm ∨ d = .zp
      · rwa [vstar_up hd]
      · have hk : kn A d p = none := by
          cases hk : kn A d p with
          | none => rfl
          | some q' => exact absurd ((kn_iff hA).1 hk) (hno q')
        rw [vstar_flat hd, ← h3, hk, h4]
        rfl

/-! ### The loops -/

theorem maskLoop_eq {A : List Arc} (hA : Functional A) {b : Brick} (bx : b.nx = 2) (by2 : b.ny = 2) (hap : Apart A b) {ks : List C3}
    (hends : ∀ d p q, (d, p, q) ∈ A → q ∈ ks) (hin : ∀ t ∈ b.all, b.at_ t ∈ ks) : ∀ (k i : Nat), i + k = 4 * b.nz →
    ∀ (l : NL) (s : Spec) (t : T) (h : Nat), Inv l s t h → Know s (A ++ noted A b i) → Functional (A ++ noted A b i) → s.keys = ks →
    (Functional (A ++ noted A b (4 * b.nz)) → ∃ (l' : NL) (s' : Spec) (t' : T) (h' : Nat), maskLoop (b.inel ks) b.nz k i l (maskAt A b ks i) =
        .ok (l', maskAt A b ks (4 * b.nz)) ∧ Inv l' s' t' h' ∧ s'.keys = ks ∧ Know s' (A ++ noted A b (4 * b.nz))) ∧
    (¬Functional (A ++ noted A b (4 * b.nz)) → maskLoop (b.inel ks) b.nz k i l (maskAt A b ks i) = .ub) := by
  intro k
  induction k with
  | zero =>
    intro i hi l s t h I K F hk
    obtain rfl : i = 4 * b.nz := by omega
    exact ⟨fun _ => ⟨l, s, t, h, rfl, I, hk, K⟩, fun hn => absurd F hn⟩
  | succ k ih =>
    intro i hi l s t h I K F hk
    have hilt : i < 4 * b.nz := by omega
    have htri : tri i = (i / 4, i % 4 / 2, i % 4 % 2) := by unfold tri; congr 2; omega
    have hfree : ∀ p, (∀ j < i, b.at_ (tri j) ≠ p) → ∀ d q, (d, p, q) ∉ noted A b i := by
      intro p hp d q hm
      obtain ⟨j, hj, h1, _⟩ := mem_noted.1 hm
      exact hp j hj h1.symm
    have R : Round A (A ++ noted A b i) b l s (i / 4) (i % 4) := by
      refine ⟨F, K, I.agrees, bx, by2, hk ▸ hin, by omega, by omega, ?_, ?_⟩
      · intro d
        refine kn_append hA F (hfree _ ?_) d
        intro j hj he
        have := hap.inj _ (tri_mem bx by2 (by omega)) _ (tri_mem bx by2 hilt) (he.trans (by rw [htri]; rfl))
        exact absurd (tri_inj this) (by omega)
      · intro _ w hw
        obtain ⟨h1, h2⟩ := (mid_iff hA).1 hw
        refine kn_append hA F (hfree _ ?_) _
        intro j hj
        exact hap.away _ (by omega) w h1 h2 _ (tri_mem bx by2 (by omega))
    have hst := maskStep_eq R
    rw [← htri, show 4 * (i / 4) + i % 4 = i by omega, hk] at hst
    have hN : Notes s.keys (ks.idxOf (b.at_ (tri i))) (b.vnbr A ks (tri i)) (b.at_ (tri i)) (b.vstar A (tri i)) := by
      rw [hk]
      refine ⟨get_idx (hin _ (tri_mem bx by2 hilt)), ?_, vnbr_get b A ks (tri i)⟩
      intro d q hq
      have hstar : ∀ q0, b.star (tri i) d = some q0 → q0 ∈ ks := by
        intro q0 h0
        obtain ⟨t', h1, rfl⟩ := star_mem (tri_mem bx by2 hilt) h0
        exact hin t' h1
      by_cases hd : d = .zm ∨ d = .zp
      · rw [vstar_up hd] at hq
        exact hstar q hq
      · rw [vstar_flat hd] at hq
        obtain ⟨q0, h0, h5⟩ := Option.map_eq_some_iff.1 hq
        cases hkn : kn A d (b.at_ (tri i)) with
        | none => rw [hkn] at h5; exact h5 ▸ hstar q0 h0
        | some q1 =>
          rw [hkn] at h5
          have : q1 = q := h5
          exact this ▸ hends _ _ _ ((kn_iff hA).1 hkn)
    have hstep := K.step F hN
    rw [List.append_assoc, ← noted_succ] at hstep
    have hop := I.step (.nbr (ks.idxOf (b.at_ (tri i))) (b.vnbr A ks (tri i)))
    simp only [Nodes.step] at hop
    unfold maskLoop
    rw [hst]
    by_cases hF : Functional (A ++ noted A b (i + 1))
    · obtain ⟨s1, e1, e2, e3⟩ := hstep.1 hF
      rw [e1] at hop
      obtain ⟨l1, t1, h1, e4, I1⟩ := hop
      rw [e4]
      simp only [Res.ok_bind]
      exact ih (i + 1) (by omega) l1 s1 t1 h1 I1 e3 hF (e2.trans hk)
    · rw [hstep.2 hF] at hop
      simp only at hop
      rw [hop]
      refine ⟨fun h => absurd ?_ hF, fun _ => rfl⟩
      intro d p q q' m1 m2
      have hsub : ∀ a, a ∈ A ++ noted A b (i + 1) → a ∈ A ++ noted A b (4 * b.nz) := by
        rintro ⟨d, p, q⟩ ha
        rcases List.mem_append.1 ha with ha | ha
        · exact List.mem_append_left _ ha
        · obtain ⟨j, hj, hh⟩ := mem_noted.1 ha
          exact List.mem_append_right _ (mem_noted.2 ⟨j, by omega, hh⟩)
      exact h d p q q' (hsub _ m1) (hsub _ m2)

theorem maskNumbers_eq (m : Nat → Option Nat) (nz : Nat) (base : List Nat) (hb : base.length = 4 * nz) : ∀ (k i : Nat) (inel : List Nat)
    (r : Nat → Nat), inel = base ++ (List.range i).filterMap m → (∀ u, r u = if u < i then number nz (fun u => (m u).isSome) u else 0) →
    (maskNumbers m k i inel r).1 = base ++ (List.range (i + k)).filterMap m ∧
    ∀ u, (maskNumbers m k i inel r).2 u = if u < i + k then number nz (fun u => (m u).isSome) u else 0 := by
  intro k
  induction k with
  | zero => intro i inel r h1 h2; exact ⟨h1, h2⟩
  | succ k ih =>
    intro i inel r h1 h2
    have hcount : ∀ i, ((List.range i).filterMap m).length = ((List.range i).filter fun u => (m u).isSome).length := by
      intro i
      induction i with
      | zero => rfl
      | succ i ih =>
        rw [List.range_succ, List.filterMap_append, List.filter_append, List.length_append, List.length_append, ih]
        cases hm : m i <;> simp [hm]
    have hlen : inel.length = 4 * nz + ((List.range i).filter fun u => (m u).isSome).length := by
      rw [h1, List.length_append, hb, hcount]
    rw [show i + (k + 1) = i + 1 + k by omega]
    unfold maskNumbers
    cases hm : m i with
    | some a =>
      dsimp only
      apply ih
      · rw [h1, List.range_succ, List.filterMap_append, List.append_assoc]; simp [hm]
      · intro u
        by_cases hu : u = i
        · subst hu
          rw [if_pos rfl, if_pos (by omega), hlen]
          unfold number
          simp [hm]
        · rw [if_neg hu, h2 u]
          by_cases hlt : u < i
          · rw [if_pos hlt, if_pos (by omega)]
          · rw [if_neg hlt, if_neg (by omega)]
    | none =>
      dsimp only
      apply ih
      · rw [h1, List.range_succ, List.filterMap_append]; simp [hm]
      · intro u
        by_cases hu : u = i
        · subst hu
          rw [if_pos rfl, if_pos (by omega)]
          unfold number
          simp [hm]
        · rw [if_neg hu, h2 u]
          by_cases hlt : u < i
          · rw [if_pos hlt, if_pos (by omega)]
          · rw [if_neg hlt, if_neg (by omega)]

/-- C109: a variable element of a mesh has its corners and the nodes it finds, in the order that its shape functions expect, and its
neighbours are noted where none was known.  It is refused exactly when a known neighbour above or below a corner is another one. -/
theorem C109_mask {l : NL} {s : Spec} {A : List Arc} (M : Net l s A) {nz : Nat} (hz : 0 < nz) (c : Corners) (fx fy fz : Bool)
    (hinc : (c.mirror fx fy fz).Increasing) (hap : Apart A ⟨2, 2, nz, c.mirror fx fy fz⟩) :
    (Upright A ⟨2, 2, nz, c.mirror fx fy fz⟩ → ∃ l' inel mask s' m A', setupMask nz c l = .ok (l', inel, mask) ∧ Net l' s' A' ∧
      Fitted A ⟨2, 2, nz, c.mirror fx fy fz⟩ s s' inel mask m ∧
      ∀ d p q, (d, p, q) ∈ A' ↔ Noted A ⟨2, 2, nz, c.mirror fx fy fz⟩ d p q) ∧
    (¬Upright A ⟨2, 2, nz, c.mirror fx fy fz⟩ → setupMask nz c l = .ub) := by
  obtain ⟨b, hb⟩ : ∃ b : Brick, b = ⟨2, 2, nz, c.mirror fx fy fz⟩ := ⟨_, rfl⟩
  have bc : b.c = c.mirror fx fy fz := by rw [hb]
  have bx : b.nx = 2 := by rw [hb]
  have by2 : b.ny = 2 := by rw [hb]
  have bz : b.nz = nz := by rw [hb]
  rw [← hb] at hap ⊢
  clear hb
  subst bz
  have hsort : coordSort 4 c = .ok b.c := by
    rcases C108_sort 4 (by omega) c with ⟨gx, gy, gz, h1, h2, h3⟩ | ⟨h1, _⟩
    · obtain ⟨rfl, rfl, rfl⟩ := h3 fx fy fz hinc
      rw [h2, bc]
    · exact absurd hinc (h1 fx fy fz)
  obtain ⟨⟨t, h, I⟩, K, hA⟩ := M
  obtain ⟨cs, hcs⟩ : ∃ cs, cs = b.all.map b.at_ := ⟨_, rfl⟩
  obtain ⟨l1, t1, h1, e1, I1⟩ := addAll_inv cs l s t h I
  obtain ⟨s1, hs1⟩ : ∃ s1, s1 = cs.foldl Spec.add s := ⟨_, rfl⟩
  rw [← hs1] at e1 I1
  have hinel : cs.map s1.keys.idxOf = b.inel s1.keys := by rw [hcs]; rfl
  have hmem1 : ∀ p, p ∈ s1.keys ↔ p ∈ s.keys ∨ ∃ t ∈ b.all, b.at_ t = p := by
    intro p
    rw [hs1, adds_mem, hcs, List.mem_map]
  have K1 : Know s1 A := by rw [hs1]; exact K.adds cs
  have hin : ∀ t ∈ b.all, b.at_ t ∈ s1.keys := fun t ht => (hmem1 _).2 (Or.inr ⟨t, ht, rfl⟩)
  have hnil : noted A b 0 = [] := rfl
  have hmask0 : (fun _ : Nat => (none : Option Nat)) = maskAt A b s1.keys 0 := by
    funext u
    unfold maskAt
    rw [if_neg (by omega)]
  have hloop := maskLoop_eq hA bx by2 hap (ks := s1.keys) (fun d p q hm => (K1.ends d p q hm).2) hin (4 * b.nz) 0 (by omega)
    l1 s1 t1 h1 I1 (by rw [hnil, List.append_nil]; exact K1) (by rw [hnil, List.append_nil]; exact hA) rfl
  rw [noted_functional hA bx by2 hap] at hloop
  have hset : setupMask b.nz c l = maskLoop (b.inel s1.keys) b.nz (4 * b.nz) 0 l1 (maskAt A b s1.keys 0) >>= fun x =>
      .ok (x.1, (maskNumbers x.2 (5 * b.nz) 0 (b.inel s1.keys) fun _ => 0).1,
        (maskNumbers x.2 (5 * b.nz) 0 (b.inel s1.keys) fun _ => 0).2) := by
    unfold setupMask
    rw [hsort, Res.ok_bind]
    unfold coordAdd
    have : ((triples b.nz 2 2).map fun t => placeOf b.nz 2 2 b.c t.1 t.2.1 t.2.2) = cs := by
      rw [hcs]
      unfold Brick.all
      rw [bx, by2]
      apply List.map_congr_left
      intro t _
      unfold Brick.at_ Brick.place
      rw [bx, by2]
    rw [this, e1]
    simp only [Res.ok_bind]
    rw [hinel, hmask0]
    rfl
  constructor
  · intro hU
    obtain ⟨l2, s2, t2, h2, e2, I2, e3, K2⟩ := hloop.1 hU
    have hmf : maskAt A b s1.keys (4 * b.nz) = fun u => (extra A b u).map s1.keys.idxOf := by
      funext u
      unfold maskAt
      by_cases ho : owner b.nz u < 4 * b.nz
      · rw [if_pos ho]
      · rw [if_neg ho]
        have : extra A b u = none := by
          have hu : ¬u < 4 * b.nz := by
            intro hu
            apply ho
            unfold owner
            rw [if_pos hu]
            by_cases hh : u % 4 = 0 ∨ u % 4 = 2
            · rw [if_pos hh]; omega
            · rw [if_neg hh]; omega
          have hu2 : ¬u - 4 * b.nz < b.nz := by
            intro hh
            apply ho
            unfold owner
            rw [if_neg hu]
            omega
          unfold extra
          rw [if_neg hu, if_neg (by omega)]
        rw [this]
        rfl
    have hblen : (b.inel s1.keys).length = 4 * b.nz := by
      unfold Brick.inel
      rw [List.length_map, List.length_map, all_tri bx by2]
      simp
    obtain ⟨n1, n2⟩ := maskNumbers_eq (fun u => (extra A b u).map s1.keys.idxOf) b.nz (b.inel s1.keys) hblen (5 * b.nz) 0
      (b.inel s1.keys) (fun _ => 0) (by simp) (by intro u; simp)
    have hsome : (fun u => ((extra A b u).map s1.keys.idxOf).isSome) = fun u => (extra A b u).isSome := by
      funext u; rw [Option.isSome_map]
    rw [Nat.zero_add] at n1 n2
    rw [hsome] at n2
    refine ⟨l2, _, _, s2, extra A b, A ++ noted A b (4 * b.nz), by rw [hset, e2, Res.ok_bind, hmf], ⟨⟨t2, h2, I2⟩, K2,
      (noted_functional hA bx by2 hap).2 hU⟩, ⟨fun u w => extra_iff hA hz, ?_, ?_, ?_, ?_, ?_⟩, fun d p q => noted_iff hA bx by2 hU⟩
    · intro p
      rw [e3, hmem1]
      refine or_congr_right ?_
      constructor
      · rintro ⟨⟨i, j, k⟩, ht, rfl⟩; exact ⟨i, j, k, mem_triples.1 ht, rfl⟩
      · rintro ⟨i, j, k, hin, rfl⟩; exact ⟨(i, j, k), mem_triples.2 hin, rfl⟩
    · obtain ⟨ext, hext⟩ := adds_keys cs s
      exact ⟨ext, by rw [e3, hs1]; exact hext⟩
    · rw [n1, e3, List.map_append, List.map_append]
      congr 1
      · unfold Brick.inel
        rw [List.map_map, ← hcs]
        apply List.map_congr_left
        intro p hp
        rw [hcs] at hp
        obtain ⟨t, ht, rfl⟩ := List.mem_map.1 hp
        exact get_idx (hin t ht)
      · rw [← List.map_filterMap, List.map_map]
        apply List.map_congr_left
        intro p hp
        obtain ⟨u, _, hu⟩ := List.mem_filterMap.1 hp
        obtain ⟨d, p0, hm⟩ := finds_mem ((extra_iff hA hz).1 hu)
        exact get_idx (K1.ends d p0 p hm).2
    · rw [n1, List.length_append, hblen]
      unfold nnd
      congr 1
      rw [← List.map_filterMap, List.length_map]
      generalize 5 * b.nz = N
      induction N with
      | zero => rfl
      | succ i ih =>
        rw [List.range_succ, List.filterMap_append, List.filter_append, List.length_append, List.length_append, ih]
        cases hm : extra A b i <;> simp [hm]
    · intro u
      rw [n2 u]
      by_cases hu : u < 5 * b.nz
      · rw [if_pos hu]
      · rw [if_neg hu]
        unfold number
        have : extra A b u = none := by
          unfold extra
          rw [if_neg (by omega), if_neg (by omega)]
        simp [this]
  · intro hU
    rw [hset, hloop.2 hU]
    rfl

end OP.Fem.Nodes
