import Verif.Fem.PropsMesh
/-!
# C109: variable elements in meshes
-/
namespace OP.Fem.Nodes

open OP.Fem (Shape getn number nnd)

/-! ### Specification -/

/-- No neighbour that the element has is known to be another one. -/
def FitsIn (A : List Arc) (b : Brick) : Prop := ∀ d p q q', (d, p, q) ∈ A → b.Joins d p q' → q = q'

/-! ### Bricks -/

/-- A mesh of bricks is a mesh. -/
theorem GInv.mesh {g : Grid} {bs : List Brick} {s : Spec} {t : T} {h : Nat} (G : GInv g bs s t h) :
    Net g.node s (bs.flatMap Brick.arcs) := ⟨⟨t, h, G.inv⟩, G.know, G.fit⟩

theorem arcs_functional {b : Brick} (hi : ∀ t ∈ b.all, ∀ t' ∈ b.all, b.at_ t = b.at_ t' → t = t') : Functional b.arcs := by
  intro d p q q' h1 h2
  unfold Brick.arcs at h1 h2
  obtain ⟨t, ht, k1⟩ := List.mem_flatMap.1 h1
  obtain ⟨t', ht', k2⟩ := List.mem_flatMap.1 h2
  obtain ⟨e1, f1⟩ := mem_arcsAt.1 k1
  obtain ⟨e2, f2⟩ := mem_arcsAt.1 k2
  rw [← hi t ht t' ht' (e1.symm.trans e2), f1] at f2
  exact Option.some.inj f2

theorem setupBlock_mesh {l : NL} {s : Spec} {A : List Arc} (M : Net l s A) (b : Brick) (c : Corners) (fx fy fz : Bool)
    (hb : b.c = c.mirror fx fy fz) (hinc : b.c.Increasing) :
    (Functional (A ++ b.arcs) → ∃ (l' : NL) (s' : Spec), setupBlock b.nz b.nx b.ny c l = .ok (l', b.inel s'.keys) ∧ Net l' s' (A ++ b.arcs) ∧
      s'.keys = ((b.all.map b.at_).foldl Spec.add s).keys) ∧
    (¬Functional (A ++ b.arcs) → setupBlock b.nz b.nx b.ny c l = .ub) := by
  have hsort : coordSort 4 c = .ok b.c := by
    rw [hb] at hinc
    rcases C108_sort 4 (by omega) c with ⟨gx, gy, gz, h1, h2, h3⟩ | ⟨h1, _⟩
    · obtain ⟨rfl, rfl, rfl⟩ := h3 fx fy fz hinc
      rw [h2, hb]
    · exact absurd hinc (h1 fx fy fz)
  obtain ⟨⟨t, h, I⟩, K, hA⟩ := M
  obtain ⟨cs, hcs⟩ : ∃ cs, cs = b.all.map b.at_ := ⟨_, rfl⟩
  obtain ⟨l1, t1, h1, e1, I1⟩ := addAll_inv cs l s t h I
  rw [← hcs]
  obtain ⟨s1, hs1⟩ : ∃ s1, s1 = cs.foldl Spec.add s := ⟨_, rfl⟩
  rw [← hs1] at e1 I1 ⊢
  have hinel : cs.map s1.keys.idxOf = b.inel s1.keys := by rw [hcs]; rfl
  have hmem1 : ∀ t ∈ b.all, b.at_ t ∈ s1.keys := by
    intro t ht
    rw [hs1, adds_mem, hcs]
    exact Or.inr (List.mem_map.2 ⟨t, ht, rfl⟩)
  have K1 : Know s1 A := by rw [hs1]; exact K.adds cs
  have hlen : (b.inel s1.keys).length = b.nz * (b.ny * b.nx) := by
    unfold Brick.inel Brick.all
    rw [List.length_map, List.length_map, (triples_get b.nz b.nx b.ny).1]
    ring
  have hset : setupBlock b.nz b.nx b.ny c l =
      run l1 (b.all.map fun t => .nbr (s1.keys.idxOf (b.at_ t)) (b.nbr s1.keys t)) >>= fun l => .ok (l, b.inel s1.keys) := by
    unfold setupBlock
    rw [hsort, Res.ok_bind]
    unfold coordAdd
    rw [show ((triples b.nz b.nx b.ny).map fun t => placeOf b.nz b.nx b.ny b.c t.1 t.2.1 t.2.2) = cs from hcs.symm, e1]
    simp only [Res.ok_bind]
    rw [hinel, if_pos hlen, show triples b.nz b.nx b.ny = b.all from rfl, nbrAll_eq b s1.keys _ l1 (fun t ht => ht)]
    rfl
  have hnotes : ∀ t ∈ b.all, Notes s1.keys (s1.keys.idxOf (b.at_ t)) (b.nbr s1.keys t) (b.at_ t) (b.star t) := by
    intro t ht
    refine ⟨get_idx (hmem1 t ht), ?_, nbr_get b s1.keys t⟩
    intro d q hq
    obtain ⟨t', h1, rfl⟩ := star_mem ht hq
    exact hmem1 t' h1
  have hst := Know.steps s1.keys (fun t => s1.keys.idxOf (b.at_ t)) (b.nbr s1.keys) b.at_ b.star b.all hnotes s1 _ K1 hA rfl
  have hrun := run_inv (b.all.map fun t => .nbr (s1.keys.idxOf (b.at_ t)) (b.nbr s1.keys t)) l1 s1 t1 h1 I1
  constructor
  · intro hF
    obtain ⟨s2, e2, e3, e4⟩ := hst.1 hF
    rw [e2] at hrun
    obtain ⟨l2, t2, h2, e5, I2⟩ := hrun
    exact ⟨l2, s2, by rw [hset, e5, e3]; rfl, ⟨⟨t2, h2, I2⟩, e4, hF⟩, e3⟩
  · intro hF
    rw [hst.2 hF] at hrun
    simp only at hrun
    rw [hset, hrun]
    rfl

theorem adds_same : ∀ (cs : List C3) (s : Spec), (∀ c ∈ cs, c ∈ s.keys) → cs.foldl Spec.add s = s := by
  intro cs
  induction cs with
  | nil => intro s _; rfl
  | cons c cs ih =>
    intro s h
    rw [List.foldl_cons, show s.add c = s by unfold Spec.add; rw [if_pos (h c (by simp))]]
    exact ih s fun c hc => h c (by simp [hc])

/-- C109: adding a variable or an adaptor element.  With nodes on its sides it is a variable element that has them; without any it is
the block, and is refused if that does not fit. -/
theorem C109_add {g : Grid} {s : Spec} {A : List Arc} (M : Net g.node s A) (ad : Bool) (sz : Shape) (hz : 0 < getn sz) (c : Corners)
    (fx fy fz : Bool) (b : Brick) (hb : b = ⟨2, 2, getn sz, c.mirror fx fy fz⟩) (hinc : b.c.Increasing) (hap : Apart A b) :
    (Upright A b → (∃ u w, Finds A b u w) → ∃ g' mask s' m A' inel, g.addVar ad sz c = .ok (g', mask) ∧ Net g'.node s' A' ∧
      Fitted A b s s' inel mask m ∧ (∀ d p q, (d, p, q) ∈ A' ↔ Noted A b d p q) ∧
      g'.elems = g.elems ++ [⟨if ad then .quadratic else .absolute, if ad then .quadratic else .absolute, sz, inel⟩]) ∧
    (FitsIn A b → (∀ u w, ¬Finds A b u w) → ∃ g' mask s' A' inel, g.addVar ad sz c = .ok (g', mask) ∧ Net g'.node s' A' ∧
      (∀ d p q, (d, p, q) ∈ A' ↔ (d, p, q) ∈ A ∨ b.Joins d p q) ∧ inel.map (s'.keys[·]?) = (b.all.map b.at_).map some ∧
      (∀ p, p ∈ s'.keys ↔ p ∈ s.keys ∨ ∃ i j k, b.In i j k ∧ b.place i j k = p) ∧
      g'.elems = g.elems ++ [⟨.linear, .linear, sz, inel⟩]) ∧
    (¬FitsIn A b → (∀ u w, ¬Finds A b u w) → g.addVar ad sz c = .ub) ∧
    (¬Upright A b → g.addVar ad sz c = .ub) := by
  have hbc : b.c = c.mirror fx fy fz := by rw [hb]
  have hmask := C109_mask M hz c fx fy fz (hbc ▸ hinc) (hb ▸ hap)
  rw [← hb] at hmask
  have bx : b.nx = 2 := by rw [hb]
  have by2 : b.ny = 2 := by rw [hb]
  have bz : b.nz = getn sz := by rw [hb]
  have hup : FitsIn A b → Upright A b := fun h d _ p q q' h1 h2 => h d p q q' h1 h2
  have hlen : ∀ {m : Nat → Option C3}, (∀ u w, m u = some w ↔ Finds A b u w) →
      (nnd b.nz (fun u => (m u).isSome) = 4 * b.nz ↔ ∀ u w, ¬Finds A b u w) := by
    intro m hm
    unfold nnd
    rw [Nat.add_eq_left, List.length_eq_zero_iff, List.filter_eq_nil_iff]
    constructor
    · intro h u w hf
      have hu : u < 5 * b.nz := by cases hf <;> omega
      apply h u (List.mem_range.2 hu)
      rw [(hm u w).2 hf]
      rfl
    · intro h u _ hs
      obtain ⟨w, hw⟩ := Option.isSome_iff_exists.1 hs
      exact h u w ((hm u w).1 hw)
  refine ⟨?_, ?_, ?_, ?_⟩
  · rintro hU ⟨u, w, hf⟩
    obtain ⟨l', inel, mask, s', m, A', e, M', F, hA'⟩ := hmask.1 hU
    have hne : inel.length ≠ 4 * getn sz := by
      rw [F.count, ← bz, Ne, hlen F.finds]
      exact fun h => h u w hf
    refine ⟨{ node := l', elems := g.elems ++ [⟨if ad then .quadratic else .absolute, if ad then .quadratic else .absolute, sz, inel⟩] },
      mask, s', m, A', inel, ?_, M', F, hA', rfl⟩
    unfold Grid.addVar
    rw [e, Res.ok_bind]
    dsimp only
    rw [if_neg hne]
    rfl
  all_goals first
    | intro hU
      unfold Grid.addVar
      rw [hmask.2 hU]
      rfl
    | skip
  all_goals
    intro hfit hno
    by_cases hU : Upright A b
    · obtain ⟨l', inel, mask, s', m, A', e, M', F, hA'⟩ := hmask.1 hU
      have heq : inel.length = 4 * getn sz := by
        rw [F.count, ← bz, hlen F.finds]
        exact hno
      have hblk := setupBlock_mesh M' b c fx fy fz hbc hinc
      rw [bx, by2, bz] at hblk
      have hF : Functional (A' ++ b.arcs) ↔ FitsIn A b := by
        constructor
        · intro h d p q q' h1 h2
          exact h d p q q' (List.mem_append_left _ ((hA' d p q).2 (Or.inl h1))) (List.mem_append_right _ (mem_arcs.2 h2))
        · intro h d p q q' h1 h2
          have hj := arcs_functional hap.inj
          have key : ∀ q, (d, p, q) ∈ A' ++ b.arcs → (d, p, q) ∈ A ∨ (d, p, q) ∈ b.arcs := by
            intro q hq
            rcases List.mem_append.1 hq with hq | hq
            · rcases (hA' d p q).1 hq with h | ⟨h, _⟩
              · exact Or.inl h
              · exact Or.inr (mem_arcs.2 h)
            · exact Or.inr hq
          rcases key q h1 with k1 | k1 <;> rcases key q' h2 with k2 | k2
          · exact M.one d p q q' k1 k2
          · exact h d p q q' k1 (mem_arcs.1 k2)
          · exact (h d p q' q k2 (mem_arcs.1 k1)).symm
          · exact hj d p q q' k1 k2
      rw [hF] at hblk
      first
        | obtain ⟨l2, s2, e2, M2, e3⟩ := hblk.1 hfit
          have hall : ∀ p ∈ b.all.map b.at_, p ∈ s'.keys := by
            intro p hp
            obtain ⟨⟨i, j, k⟩, ht, rfl⟩ := List.mem_map.1 hp
            exact (F.nodes _).2 (Or.inr ⟨i, j, k, mem_triples.1 ht, rfl⟩)
          rw [adds_same _ _ hall] at e3
          refine ⟨{ node := l2, elems := g.elems ++ [⟨.linear, .linear, sz, b.inel s2.keys⟩] }, mask, s2, A' ++ b.arcs,
            b.inel s2.keys, ?_, M2, ?_, ?_, ?_, rfl⟩
          · unfold Grid.addVar
            rw [e, Res.ok_bind]
            dsimp only
            rw [if_pos heq, e2]
            rfl
          · intro d p q
            rw [List.mem_append, hA', mem_arcs]
            unfold Noted
            tauto
          · unfold Brick.inel
            rw [List.map_map]
            apply List.map_congr_left
            intro p hp
            exact get_idx (e3 ▸ hall p hp)
          · intro p
            rw [e3]
            exact F.nodes p
        | unfold Grid.addVar
          rw [e, Res.ok_bind]
          dsimp only
          rw [if_pos heq, hblk.2 hfit]
          rfl
    · first
        | exact absurd (hup hfit) hU
        | unfold Grid.addVar
          rw [hmask.2 hU]
          rfl

/-! ### Under a finer mesh -/

/-- The nodes in the middle of the sides of the top and in its centre, in the order of the places `west`, `north`, `south`, `east` and
`centre` -/
def topFive (L : Lines) (a b c : Nat) : List C3 :=
  [⟨L.xs a, L.ys (b + 1), L.zs c⟩, ⟨L.xs (a + 1), L.ys (b + 2), L.zs c⟩, ⟨L.xs (a + 1), L.ys b, L.zs c⟩,
    ⟨L.xs (a + 2), L.ys (b + 1), L.zs c⟩, ⟨L.xs (a + 1), L.ys (b + 1), L.zs c⟩]

/-- The element that spans two by two boxes from below -/
def under (L : Lines) (a b c : Nat) (nz : Nat) (Z : Int) : Brick :=
  box 2 2 nz ⟨L.xs a, L.ys b, Z⟩ ⟨L.xs (a + 2), L.ys (b + 2), L.zs c⟩

theorem line_first {m : Nat} (hm : 0 < m) (a b : Int) : line m a b 0 = a := (line_isLine hm a b).first
theorem line_last {m : Nat} (hm : 0 < m) (a b : Int) : line m a b m = b := (line_isLine hm a b).last

theorem line_ge {m : Nat} (hm : 0 < m) {a b : Int} (h : a ≤ b) (i : Nat) : a ≤ line m a b i := by
  induction i with
  | zero => exact (line_first hm a b).ge
  | succ i ih => exact ih.trans (line_mono h i)

theorem line_lt_last {m : Nat} (hm : 0 < m) {a b : Int} (h : (m : Int) ≤ b - a) {i : Nat} (hi : i < m) : line m a b i < b := by
  have := strictMono_nat_of_lt_succ (line_strict hm h) hi
  rwa [line_last hm] at this

theorem filterMap_top {m : Nat → Option C3} {N : Nat} {w0 w1 w2 w3 w4 : C3} (h0 : m (4 * N) = some w0) (h1 : m (4 * N + 1) = some w1)
    (h2 : m (4 * N + 2) = some w2) (h3 : m (4 * N + 3) = some w3) (h4 : m (5 * N + 4) = some w4)
    (hl : ∀ u < 4 * N, m u = none) (hm : ∀ u < N, m (4 * N + 4 + u) = none) :
    (List.range (5 * (N + 1))).filterMap m = [w0, w1, w2, w3, w4] := by
  have e : List.range (5 * (N + 1)) = List.range (4 * N) ++ ([4 * N, 4 * N + 1, 4 * N + 2, 4 * N + 3] ++
      ((List.range N).map (4 * N + 4 + ·) ++ [5 * N + 4])) := by
    rw [show 5 * (N + 1) = 4 * N + 4 + (N + 1) by omega, List.range_add, List.range_add, List.append_assoc, List.range_succ (n := N),
      List.map_append, List.map_singleton, show 4 * N + 4 + N = 5 * N + 4 by omega]
    rfl
  have hmid : ((List.range N).map (4 * N + 4 + ·)).filterMap m = [] := by
    rw [List.filterMap_eq_nil_iff]
    intro u hu
    obtain ⟨v, hv, rfl⟩ := List.mem_map.1 hu
    exact hm v (List.mem_range.1 hv)
  rw [e, List.filterMap_append, List.filterMap_append, List.filterMap_append,
    List.filterMap_eq_nil_iff.2 fun u hu => hl u (List.mem_range.1 hu), hmid]
  simp [h0, h1, h2, h3, h4]

/-- The middles of the four sides of the top of an element of `nz` levels, and its centre, as places of the mask -/
def topPlaces (nz u : Nat) : Bool := decide (4 * (nz - 1) ≤ u ∧ (u < 4 * nz ∨ u = 5 * nz - 1))

/-- C109: under a mesh of linear boxes between lines, an element that spans two by two of them, and reaches them with its top, gets
exactly the five nodes of the lines that cross its top: in the middle of each side and in the centre.  All its nodes are different.  The mask has their numbers in these five places.
Of the four boxes above, the first and the last are enough.  Missing: the same for any mesh that has nodes on the sides of the element;
that is false, see below. -/
theorem C109_grid_partial (L : Lines) (hnx : L.nx = 2) (hny : L.ny = 2) (cells : List Cell) (rs : List Req)
    (hrs : List.Forall₂ (fun r q => r.Asks (L.cell q)) rs cells) (a b c : Nat) (h1 : (⟨a, b, c⟩ : Cell) ∈ cells)
    (h2 : (⟨a + 1, b + 1, c⟩ : Cell) ∈ cells) (hc : ∀ q ∈ cells, c ≤ q.c) (sz : Shape) (hz : 2 ≤ getn sz) (Z : Int)
    (hZ : ((getn sz - 1 : Nat) : Int) ≤ L.zs c - Z) (ad : Bool) :
    ∃ g s g' mask s' inel, Grid.build {} rs = .ok g ∧ Built g (cells.map L.cell) s ∧
      g.addVar ad sz (boxCorners ⟨L.xs a, L.ys b, Z⟩ ⟨L.xs (a + 2), L.ys (b + 2), L.zs c⟩) = .ok (g', mask) ∧ Agrees g'.node s' ∧
      g'.elems = g.elems ++ [⟨if ad then .quadratic else .absolute, if ad then .quadratic else .absolute, sz, inel⟩] ∧
      inel.Nodup ∧ inel.map (s'.keys[·]?) =
        ((under L a b c (getn sz) Z).all.map (under L a b c (getn sz) Z).at_ ++ topFive L a b c).map some ∧
      inel.length = nnd (getn sz) (topPlaces (getn sz)) ∧ ∀ u, mask u = number (getn sz) (topPlaces (getn sz)) u := by
  obtain ⟨g, s, t, ht, e, G⟩ := (GInv.build (List.forall₂_map_right_iff.2 hrs : List.Forall₂ Req.Asks rs (cells.map L.cell)) GInv.init).1
    (by rw [List.nil_append]; exact (fit_iff _).1 (L.fit cells))
  rw [List.nil_append] at G
  have M := G.mesh
  obtain ⟨A, hA⟩ : ∃ A, A = (cells.map L.cell).flatMap Brick.arcs := ⟨_, rfl⟩
  rw [← hA] at M
  have hmem : ∀ d p q, (d, p, q) ∈ A ↔ ∃ e ∈ cells, (L.cell e).Joins d p q := by
    intro d p q
    rw [hA, List.mem_flatMap]
    constructor
    · rintro ⟨_, hb, h⟩
      obtain ⟨e, he, rfl⟩ := List.mem_map.1 hb
      exact ⟨e, he, mem_arcs.1 h⟩
    · rintro ⟨e, he, h⟩
      exact ⟨_, List.mem_map.2 ⟨e, he, rfl⟩, mem_arcs.2 h⟩
  have Lz := L.hz
  -- lines
  have hxs : ∀ n, L.xs n < L.xs (n + 1) := fun n => by have := L.wx n; rw [hnx] at this; omega
  have hys : ∀ n, L.ys n < L.ys (n + 1) := fun n => by have := L.wy n; rw [hny] at this; omega
  have hzs : ∀ n, L.zs n < L.zs (n + 1) := fun n => by have := L.wz n; omega
  have hzmono : ∀ {m n}, m ≤ n → L.zs m ≤ L.zs n := fun h => (strictMono_nat_of_lt_succ hzs).monotone h
  have x1 := hxs a
  have x2 : L.xs (a + 1) < L.xs (a + 2) := hxs (a + 1)
  have y1 := hys b
  have y2 : L.ys (b + 1) < L.ys (b + 2) := hys (b + 1)
  -- nodes of the boxes
  have hcell : ∀ (q : Cell) i j k, (L.cell q).place i j k =
      ⟨line 1 (L.xs q.a) (L.xs (q.a + 1)) j, line 1 (L.ys q.b) (L.ys (q.b + 1)) k, line (L.nz - 1) (L.zs q.c) (L.zs (q.c + 1)) i⟩ := by
    intro q i j k
    unfold Lines.cell
    rw [hnx, hny, box_place le_rfl le_rfl Lz]
  have l0 : ∀ u v, line 1 u v 0 = u := fun u v => line_first (by omega) u v
  have l1 : ∀ u v, line 1 u v 1 = v := fun u v => line_last (by omega) u v
  have hbound : ∀ q ∈ cells, ∀ i j k, L.zs c ≤ ((L.cell q).place i j k).z := by
    intro q hq i j k
    rw [hcell]
    exact (hzmono (hc q hq)).trans (line_ge (by omega) (hzs q.c).le i)
  have hends : ∀ d p q, (d, p, q) ∈ A → L.zs c ≤ p.z ∧ L.zs c ≤ q.z := by
    intro d p q h
    obtain ⟨e, he, h⟩ := (hmem d p q).1 h
    cases h <;> exact ⟨hbound e he _ _ _, hbound e he _ _ _⟩
  -- the neighbours on the top
  have hIn : ∀ (q : Cell) j k, j < 2 → k < 2 → (L.cell q).In 0 j k := fun q j k hj hk =>
    ⟨show 0 < L.nz by omega, show j < L.nx by omega, show k < L.ny by omega⟩
  have lz0 : ∀ u v, line (L.nz - 1) u v 0 = u := fun u v => line_first (by omega) u v
  have a1 : (Dir.yp, (⟨L.xs a, L.ys b, L.zs c⟩ : C3), (⟨L.xs a, L.ys (b + 1), L.zs c⟩ : C3)) ∈ A := by
    have := Brick.Joins.yp (hIn ⟨a, b, c⟩ 0 (0 + 1) (by omega) (by omega))
    simp only [hcell, Nat.zero_add, l0, l1, lz0] at this
    exact (hmem _ _ _).2 ⟨_, h1, this⟩
  have a2 : (Dir.xp, (⟨L.xs a, L.ys b, L.zs c⟩ : C3), (⟨L.xs (a + 1), L.ys b, L.zs c⟩ : C3)) ∈ A := by
    have := Brick.Joins.xp (hIn ⟨a, b, c⟩ (0 + 1) 0 (by omega) (by omega))
    simp only [hcell, Nat.zero_add, l0, l1, lz0] at this
    exact (hmem _ _ _).2 ⟨_, h1, this⟩
  have a3 : (Dir.xp, (⟨L.xs a, L.ys (b + 1), L.zs c⟩ : C3), (⟨L.xs (a + 1), L.ys (b + 1), L.zs c⟩ : C3)) ∈ A := by
    have := Brick.Joins.xp (hIn ⟨a, b, c⟩ (0 + 1) 1 (by omega) (by omega))
    simp only [hcell, Nat.zero_add, l0, l1, lz0] at this
    exact (hmem _ _ _).2 ⟨_, h1, this⟩
  have a4 : (Dir.xm, (⟨L.xs (a + 2), L.ys (b + 2), L.zs c⟩ : C3), (⟨L.xs (a + 1), L.ys (b + 2), L.zs c⟩ : C3)) ∈ A := by
    have := Brick.Joins.xm (hIn ⟨a + 1, b + 1, c⟩ (0 + 1) 1 (by omega) (by omega))
    simp only [hcell, Nat.zero_add, l0, l1, lz0] at this
    exact (hmem _ _ _).2 ⟨_, h2, this⟩
  have a5 : (Dir.ym, (⟨L.xs (a + 2), L.ys (b + 2), L.zs c⟩ : C3), (⟨L.xs (a + 2), L.ys (b + 1), L.zs c⟩ : C3)) ∈ A := by
    have := Brick.Joins.ym (hIn ⟨a + 1, b + 1, c⟩ 1 (0 + 1) (by omega) (by omega))
    simp only [hcell, Nat.zero_add, l0, l1, lz0] at this
    exact (hmem _ _ _).2 ⟨_, h2, this⟩
  -- the element
  obtain ⟨N, hN⟩ : ∃ N, getn sz = N + 1 := ⟨getn sz - 1, by omega⟩
  have hN1 : 0 < N := by omega
  obtain ⟨B, hB⟩ : ∃ B, B = under L a b c (getn sz) Z := ⟨_, rfl⟩
  have bx : B.nx = 2 := by rw [hB]; rfl
  have by2 : B.ny = 2 := by rw [hB]; rfl
  have bz : B.nz = N + 1 := by rw [hB]; exact hN
  have hZ' : (N : Int) ≤ L.zs c - Z := by rw [hN, Nat.add_sub_cancel] at hZ; exact hZ
  have hP : ∀ i j k, B.place i j k = ⟨line 1 (L.xs a) (L.xs (a + 2)) j, line 1 (L.ys b) (L.ys (b + 2)) k, line N Z (L.zs c) i⟩ := by
    intro i j k
    rw [hB]
    unfold under
    rw [box_place le_rfl le_rfl hz, hN, Nat.add_sub_cancel]
  have htop : line N Z (L.zs c) N = L.zs c := line_last hN1 _ _
  have hlow : ∀ i < N, line N Z (L.zs c) i < L.zs c := fun i hi => line_lt_last hN1 hZ' hi
  have hstrict := strictMono_nat_of_lt_succ (line_strict hN1 hZ')
  have hinc : B.c.Increasing := by
    rw [hB]
    exact box_increasing (show L.xs a < L.xs (a + 2) by omega) (show L.ys b < L.ys (b + 2) by omega) (show Z < L.zs c by omega)
  have hnone : ∀ d i j k q, i < N → (d, B.place i j k, q) ∉ A := by
    intro d i j k q hi hm
    have := (hends _ _ _ hm).1
    rw [hP] at this
    have := hlow i hi
    simp only at *
    omega
  have cor : ∀ {i j k}, (i, j, k) ∈ B.all → i < N + 1 ∧ (j = 0 ∨ j = 1) ∧ (k = 0 ∨ k = 1) := by
    intro i j k h
    obtain ⟨h1, h2, h3⟩ := mem_triples.1 h
    omega
  have hinj : ∀ t ∈ B.all, ∀ t' ∈ B.all, B.at_ t = B.at_ t' → t = t' := by
    rintro ⟨i, j, k⟩ ht ⟨i', j', k'⟩ ht' h
    obtain ⟨_, hj, hk⟩ := cor ht
    obtain ⟨_, hj', hk'⟩ := cor ht'
    change B.place i j k = B.place i' j' k' at h
    rw [hP, hP] at h
    simp only [C3.mk.injEq] at h
    obtain ⟨g1, g2, g3⟩ := h
    have g3 := hstrict.injective g3
    rcases hj with rfl | rfl <;> rcases hj' with rfl | rfl <;> simp only [l0, l1] at g1 <;>
      rcases hk with rfl | rfl <;> rcases hk' with rfl | rfl <;> simp only [l0, l1] at g2 <;> first | (subst g3; rfl) | omega
  have hnotcor : ∀ w ∈ topFive L a b c, ∀ t ∈ B.all, B.at_ t ≠ w := by
    rintro w hw ⟨i, j, k⟩ ht h
    obtain ⟨_, hj, hk⟩ := cor ht
    change B.place i j k = w at h
    rw [hP] at h
    subst h
    simp only [topFive, List.mem_cons, C3.mk.injEq, List.not_mem_nil, or_false] at hw
    rcases hj with rfl | rfl <;> rcases hk with rfl | rfl <;> simp only [l0, l1] at hw <;> omega
  have p00 : B.place N 0 0 = ⟨L.xs a, L.ys b, L.zs c⟩ := by rw [hP, l0, l0, htop]
  have p01 : B.place N 0 1 = ⟨L.xs a, L.ys (b + 2), L.zs c⟩ := by rw [hP, l0, l1, htop]
  have p10 : B.place N 1 0 = ⟨L.xs (a + 2), L.ys b, L.zs c⟩ := by rw [hP, l1, l0, htop]
  have p11 : B.place N 1 1 = ⟨L.xs (a + 2), L.ys (b + 2), L.zs c⟩ := by rw [hP, l1, l1, htop]
  have hap : Apart A B := by
    refine ⟨hinj, ?_⟩
    intro n hn w hw _
    by_cases hlt : n < N
    · exact absurd hw (hnone _ _ _ _ _ hlt)
    · obtain rfl : n = N := by omega
      rw [p00] at hw
      rw [M.one _ _ _ _ hw a1]
      exact hnotcor _ (by simp [topFive])
  have hU : Upright A B := by
    intro d hd p q q' hm hj
    exfalso
    rcases hd with rfl | rfl
    · cases hj with
      | @zm i j k hin =>
        have := hin.1
        rw [bz] at this
        by_cases hlt : i + 1 < N
        · exact hnone _ _ _ _ _ hlt hm
        · have hiN : i + 1 = N := by omega
          obtain ⟨e, he, hje⟩ := (hmem _ _ _).1 hm
          rw [hiN, hP, htop] at hje
          generalize hp : (⟨line 1 (L.xs a) (L.xs (a + 2)) j, line 1 (L.ys b) (L.ys (b + 2)) k, L.zs c⟩ : C3) = p at hje
          cases hje with
          | @zm i' j' k' hin' =>
            rw [hcell] at hp
            simp only [C3.mk.injEq] at hp
            have g1 := line_strict (by omega) (L.wz e.c) i'
            have g2 := line_ge (m := L.nz - 1) (by omega) (hzs e.c).le i'
            have g3 := hzmono (hc e he)
            omega
    · cases hj with
      | @zp i j k hin =>
        have := hin.1
        rw [bz] at this
        exact hnone _ _ _ _ _ (by omega) hm
  have n1 : (⟨L.xs a, L.ys (b + 1), L.zs c⟩ : C3) ≠ ⟨L.xs a, L.ys (b + 2), L.zs c⟩ := by
    intro h; simp only [C3.mk.injEq] at h; omega
  have n2 : (⟨L.xs (a + 1), L.ys (b + 2), L.zs c⟩ : C3) ≠ ⟨L.xs a, L.ys (b + 2), L.zs c⟩ := by
    intro h; simp only [C3.mk.injEq] at h; omega
  have n3 : (⟨L.xs (a + 1), L.ys b, L.zs c⟩ : C3) ≠ ⟨L.xs (a + 2), L.ys b, L.zs c⟩ := by
    intro h; simp only [C3.mk.injEq] at h; omega
  have n4 : (⟨L.xs (a + 2), L.ys (b + 1), L.zs c⟩ : C3) ≠ ⟨L.xs (a + 2), L.ys b, L.zs c⟩ := by
    intro h; simp only [C3.mk.injEq] at h; omega
  have hNz : N < B.nz := by omega
  have f0 : Finds A B (4 * N) ⟨L.xs a, L.ys (b + 1), L.zs c⟩ := .west hNz (by rw [p00]; exact a1) (by rw [p01]; exact n1)
  have f1 : Finds A B (4 * N + 1) ⟨L.xs (a + 1), L.ys (b + 2), L.zs c⟩ := .north hNz (by rw [p11]; exact a4) (by rw [p01]; exact n2)
  have f2 : Finds A B (4 * N + 2) ⟨L.xs (a + 1), L.ys b, L.zs c⟩ := .south hNz (by rw [p00]; exact a2) (by rw [p10]; exact n3)
  have f3 : Finds A B (4 * N + 3) ⟨L.xs (a + 2), L.ys (b + 1), L.zs c⟩ := .east hNz (by rw [p11]; exact a5) (by rw [p10]; exact n4)
  have f4 : Finds A B (5 * N + 4) ⟨L.xs (a + 1), L.ys (b + 1), L.zs c⟩ := by
    have := Finds.centre (A := A) (b := B) hNz (by omega) (by rw [p00]; exact a1) (by rw [p01]; exact n1) a3
    rwa [bz, show 4 * (N + 1) + N = 5 * N + 4 by omega] at this
  have hfew : ∀ u w, Finds A B u w → 4 * N ≤ u ∧ (u < 4 * N + 4 ∨ u = 5 * N + 4) := by
    intro u w h
    have hn : ∀ {n d j k q}, (d, B.place n j k, q) ∈ A → N ≤ n := by
      intro n d j k q hm
      by_contra hlt
      exact hnone _ _ _ _ _ (by omega) hm
    cases h with
    | west h1 h2 => have := hn h2; omega
    | north h1 h2 => have := hn h2; omega
    | south h1 h2 => have := hn h2; omega
    | east h1 h2 => have := hn h2; omega
    | centre h1 _ h2 => have := hn h2; omega
  obtain ⟨g', mask, s', m, A', inel, e1, M', F, _, e2⟩ := (C109_add M ad sz (by omega)
    (boxCorners ⟨L.xs a, L.ys b, Z⟩ ⟨L.xs (a + 2), L.ys (b + 2), L.zs c⟩) false false false B
    (by rw [mirror_none, hB]; rfl) hinc hap).1 hU ⟨_, _, f0⟩
  have hno : ∀ u, ¬(4 * N ≤ u ∧ (u < 4 * N + 4 ∨ u = 5 * N + 4)) → m u = none := by
    intro u hu
    cases hm : m u with
    | none => rfl
    | some w => exact absurd (hfew u w ((F.finds u w).1 hm)) hu
  have hlist := F.list
  rw [bz, filterMap_top ((F.finds _ _).2 f0) ((F.finds _ _).2 f1) ((F.finds _ _).2 f2) ((F.finds _ _).2 f3) ((F.finds _ _).2 f4)
    (fun u hu => hno u (by omega)) (fun u hu => hno _ (by omega))] at hlist
  rw [← hB]
  obtain ⟨t', h', I'⟩ := M'.inv
  have hpat : (fun u => (m u).isSome) = topPlaces (getn sz) := by
    funext u
    by_cases hu : 4 * N ≤ u ∧ (u < 4 * N + 4 ∨ u = 5 * N + 4)
    · have hsome : (m u).isSome = true := by
        have k : u = 4 * N ∨ u = 4 * N + 1 ∨ u = 4 * N + 2 ∨ u = 4 * N + 3 ∨ u = 5 * N + 4 := by omega
        rcases k with rfl | rfl | rfl | rfl | rfl
        · rw [(F.finds _ _).2 f0]; rfl
        · rw [(F.finds _ _).2 f1]; rfl
        · rw [(F.finds _ _).2 f2]; rfl
        · rw [(F.finds _ _).2 f3]; rfl
        · rw [(F.finds _ _).2 f4]; rfl
      rw [hsome]
      exact (decide_eq_true (by omega)).symm
    · rw [hno u hu]
      exact (decide_eq_false (by omega)).symm
  have hcount := F.count
  have hitems := F.items
  rw [hpat, show B.nz = getn sz by omega] at hcount hitems
  refine ⟨g, s, g', mask, s', inel, e, G.built, e1, I'.agrees, e2, ?_, hlist, hcount, hitems⟩
  have hnd : (B.all.map B.at_ ++ topFive L a b c).Nodup := by
    rw [List.nodup_append]
    refine ⟨List.Nodup.map_on hinj (nodup_all B), ?_, ?_⟩
    · simp only [topFive, List.nodup_cons, List.mem_cons, C3.mk.injEq, List.not_mem_nil, or_false, not_false_eq_true, List.nodup_nil,
        and_true]
      omega
    · rintro p hp q hq rfl
      obtain ⟨t, ht, rfl⟩ := List.mem_map.1 hp
      exact hnotcor _ hq t ht rfl
  refine List.Nodup.of_map (s'.keys[·]?) ?_
  rw [hlist]
  exact hnd.map (fun _ _ h => Option.some.inj h)

/-- Lines at even distances, and two boxes of their grid -/
example : ∃ L : Lines, L.nx = 2 ∧ L.ny = 2 ∧ ∃ rs : List Req,
    List.Forall₂ (fun r q => r.Asks (L.cell q)) rs [⟨0, 0, 1⟩, ⟨1, 1, 1⟩] ∧ (∀ q ∈ [(⟨0, 0, 1⟩ : Cell), ⟨1, 1, 1⟩], 1 ≤ q.c) ∧
    2 ≤ getn .quadratic ∧ ((getn .quadratic - 1 : Nat) : Int) ≤ L.zs 1 - 0 := by
  refine ⟨⟨2, 2, 2, le_rfl, le_rfl, le_rfl, fun n => 128 * n, fun n => 128 * n, fun n => 256 * n, ?_, ?_, ?_⟩, rfl, rfl,
    [.block .linear (boxCorners ⟨0, 0, 256⟩ ⟨128, 128, 512⟩), .block .linear (boxCorners ⟨128, 128, 256⟩ ⟨256, 256, 512⟩)],
    .cons ?_ (.cons ?_ .nil), by simp, by decide, by show ((2 : Nat) : Int) ≤ 256 * ((1 : Nat) : Int) - 0; decide⟩
  · intro a; push_cast; omega
  · intro a; push_cast; omega
  · intro a; push_cast; omega
  · refine ⟨.linear, .linear, .linear, _, false, false, false, rfl, by rw [mirror_none]; rfl, ?_⟩
    exact box_increasing (by decide) (by decide) (by decide)
  · refine ⟨.linear, .linear, .linear, _, false, false, false, rfl, by rw [mirror_none]; rfl, ?_⟩
    exact box_increasing (by decide) (by decide) (by decide)

/-! ### Where it goes wrong -/

/-- Blocks, and then a variable element below them: the number of nodes, the nodes of the elements, and the mask -/
def tryVar (bs : List (C3 × C3)) (lo hi : C3) : Res (Nat × List (List Nat) × List Nat) := do
  let g ← Grid.build {} (bs.map fun b => .block .linear (boxCorners b.1 b.2))
  let r ← g.addVar false .linear (boxCorners lo hi)
  return (r.1.node.size, r.1.elems.map Elem.inel, (List.range 10).map r.2)

/-- Four blocks above: the element has its eight corners and the five nodes. -/
example : tryVar [(⟨0, 0, 0⟩, ⟨128, 128, 256⟩), (⟨0, 128, 0⟩, ⟨128, 256, 256⟩), (⟨128, 0, 0⟩, ⟨256, 128, 256⟩),
    (⟨128, 128, 0⟩, ⟨256, 256, 256⟩)] ⟨0, 0, -256⟩ ⟨256, 256, 0⟩ =
    .ok (22, [[0, 1, 2, 3, 4, 5, 6, 7], [1, 8, 3, 9, 5, 10, 7, 11], [2, 3, 12, 13, 6, 7, 14, 15], [3, 9, 13, 16, 7, 11, 15, 17],
      [18, 19, 20, 21, 0, 8, 12, 16, 1, 9, 2, 13, 3]], [0, 0, 0, 0, 8, 9, 10, 11, 0, 12]) := by decide +kernel

/-- C109: above an element is a mesh that is finer only in y.  The node on its east side is also taken for the centre of its top: the
element has node 3 twice. -/
theorem C109_half_wrong : tryVar [(⟨0, 0, 0⟩, ⟨256, 128, 256⟩), (⟨0, 128, 0⟩, ⟨256, 256, 256⟩)] ⟨0, 0, -256⟩ ⟨256, 256, 0⟩ =
    .ok (16, [[0, 1, 2, 3, 4, 5, 6, 7], [1, 8, 3, 9, 5, 10, 7, 11], [12, 13, 14, 15, 0, 8, 2, 9, 1, 3, 3]],
      [0, 0, 0, 0, 8, 0, 0, 9, 0, 10]) := by decide +kernel

/-- C109: one finer block above one corner.  At the first corner its nodes are taken up as the middles of two sides and the centre; at
the last, as the middles of two sides only; at the two others the mesh fails. -/
theorem C109_corner_wrong :
    tryVar [(⟨0, 0, 0⟩, ⟨128, 128, 256⟩)] ⟨0, 0, -256⟩ ⟨256, 256, 0⟩ =
      .ok (15, [[0, 1, 2, 3, 4, 5, 6, 7], [8, 9, 10, 11, 0, 12, 13, 14, 1, 2, 3]], [0, 0, 0, 0, 8, 0, 9, 0, 0, 10]) ∧
    tryVar [(⟨128, 128, 0⟩, ⟨256, 256, 256⟩)] ⟨0, 0, -256⟩ ⟨256, 256, 0⟩ =
      .ok (15, [[0, 1, 2, 3, 4, 5, 6, 7], [8, 9, 10, 11, 12, 13, 14, 3, 1, 2]], [0, 0, 0, 0, 0, 8, 0, 9, 0, 0]) ∧
    tryVar [(⟨128, 0, 0⟩, ⟨256, 128, 256⟩)] ⟨0, 0, -256⟩ ⟨256, 256, 0⟩ = .ub ∧
    tryVar [(⟨0, 128, 0⟩, ⟨128, 256, 256⟩)] ⟨0, 0, -256⟩ ⟨256, 256, 0⟩ = .ub := by decide +kernel

/-- C109: a mesh three times as fine above: the nodes a third of the way along are taken for the middles, and the others are left out. -/
theorem C109_third_wrong : tryVar ([0, 256, 512].flatMap fun x => [0, 256, 512].map fun y => (⟨x, y, 0⟩, ⟨x + 256, y + 256, 256⟩))
    ⟨0, 0, -256⟩ ⟨768, 768, 0⟩ =
    .ok (36, [[0, 1, 2, 3, 4, 5, 6, 7], [1, 8, 3, 9, 5, 10, 7, 11], [8, 12, 9, 13, 10, 14, 11, 15], [2, 3, 16, 17, 6, 7, 18, 19],
      [3, 9, 17, 20, 7, 11, 19, 21], [9, 13, 20, 22, 11, 15, 21, 23], [16, 17, 24, 25, 18, 19, 26, 27],
      [17, 20, 25, 28, 19, 21, 27, 29], [20, 22, 28, 30, 21, 23, 29, 31],
      [32, 33, 34, 35, 0, 12, 24, 30, 1, 22, 2, 28, 3]], [0, 0, 0, 0, 8, 9, 10, 11, 0, 12]) := by decide +kernel

end OP.Fem.Nodes
