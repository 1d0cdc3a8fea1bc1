import Verif.Fem.Blocks
import Mathlib.Tactic.Ring
import Mathlib.Tactic.Linarith
import Mathlib.Tactic.FieldSimp
import Mathlib.Tactic.FinCases
import Mathlib.Data.Fintype.Fin
/-!
# C108: the elements of a mesh

A user relies on this: the corners of an element may be given in any of the eight mirrored orders; an element gets its nodes at the
places of a regular pattern between its corners, and elements that meet share the nodes there; neighbours are noted as the elements
say, and a mesh whose elements do not fit is refused.
-/
namespace OP.Fem.Nodes

open OP.Fem (Shape getn)

/-! ### Specification -/

/-- The corners mirrored -/
def Corners.mirror (c : Corners) (fx fy fz : Bool) : Corners := fun l =>
  c (l ^^^ (if fx then 2 else 0) ^^^ (if fy then 1 else 0) ^^^ (if fz then 4 else 0))

/-- The corners are, in the mean, in increasing order of x, y and z. -/
def Corners.Increasing (c : Corners) : Prop :=
  (c 0).x + (c 1).x + (c 4).x + (c 5).x < (c 2).x + (c 3).x + (c 6).x + (c 7).x ∧
  (c 0).y + (c 2).y + (c 4).y + (c 6).y < (c 1).y + (c 3).y + (c 5).y + (c 7).y ∧
  (c 0).z + (c 1).z + (c 2).z + (c 3).z < (c 4).z + (c 5).z + (c 6).z + (c 7).z

/-- The six directions -/
inductive Dir where
  | xm | xp | ym | yp | zm | zp
deriving DecidableEq

def Nbr.get (n : Nbr) : Dir → Option Nat
  | .xm => n.xm
  | .xp => n.xp
  | .ym => n.ym
  | .yp => n.yp
  | .zm => n.zm
  | .zp => n.zp

/-- A brick: the numbers of nodes in the three directions and the corners in order -/
structure Brick where
  nx : Nat
  ny : Nat
  nz : Nat
  c : Corners

/-- The place of the node in level `i`, row `j` and column `k` -/
def Brick.place (b : Brick) (i j k : Nat) : C3 := placeOf b.nz b.nx b.ny b.c i j k

def Brick.In (b : Brick) (i j k : Nat) : Prop := i < b.nz ∧ j < b.nx ∧ k < b.ny

/-- The brick has nodes at `p` and, next to it in direction `d`, at `q`. -/
inductive Brick.Joins (b : Brick) : Dir → C3 → C3 → Prop where
  | xm {i j k} : b.In i (j + 1) k → Joins b .xm (b.place i (j + 1) k) (b.place i j k)
  | xp {i j k} : b.In i (j + 1) k → Joins b .xp (b.place i j k) (b.place i (j + 1) k)
  | ym {i j k} : b.In i j (k + 1) → Joins b .ym (b.place i j (k + 1)) (b.place i j k)
  | yp {i j k} : b.In i j (k + 1) → Joins b .yp (b.place i j k) (b.place i j (k + 1))
  | zm {i j k} : b.In (i + 1) j k → Joins b .zm (b.place (i + 1) j k) (b.place i j k)
  | zp {i j k} : b.In (i + 1) j k → Joins b .zp (b.place i j k) (b.place (i + 1) j k)

/-- The bricks fit: no node has two neighbours in one direction. -/
def Fit (bs : List Brick) : Prop :=
  ∀ d p q q', (∃ b ∈ bs, b.Joins d p q) → (∃ b ∈ bs, b.Joins d p q') → q = q'

/-- The call asks for this brick, up to the order of its corners. -/
def Req.Asks (r : Req) (b : Brick) : Prop :=
  ∃ sx sy sz c fx fy fz, r.setup = .ok (sx, sy, sz, c) ∧ b = ⟨getn sx, getn sy, getn sz, c.mirror fx fy fz⟩ ∧ b.c.Increasing

/-- What is known of a mesh of bricks -/
structure Built (g : Grid) (bs : List Brick) (s : Spec) : Prop where
  agrees : Agrees g.node s
  nodes : ∀ p, p ∈ s.keys ↔ ∃ b ∈ bs, ∃ i j k, b.In i j k ∧ b.place i j k = p
  elems : List.Forall₂ (fun e b => getn e.sx = b.nx ∧ getn e.sy = b.ny ∧ getn e.sz = b.nz ∧
    e.inel.length = b.nz * (b.nx * b.ny) ∧
    ∀ i j k, b.In i j k → (e.inel[(i * b.nx + j) * b.ny + k]?).bind (s.keys[·]?) = some (b.place i j k)) g.elems bs
  nbrs : ∀ (a : Nat) (p : C3) (n : Nbr) (d : Dir) (q : C3), s[a]? = some (p, n) → (((n.get d).bind (s.keys[·]?)) = some q ↔ ∃ b ∈ bs, b.Joins d p q)

/-! ### Sorting of the corners -/

theorem swapX (c : Corners) : (((c.swap 0 2).swap 4 6).swap 1 3).swap 5 7 = c.mirror true false false := by
  funext l; fin_cases l <;> rfl

theorem swapY (c : Corners) : (((c.swap 0 1).swap 4 5).swap 2 3).swap 6 7 = c.mirror false true false := by
  funext l; fin_cases l <;> rfl

theorem swapZ (c : Corners) : (((c.swap 0 4).swap 2 6).swap 1 5).swap 3 7 = c.mirror false false true := by
  funext l; fin_cases l <;> rfl

theorem mirror_mirror (c : Corners) (fx fy fz gx gy gz : Bool) :
    (c.mirror fx fy fz).mirror gx gy gz = c.mirror (fx ^^ gx) (fy ^^ gy) (fz ^^ gz) := by
  funext l
  unfold Corners.mirror
  congr 1
  revert l fx fy fz gx gy gz
  decide

theorem mirror_none (c : Corners) : c.mirror false false false = c := by
  funext l; fin_cases l <;> rfl

/-- The extent in x -/
def Corners.dx (c : Corners) : Int := (c 2).x + (c 3).x + (c 6).x + (c 7).x - ((c 0).x + (c 1).x + (c 4).x + (c 5).x)
def Corners.dy (c : Corners) : Int := (c 1).y + (c 3).y + (c 5).y + (c 7).y - ((c 0).y + (c 2).y + (c 4).y + (c 6).y)
def Corners.dz (c : Corners) : Int := (c 4).z + (c 5).z + (c 6).z + (c 7).z - ((c 0).z + (c 1).z + (c 2).z + (c 3).z)

theorem increasing_iff (c : Corners) : c.Increasing ↔ 0 < c.dx ∧ 0 < c.dy ∧ 0 < c.dz := by
  unfold Corners.Increasing Corners.dx Corners.dy Corners.dz
  refine and_congr ?_ (and_congr ?_ ?_) <;> omega

theorem mirror_dx (c : Corners) (fx fy fz : Bool) : (c.mirror fx fy fz).dx = if fx then -c.dx else c.dx := by
  cases fx <;> cases fy <;> cases fz <;> simp [Corners.dx, Corners.mirror] <;> omega

theorem mirror_dy (c : Corners) (fx fy fz : Bool) : (c.mirror fx fy fz).dy = if fy then -c.dy else c.dy := by
  cases fx <;> cases fy <;> cases fz <;> simp [Corners.dy, Corners.mirror] <;> omega

theorem mirror_dz (c : Corners) (fx fy fz : Bool) : (c.mirror fx fy fz).dz = if fz then -c.dz else c.dz := by
  cases fx <;> cases fy <;> cases fz <;> simp [Corners.dz, Corners.mirror] <;> omega

theorem coordSort_succ (f : Nat) (c : Corners) : coordSort (f + 1) c =
    if 0 < c.dx ∧ 0 < c.dy ∧ 0 < c.dz then .ok c
    else if c.dx < 0 then coordSort f (c.mirror true false false)
    else if c.dy < 0 then coordSort f (c.mirror false true false)
    else if c.dz < 0 then coordSort f (c.mirror false false true)
    else .throw := by
  rw [← swapX, ← swapY, ← swapZ]
  conv_lhs => unfold coordSort
  dsimp only
  unfold Corners.dx Corners.dy Corners.dz
  simp only [gt_iff_lt, sub_pos, sub_neg]

/-- What `coordSort` does -/
theorem coordSort_eq (f : Nat) (hf : 4 ≤ f) (c : Corners) : coordSort f c =
    if c.dx = 0 ∨ c.dy = 0 ∨ c.dz = 0 then .throw
    else .ok (c.mirror (decide (c.dx < 0)) (decide (c.dy < 0)) (decide (c.dz < 0))) := by
  have hz : ∀ f (c : Corners), 0 ≤ c.dx → 0 ≤ c.dy → coordSort (f + 2) c =
      if c.dx = 0 ∨ c.dy = 0 ∨ c.dz = 0 then .throw else .ok (c.mirror false false (decide (c.dz < 0))) := by
    intro f c h1 h2
    rw [coordSort_succ]
    by_cases hp : 0 < c.dx ∧ 0 < c.dy ∧ 0 < c.dz
    · rw [if_pos hp, if_neg (by omega), decide_eq_false (by omega), mirror_none]
    · rw [if_neg hp, if_neg (by omega), if_neg (by omega)]
      by_cases h3 : c.dz < 0
      · rw [if_pos h3, coordSort_succ, mirror_dx, mirror_dy, mirror_dz]
        simp only [Bool.false_eq_true, if_false, if_true]
        by_cases h0 : c.dx = 0 ∨ c.dy = 0
        · rw [if_neg (by omega), if_neg (by omega), if_neg (by omega), if_neg (by omega), if_pos (by omega)]
        · rw [if_pos (by omega), if_neg (by omega), decide_eq_true h3]
      · rw [if_neg h3, if_pos (by omega)]
  have hy : ∀ f (c : Corners), 0 ≤ c.dx → coordSort (f + 3) c =
      if c.dx = 0 ∨ c.dy = 0 ∨ c.dz = 0 then .throw else .ok (c.mirror false (decide (c.dy < 0)) (decide (c.dz < 0))) := by
    intro f c h1
    by_cases h2 : c.dy < 0
    · rw [coordSort_succ, if_neg (by omega), if_neg (by omega), if_pos h2, hz f _ (by rw [mirror_dx]; simpa using h1)
        (by rw [mirror_dy]; simp; omega), mirror_dx, mirror_dy, mirror_dz, mirror_mirror]
      simp only [Bool.false_eq_true, if_false, if_true, neg_eq_zero]
      rw [decide_eq_true h2]
      simp
    · rw [show f + 3 = (f + 1) + 2 from rfl, hz (f + 1) c h1 (by omega), decide_eq_false h2]
  obtain ⟨f, rfl⟩ : ∃ g, f = g + 4 := ⟨f - 4, by omega⟩
  by_cases h1 : c.dx < 0
  · rw [coordSort_succ, if_neg (by omega), if_pos h1, hy f _ (by rw [mirror_dx]; simp; omega), mirror_dx, mirror_dy, mirror_dz,
      mirror_mirror]
    simp only [Bool.false_eq_true, if_false, if_true, neg_eq_zero]
    rw [decide_eq_true h1]
    simp
  · rw [show f + 4 = (f + 1) + 3 from rfl, hy (f + 1) c (by omega), decide_eq_false h1]

/-- C108: the corners are found in any of the mirrored orders, in at most four rounds; there is one such order, or the element is
refused. -/
theorem C108_sort (f : Nat) (hf : 4 ≤ f) (c : Corners) :
    (∃ fx fy fz, (c.mirror fx fy fz).Increasing ∧ coordSort f c = .ok (c.mirror fx fy fz) ∧
      ∀ gx gy gz, (c.mirror gx gy gz).Increasing → gx = fx ∧ gy = fy ∧ gz = fz) ∨
    ((∀ fx fy fz, ¬(c.mirror fx fy fz).Increasing) ∧ coordSort f c = .throw) := by
  rw [coordSort_eq f hf]
  by_cases h : c.dx = 0 ∨ c.dy = 0 ∨ c.dz = 0
  · right
    rw [if_pos h]
    refine ⟨fun fx fy fz hi => ?_, rfl⟩
    rw [increasing_iff, mirror_dx, mirror_dy, mirror_dz] at hi
    obtain ⟨h1, h2, h3⟩ := hi
    cases fx <;> cases fy <;> cases fz <;> simp at h1 h2 h3 <;> omega
  · left
    rw [if_neg h]
    refine ⟨_, _, _, ?_, rfl, ?_⟩
    · rw [increasing_iff, mirror_dx, mirror_dy, mirror_dz]
      simp only [decide_eq_true_eq]
      refine ⟨?_, ?_, ?_⟩
      · by_cases g : c.dx < 0
        · rw [if_pos g]; omega
        · rw [if_neg g]; omega
      · by_cases g : c.dy < 0
        · rw [if_pos g]; omega
        · rw [if_neg g]; omega
      · by_cases g : c.dz < 0
        · rw [if_pos g]; omega
        · rw [if_neg g]; omega
    · intro gx gy gz hi
      rw [increasing_iff, mirror_dx, mirror_dy, mirror_dz] at hi
      obtain ⟨h1, h2, h3⟩ := hi
      refine ⟨?_, ?_, ?_⟩
      · cases gx <;> simp at h1 ⊢ <;> omega
      · cases gy <;> simp at h2 ⊢ <;> omega
      · cases gz <;> simp at h3 ⊢ <;> omega

/-! ### What is known of neighbours -/

abbrev Arc := Dir × C3 × C3

def Functional (A : List Arc) : Prop := ∀ d p q q', (d, p, q) ∈ A → (d, p, q') ∈ A → q = q'

theorem Nbr.meet_some {a b : Nbr} (h : ∀ d, ∃ x, Nodes.meet (a.get d) (b.get d) = some x) :
    ∃ c, a.meet b = some c ∧ ∀ d, Nodes.meet (a.get d) (b.get d) = some (c.get d) := by
  obtain ⟨x1, h1⟩ := h .xm
  obtain ⟨x2, h2⟩ := h .xp
  obtain ⟨x3, h3⟩ := h .ym
  obtain ⟨x4, h4⟩ := h .yp
  obtain ⟨x5, h5⟩ := h .zm
  obtain ⟨x6, h6⟩ := h .zp
  refine ⟨⟨x1, x2, x3, x4, x5, x6⟩, ?_, fun d => by cases d <;> assumption⟩
  unfold Nbr.meet
  simp only [Nbr.get] at h1 h2 h3 h4 h5 h6
  rw [h1, h2, h3, h4, h5, h6]
  rfl

theorem Nbr.meet_none {a b : Nbr} (d : Dir) (h : Nodes.meet (a.get d) (b.get d) = none) : a.meet b = none := by
  by_contra hc
  obtain ⟨c, hc⟩ := Option.ne_none_iff_exists'.1 hc
  unfold Nbr.meet at hc
  simp only [Option.bind_eq_bind, Option.bind_eq_some_iff] at hc
  obtain ⟨x1, h1, x2, h2, x3, h3, x4, h4, x5, h5, x6, h6, _⟩ := hc
  cases d <;> simp only [Nbr.get] at h <;> simp_all

/-- The neighbours that are noted are those of the list. -/
structure Know (s : Spec) (A : List Arc) : Prop where
  nodup : s.keys.Nodup
  ends : ∀ d p q, (d, p, q) ∈ A → p ∈ s.keys ∧ q ∈ s.keys
  nbr : ∀ (a : Nat) (p : C3) (n : Nbr), s[a]? = some (p, n) → ∀ d b, n.get d = some b ↔ ∃ q, s.keys[b]? = some q ∧ (d, p, q) ∈ A

theorem keys_get {s : Spec} {a : Nat} {p : C3} : s.keys[a]? = some p ↔ ∃ n, s[a]? = some (p, n) := by
  unfold Spec.keys
  rw [List.getElem?_map, Option.map_eq_some_iff]
  constructor
  · rintro ⟨⟨p', n⟩, h, rfl⟩; exact ⟨n, h⟩
  · rintro ⟨n, h⟩; exact ⟨_, h, rfl⟩

theorem get_idx {ks : List C3} {p : C3} (h : p ∈ ks) : ks[ks.idxOf p]? = some p := by
  rw [List.getElem?_eq_getElem (List.idxOf_lt_length_iff.2 h), List.getElem_idxOf]

theorem idx_get {ks : List C3} (hn : ks.Nodup) {a : Nat} {p : C3} (h : ks[a]? = some p) : ks.idxOf p = a := by
  obtain ⟨h1, h2⟩ := List.getElem?_eq_some_iff.1 h
  rw [← h2]
  exact hn.idxOf_getElem a h1

theorem Know.nil : Know [] [] := ⟨List.nodup_nil, by simp, by simp⟩

theorem add_keys (s : Spec) (c : C3) : (s.add c).keys = if c ∈ s.keys then s.keys else s.keys ++ [c] := by
  unfold Spec.add
  by_cases h : c ∈ s.keys
  · rw [if_pos h, if_pos h]
  · rw [if_neg h, if_neg h]; simp [Spec.keys]

theorem Know.add {s : Spec} {A : List Arc} (h : Know s A) (c : C3) : Know (s.add c) A := by
  by_cases hc : c ∈ s.keys
  · unfold Spec.add; rw [if_pos hc]; exact h
  · have hk : (s.add c).keys = s.keys ++ [c] := by rw [add_keys, if_neg hc]
    refine ⟨?_, ?_, ?_⟩
    · rw [hk, List.nodup_append]
      refine ⟨h.nodup, by simp, ?_⟩
      intro a ha b hb
      rw [List.mem_singleton.1 hb]
      exact fun e => hc (e ▸ ha)
    · intro d p q hm
      obtain ⟨h1, h2⟩ := h.ends d p q hm
      rw [hk]
      exact ⟨List.mem_append_left _ h1, List.mem_append_left _ h2⟩
    · intro a p n ha d b
      unfold Spec.add at ha
      rw [if_neg hc] at ha
      rw [hk]
      by_cases hlt : a < s.length
      · rw [List.getElem?_append_left hlt] at ha
        rw [h.nbr a p n ha d b]
        constructor
        · rintro ⟨q, h1, h2⟩
          exact ⟨q, by rw [List.getElem?_append_left (List.getElem?_eq_some_iff.1 h1).1]; exact h1, h2⟩
        · rintro ⟨q, h1, h2⟩
          refine ⟨q, ?_, h2⟩
          have hq := (h.ends d p q h2).2
          by_cases hb : b < s.keys.length
          · rwa [List.getElem?_append_left hb] at h1
          · rw [List.getElem?_append_right (by omega)] at h1
            have := List.mem_of_getElem? h1
            rw [List.mem_singleton] at this
            exact absurd (this ▸ hq) hc
      · rw [List.getElem?_append_right (by omega)] at ha
        have := List.mem_of_getElem? ha
        rw [List.mem_singleton, Prod.mk.injEq] at this
        obtain ⟨rfl, rfl⟩ := this
        constructor
        · intro hg; cases d <;> cases hg
        · rintro ⟨q, _, h2⟩
          exact absurd (h.ends d p q h2).1 hc

theorem Know.adds {A : List Arc} : ∀ (cs : List C3) {s : Spec}, Know s A → Know (cs.foldl Spec.add s) A := by
  intro cs
  induction cs with
  | nil => intro s h; exact h
  | cons c cs ih => intro s h; exact ih (h.add c)

/-- The directions in order -/
def dirs : List Dir := [.xm, .xp, .ym, .yp, .zm, .zp]

theorem mem_dirs (d : Dir) : d ∈ dirs := by cases d <;> decide

/-- The arcs from `p` -/
def arcsAt (p : C3) (f : Dir → Option C3) : List Arc := dirs.filterMap fun d => (f d).map fun q => (d, p, q)

theorem mem_arcsAt {p : C3} {f : Dir → Option C3} {d : Dir} {p' q : C3} : (d, p', q) ∈ arcsAt p f ↔ p' = p ∧ f d = some q := by
  unfold arcsAt
  rw [List.mem_filterMap]
  constructor
  · rintro ⟨d', _, h⟩
    obtain ⟨q', h1, h2⟩ := Option.map_eq_some_iff.1 h
    simp only [Prod.mk.injEq] at h2
    obtain ⟨rfl, rfl, rfl⟩ := h2
    exact ⟨rfl, h1⟩
  · rintro ⟨rfl, h⟩
    exact ⟨d, mem_dirs d, by rw [h]; rfl⟩

/-- The step notes the neighbours `f` of the place `p`. -/
structure Notes (ks : List C3) (a : Nat) (g : Nbr) (p : C3) (f : Dir → Option C3) : Prop where
  at_ : ks[a]? = some p
  all : ∀ d q, f d = some q → q ∈ ks
  get : ∀ d, g.get d = (f d).map ks.idxOf

theorem Know.step {s : Spec} {A : List Arc} (h : Know s A) (hA : Functional A) {a : Nat} {g : Nbr} {p : C3} {f : Dir → Option C3}
    (hn : Notes s.keys a g p f) :
    (Functional (A ++ arcsAt p f) → ∃ s', s.step (.nbr a g) = some s' ∧ s'.keys = s.keys ∧ Know s' (A ++ arcsAt p f)) ∧
    (¬Functional (A ++ arcsAt p f) → s.step (.nbr a g) = none) := by
  obtain ⟨n, ha⟩ := keys_get.1 hn.at_
  have hstep : s.step (.nbr a g) = (n.meet g).map fun n => s.set a (p, n) := by simp only [Spec.step, ha]
  have hpk : p ∈ s.keys := List.mem_of_getElem? hn.at_
  -- one direction
  have hold : ∀ d q, (d, p, q) ∈ A ↔ n.get d = some (s.keys.idxOf q) ∧ q ∈ s.keys := by
    intro d q
    rw [h.nbr a p n ha d]
    constructor
    · intro hm
      have hq := (h.ends d p q hm).2
      exact ⟨⟨q, get_idx hq, hm⟩, hq⟩
    · rintro ⟨⟨q', h1, h2⟩, hq⟩
      rw [get_idx hq] at h1
      cases h1
      exact h2
  have hwas : ∀ d b, n.get d = some b → ∃ q, b = s.keys.idxOf q ∧ q ∈ s.keys ∧ (d, p, q) ∈ A := by
    intro d b hb
    obtain ⟨q, h1, h2⟩ := (h.nbr a p n ha d b).1 hb
    exact ⟨q, (idx_get h.nodup h1).symm, List.mem_of_getElem? h1, h2⟩
  constructor
  · intro hF
    have hm : ∀ d, Nodes.meet (n.get d) (g.get d) = some ((g.get d).or (n.get d)) := by
      intro d
      rw [hn.get d]
      cases hf : f d with
      | none => cases n.get d <;> rfl
      | some q =>
        cases hg : n.get d with
        | none => rfl
        | some b =>
          obtain ⟨q0, rfl, _, h0⟩ := hwas d b hg
          have := hF d p q0 q (List.mem_append_left _ h0) (List.mem_append_right _ (mem_arcsAt.2 ⟨rfl, hf⟩))
          rw [this]
          simp [Nodes.meet]
    obtain ⟨c, hc1, hc2⟩ := Nbr.meet_some fun d => ⟨_, hm d⟩
    have hcg : ∀ d, c.get d = (g.get d).or (n.get d) := fun d => by
      have := hc2 d
      rw [hm d] at this
      exact (Option.some.inj this).symm
    have hkeys : Spec.keys (s.set a (p, c)) = s.keys := by
      unfold Spec.keys
      apply List.ext_getElem?
      intro j
      rw [List.getElem?_map, List.getElem?_map, List.getElem?_set]
      by_cases hj : a = j
      · subst hj
        rw [if_pos rfl, if_pos (List.getElem?_eq_some_iff.1 ha).1, ha]
        rfl
      · rw [if_neg hj]
    refine ⟨s.set a (p, c), by rw [hstep, hc1]; rfl, hkeys, ⟨hkeys ▸ h.nodup, ?_, ?_⟩⟩
    · intro d p' q hm
      rw [hkeys]
      rcases List.mem_append.1 hm with hm | hm
      · exact h.ends d p' q hm
      · obtain ⟨rfl, hq⟩ := mem_arcsAt.1 hm
        exact ⟨hpk, hn.all d q hq⟩
    · intro a' p' n' ha' d b
      rw [hkeys]
      rw [List.getElem?_set] at ha'
      by_cases hj : a = a'
      · subst hj
        rw [if_pos rfl, if_pos (List.getElem?_eq_some_iff.1 ha).1] at ha'
        obtain ⟨rfl, rfl⟩ := Prod.ext_iff.1 (Option.some.inj ha')
        rw [hcg d, hn.get d]
        constructor
        · intro hb
          cases hf : f d with
          | none =>
            rw [hf] at hb
            obtain ⟨q, rfl, hq, hA'⟩ := hwas d b (by simpa using hb)
            exact ⟨q, get_idx hq, List.mem_append_left _ hA'⟩
          | some q =>
            rw [hf] at hb
            have : s.keys.idxOf q = b := by simpa using hb
            subst this
            exact ⟨q, get_idx (hn.all d q hf), List.mem_append_right _ (mem_arcsAt.2 ⟨rfl, hf⟩)⟩
        · rintro ⟨q, hq, hm⟩
          cases hf : f d with
          | none =>
            rcases List.mem_append.1 hm with hm | hm
            · rw [((hold d q).1 hm).1, idx_get h.nodup hq]; rfl
            · rw [(mem_arcsAt.1 hm).2] at hf; cases hf
          | some q' =>
            have : q = q' := hF d p q q' hm (List.mem_append_right _ (mem_arcsAt.2 ⟨rfl, hf⟩))
            subst this
            rw [← idx_get h.nodup hq]
            rfl
      · rw [if_neg hj] at ha'
        have hne : p' ≠ p := by
          intro e
          subst e
          have h1 := idx_get h.nodup (keys_get.2 ⟨n', ha'⟩)
          have h2 := idx_get h.nodup (keys_get.2 ⟨n, ha⟩)
          omega
        rw [h.nbr a' p' n' ha' d b]
        constructor
        · rintro ⟨q, h1, h2⟩; exact ⟨q, h1, List.mem_append_left _ h2⟩
        · rintro ⟨q, h1, h2⟩
          rcases List.mem_append.1 h2 with h2 | h2
          · exact ⟨q, h1, h2⟩
          · exact absurd (mem_arcsAt.1 h2).1 hne
  · intro hF
    rw [hstep, Option.map_eq_none_iff]
    by_contra hne
    apply hF
    have hok : ∀ d, Nodes.meet (n.get d) (g.get d) ≠ none := fun d hd => hne (Nbr.meet_none d hd)
    have hmix : ∀ d q q', (d, p, q) ∈ A → f d = some q' → q = q' := by
      intro d q q' h1 h2
      obtain ⟨h3, h4⟩ := (hold d q).1 h1
      have := hok d
      rw [h3, hn.get d, h2] at this
      by_contra hqq
      apply this
      show (if s.keys.idxOf q = s.keys.idxOf q' then _ else none) = none
      rw [if_neg]
      intro e
      have g1 := get_idx h4
      rw [e, get_idx (hn.all d q' h2)] at g1
      exact hqq (Option.some.inj g1).symm
    intro d p' q q' h1 h2
    rcases List.mem_append.1 h1 with k1 | k1 <;> rcases List.mem_append.1 h2 with k2 | k2
    · exact hA d p' q q' k1 k2
    · obtain ⟨rfl, e2⟩ := mem_arcsAt.1 k2
      exact hmix d q q' k1 e2
    · obtain ⟨rfl, e1⟩ := mem_arcsAt.1 k1
      exact (hmix d q' q k2 e1).symm
    · have e1 := (mem_arcsAt.1 k1).2
      rw [(mem_arcsAt.1 k2).2] at e1
      exact (Option.some.inj e1).symm

theorem Functional.left {A B : List Arc} (h : Functional (A ++ B)) : Functional A := fun d p q q' h1 h2 =>
  h d p q q' (List.mem_append_left _ h1) (List.mem_append_left _ h2)

/-- A sequence of notes -/
theorem Know.steps {τ : Type} (ks : List C3) (a : τ → Nat) (g : τ → Nbr) (p : τ → C3) (f : τ → Dir → Option C3) : ∀ (ts : List τ)
    (_ : ∀ t ∈ ts, Notes ks (a t) (g t) (p t) (f t)) (s : Spec) (A : List Arc) (_ : Know s A) (_ : Functional A) (_ : s.keys = ks),
    (Functional (A ++ ts.flatMap fun t => arcsAt (p t) (f t)) → ∃ s', s.run (ts.map fun t => .nbr (a t) (g t)) = some s' ∧
      s'.keys = ks ∧ Know s' (A ++ ts.flatMap fun t => arcsAt (p t) (f t))) ∧
    (¬Functional (A ++ ts.flatMap fun t => arcsAt (p t) (f t)) → s.run (ts.map fun t => .nbr (a t) (g t)) = none) := by
  intro ts
  induction ts with
  | nil =>
    intro _ s A h hA hk
    simp only [List.flatMap_nil, List.append_nil, List.map_nil]
    exact ⟨fun _ => ⟨s, rfl, hk, h⟩, fun hn => absurd hA hn⟩
  | cons t ts ih =>
    intro hts s A h hA hk
    have hstep := h.step hA (hk ▸ hts t (by simp))
    have happ : A ++ (t :: ts).flatMap (fun t => arcsAt (p t) (f t)) =
        (A ++ arcsAt (p t) (f t)) ++ ts.flatMap fun t => arcsAt (p t) (f t) := by simp
    rw [happ]
    simp only [List.map_cons, Spec.run]
    by_cases hF : Functional (A ++ arcsAt (p t) (f t))
    · obtain ⟨s1, e1, e2, e3⟩ := hstep.1 hF
      rw [e1, Option.bind_some]
      exact ih (fun t ht => hts t (by simp [ht])) s1 _ e3 hF (e2.trans hk)
    · rw [hstep.2 hF, Option.bind_none]
      exact ⟨fun h => absurd h.left hF, fun _ => rfl⟩

end OP.Fem.Nodes
