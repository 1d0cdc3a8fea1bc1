import Verif.Thermal.PropsThermal
import Mathlib.Algebra.BigOperators.Field
/-!
# C45: interpolated temperatures
-/
namespace OP.Thermal

open Lin Finset

variable {K : Type} [Field K] [LinearOrder K] [IsStrictOrderedRing K]

/-! ## Specification -/

/-- The nodes of an element of `w+1` equally spaced nodes over `[-1, 1]`. -/
def znode (w k : Nat) : K := 2 * (k : K) / w - 1

/-- The polynomial of degree `w` that is one at node `k` and zero at the others. -/
def lagrange (w k : Nat) (z : K) : K := ∏ j ∈ (range (w + 1)).erase k, (z - znode w j) / (znode w k - znode w j)

/-- Interpolation over an element. -/
def interpolant (w : Nat) (t : Nat → K) (z : K) : K := ∑ k ∈ range (w + 1), lagrange w k z * t k

/-- What a depth is to give: the temperatures of the ends outside of the mesh, and the interpolant of its element inside. -/
def IsTemp (w m : Nat) (nd nt : Nat → K) (x v : K) : Prop :=
  (x ≤ nd 0 → v = nt 0) ∧ (nd (m * w) ≤ x → v = nt (m * w)) ∧
  ∀ e, e < m → nd (e * w) ≤ x → x ≤ nd (e * w + w) →
    v = interpolant w (fun k => nt (e * w + k)) (2 * (x - nd (e * w)) / (nd (e * w + w) - nd (e * w)) - 1)

/-! ## Lemmas -/

theorem shape_eq {w : Nat} (hw : Order w) (z : K) (t : Nat → K) : shape w z t = .ok (interpolant w t z) := by
  have p20 : ∀ f : Nat → K, ∏ j ∈ (range 2).erase 0, f j = f 1 := fun f => by
    have : (range 2).erase 0 = {1} := by decide
    rw [this, prod_singleton]
  have p21 : ∀ f : Nat → K, ∏ j ∈ (range 2).erase 1, f j = f 0 := fun f => by
    have : (range 2).erase 1 = {0} := by decide
    rw [this, prod_singleton]
  have p30 : ∀ f : Nat → K, ∏ j ∈ (range 3).erase 0, f j = f 1 * f 2 := fun f => by
    have : (range 3).erase 0 = {1, 2} := by decide
    rw [this, prod_pair (by decide)]
  have p31 : ∀ f : Nat → K, ∏ j ∈ (range 3).erase 1, f j = f 0 * f 2 := fun f => by
    have : (range 3).erase 1 = {0, 2} := by decide
    rw [this, prod_pair (by decide)]
  have p32 : ∀ f : Nat → K, ∏ j ∈ (range 3).erase 2, f j = f 0 * f 1 := fun f => by
    have : (range 3).erase 2 = {0, 1} := by decide
    rw [this, prod_pair (by decide)]
  have p50 : ∀ f : Nat → K, ∏ j ∈ (range 5).erase 0, f j = f 1 * f 2 * f 3 * f 4 := fun f => by
    have : (range 5).erase 0 = {1, 2, 3, 4} := by decide
    rw [this, prod_insert (by decide), prod_insert (by decide), prod_pair (by decide)]; ring
  have p51 : ∀ f : Nat → K, ∏ j ∈ (range 5).erase 1, f j = f 0 * f 2 * f 3 * f 4 := fun f => by
    have : (range 5).erase 1 = {0, 2, 3, 4} := by decide
    rw [this, prod_insert (by decide), prod_insert (by decide), prod_pair (by decide)]; ring
  have p52 : ∀ f : Nat → K, ∏ j ∈ (range 5).erase 2, f j = f 0 * f 1 * f 3 * f 4 := fun f => by
    have : (range 5).erase 2 = {0, 1, 3, 4} := by decide
    rw [this, prod_insert (by decide), prod_insert (by decide), prod_pair (by decide)]; ring
  have p53 : ∀ f : Nat → K, ∏ j ∈ (range 5).erase 3, f j = f 0 * f 1 * f 2 * f 4 := fun f => by
    have : (range 5).erase 3 = {0, 1, 2, 4} := by decide
    rw [this, prod_insert (by decide), prod_insert (by decide), prod_pair (by decide)]; ring
  have p54 : ∀ f : Nat → K, ∏ j ∈ (range 5).erase 4, f j = f 0 * f 1 * f 2 * f 3 := fun f => by
    have : (range 5).erase 4 = {0, 1, 2, 3} := by decide
    rw [this, prod_insert (by decide), prod_insert (by decide), prod_pair (by decide)]; ring
  rcases hw with rfl | rfl | rfl
  · simp only [shape, interpolant, lagrange, sum_range_succ, sum_range_zero, Nat.reduceAdd, p20, p21, znode]
    refine congrArg Res.ok ?_
    norm_num; ring
  · simp only [shape, interpolant, lagrange, sum_range_succ, sum_range_zero, Nat.reduceAdd, p30, p31, p32, znode]
    refine congrArg Res.ok ?_
    norm_num; ring
  · simp only [shape, interpolant, lagrange, sum_range_succ, sum_range_zero, Nat.reduceAdd, p50, p51, p52, p53, p54, znode]
    refine congrArg Res.ok ?_
    norm_num; ring

theorem interpolant_val {w : Nat} (hw : Order w) (z : K) (t : Nat → K) : ∃ v, shape w z t = .ok v ∧ interpolant w t z = v :=
  ⟨_, shape_eq hw z t, rfl⟩

theorem interpolant_left {w : Nat} (hw : Order w) (t : Nat → K) : interpolant w t (-1) = t 0 := by
  obtain ⟨v, h1, h2⟩ := interpolant_val hw (-1) t
  rw [h2]
  rcases hw with rfl | rfl | rfl <;> (simp only [shape, Res.ok.injEq] at h1; rw [← h1]; ring)

theorem interpolant_right {w : Nat} (hw : Order w) (t : Nat → K) : interpolant w t 1 = t w := by
  obtain ⟨v, h1, h2⟩ := interpolant_val hw 1 t
  rw [h2]
  rcases hw with rfl | rfl | rfl <;> (simp only [shape, Res.ok.injEq] at h1; rw [← h1]; ring)

section
variable {s : FEM K} {m : Nat}

theorem ends_mono {w : Nat} {nd : Nat → K} (hlen : ∀ e, e < m → nd (e * w) < nd (e * w + w)) {e f : Nat} (hef : e ≤ f) (hf : f ≤ m) : nd (e * w) ≤ nd (f * w) := by
  induction f with
  | zero => rw [Nat.le_zero.1 hef]
  | succ f ih =>
    rcases Nat.eq_or_lt_of_le hef with h | h
    · rw [h]
    · have := hlen f (by omega)
      rw [← Nat.succ_mul] at this
      exact le_trans (ih (by omega) (by omega)) this.le

theorem ends_strict {w : Nat} {nd : Nat → K} (hlen : ∀ e, e < m → nd (e * w) < nd (e * w + w)) {e f : Nat} (hef : e < f) (hf : f ≤ m) : nd (e * w) < nd (f * w) := by
  have := hlen e (by omega)
  rw [← Nat.succ_mul] at this
  exact lt_of_lt_of_le this (ends_mono hlen hef hf)

theorem find_spec (hn : s.n = m * s.w + 1) (hw : 0 < s.w) (hlen : ∀ e, e < m → s.nd (e * s.w) < s.nd (e * s.w + s.w)) {x : K} (hx : x < s.nd (m * s.w)) :
    ∀ (k e : Nat), e ≤ m → m < e + k → (e = 0 ∨ s.nd ((e - 1) * s.w) < x) → s.nd 0 < x →
      ∃ f, f ≤ m ∧ 0 < f ∧ s.find x k (e * s.w) = .ok (f * s.w) ∧ s.nd ((f - 1) * s.w) < x ∧ x ≤ s.nd (f * s.w)
  | 0, e, h1, h2, _, _ => by omega
  | k + 1, e, h1, h2, h3, h0 => by
    unfold FEM.find
    have hj : ¬ s.n ≤ e * s.w := by
      have : e * s.w ≤ m * s.w := Nat.mul_le_mul_right _ h1
      omega
    rw [if_neg hj]
    by_cases hc : x > s.nd (e * s.w)
    · rw [if_pos hc, ← Nat.succ_mul]
      have he : e ≠ m := fun h => by subst h; exact absurd hx (not_lt_of_ge hc.le)
      exact find_spec hn hw hlen hx k (e + 1) (by omega) (by omega) (Or.inr hc) h0
    · rw [if_neg hc]
      rcases h3 with h3 | h3
      · subst h3; rw [Nat.zero_mul] at hc; exact absurd h0 hc
      · by_cases he : e = 0
        · subst he; rw [Nat.zero_mul] at hc; exact absurd h0 hc
        · exact ⟨e, h1, by omega, rfl, h3, le_of_not_gt hc⟩

/-- The value inside an element is that of every element the depth is in. -/
theorem inside (hw : Order s.w) (hlen : ∀ e, e < m → s.nd (e * s.w) < s.nd (e * s.w + s.w)) {x : K} {f : Nat} (hf : f ≤ m) (hf0 : 0 < f)
    (h1 : s.nd ((f - 1) * s.w) < x) (h2 : x ≤ s.nd (f * s.w)) {e : Nat} (he : e < m) (g1 : s.nd (e * s.w) ≤ x) (g2 : x ≤ s.nd (e * s.w + s.w)) :
    e = f - 1 ∨ e = f ∧ x = s.nd (f * s.w) := by
  rw [← Nat.succ_mul] at g2
  rcases Nat.lt_or_ge e f with h | h
  · left
    by_contra hne
    have := ends_mono hlen (show e + 1 ≤ f - 1 by omega) (by omega)
    exact absurd (lt_of_lt_of_le h1 g2) (not_lt_of_ge this)
  · right
    have h3 : e = f := by
      by_contra hne
      have := ends_strict hlen (show f < e by omega) (by omega)
      exact absurd (le_trans g1 h2) (not_le_of_gt this)
    subst h3
    exact ⟨rfl, le_antisymm h2 g1⟩

theorem interp_spec (hw : Order s.w) (hn : s.n = m * s.w + 1) (hm : 0 < m) (hlen : ∀ e, e < m → s.nd (e * s.w) < s.nd (e * s.w + s.w)) :
    ∀ (xs : List K) (e : Nat), xs.Pairwise (· ≤ ·) → e ≤ m → (e = 0 ∨ ∀ x ∈ xs, s.nd ((e - 1) * s.w) < x) →
      ∃ vs, s.interp (e * s.w) xs = .ok vs ∧ List.Forall₂ (IsTemp s.w m s.nd s.nt) xs vs
  | [], _, _, _, _ => ⟨[], rfl, .nil⟩
  | x :: xs, e, hs, he, hinv => by
    have hw0 := hw.pos
    rw [List.pairwise_cons] at hs
    have hlast : s.n - 1 = m * s.w := by omega
    have hinv' : e = 0 ∨ ∀ y ∈ xs, s.nd ((e - 1) * s.w) < y := hinv.imp id fun h y hy => h y (List.mem_cons_of_mem _ hy)
    have hends : s.nd 0 < s.nd (m * s.w) := by
      have := ends_strict hlen hm (le_refl m)
      rwa [Nat.zero_mul] at this
    unfold FEM.interp
    rw [hlast]
    by_cases c1 : x ≤ s.nd 0
    · rw [if_pos c1]
      obtain ⟨vs, e1, e2⟩ := interp_spec hw hn hm hlen xs e hs.2 he hinv'
      refine ⟨s.nt 0 :: vs, by rw [e1]; rfl, .cons ⟨fun _ => rfl, fun h => absurd (le_trans h c1) (not_le_of_gt hends), fun f hf g1 g2 => ?_⟩ e2⟩
      have hf0 : f = 0 := by
        by_contra hne
        have := ends_strict hlen (show 0 < f by omega) hf.le
        rw [Nat.zero_mul] at this
        exact absurd (le_trans g1 c1) (not_le_of_gt this)
      subst hf0
      rw [Nat.zero_mul] at g1 ⊢
      rw [le_antisymm c1 g1, sub_self, mul_zero, zero_div, zero_sub, interpolant_left hw]
    rw [if_neg c1]
    by_cases c2 : x ≥ s.nd (m * s.w)
    · rw [if_pos c2]
      obtain ⟨vs, e1, e2⟩ := interp_spec hw hn hm hlen xs e hs.2 he hinv'
      refine ⟨s.nt (m * s.w) :: vs, by rw [e1]; rfl, .cons ⟨fun h => absurd h c1, fun _ => rfl, fun f hf g1 g2 => ?_⟩ e2⟩
      have hf0 : f + 1 = m := by
        by_contra hne
        have := ends_strict hlen (show f + 1 < m by omega) (le_refl _)
        rw [Nat.succ_mul] at this
        exact absurd (le_trans c2 g2) (not_le_of_gt this)
      have hx : x = s.nd (f * s.w + s.w) := le_antisymm g2 (by rw [← Nat.succ_mul, Nat.succ_eq_add_one, hf0]; exact c2)
      have hl := hlen f hf
      have hne : s.nd (f * s.w + s.w) - s.nd (f * s.w) ≠ 0 := by intro h; linarith
      have hz : 2 * (x - s.nd (f * s.w)) / (s.nd (f * s.w + s.w) - s.nd (f * s.w)) - 1 = 1 := by
        rw [hx]; field_simp; ring
      rw [hz, interpolant_right hw, ← hf0, Nat.succ_mul]
    rw [if_neg c2]
    obtain ⟨f, f1, f2, f3, f4, f5⟩ := find_spec hn hw0 hlen (lt_of_not_ge c2) (s.n + 1) e he (by
        have : m ≤ m * s.w := Nat.le_mul_of_pos_right _ hw0
        omega) (hinv.imp id fun h => h x (List.mem_cons_self)) (lt_of_not_ge c1)
    rw [f3, Res.ok_bind]
    obtain ⟨vs, e1, e2⟩ := interp_spec hw hn hm hlen xs f hs.2 f1 (Or.inr fun y hy => lt_of_lt_of_le f4 (hs.1 y hy))
    have hfw : f * s.w = (f - 1) * s.w + s.w := by rw [← Nat.succ_mul]; congr 1; omega
    by_cases c3 : x = s.nd (f * s.w)
    · rw [if_pos c3]
      refine ⟨s.nt (f * s.w) :: vs, by rw [e1]; rfl, .cons ⟨fun h => absurd h c1, fun h => absurd h c2, fun g hg g1 g2 => ?_⟩ e2⟩
      have hl := hlen g hg
      rcases inside hw hlen f1 f2 f4 f5 hg g1 g2 with h | ⟨h, -⟩
      · have hgf : f * s.w = g * s.w + s.w := by rw [h]; exact hfw
        have hne : s.nd (g * s.w + s.w) - s.nd (g * s.w) ≠ 0 := by intro h; linarith
        have hz : 2 * (x - s.nd (g * s.w)) / (s.nd (g * s.w + s.w) - s.nd (g * s.w)) - 1 = 1 := by
          rw [c3, hgf]; field_simp; ring
        rw [hz, interpolant_right hw, hgf]
      · rw [c3, h, sub_self, mul_zero, zero_div, zero_sub, interpolant_left hw, Nat.add_zero]
    · rw [if_neg c3, if_neg (by
        have : 1 * s.w ≤ f * s.w := Nat.mul_le_mul_right _ f2
        omega), shape_eq hw, Res.ok_bind, e1, Res.ok_bind]
      have hsub : f * s.w - s.w = (f - 1) * s.w := by omega
      refine ⟨_, rfl, .cons ⟨fun h => absurd h c1, fun h => absurd h c2, fun g hg g1 g2 => ?_⟩ e2⟩
      rcases inside hw hlen f1 f2 f4 f5 hg g1 g2 with h | ⟨-, h⟩
      · rw [hsub, h, ← hfw]
      · exact absurd h c3
end

/-! ## Properties -/

/-- **C45**: for every sorted list of depths, after every history of steps, interpolation ends normally and gives for each depth the end
temperature outside the mesh and the interpolant of the nodal temperatures of its element inside, wherever the depth falls.

Partial: the depths have to be sorted (`C45_unsorted`), and the interpolant takes the nodes of an element as equally spaced whether they
are or not (`C45_unequal_nodes`). -/
theorem C45_interpolate_partial {rt : K → K} {a : Args K} {lay : Nat → Nat} (h : a.Sound lay) {s : FEM K} (hs : a.make rt = .ok s) (hist : List (K × K))
    (xs : List K) (hxs : xs.Pairwise (· ≤ ·)) :
    ∃ vs, (s.run hist).interp 0 xs = .ok vs ∧ List.Forall₂ (IsTemp a.w a.m a.nd (s.run hist).nt) xs vs := by
  obtain ⟨-, h1, h2, -, h4, -, -⟩ := make_sound h hs
  obtain ⟨c1, c2, -, c4⟩ := run_const s hist
  have hw : (s.run hist).w = a.w := c2.trans h2
  have hnd : (s.run hist).nd = a.nd := c4.trans h4
  have hn := Args.n_eq h.mesh
  have := interp_spec (s := s.run hist) (m := a.m) (by rw [hw]; exact h.order) (by rw [c1, h1, hw]; exact hn) (Args.m_pos h.order.pos h.mesh)
    (fun e he => by rw [hw, hnd]; have := h.len e he; unfold Args.len at this; linarith) xs 0 hxs (Nat.zero_le _) (Or.inl rfl)
  rw [Nat.zero_mul, hw, hnd] at this
  exact this

/-- **C45**: at the ends of the elements the interpolant is the temperature of the node. -/
theorem C45_nodes {w m : Nat} (hw : w = 1 ∨ w = 2 ∨ w = 4) {nd nt : Nat → K} (hlen : ∀ e, e < m → nd (e * w) < nd (e * w + w)) {v : K} {e : Nat} (he : e < m) :
    (IsTemp w m nd nt (nd (e * w)) v → v = nt (e * w)) ∧ (IsTemp w m nd nt (nd (e * w + w)) v → v = nt (e * w + w)) := by
  have hl := hlen e he
  refine ⟨fun ⟨_, _, h⟩ => ?_, fun ⟨_, _, h⟩ => ?_⟩
  · rw [h e he (le_refl _) hl.le, sub_self, mul_zero, zero_div, zero_sub, interpolant_left hw, Nat.add_zero]
  · have hne : nd (e * w + w) - nd (e * w) ≠ 0 := by intro h; linarith
    have hz : 2 * (nd (e * w + w) - nd (e * w)) / (nd (e * w + w) - nd (e * w)) - 1 = 1 := by field_simp; ring
    rw [h e he hl.le (le_refl _), hz, interpolant_right hw]

/-- A polynomial of degree up to `w`. -/
def poly (w : Nat) (c : Nat → K) (x : K) : K := ∑ j ∈ range (w + 1), c j * x ^ j

theorem interpolant_poly {w : Nat} (hw : Order w) (c : Nat → K) (A L z : K) :
    interpolant w (fun k => poly w c (A + L * ((k : K) / w))) z = poly w c (A + L * ((z + 1) / 2)) := by
  obtain ⟨v, h1, h2⟩ := interpolant_val hw z (fun k => poly w c (A + L * ((k : K) / w)))
  rw [h2]
  rcases hw with rfl | rfl | rfl
  · simp only [shape, Res.ok.injEq] at h1
    rw [← h1]
    simp only [poly, sum_range_succ, sum_range_zero]
    norm_num; ring
  · simp only [shape, Res.ok.injEq] at h1
    rw [← h1]
    simp only [poly, sum_range_succ, sum_range_zero]
    norm_num; ring
  · simp only [shape, Res.ok.injEq] at h1
    rw [← h1]
    simp only [poly, sum_range_succ, sum_range_zero]
    norm_num; ring

/-- **C45**: with the nodes of the elements equally spaced, temperatures that are a polynomial of the depth of degree up to the order of
the elements, whether one polynomial for the mesh or one per element, are reproduced at every depth inside. -/
theorem C45_polynomials {w m : Nat} (hw : w = 1 ∨ w = 2 ∨ w = 4) {nd nt : Nat → K} (hlen : ∀ e, e < m → nd (e * w) < nd (e * w + w))
    {e : Nat} (he : e < m) (heq : ∀ k, k ≤ w → nd (e * w + k) = nd (e * w) + (nd (e * w + w) - nd (e * w)) * ((k : K) / w))
    (c : Nat → K) (hc : ∀ k, k ≤ w → nt (e * w + k) = poly w c (nd (e * w + k))) {x v : K} (h1 : nd (e * w) ≤ x) (h2 : x ≤ nd (e * w + w))
    (h : IsTemp w m nd nt x v) : v = poly w c x := by
  have hl := hlen e he
  have hne : nd (e * w + w) - nd (e * w) ≠ 0 := by intro h; linarith
  rw [h.2.2 e he h1 h2]
  have e1 : interpolant w (fun k => nt (e * w + k)) (2 * (x - nd (e * w)) / (nd (e * w + w) - nd (e * w)) - 1) =
      interpolant w (fun k => poly w c (nd (e * w) + (nd (e * w + w) - nd (e * w)) * ((k : K) / w))) (2 * (x - nd (e * w)) / (nd (e * w + w) - nd (e * w)) - 1) := by
    unfold interpolant
    refine sum_congr rfl fun k hk => ?_
    have hk : k ≤ w := by have := mem_range.1 hk; omega
    dsimp only
    rw [hc k hk, heq k hk]
  rw [e1, interpolant_poly hw]
  congr 1
  field_simp
  ring

/-- **C45**: at the inner nodes too, if they are equally spaced. -/
theorem C45_inner_nodes {w m : Nat} (hw : w = 1 ∨ w = 2 ∨ w = 4) {nd nt : Nat → K} (hlen : ∀ e, e < m → nd (e * w) < nd (e * w + w))
    {e k : Nat} (he : e < m) (hk : k ≤ w) (heq : nd (e * w + k) = nd (e * w) + (nd (e * w + w) - nd (e * w)) * ((k : K) / w)) {v : K}
    (h : IsTemp w m nd nt (nd (e * w + k)) v) : v = nt (e * w + k) := by
  have hl := hlen e he
  have hd : 0 < nd (e * w + w) - nd (e * w) := by linarith
  have hw0 : 0 < (w : K) := by rcases hw with rfl | rfl | rfl <;> norm_num
  have hkw : (k : K) ≤ w := by exact_mod_cast hk
  have hr0 : 0 ≤ (k : K) / w := by positivity
  have hr1 : (k : K) / w ≤ 1 := by rw [div_le_one hw0]; exact hkw
  have g1 : nd (e * w) ≤ nd (e * w + k) := by rw [heq]; nlinarith
  have g2 : nd (e * w + k) ≤ nd (e * w + w) := by rw [heq]; nlinarith
  rw [h.2.2 e he g1 g2]
  have hz : 2 * (nd (e * w + k) - nd (e * w)) / (nd (e * w + w) - nd (e * w)) - 1 = 2 * ((k : K) / w) - 1 := by
    rw [heq]; field_simp; ring
  rw [hz]
  obtain ⟨v, h1, h2⟩ := interpolant_val hw (2 * ((k : K) / w) - 1) (fun k => nt (e * w + k))
  rw [h2]
  rcases hw with rfl | rfl | rfl <;> (simp only [shape, Res.ok.injEq] at h1; rw [← h1]; interval_cases k <;> norm_num <;> ring)

/-- **C45**, a disagreement: at an inner node that is not in the middle of a quadratic element, interpolation does not give the
temperature of the node. -/
theorem C45_unequal_nodes : ∃ s : FEM ℚ, s.w = 2 ∧ s.n = 3 ∧ s.nd 0 < s.nd 1 ∧ s.nd 1 < s.nd 2 ∧
    ∃ v, s.interp 0 [s.nd 1] = .ok [v] ∧ v ≠ s.nt 1 :=
  ⟨{ n := 3, w := 2, dt := 1, nd := fun i => if i = 0 then 0 else if i = 1 then 1 else 4, nt := fun i => if i = 1 then 1 else 0, ng := fun _ => 0,
     KK := fun _ => 0, FF := fun _ => 0, Kt := fun _ => 0, Kb := fun _ => 0 }, rfl, rfl, by decide, by decide, 3/4, by decide +kernel, by simp; norm_num⟩

/-- **C45**, a disagreement: depths that are not sorted are extrapolated from a deeper element. -/
theorem C45_unsorted : ∃ s : FEM ℚ, s.w = 1 ∧ s.n = 3 ∧ s.nd 0 < s.nd 1 ∧ s.nd 1 < s.nd 2 ∧
    ∃ u v, s.interp 0 [3/2, 1/2] = .ok [u, v] ∧ s.interp 0 [1/2] ≠ .ok [v] :=
  ⟨{ n := 3, w := 1, dt := 1, nd := fun i => i, nt := fun i => if i = 2 then 1 else 0, ng := fun _ => 0,
     KK := fun _ => 0, FF := fun _ => 0, Kt := fun _ => 0, Kb := fun _ => 0 }, rfl, rfl, by decide, by decide, 1/2, -1/2, by decide +kernel, by decide +kernel⟩

example : ∃ vs, (FEM.run ({ n := 3, w := 1, dt := 1, nd := fun i => i, nt := fun i => 2 * i, ng := fun _ => 0, KK := fun _ => 0, FF := fun _ => 0, Kt := fun _ => 0, Kb := fun _ => 0 } : FEM ℚ) []).interp 0 [-1, 1/2, 1, 3/2, 5] = .ok vs ∧ vs = [0, 1, 2, 3, 4] :=
  ⟨[0, 1, 2, 3, 4], by decide +kernel, rfl⟩
example : ([0, 1/2, 3] : List ℝ).Pairwise (· ≤ ·) := by
  simp only [List.pairwise_cons, List.mem_cons, List.not_mem_nil, or_false]
  refine ⟨?_, ?_, ?_⟩
  · rintro a (rfl | rfl) <;> norm_num
  · rintro a rfl; norm_num
  · simp

end OP.Thermal
