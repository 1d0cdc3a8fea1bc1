import Verif.Fem.PropsOutward
import Verif.Fem.Stops
/-!
# C120, continued: materials, levels, and where the mesh ends
-/
namespace OP.Fem.Outward
open OP.Fem.Region

/-! ## Materials -/

/-- The layer of a stop: the first whose bottom is not above it. -/
def InLayer (bots : List Int) (s : Slab) : Prop :=
  (∃ b, bots[s.mat]? = some b ∧ s.bot ≤ b) ∧ ∀ k < s.mat, ∀ b, bots[k]? = some b → b < s.bot

theorem takeWhile_stop {l : List Int} {P : Int → Bool} (h : (l.takeWhile P).length < l.length) :
    ∃ b, l[(l.takeWhile P).length]? = some b ∧ P b = false := by
  induction l with
  | nil => simp at h
  | cons a l ih =>
    by_cases ha : P a = true
    · rw [List.takeWhile_cons_of_pos ha] at h ⊢
      obtain ⟨b, h1, h2⟩ := ih (by simpa using h)
      exact ⟨b, by simpa using h1, h2⟩
    · rw [List.takeWhile_cons_of_neg ha]
      exact ⟨a, by simp, by simpa using ha⟩

theorem takeWhile_before {l : List Int} {P : Int → Bool} {k : Nat} (hk : k < (l.takeWhile P).length) {b : Int}
    (hb : l[k]? = some b) : P b = true := by
  induction l generalizing k with
  | nil => simp at hk
  | cons a l ih =>
    by_cases ha : P a = true
    · rw [List.takeWhile_cons_of_pos ha] at hk
      cases k with
      | zero => simp at hb; rw [← hb]; exact ha
      | succ k => exact ih (by simpa using hk) (by simpa using hb)
    · rw [List.takeWhile_cons_of_neg ha] at hk
      simp at hk

theorem slabs_layer {bots : List Int} {zi i j : Nat} {top : Int} {below : List (Int × Nat)} {sl : List Slab}
    (h : slabs bots zi i j top below = .ok sl) (hs : (below.map Prod.fst).Pairwise (· < ·))
    (hi : ∀ k < i, ∀ b, bots[k]? = some b → ∀ a ∈ below, b < a.1) : ∀ s ∈ sl, InLayer bots s := by
  induction below generalizing i j top sl with
  | nil =>
    obtain rfl : [] = sl := by simpa [slabs] using h
    simp
  | cons a below ih =>
    obtain ⟨z, l⟩ := a
    have hs' := List.pairwise_cons.mp (by simpa using hs : (z :: below.map Prod.fst).Pairwise (· < ·))
    rw [slabs] at h
    by_cases hl : l ≤ zi
    · rw [if_pos hl] at h
      dsimp only at h
      split at h
      · rename_i hlt
        obtain ⟨s', h1, h2⟩ := Res.bind_eq_ok.mp h
        obtain rfl := Res.ok.inj h2
        have hn : i ≤ bots.length := by omega
        have hbelow : ∀ k < i + ((bots.drop i).takeWhile (fun b => decide (z > b))).length, ∀ b, bots[k]? = some b → b < z := by
          intro k hk b hb
          by_cases hki : k < i
          · exact hi k hki b hb (z, l) (by simp)
          · have := takeWhile_before (l := bots.drop i) (P := fun b => decide (z > b)) (k := k - i) (by omega) (b := b)
              (by rw [List.getElem?_drop, Nat.add_sub_cancel' (by omega)]; exact hb)
            simpa using this
        intro s hs1
        rcases List.mem_cons.mp hs1 with rfl | hs1
        · refine ⟨?_, hbelow⟩
          obtain ⟨b, hb, hp⟩ := takeWhile_stop (l := bots.drop i) (P := fun b => decide (z > b))
            (by rw [List.length_drop]; omega)
          rw [List.getElem?_drop] at hb
          exact ⟨b, hb, by simpa using hp⟩
        · refine ih h1 hs'.2 ?_ s hs1
          intro k hk b hb a ha
          exact (hbelow k hk b hb).trans (hs'.1 a.1 (List.mem_map.mpr ⟨a, ha, rfl⟩))
      · exact absurd h (by simp)
    · rw [if_neg hl] at h
      obtain rfl : [] = sl := by simpa using h
      simp

/-- The stops reach no deeper than the last layer, so that no assertion fails. -/
theorem slabs_total {bots : List Int} {below : List (Int × Nat)} {i : Nat} (hi : i < bots.length) {b : Int}
    (hb : bots[bots.length - 1]? = some b) (h : ∀ a ∈ below, a.1 ≤ b) (zi j : Nat) (top : Int) :
    ∃ sl, slabs bots zi i j top below = .ok sl := by
  induction below generalizing i j top with
  | nil => exact ⟨[], rfl⟩
  | cons a below ih =>
    obtain ⟨z, l⟩ := a
    rw [slabs]
    by_cases hl : l ≤ zi
    · rw [if_pos hl]
      dsimp only
      have hz : z ≤ b := h (z, l) (by simp)
      have hlt : i + ((bots.drop i).takeWhile (fun b => decide (z > b))).length < bots.length := by
        have h1 : ((bots.drop i).takeWhile (fun b => decide (z > b))).length ≤ (bots.drop i).length :=
          (List.takeWhile_sublist _).length_le
        rw [List.length_drop] at h1
        by_contra hc
        have := takeWhile_before (l := bots.drop i) (P := fun b => decide (z > b)) (k := bots.length - 1 - i) (by omega)
          (b := b) (by rw [List.getElem?_drop, Nat.add_sub_cancel' (by omega)]; exact hb)
        simp at this
        omega
      rw [if_pos hlt]
      obtain ⟨sl, hsl⟩ := ih hlt (fun a ha => h a (by simp [ha])) (j + 1) z
      rw [hsl]
      exact ⟨_, rfl⟩
    · rw [if_neg hl]
      exact ⟨[], rfl⟩

theorem over_slab {filled filling : List Region} {zi : Nat} {s : Slab} {b : Block} (hb : b ∈ over filled filling zi s) :
    b.slab = s ∧ (∃ r ∈ filling, (b.x1, b.x2) ∈ pairs r.xs ∧ (b.y1, b.y2) ∈ pairs r.ys) ∧
      ¬ (listMeets filled b.x1 b.y1 b.x2 b.y2 = true ∧ s.level < zi) := by
  simp only [over, List.mem_flatMap] at hb
  obtain ⟨r, hr, x, hx, y, hy, hb⟩ := hb
  by_cases h : (listMeets filled x.1 y.1 x.2 y.2 && decide (s.level < zi)) = true
  · rw [if_pos h] at hb
    simp at hb
  · rw [if_neg h] at hb
    rw [List.mem_singleton.mp hb]
    refine ⟨rfl, ⟨r, hr, hx, hy⟩, ?_⟩
    simpa using h

/-- What holds for the elements of every round holds for all. -/
theorem run_mesh {c : Setup} {I : State → Prop} {P : Block → Prop}
    (hr : ∀ s s', I s → round c s = .ok s' → I s' ∧ ∀ sl, slabs c.bots s.zi 0 1 c.top c.below = .ok sl →
      ∀ t ∈ sl, ∀ b ∈ over s.filled s.filling s.zi t, P b)
    {fuel : Nat} {s s' : State} (h0 : I s) (h1 : ∀ b ∈ s.mesh, P b) (h : run c fuel s = some (.ok s')) :
    I s' ∧ ∀ b ∈ s'.mesh, P b := by
  induction fuel generalizing s with
  | zero => simp [run] at h
  | succ n ih =>
    rw [run] at h
    by_cases hg : goesOn c s = true
    · rw [if_pos hg] at h
      cases hrd : round c s with
      | ok t =>
        rw [hrd] at h
        obtain ⟨k1, k2⟩ := hr s t h0 hrd
        refine ih k1 ?_ h
        obtain ⟨sl, g, e1, -, -, -, -, e6⟩ := round_ok hrd
        rw [e6]
        intro b hb
        rcases List.mem_append.mp hb with hb | hb
        · exact h1 b hb
        · obtain ⟨t', ht', hb⟩ := List.mem_flatMap.mp hb
          exact k2 sl e1 t' ht' b hb
      | throw => rw [hrd] at h; simp at h
      | ub => rw [hrd] at h; simp at h
    · rw [if_neg hg] at h
      obtain rfl := Res.ok.inj (Option.some.inj h)
      exact ⟨h0, h1⟩

/-- **C120** Every element is given the material of its layer: its bottom is below the bottoms of the layers before and not below
that of its own. -/
theorem C120_material {c : Setup} (hc : Ordered c) {s s' : State} (h0 : Fresh s) {fuel : Nat}
    (h : run c fuel s = some (.ok s')) : ∀ b ∈ s'.mesh,
      (∃ d, c.bots[b.slab.mat]? = some d ∧ b.slab.bot ≤ d) ∧
      ∀ k < b.slab.mat, ∀ d, c.bots[k]? = some d → d < b.slab.bot := by
  have hs : (c.below.map Prod.fst).Pairwise (· < ·) := (List.pairwise_cons.mp hc.stops).2
  refine (run_mesh (c := c) (I := fun _ => True) (P := fun b => InLayer c.bots b.slab) ?_ trivial (by simp [h0.mesh]) h).2
  intro s s' _ _
  refine ⟨trivial, fun sl hsl t ht b hb => ?_⟩
  rw [(over_slab hb).1]
  exact slabs_layer hsl hs (by simp) t ht

/-! ## Levels that go up -/

theorem slabs_prefix {bots : List Int} {zi i j : Nat} {top : Int} {below : List (Int × Nat)} {sl : List Slab}
    (h : slabs bots zi i j top below = .ok sl) {s : Slab} (hs : s ∈ sl) :
    ∃ k, s.j = j + k ∧ (∃ a, below[k]? = some a ∧ s.level = a.2 ∧ s.bot = a.1) ∧ ∀ m ≤ k, ∀ a, below[m]? = some a → a.2 ≤ zi := by
  induction below generalizing i j top sl with
  | nil =>
    obtain rfl : [] = sl := by simpa [slabs] using h
    simp at hs
  | cons a below ih =>
    obtain ⟨z, l⟩ := a
    rw [slabs] at h
    by_cases hl : l ≤ zi
    · rw [if_pos hl] at h
      dsimp only at h
      split at h
      · obtain ⟨s', h1, h2⟩ := Res.bind_eq_ok.mp h
        obtain rfl := Res.ok.inj h2
        rcases List.mem_cons.mp hs with rfl | hs
        · refine ⟨0, rfl, ⟨(z, l), by simp, rfl, rfl⟩, ?_⟩
          intro m hm a ha
          obtain rfl : m = 0 := by omega
          simp at ha
          rw [← ha]; exact hl
        · obtain ⟨k, k1, k2, k3⟩ := ih h1 hs
          refine ⟨k + 1, by omega, by simpa using k2, ?_⟩
          intro m hm a ha
          cases m with
          | zero => simp at ha; rw [← ha]; exact hl
          | succ m => exact k3 m (by omega) a (by simpa using ha)
      · exact absurd h (by simp)
    · rw [if_neg hl] at h
      obtain rfl : [] = sl := by simpa using h
      simp at hs

/-- What is filled is within what is being filled. -/
structure Loose (s : State) : Prop where
  sound : ∀ r ∈ s.filling, Sound r
  sound' : ∀ r ∈ s.filled, Sound r
  within : ∀ f ∈ s.filled, ∃ r ∈ s.filling, Within f r

theorem round_loose {c : Setup} {s s' : State} (H : Loose s) (h : round c s = .ok s') :
    Loose s' ∧ (∀ p q, InL s'.filled p q ↔ InL s.filling p q) := by
  obtain ⟨sl, g, h1, h2, h3, h4, h5, h6⟩ := round_ok h
  obtain ⟨t1, t2, t3, -⟩ := thinOut_ok H.sound h2
  obtain ⟨g1, g2, g3⟩ := growAll_ok h3
  obtain ⟨m1, -, -, m4⟩ := C111_merge g
  refine ⟨⟨?_, t1, ?_⟩, t3⟩
  · rw [h4]; exact m4 (g2 t1)
  · intro f hf
    obtain ⟨r, hr, k⟩ := g3 f hf
    obtain ⟨t, ht, k'⟩ := m1 r hr
    exact ⟨t, by rw [h4]; exact ht, k.trans k'⟩

theorem Loose.sub {s : State} (H : Loose s) {p q : Int} (h : InL s.filled p q) : InL s.filling p q := by
  obtain ⟨f, hf, k⟩ := h
  obtain ⟨r, hr, w⟩ := H.within f hf
  have := within_box (H.sound' f hf) (H.sound r hr) w
  refine ⟨r, hr, ?_⟩
  unfold InR at k ⊢
  omega

/-- **C120** A stop with a level below that of a stop above it: no element that ends there is under the regions of the loads,
whatever the regions and however many. -/
theorem C120_levels_wrong {c : Setup} {k m : Nat} (hkm : k < m) {a d : Int × Nat} (ha : c.below[k]? = some a)
    (hd : c.below[m]? = some d) (hl : d.2 < a.2) {s s' : State} (hs : ∀ r ∈ s.filling, Sound r) (h1 : s.filled = [])
    (h2 : s.zi = 0) (h3 : s.mesh = []) {fuel : Nat} (h : run c fuel s = some (.ok s')) {x y : ℚ} (hp : Over s.filling x y) :
    ∀ b ∈ s'.mesh, b.slab.j = m + 1 → ∀ z, covers b x y z = false := by
  have hp' := (over_iff hs x y).mp hp
  refine (run_mesh (c := c) (I := fun s => Loose s ∧ InL s.filling ⌊x⌋ ⌊y⌋ ∧ (0 < s.zi → InL s.filled ⌊x⌋ ⌊y⌋))
    (P := fun b => b.slab.j = m + 1 → ∀ z, covers b x y z = false) ?_ ⟨⟨hs, by simp [h1], by simp [h1]⟩, hp', by simp [h2]⟩
    (by simp [h3]) h).2
  rintro s s' ⟨H, I1, I2⟩ hr
  obtain ⟨H', e⟩ := round_loose H hr
  have I3 : InL s'.filled ⌊x⌋ ⌊y⌋ := (e _ _).mpr I1
  refine ⟨⟨H', H'.sub I3, fun _ => I3⟩, ?_⟩
  intro sl hsl t ht b hb hj z
  obtain ⟨k1, ⟨r, hrf, b1, b2⟩, k3⟩ := over_slab hb
  obtain ⟨k', e1, ⟨d', e2, e3, -⟩, e4⟩ := slabs_prefix hsl ht
  obtain rfl : k' = m := by rw [k1] at hj; omega
  obtain rfl : d = d' := by rw [hd] at e2; exact Option.some.inj e2
  have hz : a.2 ≤ s.zi := e4 k (by omega) a ha
  have hlt : t.level < s.zi := by omega
  rw [covers_eq]
  by_contra hcov
  simp only [Bool.not_eq_false, Bool.and_eq_true, hasXY, decide_eq_true_eq] at hcov
  apply k3
  refine ⟨?_, hlt⟩
  rw [listMeets_iff]
  obtain ⟨f, hf, hin⟩ := I2 (by omega)
  refine ⟨f, hf, ?_⟩
  unfold InR at hin
  omega

/-- **C120** The thin elements below the third interface make such a stop wherever the level changes at the interface. -/
theorem C120_thin_wrong {K : Type} [Field K] [LinearOrder K] [IsStrictOrderedRing K] {z : K} {b : Nat} {stop : List K} {level : List Nat}
    {b' : Nat} {stop' : List K} {level' : List Nat} (h : Stops.thin z 2 b stop level = .ok (b', stop', level'))
    {u v : Nat} (hu : level[b' - 1]? = some u) (hv : level[b']? = some v) (huv : u < v) :
    ∃ u' v', level'[b']? = some v' ∧ level'[b' + 1]? = some u' ∧ u' < v' := by
  refine ⟨u, v, ?_⟩
  unfold Stops.thin at h
  dsimp only at h
  rw [if_neg (by omega), if_pos rfl] at h
  split at h
  · rename_i n x hb hx
    split at h
    · rename_i w hw
      have e := Res.ok.inj h
      simp only [Prod.mk.injEq] at e
      obtain ⟨rfl, -, rfl⟩ := e
      have hlen : Stops.find stop z b < level.length := by
        by_contra hc
        rw [List.getElem?_eq_none (by omega)] at hv
        simp at hv
      rw [List.getElem?_insertIdx_of_lt (by omega), List.getElem?_insertIdx_self, if_pos (by omega)]
      refine ⟨hv, ?_, huv⟩
      rw [hb, Nat.succ_sub_one, hw] at hu
      exact hu
    · exact absurd h (by simp)
  · exact absurd h (by simp)

end OP.Fem.Outward
