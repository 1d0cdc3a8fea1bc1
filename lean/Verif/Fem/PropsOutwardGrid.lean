import Verif.Fem.PropsOutwardEnd
/-!
# C120, continued: the mesh reaches the edge on all sides, and the infinite elements
-/
namespace OP.Fem.Outward
open OP.Fem.Region

/-- The multiples of `d` up to `m` on both sides of zero. -/
def grid (m : Nat) (d : Int) : List Int := (List.range (2 * m + 1)).map fun k : Nat => ((k : Int) - m) * d

theorem mem_grid {m : Nat} {d a : Int} : a ∈ grid m d ↔ ∃ k : Int, -(m : Int) ≤ k ∧ k ≤ m ∧ a = k * d := by
  simp only [grid, List.mem_map, List.mem_range]
  constructor
  · rintro ⟨k, hk, rfl⟩
    exact ⟨(k : Int) - m, by omega, by omega, rfl⟩
  · rintro ⟨k, h1, h2, rfl⟩
    refine ⟨(k + m).toNat, by omega, ?_⟩
    rw [Int.toNat_of_nonneg (by omega)]
    ring

theorem grid_length (m : Nat) (d : Int) : (grid m d).length = 2 * m + 1 := by simp [grid]

theorem grid_get (m : Nat) (d : Int) (i : Nat) :
    (grid m d)[i]? = if i < 2 * m + 1 then some (((i : Int) - m) * d) else none := by
  unfold grid
  rw [List.getElem?_map]
  by_cases h : i < 2 * m + 1
  · rw [List.getElem?_range h, if_pos h]; rfl
  · rw [List.getElem?_eq_none (by simpa using h), if_neg h]; rfl

theorem grid_sorted (m : Nat) {d : Int} (hd : 0 < d) : (grid m d).Pairwise (· < ·) := by
  unfold grid
  rw [List.pairwise_map]
  refine List.pairwise_lt_range.imp ?_
  intro a b h
  exact mul_lt_mul_of_pos_right (by omega) hd

theorem grid_ne (m : Nat) (d : Int) : grid m d ≠ [] := by
  intro h
  have := grid_length m d
  rw [h] at this
  simp at this

theorem grid_first (m : Nat) (d : Int) : first (grid m d) = -((m : Int) * d) := by
  simp only [first, List.headD_eq_head?_getD, List.head?_eq_getElem?, grid_get]
  rw [if_pos (by omega)]
  simp

theorem grid_last (m : Nat) (d : Int) : last (grid m d) = (m : Int) * d := by
  simp only [last, List.getLastD_eq_getLast?, List.getLast?_eq_getElem?, grid_length, grid_get]
  rw [if_pos (by omega)]
  simp only [Option.getD_some]
  push_cast [show 2 * m + 1 - 1 = 2 * m by omega]
  ring

theorem grid_coarsen (m : Nat) (d : Int) : coarsen (grid (2 * m) d) = grid m (2 * d) := by
  apply List.ext_getElem?
  intro i
  rw [(C111_coarsen _).1, grid_get, grid_get]
  by_cases h : i < 2 * m + 1
  · rw [if_pos (by omega), if_pos h]
    congr 1
    push_cast
    ring
  · rw [if_neg (by omega), if_neg h]

theorem stops_eq {l l' : List Int} (hs : l'.Pairwise (· < ·)) (h : ∀ a, a ∈ l ↔ a ∈ l') : stops l = l' := by
  have n1 : (stops l).Nodup := (stops_sorted l).imp (by intro a b h; omega)
  have n2 : l'.Nodup := hs.imp (by intro a b h; omega)
  have hp : (stops l).Perm l' := (List.perm_ext_iff_of_nodup n1 n2).mpr (fun a => by rw [mem_stops]; exact h a)
  exact hp.eq_of_pairwise (fun a b _ _ h1 h2 => absurd h1 (by omega)) (stops_sorted l) hs

/-- The stops added below. -/
theorem lower_mem {dx edge : Int} (hd : 0 < dx) {S : Nat} (he : (S : Int) * dx ≤ edge) (n A : Nat) (hA : A ≤ S) (hn : S - A ≤ n) (a : Int) :
    a ∈ lower dx edge (-((S : Int) * dx)) n (-((A : Int) * dx)) ↔ ∃ k : Nat, A < k ∧ k ≤ S ∧ a = -((k : Int) * dx) := by
  induction n generalizing A with
  | zero =>
    simp only [lower, List.not_mem_nil, false_iff]
    rintro ⟨k, h1, h2, -⟩
    omega
  | succ n ih =>
    rw [lower]
    by_cases h : A < S
    · have h1 : ((A : Int) + 1) * dx ≤ (S : Int) * dx := mul_le_mul_of_nonneg_right (by omega) hd.le
      have h2 : -((A : Int) * dx) - dx = -(((A + 1 : Nat) : Int) * dx) := by push_cast; ring
      have h3 : ((A : Int) + 1) * dx = (A : Int) * dx + dx := by ring
      rw [if_pos (by omega), h2, max_eq_left (by push_cast; omega), List.mem_cons, ih (A + 1) (by omega) (by omega)]
      constructor
      · rintro (rfl | ⟨k, k1, k2, k3⟩)
        · exact ⟨A + 1, by omega, by omega, rfl⟩
        · exact ⟨k, by omega, k2, k3⟩
      · rintro ⟨k, k1, k2, k3⟩
        by_cases hk : k = A + 1
        · subst hk; exact Or.inl k3
        · exact Or.inr ⟨k, by omega, k2, k3⟩
    · obtain rfl : A = S := by omega
      rw [if_neg (by omega)]
      simp only [List.not_mem_nil, false_iff]
      rintro ⟨k, h1, h2, -⟩
      omega

/-- The stops added above. -/
theorem upper_mem {dx edge : Int} (hd : 0 < dx) {S : Nat} (he : (S : Int) * dx ≤ edge) (n A : Nat) (hA : A ≤ S) (hn : S - A ≤ n) (a : Int) :
    a ∈ upper dx edge ((S : Int) * dx) n ((A : Int) * dx) ↔ ∃ k : Nat, A < k ∧ k ≤ S ∧ a = (k : Int) * dx := by
  induction n generalizing A with
  | zero =>
    simp only [upper, List.not_mem_nil, false_iff]
    rintro ⟨k, h1, h2, -⟩
    omega
  | succ n ih =>
    rw [upper]
    by_cases h : A < S
    · have h1 : ((A : Int) + 1) * dx ≤ (S : Int) * dx := mul_le_mul_of_nonneg_right (by omega) hd.le
      have h2 : (A : Int) * dx + dx = ((A + 1 : Nat) : Int) * dx := by push_cast; ring
      have h3 : ((A : Int) + 1) * dx = (A : Int) * dx + dx := by ring
      rw [if_pos (by omega), h2, min_eq_left (by push_cast; omega), List.mem_cons, ih (A + 1) (by omega) (by omega)]
      constructor
      · rintro (rfl | ⟨k, k1, k2, k3⟩)
        · exact ⟨A + 1, by omega, by omega, rfl⟩
        · exact ⟨k, by omega, k2, k3⟩
      · rintro ⟨k, k1, k2, k3⟩
        by_cases hk : k = A + 1
        · subst hk; exact Or.inl k3
        · exact Or.inr ⟨k, by omega, k2, k3⟩
    · obtain rfl : A = S := by omega
      rw [if_neg (by omega)]
      simp only [List.not_mem_nil, false_iff]
      rintro ⟨k, h1, h2, -⟩
      omega

/-- A grid grows to the next one. -/
theorem grow_grid {S A : Nat} {d edge : Int} (hd : 0 < d) (h : A < S ∨ (A = S ∧ (S : Int) * d = edge)) (he : (S : Int) * d ≤ edge) :
    grow S d edge (grid A d) = .ok (grid S d) := by
  have hAS : A ≤ S := by omega
  have hle : (A : Int) * d ≤ (S : Int) * d := mul_le_mul_of_nonneg_right (by omega) hd.le
  have hc : centre d (-((A : Int) * d)) ((A : Int) * d) = 0 := by
    unfold centre
    dsimp only
    rw [show -((A : Int) * d) + (A : Int) * d = 0 by ring]
    simp
  have hlt : A < S → (A : Int) * d < (S : Int) * d := fun h => mul_lt_mul_of_pos_right (by omega) hd
  unfold grow
  dsimp only
  rw [grid_first, grid_last, hc]
  rw [if_neg (by
    rw [not_not]
    rcases h with h | ⟨rfl, h⟩
    · right; have := hlt h; omega
    · left; omega)]
  rw [if_neg (by
    rw [not_not]
    rcases h with h | ⟨rfl, h⟩
    · right; have := hlt h; omega
    · left; omega)]
  have hlo : max (0 - (S : Int) * d) (-edge) = -((S : Int) * d) := by rw [max_eq_left (by omega)]; ring
  have hhi : min (0 + (S : Int) * d) edge = (S : Int) * d := by rw [min_eq_left (by omega)]; ring
  rw [hlo, hhi]
  have hfuel : S - A ≤ ((S : Int) * d - (A : Int) * d).toNat := by
    have : ((S : Int) - A) * 1 ≤ ((S : Int) - A) * d := mul_le_mul_of_nonneg_left (by omega) (by omega)
    have e : ((S : Int) - A) * d = (S : Int) * d - (A : Int) * d := by ring
    omega
  have hf1 : (-((A : Int) * d) - -((S : Int) * d)).toNat = ((S : Int) * d - (A : Int) * d).toNat := by congr 1; ring
  rw [hf1]
  set L := stops (grid A d ++ lower d edge (-((S : Int) * d)) ((S : Int) * d - (A : Int) * d).toNat (-((A : Int) * d))) with hL
  have memL : ∀ a, a ∈ L ↔ a ∈ grid A d ∨ ∃ k : Nat, A < k ∧ k ≤ S ∧ a = -((k : Int) * d) := by
    intro a
    rw [hL, mem_stops, List.mem_append, lower_mem hd he _ A hAS hfuel]
  have hlast : last L = (A : Int) * d := by
    have hAm : (A : Int) * d ∈ L := (memL _).mpr (Or.inl (mem_grid.mpr ⟨A, by omega, le_rfl, rfl⟩))
    apply le_antisymm
    · have hm := last_mem (List.ne_nil_of_mem hAm)
      rcases (memL _).mp hm with hm | ⟨k, k1, k2, k3⟩
      · obtain ⟨k, k1, k2, k3⟩ := mem_grid.mp hm
        rw [k3]
        exact mul_le_mul_of_nonneg_right k2 hd.le
      · rw [k3]
        have : 0 ≤ (k : Int) * d := by positivity
        have : 0 ≤ (A : Int) * d := by positivity
        omega
    · exact le_last (stops_sorted _) hAm
  rw [hlast]
  congr 1
  refine stops_eq (grid_sorted S hd) ?_
  intro a
  rw [List.mem_append, memL, upper_mem hd he _ A hAS hfuel]
  constructor
  · rintro ((h | ⟨k, k1, k2, rfl⟩) | ⟨k, k1, k2, rfl⟩)
    · obtain ⟨k, k1, k2, rfl⟩ := mem_grid.mp h
      exact mem_grid.mpr ⟨k, by omega, by omega, rfl⟩
    · exact mem_grid.mpr ⟨-k, by omega, by omega, by ring⟩
    · exact mem_grid.mpr ⟨k, by omega, by omega, rfl⟩
  · intro h
    obtain ⟨k, k1, k2, rfl⟩ := mem_grid.mp h
    by_cases h1 : k < -(A : Int)
    · exact Or.inl (Or.inr ⟨k.natAbs, by omega, by omega, by rw [show ((k.natAbs : Nat) : Int) = -k by omega]; ring⟩)
    · by_cases h2 : k ≤ A
      · exact Or.inl (Or.inl (mem_grid.mpr ⟨k, by omega, h2, rfl⟩))
      · exact Or.inr ⟨k.natAbs, by omega, by omega, by rw [show ((k.natAbs : Nat) : Int) = k by omega]⟩

/-- A rectangle around the origin. -/
def rect (a b : Nat) (d : Int) : Region := ⟨grid a d, grid b d⟩

theorem isInside_rect {a b : Nat} {d edge : Int} (he : 0 < edge) :
    isInside edge [rect a b d] = (decide ((a : Int) * d < edge) && decide ((b : Int) * d < edge)) := by
  unfold isInside listXm listXp listYm listYp
  simp only [List.foldl_cons, List.foldl_nil, Region.xm, Region.xp, Region.ym, Region.yp, rect, grid_first, grid_last]
  rw [Bool.eq_iff_iff]
  simp only [Bool.and_eq_true, decide_eq_true_eq]
  omega

theorem thinOut_rect {a b : Nat} {d edge : Int} (he : 0 < edge) (ha : ((2 * a : Nat) : Int) * d < edge)
    (hb : ((2 * b : Nat) : Int) * d < edge) :
    thinOut edge d [rect (2 * a) (2 * b) d] = .ok ([rect a b (2 * d)], 2 * d) := by
  unfold thinOut
  rw [if_pos (by rw [isInside_rect he]; simp only [Bool.and_eq_true, decide_eq_true_eq]; exact ⟨ha, hb⟩), if_pos]
  · simp only [rect, List.map_cons, List.map_nil, grid_coarsen]
  · simp only [List.all_cons, List.all_nil, rect, grid_length, Bool.and_true, Bool.and_eq_true, beq_iff_eq]
    omega

theorem growAll_rect {a b S : Nat} {d edge : Int} (hd : 0 < d) (ha : a < S ∨ (a = S ∧ (S : Int) * d = edge))
    (hb : b < S ∨ (b = S ∧ (S : Int) * d = edge)) (he : (S : Int) * d ≤ edge) :
    growAll S d edge [rect a b d] = .ok [rect S S d] := by
  simp only [growAll, rect, grow_grid hd ha he, grow_grid hd hb he, Res.ok_bind]

theorem merge_one (r : Region) : merge [r] = [r] := by simp [merge, absorb]

theorem rect_sound {a b : Nat} {d : Int} (hd : 0 < d) (ha : 0 < a) (hb : 0 < b) : Sound (rect a b d) :=
  ⟨grid_sorted a hd, grid_sorted b hd, by simp only [rect, grid_length]; omega, by simp only [rect, grid_length]; omega⟩

/-- The round of a rectangle inside the edge. -/
theorem round_rect {c : Setup} {S a b : Nat} {d : Int} (hS : c.step = S) (hd : 0 < d) (he : (S : Int) * (2 * d) ≤ c.edge)
    (ha : a < S) (hb : b < S) (hsl : ∀ zi, ∃ sl, slabs c.bots zi 0 1 c.top c.below = .ok sl) {s : State}
    (hf : s.filling = [rect (2 * a) (2 * b) d]) (hdl : s.delta = d) :
    ∃ s', round c s = .ok s' ∧ s'.filled = [rect a b (2 * d)] ∧ s'.filling = [rect S S (2 * d)] ∧ s'.delta = 2 * d ∧
      s'.zi = s.zi + 1 := by
  obtain ⟨sl, h1⟩ := hsl s.zi
  have hlt : ∀ k : Nat, k < S → ((2 * k : Nat) : Int) * d < c.edge := by
    intro k hk
    have : ((2 * k : Nat) : Int) * d = (k : Int) * (2 * d) := by push_cast; ring
    have : (k : Int) * (2 * d) < (S : Int) * (2 * d) := mul_lt_mul_of_pos_right (by omega) (by omega)
    omega
  have hpos : 0 < c.edge := by
    have := hlt a ha
    have : 0 ≤ ((2 * a : Nat) : Int) * d := by positivity
    omega
  refine ⟨⟨[rect a b (2 * d)], [rect S S (2 * d)], 2 * d, s.zi + 1,
    s.mesh ++ sl.flatMap (over s.filled s.filling s.zi)⟩, ?_, rfl, rfl, rfl, rfl⟩
  unfold round
  rw [h1, Res.ok_bind, hdl]
  conv_lhs => rw [hf, thinOut_rect hpos (hlt a ha) (hlt b hb), Res.ok_bind]
  dsimp only
  rw [hS, growAll_rect (by omega) (Or.inl ha) (Or.inl hb) he, Res.ok_bind, merge_one, hf]

/-- The round of a square at the edge. -/
theorem round_edge {c : Setup} {S : Nat} {d : Int} (hS : c.step = S) (hd : 0 < d) (he : (S : Int) * d = c.edge) (hp : 0 < S)
    (hsl : ∀ zi, ∃ sl, slabs c.bots zi 0 1 c.top c.below = .ok sl) {s : State} (hf : s.filling = [rect S S d]) (hdl : s.delta = d) :
    ∃ s', round c s = .ok s' ∧ s'.filled = [rect S S d] ∧ s'.filling = [rect S S d] ∧ s'.delta = d ∧ s'.zi = s.zi + 1 := by
  obtain ⟨sl, h1⟩ := hsl s.zi
  have hpos : 0 < c.edge := by rw [← he]; positivity
  refine ⟨⟨[rect S S d], [rect S S d], d, s.zi + 1, s.mesh ++ sl.flatMap (over s.filled s.filling s.zi)⟩, ?_, rfl, rfl, rfl, rfl⟩
  have ht : thinOut c.edge d [rect S S d] = .ok ([rect S S d], d) := by
    unfold thinOut
    rw [if_neg (by rw [isInside_rect hpos, he]; simp)]
  unfold round
  rw [h1, Res.ok_bind, hdl]
  conv_lhs => rw [hf, ht, Res.ok_bind]
  dsimp only
  rw [hS, growAll_rect hd (Or.inr ⟨rfl, he⟩) (Or.inr ⟨rfl, he⟩) he.le, Res.ok_bind, merge_one, hf]

theorem listXp_rect (a b : Nat) {d : Int} (hd : 0 < d) : listXp [rect a b d] = (a : Int) * d := by
  have : 0 ≤ (a : Int) * d := by positivity
  unfold listXp
  simp only [List.foldl_cons, List.foldl_nil, Region.xp, rect, grid_last]
  omega

theorem run_step {c : Setup} {s t s' : State} {fuel : Nat} (hg : goesOn c s = true) (hr : round c s = .ok t)
    (h : run c fuel t = some (.ok s')) : run c (fuel + 1) s = some (.ok s') := by
  rw [run, if_pos hg, hr]
  exact h

/-- At the edge the loop goes on until every stop has been reached. -/
theorem run_edge {c : Setup} {S : Nat} {d : Int} (hS : c.step = S) (hd : 0 < d) (he : (S : Int) * d = c.edge) (hp : 0 < S)
    (hsl : ∀ zi, ∃ sl, slabs c.bots zi 0 1 c.top c.below = .ok sl) (n : Nat) {s : State}
    (hn : (c.below.getLastD (0, 0)).2 + 1 - s.zi ≤ n) (hf : s.filling = [rect S S d]) (hdl : s.delta = d)
    (hfd : s.filled = [rect S S d]) :
    ∃ fuel s', run c fuel s = some (.ok s') ∧ s'.filled = [rect S S d] := by
  induction n generalizing s with
  | zero =>
    refine ⟨1, s, ?_, hfd⟩
    rw [run, if_neg]
    rw [goesOn, hfd, listXp_rect _ _ hd, he]
    simp only [lt_irrefl, decide_false, Bool.or_false, decide_eq_true_eq, not_le]
    omega
  | succ n ih =>
    by_cases hg : goesOn c s = true
    · obtain ⟨t, h1, h2, h3, h4, h5⟩ := round_edge hS hd he hp hsl hf hdl
      obtain ⟨fuel, s', k1, k2⟩ := ih (s := t) (by omega) h3 h4 h2
      exact ⟨fuel + 1, s', run_step hg h1 k1, k2⟩
    · refine ⟨1, s, ?_, hfd⟩
      rw [run, if_neg hg]

/-- From a square the loop ends with the square at the edge. -/
theorem run_square {c : Setup} {h : Nat} (hS : c.step = (2 * h : Nat)) (hp : 0 < h)
    (hsl : ∀ zi, ∃ sl, slabs c.bots zi 0 1 c.top c.below = .ok sl) (K : Nat) {d : Int} (hd : 0 < d)
    (he : ((2 * h : Nat) : Int) * (d * 2 ^ K) = c.edge) {s : State} (hf : s.filling = [rect (2 * h) (2 * h) d]) (hdl : s.delta = d)
    (hfd : listXp s.filled < c.edge) :
    ∃ fuel s', run c fuel s = some (.ok s') ∧ s'.filled = [rect (2 * h) (2 * h) (d * 2 ^ K)] := by
  induction K generalizing d s with
  | zero =>
    rw [pow_zero, mul_one] at he ⊢
    obtain ⟨t, h1, h2, h3, h4, h5⟩ := round_edge hS hd he (by omega) hsl hf hdl
    obtain ⟨fuel, s', k1, k2⟩ := run_edge hS hd he (by omega) hsl _ le_rfl h3 h4 h2
    refine ⟨fuel + 1, s', run_step ?_ h1 k1, k2⟩
    simp [goesOn, hfd]
  | succ K ih =>
    have e : d * 2 ^ (K + 1) = 2 * d * 2 ^ K := by ring
    rw [e] at he ⊢
    have hle : ((2 * h : Nat) : Int) * (2 * d) ≤ c.edge := by
      rw [← he]
      apply mul_le_mul_of_nonneg_left _ (by omega)
      have : (1 : Int) ≤ 2 ^ K := one_le_pow₀ (by omega)
      have := mul_le_mul_of_nonneg_left this (show 0 ≤ 2 * d by omega)
      omega
    obtain ⟨t, h1, h2, h3, h4, h5⟩ := round_rect hS hd hle (show h < 2 * h by omega) (show h < 2 * h by omega) hsl hf hdl
    have hlt : listXp t.filled < c.edge := by
      rw [h2, listXp_rect _ _ (by omega)]
      have : (h : Int) * (2 * d) < ((2 * h : Nat) : Int) * (2 * d) := mul_lt_mul_of_pos_right (by omega) (by omega)
      omega
    obtain ⟨fuel, s', k1, k2⟩ := ih (by omega) he h3 h4 hlt
    refine ⟨fuel + 1, s', run_step ?_ h1 k1, k2⟩
    simp [goesOn, hfd]

end OP.Fem.Outward
