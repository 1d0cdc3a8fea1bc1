import Verif.Fem.Stops
/-!
# C115: the stops in depth of a mesh
-/
namespace OP.Fem.Stops
open OP.Lin

variable {K : Type} [Field K] [LinearOrder K] [IsStrictOrderedRing K]

/-! ## The loops over the stops -/

omit [LinearOrder K] [IsStrictOrderedRing K] in
theorem rescale_at (e hl hs : K) {t b : Nat} (h : t ≤ b) (stop : Nat → K) (k : Nat) :
    rescale e hl hs t b stop k = if t ≤ k ∧ k < b then e - (stop b - stop k) * hl / hs else stop k := by
  have := loop_rule (f := fun j (s : Nat → K) => Lin.set s j (e - (s b - s j) * hl / hs)) (lo := t) (hi := b) (s := stop)
    (fun m s => ∀ k, s k = if t ≤ k ∧ k < m then e - (stop b - stop k) * hl / hs else stop k) h
    (by intro k; rw [if_neg (by omega)]) (by
      intro j s h1 h2 ih k
      by_cases hk : k = j
      · subst hk
        rw [Lin.set_same, if_pos (by omega), ih b, ih k, if_neg (by omega), if_neg (by omega)]
      · rw [Lin.set_ne _ _ hk, ih k]
        by_cases hc : t ≤ k ∧ k < j
        · rw [if_pos hc, if_pos (by omega)]
        · rw [if_neg hc, if_neg (by omega)])
  exact this k

omit [Field K] [IsStrictOrderedRing K] in
theorem search_spec (stop : Nat → K) (e : K) : ∀ m b, b ≤ search stop e m b ∧ search stop e m b ≤ b + m ∧
    (∀ k, b ≤ k → k < search stop e m b → stop k < e) ∧
    (search stop e m b < b + m → e ≤ stop (search stop e m b)) := by
  intro m
  induction m with
  | zero => intro b; exact ⟨le_refl _, le_refl _, fun k h1 h2 => absurd h2 (by simp only [search]; omega), fun h => absurd h (by simp only [search]; omega)⟩
  | succ m ih =>
    intro b
    unfold search
    by_cases hc : stop b < e
    · rw [if_pos hc]
      obtain ⟨h1, h2, h3, h4⟩ := ih (b + 1)
      refine ⟨by omega, by omega, fun k k1 k2 => ?_, fun h => h4 (by omega)⟩
      rcases Nat.eq_or_lt_of_le k1 with rfl | k1
      · exact hc
      · exact h3 k k1 k2
    · rw [if_neg hc]
      exact ⟨le_refl _, by omega, fun k k1 k2 => absurd k2 (by omega), fun _ => not_lt.1 hc⟩

/-- The stops increase from `t` to before `n`. -/
def Up (stop : Nat → K) (t n : Nat) : Prop := ∀ i j, t ≤ i → i < j → j < n → stop i < stop j

/-- The stops that a layer uses: from its top down to before its bottom; those below run again from its equivalent bottom
to the end. -/
theorem fit_spec {n : Nat} {zmax : K} {l : Layer K} {t b : Nat} {stop stop' : Nat → K} (hup : Up stop t n)
    (hz : stop (n - 1) = zmax) (hl : l.top < l.bot) (he : l.etop < l.ebot) (hm : l.ebot ≤ zmax)
    (h : fit n zmax l t stop = .ok (b, stop')) :
    t < b ∧ b < n ∧ (∀ k < t, stop' k = stop k) ∧ stop' t = l.top ∧ Up stop' t b ∧
      (∀ k, t ≤ k → k < b → stop' k < l.bot) ∧ (l.ebot < zmax → Up stop' b n) ∧ stop' (n - 1) = zmax ∧
      (l.ebot = zmax → b = n - 1) := by
  unfold fit at h
  split at h
  · cases h
  rename_i htn
  rw [not_not] at htn
  split at h
  · cases h
  rename_i hte
  rw [not_not] at hte
  have htl : t < n - 1 := by
    by_contra hc
    have : t = n - 1 := by omega
    rw [this, hz] at hte
    rw [hte] at hm
    exact absurd (lt_of_lt_of_le he hm) (lt_irrefl _)
  simp only at h
  obtain ⟨s1, s2, s3, s4⟩ := search_spec stop l.ebot (n - t) t
  generalize search stop l.ebot (n - t) t = r at h s1 s2 s3 s4
  split at h
  · cases h
  rename_i hrn
  rw [not_not] at hrn
  have s4 := s4 (by omega)
  have hrt : t < r := by
    rcases Nat.eq_or_lt_of_le s1 with rfl | h1
    · rw [hte] at s4
      exact absurd (lt_of_lt_of_le he s4) (lt_irrefl _)
    · exact h1
  split at h
  · omega
  obtain ⟨c, hcdef⟩ : ∃ c, (if |stop (r - 1) - l.ebot| < |l.ebot - stop r| then r - 1 else r) = c := ⟨_, rfl⟩
  have hcr : r - 1 ≤ c ∧ c ≤ r := by
    rw [← hcdef]
    split <;> omega
  have hclast : l.ebot = zmax → c = n - 1 := by
    intro e
    have hr : r = n - 1 := by
      by_contra hc
      have := hup r (n - 1) (by omega) (by omega) (by omega)
      rw [hz, ← e] at this
      exact absurd (lt_of_lt_of_le this s4) (lt_irrefl _)
    rw [← hcdef, if_neg, hr]
    rw [hr, hz, e, sub_self, abs_zero]
    exact not_lt.2 (abs_nonneg _)
  rw [hcdef] at h
  obtain ⟨d, hddef⟩ : ∃ d, (if c = t then t + 1 else c) = d := ⟨_, rfl⟩
  have hd : t < d ∧ d < n ∧ (c ≠ t → d = c) := by
    rw [← hddef]
    split <;> omega
  rw [hddef, if_neg (show ¬ d = n by omega)] at h
  have hs : 0 < stop d - stop t := sub_pos.2 (hup t d (le_refl _) hd.1 hd.2.1)
  have e1 := rescale_at l.bot (l.bot - l.top) (stop d - stop t) (Nat.le_of_lt hd.1) stop
  generalize rescale l.bot (l.bot - l.top) (stop d - stop t) t d stop = st1 at h e1
  split at h
  · cases h
  rename_i hst
  rw [not_not] at hst
  injection h with h
  injection h with hb h
  subst hb
  have e2 := rescale_at zmax (zmax - l.ebot) (st1 (n - 1) - st1 d) (show d ≤ n - 1 by omega) st1
  rw [h] at e2
  have low : ∀ k, t ≤ k → k < d → stop' k = l.bot - (stop d - stop k) * ((l.bot - l.top) / (stop d - stop t)) := by
    intro k k1 k2
    rw [e2, if_neg (by omega), e1, if_pos ⟨k1, k2⟩, mul_div_assoc]
  have pos : 0 < (l.bot - l.top) / (stop d - stop t) := div_pos (sub_pos.2 hl) hs
  have keep : ∀ k, d ≤ k → st1 k = stop k := fun k hk => by rw [e1, if_neg (by omega)]
  refine ⟨hd.1, hd.2.1, fun k hk => ?_, ?_, ?_, ?_, ?_, ?_, ?_⟩
  · rw [e2, if_neg (by omega), e1, if_neg (by omega)]
  · rw [low t (le_refl _) hd.1]
    have := hs.ne'
    field_simp
    ring
  · intro i j i1 i2 i3
    rw [low i i1 (by omega), low j (by omega) i3]
    have := mul_lt_mul_of_pos_right (hup i j i1 i2 (by omega)) pos
    linarith
  · intro k k1 k2
    rw [low k k1 k2]
    have := mul_pos (sub_pos.2 (hup k d k1 k2 hd.2.1)) pos
    linarith
  · intro hlt i j i1 i2 i3
    rcases Nat.lt_or_ge d (n - 1) with hdn | hdn
    · have hs2 : 0 < st1 (n - 1) - st1 d := by
        rw [keep _ (by omega), keep _ (le_refl _)]
        exact sub_pos.2 (hup d (n - 1) (by omega) hdn (by omega))
      have pos2 : 0 < (zmax - l.ebot) / (st1 (n - 1) - st1 d) := div_pos (sub_pos.2 hlt) hs2
      have hi : stop' i = zmax - (zmax - stop i) * ((zmax - l.ebot) / (st1 (n - 1) - st1 d)) := by
        rw [e2, if_pos ⟨i1, by omega⟩, mul_div_assoc, keep i i1, keep _ (by omega), hz]
      rw [hi]
      by_cases hj : j = n - 1
      · subst hj
        rw [e2, if_neg (by omega), hst]
        have := mul_pos (sub_pos.2 (hup i (n - 1) (by omega) i2 i3)) pos2
        rw [hz, hst] at this
        linarith
      · have hj' : stop' j = zmax - (zmax - stop j) * ((zmax - l.ebot) / (st1 (n - 1) - st1 d)) := by
          rw [e2, if_pos ⟨by omega, by omega⟩, mul_div_assoc, keep j (by omega), keep _ (by omega), hz]
        rw [hj']
        have := mul_lt_mul_of_pos_right (hup i j (by omega) i2 i3) pos2
        linarith
    · omega
  · rw [e2, if_neg (by omega), hst]
  · intro e
    have := hclast e
    rw [hd.2.2 (by omega), this]

/-- The layers lie on each other, down to `bot`, and in the same way the equivalent ones, down to `zmax`. -/
inductive Stack : List (Layer K) → K → K → K → K → Prop
  | one {l : Layer K} : l.top < l.bot → l.etop < l.ebot → Stack [l] l.top l.etop l.bot l.ebot
  | cons {l : Layer K} {ls : List (Layer K)} {bot zmax : K} : l.top < l.bot → l.etop < l.ebot →
      Stack ls l.bot l.ebot bot zmax → Stack (l :: ls) l.top l.etop bot zmax

theorem Stack.lt {ls : List (Layer K)} {top etop bot zmax : K} (h : Stack ls top etop bot zmax) :
    top < bot ∧ etop < zmax := by
  induction h with
  | one h1 h2 => exact ⟨h1, h2⟩
  | cons h1 h2 _ ih => exact ⟨lt_trans h1 ih.1, lt_trans h2 ih.2⟩

/-- All layers: the stops run from the top to before the bottom, and the top of every layer is one of them. -/
theorem fitAll_spec {n : Nat} {ls : List (Layer K)} {top etop bot zmax : K} (hs : Stack ls top etop bot zmax) :
    ∀ {t t' : Nat} {stop stop' : Nat → K}, Up stop t n → stop (n - 1) = zmax →
    fitAll n zmax ls t stop = .ok (t', stop') →
    t < n - 1 ∧ (∀ k < t, stop' k = stop k) ∧ stop' t = top ∧ Up stop' t (n - 1) ∧
      (∀ k, t ≤ k → k < n - 1 → stop' k < bot) ∧ ∀ l ∈ ls, ∃ k, t ≤ k ∧ k < n - 1 ∧ stop' k = l.top := by
  induction hs with
  | @one l h1 h2 =>
    intro t t' stop stop' hup hz h
    simp only [fitAll, Res.bind_eq_ok] at h
    obtain ⟨⟨b, st⟩, hf, h⟩ := h
    simp only [Res.ok.injEq, Prod.mk.injEq] at h
    obtain ⟨rfl, rfl⟩ := h
    obtain ⟨a1, a2, a3, a4, a5, a6, -, -, a9⟩ := fit_spec hup hz h1 h2 (le_refl _) hf
    have := a9 rfl
    subst this
    refine ⟨a1, a3, a4, a5, a6, ?_⟩
    intro l' hl'
    rw [List.mem_singleton] at hl'
    subst hl'
    exact ⟨t, le_refl _, a1, a4⟩
  | @cons l ls bot zmax h1 h2 hs ih =>
    intro t t' stop stop' hup hz h
    simp only [fitAll, Res.bind_eq_ok] at h
    obtain ⟨⟨b, st⟩, hf, h⟩ := h
    have hlt := hs.lt
    obtain ⟨a1, a2, a3, a4, a5, a6, a7, a8, -⟩ := fit_spec hup hz h1 h2 hlt.2.le hf
    obtain ⟨c1, c2, c3, c4, c5, c6⟩ := ih (a7 hlt.2) a8 h
    refine ⟨by omega, fun k hk => by rw [c2 k (by omega), a3 k hk], by rw [c2 t a1, a4], ?_, ?_, ?_⟩
    · intro i j i1 i2 i3
      by_cases hj : j < b
      · rw [c2 i (by omega), c2 j hj]
        exact a5 i j i1 i2 hj
      · by_cases hi : i < b
        · rw [c2 i hi]
          refine lt_of_lt_of_le (a6 i i1 hi) ?_
          rw [← c3]
          rcases Nat.eq_or_lt_of_le (show b ≤ j by omega) with rfl | hbj
          · exact le_refl _
          · exact (c4 b j (le_refl _) hbj i3).le
        · exact c4 i j (by omega) i2 i3
    · intro k k1 k2
      by_cases hk : k < b
      · rw [c2 k hk]
        exact lt_trans (a6 k k1 hk) hlt.1
      · exact c5 k (by omega) k2
    · intro l' hl'
      rcases List.mem_cons.1 hl' with rfl | hl'
      · exact ⟨t, le_refl _, by omega, by rw [c2 t a1, a4]⟩
      · obtain ⟨k, k1, k2, k3⟩ := c6 l' hl'
        exact ⟨k, by omega, k2, k3⟩

/-! ## The stops before they are scaled -/

/-- The stops that have been made: they increase from zero to `z`. -/
structure Made (z : K) (acc : List (K × Nat)) : Prop where
  up : (acc.map Prod.fst).Pairwise (· < ·)
  head : (acc.map Prod.fst).head? = some 0
  last : (acc.map Prod.fst).getLast? = some z

theorem Made.le {z : K} {acc : List (K × Nat)} (h : Made z acc) : ∀ x ∈ acc.map Prod.fst, x ≤ z := by
  intro x hx
  obtain ⟨l, hl⟩ := List.getLast?_eq_some_iff.1 h.last
  have hup := h.up
  rw [hl, List.pairwise_append] at hup
  rw [hl] at hx
  rcases List.mem_append.1 hx with hx | hx
  · exact (hup.2.2 x hx z (by simp)).le
  · rw [List.mem_singleton] at hx
    exact hx.le

theorem Made.add {z dz : K} {acc : List (K × Nat)} (h : Made z acc) (hd : 0 < dz) (zi : Nat) :
    Made (z + dz) (acc ++ [(z + dz, zi)]) := by
  refine ⟨?_, ?_, ?_⟩
  · rw [List.map_append, List.pairwise_append]
    refine ⟨h.up, by simp, fun x hx y hy => ?_⟩
    simp only [List.map_cons, List.map_nil, List.mem_singleton] at hy
    subst hy
    have := h.le x hx
    linarith
  · rw [List.map_append, List.head?_append, h.head]
    rfl
  · simp

theorem inner_spec {dz : K} (hd : 0 < dz) (zi : Nat) : ∀ (m : Nat) (z : K) (acc : List (K × Nat)), Made z acc →
    (3 - m : Nat) * dz ≤ z → m ≤ 3 → ∃ z' acc', inner dz zi (m + 1) z acc = some (z', acc') ∧ Made z' acc' ∧ 3 * dz ≤ z' := by
  intro m
  induction m with
  | zero =>
    intro z acc h hz _
    unfold inner
    rw [if_neg (by push_cast at hz; exact not_lt.2 hz)]
    exact ⟨z, acc, rfl, h, by push_cast at hz; exact hz⟩
  | succ m ih =>
    intro z acc h hz hm
    unfold inner
    by_cases hc : z < 3 * dz
    · rw [if_pos hc]
      refine ih _ _ (h.add hd zi) ?_ (by omega)
      have : ((3 - m : Nat) : K) = ((3 - (m + 1) : Nat) : K) + 1 := by
        rw [show 3 - m = 3 - (m + 1) + 1 by omega]
        push_cast
        ring
      rw [this]
      linarith
    · rw [if_neg hc]
      exact ⟨z, acc, rfl, h, not_lt.1 hc⟩

theorem outer_spec {r zmax : K} (hr : 0 < r) : ∀ (m : Nat) (z dz : K) (zi : Nat) (acc : List (K × Nat)), Made z acc →
    0 ≤ z → 0 < dz → (z < zmax → zmax ≤ 3 * (dz + (m : K) * r) ) →
    ∃ z' acc', outer r zmax (m + 2) z dz zi acc = some (z', acc') ∧ Made z' acc' ∧ zmax ≤ z' := by
  intro m
  induction m with
  | zero =>
    intro z dz zi acc h h0 hd hz
    unfold outer
    by_cases hc : z < zmax
    · rw [if_pos hc]
      obtain ⟨z', acc', e, h', hz'⟩ := inner_spec hd zi 3 z acc h (by simpa using h0) (le_refl _)
      rw [e]
      simp only
      have := hz hc
      have hle : zmax ≤ z' := by
        push_cast at this
        linarith
      unfold outer
      rw [if_neg (not_lt.2 hle)]
      exact ⟨z', acc', rfl, h', hle⟩
    · rw [if_neg hc]
      exact ⟨z, acc, rfl, h, not_lt.1 hc⟩
  | succ m ih =>
    intro z dz zi acc h h0 hd hz
    unfold outer
    by_cases hc : z < zmax
    · rw [if_pos hc]
      obtain ⟨z', acc', e, h', hz'⟩ := inner_spec hd zi 3 z acc h (by simpa using h0) (le_refl _)
      rw [e]
      simp only
      refine ih z' (dz + r) (zi + 1) acc' h' (by linarith) (by linarith) (fun _ => ?_)
      have := hz hc
      push_cast at this
      linarith
    · rw [if_neg hc]
      exact ⟨z, acc, rfl, h, not_lt.1 hc⟩

/-- **C115** The loops end, and make stops that increase from the surface to the given depth or below. -/
theorem C115_generate [Archimedean K] {r : K} (hr : 0 < r) (zmax : K) :
    ∃ fuel z acc, generate r zmax fuel = some (z, acc) ∧ zmax ≤ z ∧ (acc.map Prod.fst).Pairwise (· < ·) ∧
      (acc.map Prod.fst).head? = some 0 ∧ (acc.map Prod.fst).getLast? = some z := by
  obtain ⟨m, hm⟩ := Archimedean.arch zmax hr
  rw [nsmul_eq_mul] at hm
  obtain ⟨z, acc, e, h, hz⟩ := outer_spec (zmax := zmax) hr m 0 r 0 [(0, 0)] ⟨by simp, rfl, rfl⟩ (le_refl _) hr (fun hc => by
    have := mul_nonneg (Nat.cast_nonneg (α := K) m) hr.le
    linarith)
  exact ⟨m + 2, z, acc, e, hz, h.up, h.head, h.last⟩

theorem outer_made {r zmax : K} (hr : 0 < r) : ∀ (fuel : Nat) (z dz : K) (zi : Nat) (acc : List (K × Nat)) (z' : K)
    (acc' : List (K × Nat)), Made z acc → 0 ≤ z → 0 < dz → outer r zmax fuel z dz zi acc = some (z', acc') →
    Made z' acc' ∧ zmax ≤ z' := by
  intro fuel
  induction fuel with
  | zero => intro z dz zi acc z' acc' _ _ _ h; cases h
  | succ fuel ih =>
    intro z dz zi acc z' acc' h h0 hd he
    unfold outer at he
    by_cases hc : z < zmax
    · rw [if_pos hc] at he
      obtain ⟨w, accw, e, h', hz'⟩ := inner_spec hd zi 3 z acc h (by simpa using h0) (le_refl _)
      rw [e] at he
      exact ih w (dz + r) (zi + 1) accw z' acc' h' (by linarith) (by linarith) he
    · rw [if_neg hc] at he
      simp only [Option.some.injEq, Prod.mk.injEq] at he
      obtain ⟨rfl, rfl⟩ := he
      exact ⟨h, not_lt.1 hc⟩

/-! ## The stops of the layers -/

/-- The depth of the top of layer `i`. -/
def depth (gs : List (Given K)) (i : Nat) : K := ((gs.take i).map Given.h).sum

/-- A layer has some thickness and stiffness. -/
def Sound (g : Given K) : Prop := 0 < g.h ∧ 0 < g.emod

theorem equivalent_pos {cbrt : K → K} (hc : ∀ x, 0 < x → 0 < cbrt x) : ∀ (rest : List (Given K)) (g : Given K) (he : K),
    0 < g.emod → (∀ g ∈ rest, Sound g) → 0 < he → 0 < equivalent cbrt g rest he := by
  intro rest
  induction rest with
  | nil => intro g he _ _ h; exact h
  | cons g1 rest ih =>
    intro g he h0 hr h
    have h1 := (hr g1 (by simp)).2
    refine ih g1 _ h1 (fun g hg => hr g (by simp [hg])) (mul_pos h (hc _ ?_))
    have a : 0 < 1 + g1.v * g1.v := by nlinarith [mul_self_nonneg g1.v]
    have b : 0 < 1 + g.v * g.v := by nlinarith [mul_self_nonneg g.v]
    positivity

theorem layersFrom_stack {cbrt : K → K} (hc : ∀ x, 0 < x → 0 < cbrt x) : ∀ (gs : List (Given K)) (top etop : K),
    gs ≠ [] → (∀ g ∈ gs, Sound g) → ∃ last, (layersFrom cbrt gs top etop).getLast? = some last ∧
      last.bot = top + (gs.map Given.h).sum ∧ Stack (layersFrom cbrt gs top etop) top etop last.bot last.ebot := by
  intro gs
  induction gs with
  | nil => intro _ _ h; exact absurd rfl h
  | cons g gs ih =>
    intro top etop _ hg
    have hgg := hg g (by simp)
    have hp := equivalent_pos hc gs g g.h hgg.2 (fun g h => hg g (by simp [h])) hgg.1
    by_cases h0 : gs = []
    · subst h0
      refine ⟨⟨top, top + g.h, etop, etop + equivalent cbrt g [] g.h⟩, rfl, by simp, ?_⟩
      exact Stack.one (l := ⟨top, top + g.h, etop, etop + equivalent cbrt g [] g.h⟩) (by simpa using hgg.1) (by simpa using hp)
    · obtain ⟨last, h1, h2, h3⟩ := ih (top + g.h) (etop + equivalent cbrt g gs g.h) h0 (fun g h => hg g (by simp [h]))
      refine ⟨last, ?_, ?_, ?_⟩
      · unfold layersFrom
        simp only
        rw [List.getLast?_cons, h1]
        rfl
      · rw [h2, List.map_cons, List.sum_cons]
        ring
      · exact Stack.cons (l := ⟨top, top + g.h, etop, etop + equivalent cbrt g gs g.h⟩) (by simpa using hgg.1)
          (by simpa using hp) h3

omit [LinearOrder K] [IsStrictOrderedRing K] in
theorem layersFrom_top (cbrt : K → K) : ∀ (gs : List (Given K)) (top etop : K) (i : Nat), i < gs.length →
    ∃ l ∈ layersFrom cbrt gs top etop, l.top = top + depth gs i := by
  intro gs
  induction gs with
  | nil => intro _ _ _ h; simp at h
  | cons g gs ih =>
    intro top etop i hi
    unfold layersFrom
    simp only
    rcases i with _ | i
    · exact ⟨_, List.mem_cons_self, by simp [depth]⟩
    · obtain ⟨l, hl, e⟩ := ih (top + g.h) (etop + equivalent cbrt g gs g.h) i (by simpa using hi)
      refine ⟨l, List.mem_cons_of_mem _ hl, ?_⟩
      rw [e]
      simp only [depth, List.take_succ_cons, List.map_cons, List.sum_cons]
      ring

theorem range_map_up {f : Nat → K} {n : Nat} (h : Up f 0 n) : ((List.range n).map f).Pairwise (· < ·) := by
  rw [List.pairwise_iff_getElem]
  intro i j hi hj hij
  simp only [List.length_map, List.length_range] at hi hj
  simp only [List.getElem_map, List.getElem_range]
  exact h i j (by omega) hij hj

/-- What the loops leave, in terms of the functions above. -/
theorem stops_ok {cbrt : K → K} (hc : ∀ x, 0 < x → 0 < cbrt x) {gs : List (Given K)} (hne : gs ≠ [])
    (hg : ∀ g ∈ gs, Sound g) {r : K} (hr : 0 < r) {fuel : Nat} {sl : List K} {lv : List Nat}
    (h : stops cbrt gs r fuel = some (.ok (sl, lv))) :
    ∃ n z acc, ∃ f : Nat → K, ∃ last, generate r last.ebot fuel = some (z, acc) ∧ acc.length = n ∧ 1 < n ∧
      lv = limit (acc.map Prod.snd) ∧ sl = (List.range n).map f ∧ f 0 = 0 ∧ f (n - 1) = (gs.map Given.h).sum ∧ Up f 0 n ∧
      (layersFrom cbrt gs 0 0).getLast? = some last ∧ Stack (layersFrom cbrt gs 0 0) 0 0 last.bot last.ebot ∧
      ∀ l ∈ layersFrom cbrt gs 0 0, ∃ k < n - 1, f k = l.top := by
  obtain ⟨last, h1, h2, h3⟩ := layersFrom_stack hc gs 0 0 hne hg
  rw [zero_add] at h2
  unfold stops at h
  simp only [h1] at h
  cases hgen : generate r last.ebot fuel with
  | none => rw [hgen] at h; cases h
  | some p =>
    obtain ⟨z, acc⟩ := p
    rw [hgen] at h
    simp only [Option.some.injEq, Res.bind_eq_ok] at h
    obtain ⟨⟨t', stop'⟩, hf, h⟩ := h
    simp only [Res.ok.injEq, Prod.mk.injEq] at h
    obtain ⟨hm, hz⟩ := outer_made hr fuel 0 r 0 [(0, 0)] z acc ⟨by simp, rfl, rfl⟩ (le_refl _) hr hgen
    have hpos : 0 < last.ebot := h3.lt.2
    have hz0 : 0 < z := lt_of_lt_of_le hpos hz
    have hlen : (acc.map Prod.fst).length = acc.length := List.length_map ..
    have hup : Up (fun j => (acc.map Prod.fst).getD j 0 * last.ebot / z) 0 acc.length := by
      intro i j _ hij hj
      have := (List.pairwise_iff_getElem.1 hm.up) i j (by omega) (by omega) hij
      simp only
      rw [List.getD_eq_getElem?_getD, List.getD_eq_getElem?_getD, List.getElem?_eq_getElem (by omega),
        List.getElem?_eq_getElem (by omega)]
      exact div_lt_div_of_pos_right (mul_lt_mul_of_pos_right this hpos) hz0
    have hne' : acc ≠ [] := by
      rintro rfl
      have := hm.head
      simp at this
    have hl0 : 0 < acc.length := List.length_pos_iff.2 hne'
    have hlast : (fun j => (acc.map Prod.fst).getD j 0 * last.ebot / z) (acc.length - 1) = last.ebot := by
      have := hm.last
      rw [List.getLast?_eq_getElem?, hlen] at this
      simp only [List.getD_eq_getElem?_getD, this, Option.getD_some]
      rw [mul_comm, mul_div_assoc, div_self hz0.ne', mul_one]
    obtain ⟨c1, c2, c3, c4, c5, c6⟩ := fitAll_spec h3 hup hlast hf
    refine ⟨acc.length, z, acc, Lin.set stop' (acc.length - 1) last.bot, last, hgen, rfl, by omega, h.2.symm, h.1.symm,
      ?_, ?_, ?_, h1, h3, ?_⟩
    · rw [Lin.set_ne _ _ (by omega), c3]
    · rw [Lin.set_same, h2]
    · intro i j i1 i2 i3
      rw [Lin.set_ne _ _ (by omega)]
      by_cases hj : j = acc.length - 1
      · subst hj
        rw [Lin.set_same]
        exact c5 i i1 (by omega)
      · rw [Lin.set_ne _ _ hj]
        exact c4 i j i1 i2 (by omega)
    · intro l hl
      obtain ⟨k, -, k2, k3⟩ := c6 l hl
      exact ⟨k, k2, by rw [Lin.set_ne _ _ (by omega), k3]⟩

/-- **C115** If no assertion fails, the stops increase from the surface to the bottom of the last layer, and every
interface of the layers is one of them. -/
theorem C115_stops {cbrt : K → K} (hc : ∀ x, 0 < x → 0 < cbrt x) {gs : List (Given K)} (hne : gs ≠ [])
    (hg : ∀ g ∈ gs, Sound g) {r : K} (hr : 0 < r) {fuel : Nat} {sl : List K} {lv : List Nat}
    (h : stops cbrt gs r fuel = some (.ok (sl, lv))) :
    sl.Pairwise (· < ·) ∧ sl.head? = some 0 ∧ sl.getLast? = some (depth gs gs.length) ∧
      ∀ i ≤ gs.length, depth gs i ∈ sl := by
  obtain ⟨n, z, acc, f, last, h1, h2, h3, h4, h5, h6, h7, h8, h9, h10, h11⟩ := stops_ok hc hne hg hr h
  subst h5
  have e : depth gs gs.length = f (n - 1) := by rw [h7, depth, List.take_length]
  refine ⟨range_map_up h8, ?_, ?_, ?_⟩
  · rw [List.head?_eq_getElem?, List.getElem?_map, List.getElem?_range (by omega), Option.map_some, h6]
  · rw [List.getLast?_eq_getElem?, List.getElem?_map, List.length_map, List.length_range, List.getElem?_range (by omega),
      Option.map_some, e]
  · intro i hi
    rcases Nat.eq_or_lt_of_le hi with rfl | hi
    · rw [e, List.mem_map]
      exact ⟨n - 1, by rw [List.mem_range]; omega, rfl⟩
    · obtain ⟨l, hl, el⟩ := layersFrom_top cbrt gs 0 0 i hi
      obtain ⟨k, hk, ek⟩ := h11 l hl
      rw [List.mem_map]
      refine ⟨k, by rw [List.mem_range]; omega, ?_⟩
      rw [ek, el, zero_add]

omit [IsStrictOrderedRing K] in
/-- **C115** So that every element, from one stop to the next, lies in one layer. -/
theorem C115_inside {gs : List (Given K)} {sl : List K} (hup : sl.Pairwise (· < ·))
    (hh : sl.head? = some 0) (hl : sl.getLast? = some (depth gs gs.length)) (hi : ∀ i ≤ gs.length, depth gs i ∈ sl) {k : Nat}
    {a b : K} (ha : sl[k]? = some a) (hb : sl[k + 1]? = some b) :
    ∃ i < gs.length, depth gs i ≤ a ∧ b ≤ depth gs (i + 1) := by
  have hk1 := (List.getElem?_eq_some_iff.1 hb).1
  have mono : ∀ i j (hi : i < sl.length) (hj : j < sl.length), i < j → sl[i] < sl[j] := fun i j hi hj =>
    List.pairwise_iff_getElem.1 hup i j hi hj
  have ea : sl[k] = a := by
    rw [List.getElem?_eq_getElem (by omega)] at ha
    exact Option.some.inj ha
  have eb : sl[k + 1] = b := by
    rw [List.getElem?_eq_getElem hk1] at hb
    exact Option.some.inj hb
  have sep : ∀ x ∈ sl, x ≤ a ∨ b ≤ x := by
    intro x hx
    obtain ⟨j, hj, rfl⟩ := List.getElem_of_mem hx
    rcases Nat.lt_or_ge k j with hjk | hjk
    · right
      rw [← eb]
      rcases Nat.eq_or_lt_of_le (show k + 1 ≤ j by omega) with rfl | h
      · exact le_refl _
      · exact (mono _ _ hk1 hj h).le
    · left
      rw [← ea]
      rcases Nat.eq_or_lt_of_le hjk with rfl | h
      · exact le_refl _
      · exact (mono _ _ hj (by omega) h).le
  have hab : a < b := by
    rw [← ea, ← eb]
    exact mono _ _ (by omega) hk1 (by omega)
  have h0 : depth gs 0 ≤ a := by
    have e0 : sl[0]'(by omega) = 0 := by
      rw [List.head?_eq_getElem?, List.getElem?_eq_getElem (by omega)] at hh
      exact Option.some.inj hh
    rw [show depth gs 0 = 0 by simp [depth], ← e0, ← ea]
    rcases Nat.eq_zero_or_pos k with rfl | h
    · exact le_refl _
    · exact (mono _ _ (by omega) (by omega) h).le
  have hn : b ≤ depth gs gs.length := by
    have el : sl[sl.length - 1]'(by omega) = depth gs gs.length := by
      rw [List.getLast?_eq_getElem?, List.getElem?_eq_getElem (by omega)] at hl
      exact Option.some.inj hl
    rw [← el, ← eb]
    rcases Nat.eq_or_lt_of_le (show k + 1 ≤ sl.length - 1 by omega) with h | h
    · simp only [h]
      exact le_refl _
    · exact (mono _ _ hk1 (by omega) h).le
  have key : ∀ m ≤ gs.length, b ≤ depth gs m → ∃ i < m, depth gs i ≤ a ∧ b ≤ depth gs (i + 1) := by
    intro m
    induction m with
    | zero => intro _ hb; exact absurd (lt_of_lt_of_le hab (hb.trans h0)) (lt_irrefl _)
    | succ m ih =>
      intro hm hb
      rcases sep _ (hi m (by omega)) with h | h
      · exact ⟨m, by omega, h, hb⟩
      · obtain ⟨i, i1, i2⟩ := ih (by omega) h
        exact ⟨i, by omega, i2⟩
  exact key gs.length (le_refl _) hn

/-! ## Levels -/

theorem limitFrom_chain : ∀ (l : List Nat) (prev : Nat), (prev :: l).Pairwise (· ≤ ·) →
    (prev :: limitFrom prev l).IsChain (fun a b => a ≤ b ∧ b ≤ a + 1) := by
  intro l
  induction l with
  | nil => intro prev _; simp [limitFrom]
  | cons x l ih =>
    intro prev h
    unfold limitFrom
    simp only
    have hx : prev ≤ x := (List.pairwise_cons.1 h).1 x (by simp)
    have hl := (List.pairwise_cons.1 h).2
    rw [List.isChain_cons_cons]
    refine ⟨by split <;> omega, ?_⟩
    apply ih
    rw [List.pairwise_cons]
    refine ⟨fun y hy => ?_, (List.pairwise_cons.1 hl).2⟩
    have := (List.pairwise_cons.1 hl).1 y hy
    split <;> omega

omit [Field K] [LinearOrder K] [IsStrictOrderedRing K] in
theorem levels_add {acc : List (K × Nat)} {zi : Nat} (h : (acc.map Prod.snd).Pairwise (· ≤ ·))
    (hz : ∀ x ∈ acc.map Prod.snd, x ≤ zi) (a : K) :
    ((acc ++ [(a, zi)]).map Prod.snd).Pairwise (· ≤ ·) ∧ ∀ x ∈ (acc ++ [(a, zi)]).map Prod.snd, x ≤ zi := by
  rw [List.map_append]
  constructor
  · rw [List.pairwise_append]
    refine ⟨h, by simp, fun x hx y hy => ?_⟩
    simp only [List.map_cons, List.map_nil, List.mem_singleton] at hy
    subst hy
    exact hz x hx
  · intro x hx
    rcases List.mem_append.1 hx with hx | hx
    · exact hz x hx
    · simp only [List.map_cons, List.map_nil, List.mem_singleton] at hx
      exact hx.le

omit [IsStrictOrderedRing K] in
theorem inner_levels {dz : K} {zi : Nat} : ∀ (m : Nat) (z : K) (acc : List (K × Nat)) (z' : K) (acc' : List (K × Nat)),
    (acc.map Prod.snd).Pairwise (· ≤ ·) → (∀ x ∈ acc.map Prod.snd, x ≤ zi) → inner dz zi m z acc = some (z', acc') →
    (acc'.map Prod.snd).Pairwise (· ≤ ·) ∧ ∀ x ∈ acc'.map Prod.snd, x ≤ zi := by
  intro m
  induction m with
  | zero => intro z acc z' acc' _ _ h; cases h
  | succ m ih =>
    intro z acc z' acc' h hz he
    unfold inner at he
    by_cases hc : z < 3 * dz
    · rw [if_pos hc] at he
      obtain ⟨a, b⟩ := levels_add h hz (z + dz)
      exact ih _ _ _ _ a b he
    · rw [if_neg hc] at he
      simp only [Option.some.injEq, Prod.mk.injEq] at he
      obtain ⟨-, rfl⟩ := he
      exact ⟨h, hz⟩

omit [IsStrictOrderedRing K] in
theorem outer_levels {r zmax : K} : ∀ (m : Nat) (z dz : K) (zi : Nat) (acc : List (K × Nat)) (z' : K)
    (acc' : List (K × Nat)), (acc.map Prod.snd).Pairwise (· ≤ ·) → (∀ x ∈ acc.map Prod.snd, x ≤ zi) →
    outer r zmax m z dz zi acc = some (z', acc') → (acc'.map Prod.snd).Pairwise (· ≤ ·) := by
  intro m
  induction m with
  | zero => intro z dz zi acc z' acc' _ _ h; cases h
  | succ m ih =>
    intro z dz zi acc z' acc' h hz he
    unfold outer at he
    by_cases hc : z < zmax
    · rw [if_pos hc] at he
      cases hi : inner dz zi 4 z acc with
      | none => rw [hi] at he; cases he
      | some p =>
        obtain ⟨w, accw⟩ := p
        rw [hi] at he
        obtain ⟨a, b⟩ := inner_levels _ _ _ _ _ h hz hi
        exact ih _ _ _ _ _ _ a (fun x hx => by have := b x hx; omega) he
    · rw [if_neg hc] at he
      simp only [Option.some.injEq, Prod.mk.injEq] at he
      obtain ⟨-, rfl⟩ := he
      exact h

theorem limitFrom_length : ∀ (l : List Nat) (prev : Nat), (limitFrom prev l).length = l.length := by
  intro l
  induction l with
  | nil => intro _; rfl
  | cons x l ih => intro prev; simp [limitFrom, ih]

/-- **C115** Every stop has a level; the levels do not decrease with depth, and never by more than one from a stop to the
next. -/
theorem C115_levels {cbrt : K → K} (hc : ∀ x, 0 < x → 0 < cbrt x) {gs : List (Given K)} (hne : gs ≠ [])
    (hg : ∀ g ∈ gs, Sound g) {r : K} (hr : 0 < r) {fuel : Nat} {sl : List K} {lv : List Nat}
    (h : stops cbrt gs r fuel = some (.ok (sl, lv))) :
    lv.length = sl.length ∧ lv.IsChain (fun a b => a ≤ b ∧ b ≤ a + 1) := by
  obtain ⟨n, z, acc, f, last, h1, h2, h3, h4, h5, -⟩ := stops_ok hc hne hg hr h
  have hs := outer_levels fuel 0 r 0 [(0, 0)] z acc (by simp) (by simp) h1
  subst h4 h5 h2
  constructor
  · cases acc with
    | nil => simp at h3
    | cons p acc => simp [limit, limitFrom_length]
  · cases acc with
    | nil => simp at h3
    | cons p acc => exact limitFrom_chain _ _ hs

/-- The levels, whatever the loads and layers are: three elements of the size of the load, two of twice that, and one of each
size after. -/
def levelAt (i : Nat) : Nat := if i ≤ 3 then 0 else if i ≤ 5 then 1 else i - 4

theorem limitFrom_up : ∀ (l : List Nat) (prev : Nat), l.Pairwise (· < ·) → (∀ x ∈ l, prev + 1 ≤ x) →
    limitFrom prev l = (List.range l.length).map (fun i => prev + 1 + i) := by
  intro l
  induction l with
  | nil => intro prev _ _; rfl
  | cons x l ih =>
    intro prev h hx
    have h1 := hx x (by simp)
    have hp := List.pairwise_cons.1 h
    have e : (if x > prev + 1 then prev + 1 else x) = prev + 1 := by split <;> omega
    unfold limitFrom
    simp only [e]
    rw [ih (prev + 1) hp.2 (fun y hy => by have := hp.1 y hy; omega), List.length_cons, List.range_succ_eq_map, List.map_cons,
      List.map_map]
    congr 1
    refine List.map_congr_left fun i _ => ?_
    simp only [Function.comp_apply]
    omega

/-- A round that starts at twice its element size or more adds one stop or none. -/
theorem inner_one {dz : K} (zi : Nat) (z : K) (h : 2 * dz ≤ z) (acc : List (K × Nat)) :
    ∃ z' e, inner dz zi 4 z acc = some (z', acc ++ e) ∧ 3 * dz ≤ z' ∧ (e = [] ∨ ∃ a, e = [(a, zi)]) := by
  by_cases h3 : z < 3 * dz
  · refine ⟨z + dz, [(z + dz, zi)], ?_, by linarith, Or.inr ⟨_, rfl⟩⟩
    rw [inner, if_pos h3, inner, if_neg (by linarith)]
  · exact ⟨z, [], by rw [inner, if_neg h3, List.append_nil], by linarith, Or.inl rfl⟩

theorem outer_up {r zmax : K} (hr : 0 < r) : ∀ (m : Nat) (z dz : K) (zi : Nat) (acc : List (K × Nat)) (z' : K)
    (acc' : List (K × Nat)), 3 * r ≤ dz → 3 * (dz - r) ≤ z → outer r zmax m z dz zi acc = some (z', acc') →
    ∃ e, acc' = acc ++ e ∧ (e.map Prod.snd).Pairwise (· < ·) ∧ ∀ x ∈ e.map Prod.snd, zi ≤ x := by
  intro m
  induction m with
  | zero => intro z dz zi acc z' acc' _ _ h; cases h
  | succ m ih =>
    intro z dz zi acc z' acc' h1 h2 h
    unfold outer at h
    by_cases hc : z < zmax
    · rw [if_pos hc] at h
      obtain ⟨w, e, he, hw, ho⟩ := inner_one (dz := dz) zi z (by linarith) acc
      rw [he] at h
      obtain ⟨e', rfl, hp, hz⟩ := ih w (dz + r) (zi + 1) (acc ++ e) z' acc' (by linarith) (by linarith) h
      refine ⟨e ++ e', by rw [List.append_assoc], ?_, ?_⟩
      · rcases ho with rfl | ⟨a, rfl⟩
        · exact hp
        · rw [List.singleton_append, List.map_cons, List.pairwise_cons]
          exact ⟨fun x hx => by have := hz x hx; simp only; omega, hp⟩
      · intro x hx
        rcases ho with rfl | ⟨a, rfl⟩
        · have := hz x hx; omega
        · rw [List.singleton_append, List.map_cons, List.mem_cons] at hx
          rcases hx with rfl | hx
          · exact le_refl _
          · have := hz x hx; omega
    · rw [if_neg hc] at h
      simp only [Option.some.injEq, Prod.mk.injEq] at h
      exact ⟨[], by rw [List.append_nil, h.2], by simp, by simp⟩

theorem outer_exact {r zmax : K} (hr : 0 < r) (hz : 0 < zmax) {m : Nat} {z : K} {acc : List (K × Nat)}
    (h : outer r zmax m 0 r 0 [(0, 0)] = some (z, acc)) :
    limit (acc.map Prod.snd) = (List.range acc.length).map levelAt := by
  have i0 : inner r 0 4 0 [((0 : K), 0)] = some (0 + r + r + r, [(0, 0), (0 + r, 0), (0 + r + r, 0), (0 + r + r + r, 0)]) := by
    rw [inner, if_pos (by linarith), inner, if_pos (by linarith), inner, if_pos (by linarith), inner, if_neg (by linarith)]
    rfl
  cases m with
  | zero => cases h
  | succ m =>
    rw [outer, if_pos hz, i0] at h
    simp only at h
    cases m with
    | zero => cases h
    | succ m =>
      rw [outer] at h
      by_cases h1 : 0 + r + r + r < zmax
      · rw [if_pos h1, inner, if_pos (by linarith), inner, if_pos (by linarith), inner, if_neg (by linarith)] at h
        simp only at h
        obtain ⟨e, rfl, hp, hx⟩ := outer_up hr m _ _ _ _ _ _ (by linarith) (by linarith) h
        have hl := limitFrom_up (e.map Prod.snd) 1 hp hx
        have hm : ∀ xs : List Nat, limit ([0, 0, 0, 0, 1, 1] ++ xs) = [0, 0, 0, 0, 1, 1] ++ limitFrom 1 xs := fun _ => rfl
        rw [List.map_append]
        refine (hm _).trans ?_
        rw [hl]
        apply List.ext_getElem
        · simp
        · intro i a b
          rcases i with _ | _ | _ | _ | _ | _ | i
          · simp [levelAt]
          · simp [levelAt]
          · simp [levelAt]
          · simp [levelAt]
          · simp [levelAt]
          · simp [levelAt]
          · have : levelAt (i + 1 + 1 + 1 + 1 + 1 + 1) = 1 + 1 + i := by
              unfold levelAt
              rw [if_neg (by omega), if_neg (by omega)]
              omega
            simp [this]
      · rw [if_neg h1] at h
        simp only [Option.some.injEq, Prod.mk.injEq] at h
        rw [← h.2]
        rfl

/-- **C115** The levels are exactly these. -/
theorem C115_levels_exact {cbrt : K → K} (hc : ∀ x, 0 < x → 0 < cbrt x) {gs : List (Given K)} (hne : gs ≠ [])
    (hg : ∀ g ∈ gs, Sound g) {r : K} (hr : 0 < r) {fuel : Nat} {sl : List K} {lv : List Nat}
    (h : stops cbrt gs r fuel = some (.ok (sl, lv))) :
    lv = (List.range sl.length).map levelAt := by
  obtain ⟨hlen, -⟩ := C115_levels hc hne hg hr h
  obtain ⟨n, z, acc, f, last, h1, h2, h3, h4, h5, h6⟩ := stops_ok hc hne hg hr h
  have hb : 0 < last.ebot := h6.2.2.2.2.1.lt.2
  have := outer_exact hr hb h1
  subst h5
  rw [h4, this, List.length_map, List.length_range, h2]

/-! ## When there are too few stops -/

/-- As long as stops are left, no assertion fails. -/
theorem fit_total {n : Nat} {zmax : K} {l : Layer K} {t : Nat} {stop : Nat → K} (hup : Up stop t n)
    (hz : stop (n - 1) = zmax) (he : l.etop < l.ebot) (hm : l.ebot ≤ zmax) (ht : t < n - 1) (hte : stop t = l.etop) :
    ∃ b stop', fit n zmax l t stop = .ok (b, stop') ∧ (b < n - 1 → stop' b = l.ebot) := by
  unfold fit
  rw [if_neg (show ¬ ¬ t < n by omega), if_neg (show ¬ stop t ≠ l.etop from fun h => h hte)]
  simp only
  obtain ⟨s1, s2, s3, s4⟩ := search_spec stop l.ebot (n - t) t
  generalize search stop l.ebot (n - t) t = r at s1 s2 s3 s4
  have hrn : r < n := by
    by_contra hc
    have := s3 (n - 1) (by omega) (by omega)
    rw [hz] at this
    exact absurd (lt_of_lt_of_le this hm) (lt_irrefl _)
  have s4 := s4 (by omega)
  have hrt : t < r := by
    rcases Nat.eq_or_lt_of_le s1 with rfl | h1
    · rw [hte] at s4
      exact absurd (lt_of_lt_of_le he s4) (lt_irrefl _)
    · exact h1
  rw [if_neg (show ¬ ¬ r < n by omega), if_neg (show ¬ r = 0 by omega)]
  obtain ⟨c, hcdef⟩ : ∃ c, (if |stop (r - 1) - l.ebot| < |l.ebot - stop r| then r - 1 else r) = c := ⟨_, rfl⟩
  have hcr : r - 1 ≤ c ∧ c ≤ r := by
    rw [← hcdef]
    split <;> omega
  rw [hcdef]
  obtain ⟨d, hddef⟩ : ∃ d, (if c = t then t + 1 else c) = d := ⟨_, rfl⟩
  have hd : t < d ∧ d < n := by
    rw [← hddef]
    split <;> omega
  rw [hddef, if_neg (show ¬ d = n by omega)]
  have e1 := rescale_at l.bot (l.bot - l.top) (stop d - stop t) (Nat.le_of_lt hd.1) stop
  generalize rescale l.bot (l.bot - l.top) (stop d - stop t) t d stop = st1 at e1
  have hlast : st1 (n - 1) = zmax := by rw [e1, if_neg (by omega), hz]
  rw [if_neg (show ¬ st1 (n - 1) ≠ zmax from fun h => h hlast)]
  refine ⟨d, _, rfl, fun hdn => ?_⟩
  rw [rescale_at _ _ _ (show d ≤ n - 1 by omega), if_pos ⟨le_refl _, hdn⟩]
  have : st1 (n - 1) - st1 d ≠ 0 := by
    rw [e1, e1, if_neg (by omega), if_neg (by omega)]
    exact (sub_pos.2 (hup d (n - 1) (by omega) hdn (by omega))).ne'
  rw [mul_comm, mul_div_assoc, div_self this]
  ring

/-- **C115** The stops of a single layer are always found.  (With more, the only way to fail is to run out of stops:
`fit_total`.) -/
theorem C115_one [Archimedean K] {cbrt : K → K} {g : Given K} (hg : Sound g) {r : K} (hr : 0 < r) :
    ∃ fuel sl lv, stops cbrt [g] r fuel = some (.ok (sl, lv)) := by
  have hpos : 0 < 0 + g.h := by simpa using hg.1
  obtain ⟨fuel, z, acc, h1, h2, h3, h4, h5⟩ := C115_generate hr (0 + g.h)
  have hz0 : 0 < z := lt_of_lt_of_le hpos h2
  have hlen : (acc.map Prod.fst).length = acc.length := List.length_map ..
  have hup : Up (fun j => (acc.map Prod.fst).getD j 0 * (0 + g.h) / z) 0 acc.length := by
    intro i j _ hij hj
    have := (List.pairwise_iff_getElem.1 h3) i j (by omega) (by omega) hij
    simp only
    rw [List.getD_eq_getElem?_getD, List.getD_eq_getElem?_getD, List.getElem?_eq_getElem (by omega),
      List.getElem?_eq_getElem (by omega)]
    exact div_lt_div_of_pos_right (mul_lt_mul_of_pos_right this hpos) hz0
  have hlast : (fun j => (acc.map Prod.fst).getD j 0 * (0 + g.h) / z) (acc.length - 1) = 0 + g.h := by
    rw [List.getLast?_eq_getElem?, hlen] at h5
    simp only [List.getD_eq_getElem?_getD, h5, Option.getD_some]
    rw [mul_comm, mul_div_assoc, div_self hz0.ne', mul_one]
  have hfirst : (fun j => (acc.map Prod.fst).getD j 0 * (0 + g.h) / z) 0 = 0 := by
    rw [List.head?_eq_getElem?] at h4
    simp only [List.getD_eq_getElem?_getD, h4, Option.getD_some, zero_mul, zero_div]
  have hn : 0 < acc.length - 1 := by
    by_contra hc
    have h0 : acc.length - 1 = 0 := by omega
    rw [h0, hfirst] at hlast
    rw [← hlast] at hpos
    exact lt_irrefl _ hpos
  obtain ⟨b, st, hf, -⟩ := fit_total (l := ⟨0, 0 + g.h, 0, 0 + g.h⟩) hup hlast hpos (le_refl _) hn hfirst
  refine ⟨fuel, (List.range acc.length).map (Lin.set st (acc.length - 1) (0 + g.h)), limit (acc.map Prod.snd), ?_⟩
  · unfold stops
    simp only [layersFrom, equivalent, List.getLast?_singleton, h1, fitAll, hf, Res.ok_bind]

/-- **C115** A load whose radius is a third of the equivalent thickness or more makes three elements only; with more than
three layers no stops are found: an assertion fails. -/
theorem C115_few_wrong {cbrt : K → K} (hc : ∀ x, 0 < x → 0 < cbrt x) {gs : List (Given K)} (hn : 3 < gs.length)
    (hg : ∀ g ∈ gs, Sound g) {r : K} (hr : 0 < r)
    (hz : ∀ l ∈ layersFrom cbrt gs 0 0, l.ebot ≤ 3 * r) (fuel : Nat) (sl : List K) (lv : List Nat) :
    stops cbrt gs r fuel ≠ some (.ok (sl, lv)) := by
  intro h
  have hne : gs ≠ [] := by
    rintro rfl
    simp at hn
  obtain ⟨n, z, acc, f, last, h1, h2, h3, h4, h5, h6, h7, h8, h9, h10, h11⟩ := stops_ok hc hne hg hr h
  have hl := hz last (List.mem_of_getLast? h9)
  have h0 := h10.lt.2
  have hn4 : n = 4 := by
    unfold generate at h1
    rcases fuel with _ | _ | fuel
    · cases h1
    · unfold outer at h1
      rw [if_pos h0] at h1
      cases hi : inner r 0 4 0 [(0, 0)] with
      | none => rw [hi] at h1; cases h1
      | some p => rw [hi] at h1; simp only [outer] at h1; cases h1
    · unfold outer at h1
      rw [if_pos h0] at h1
      have e : inner r 0 4 0 [(0, 0)] = some (0 + r + r + r, [(0, 0), (0 + r, 0), (0 + r + r, 0), (0 + r + r + r, 0)]) := by
        unfold inner
        rw [if_pos (by linarith)]
        unfold inner
        rw [if_pos (by linarith)]
        unfold inner
        rw [if_pos (by linarith)]
        unfold inner
        rw [if_neg (by linarith)]
        rfl
      rw [e] at h1
      simp only at h1
      unfold outer at h1
      rw [if_neg (by linarith)] at h1
      simp only [Option.some.injEq, Prod.mk.injEq] at h1
      rw [← h2, ← h1.2]
      rfl
  subst hn4
  have hnd : ((List.range gs.length).map (depth gs)).Nodup := by
    refine List.Pairwise.imp (fun h => ne_of_lt h) (range_map_up (f := depth gs) ?_)
    intro i j _ hij hj
    clear h h1 h4 h9 h10 h11 hz
    induction j, hij using Nat.le_induction with
    | base =>
      have hi : i < gs.length := by omega
      have hp := (hg gs[i] (List.getElem_mem _)).1
      simp only [depth]
      rw [List.take_succ_eq_append_getElem hi, List.map_append, List.sum_append]
      simpa using hp
    | succ j hj' ih =>
      have hi : j < gs.length := by omega
      have hp := (hg gs[j] (List.getElem_mem _)).1
      refine lt_trans (ih (by omega)) ?_
      simp only [depth]
      rw [List.take_succ_eq_append_getElem hi, List.map_append, List.sum_append]
      simpa using hp
  have hsub : (List.range gs.length).map (depth gs) ⊆ (List.range 3).map f := by
    intro x hx
    rw [List.mem_map] at hx
    obtain ⟨i, hi, rfl⟩ := hx
    rw [List.mem_range] at hi
    obtain ⟨l, hl, el⟩ := layersFrom_top cbrt gs 0 0 i hi
    obtain ⟨k, hk, ek⟩ := h11 l hl
    rw [List.mem_map]
    exact ⟨k, by rw [List.mem_range]; omega, by rw [ek, el, zero_add]⟩
  have := (List.subperm_of_subset hnd hsub).length_le
  simp at this
  omega

/-! ## The thin elements -/

omit [IsStrictOrderedRing K] in
theorem find_eq {A B : List K} {z : K} {b : Nat} (hb : b ≤ A.length) (hA : ∀ a ∈ A, a < z) :
    find (A ++ z :: B) z b = A.length := by
  unfold find
  rw [List.drop_append_of_le_length hb]
  have : ((A.drop b ++ z :: B).takeWhile (fun x => decide (x < z))) = A.drop b := by
    rw [List.takeWhile_append_of_pos]
    · simp
    · intro a ha
      simp only [decide_eq_true_eq]
      exact hA a (List.mem_of_mem_drop ha)
  rw [this, List.length_drop]
  omega

omit [Field K] [IsStrictOrderedRing K] in
theorem split_at {stop : List K} (hs : stop.Pairwise (· < ·)) {z : K} (hz : z ∈ stop) :
    ∃ A B, stop = A ++ z :: B ∧ (∀ a ∈ A, a < z) ∧ ∀ b ∈ B, z < b := by
  obtain ⟨A, B, rfl⟩ := List.append_of_mem hz
  rw [List.pairwise_append, List.pairwise_cons] at hs
  exact ⟨A, B, rfl, fun a ha => hs.2.2 a ha z (by simp), hs.2.1.1⟩

omit [Field K] [LinearOrder K] [IsStrictOrderedRing K] in
theorem insert_at (A B : List K) (z w : K) :
    (A ++ z :: B).insertIdx A.length w = A ++ w :: z :: B ∧ (A ++ z :: B).insertIdx (A.length + 1) w = A ++ z :: w :: B := by
  induction A with
  | nil => exact ⟨rfl, rfl⟩
  | cons a A ih => exact ⟨by simp [ih.1], by simp [ih.2]⟩

/-- What is added at the bottom `z` of layer `i`. -/
def added (i : Nat) (z x : K) : Prop := ((i = 0 ∨ i = 1) ∧ x = z - 3) ∨ (i = 2 ∧ x = z + 3)

/-- There is space for it. -/
def Space (stop : List K) (i : Nat) (z : K) : Prop :=
  ((i = 0 ∨ i = 1) → ∀ x ∈ stop, ¬ (z - 3 ≤ x ∧ x < z)) ∧ (i = 2 → ∀ x ∈ stop, ¬ (z < x ∧ x ≤ z + 3))

theorem thin_spec {z : K} {i b : Nat} {A B : List K} {level : List Nat} (hs : (A ++ z :: B).Pairwise (· < ·))
    (hsp : Space (A ++ z :: B) i z) (hb : b ≤ A.length) (hA : A ≠ []) (hB : B ≠ [])
    (hl : level.length = (A ++ z :: B).length) :
    ∃ stop' level', thin z i b (A ++ z :: B) level = .ok (A.length, stop', level') ∧ stop'.Pairwise (· < ·) ∧
      level'.length = stop'.length ∧ (∀ x, x ∈ stop' ↔ x ∈ A ++ z :: B ∨ added i z x) ∧
      stop'.take A.length = A := by
  have hs' := hs
  rw [List.pairwise_append, List.pairwise_cons] at hs'
  obtain ⟨h1, ⟨h2, h3⟩, h4⟩ := hs'
  have hAz : ∀ a ∈ A, a < z := fun a ha => h4 a ha z (by simp)
  have hA0 : 0 < A.length := List.length_pos_iff.2 hA
  have hB0 : 0 < B.length := List.length_pos_iff.2 hB
  simp only [List.length_append, List.length_cons] at hl
  have hget : (A ++ z :: B)[A.length]? = some z := by simp
  unfold thin
  simp only [find_eq hb hAz]
  by_cases hi : i = 0 ∨ i = 1
  · rw [if_pos hi, hget, List.getElem?_eq_getElem (show A.length + 1 < level.length by omega)]
    have hsp' := hsp.1 hi
    have hz3 : ∀ a ∈ A, a < z - 3 := by
      intro a ha
      by_contra hc
      exact hsp' a (by simp [ha]) ⟨not_lt.1 hc, hAz a ha⟩
    refine ⟨_, _, rfl, ?_, ?_, ?_, ?_⟩
    · rw [(insert_at A B z (z - 3)).1, List.pairwise_append, List.pairwise_cons, List.pairwise_cons]
      refine ⟨h1, ⟨?_, h2, h3⟩, ?_⟩
      · intro x hx
        rcases List.mem_cons.1 hx with rfl | hx
        · linarith
        · have := h2 x hx
          linarith
      · intro a ha x hx
        rcases List.mem_cons.1 hx with rfl | hx
        · exact hz3 a ha
        · exact h4 a ha x hx
    · rw [(insert_at A B z (z - 3)).1, List.length_insertIdx_of_le_length (by simp; omega)]
      simp
      omega
    · intro x
      rw [(insert_at A B z (z - 3)).1]
      have : added i z x ↔ x = z - 3 := by
        unfold added
        constructor
        · rintro (⟨_, h⟩ | ⟨h, _⟩)
          · exact h
          · omega
        · exact fun h => Or.inl ⟨hi, h⟩
      rw [this]
      simp only [List.mem_append, List.mem_cons]
      tauto
    · rw [(insert_at A B z (z - 3)).1]
      simp
  · rw [if_neg hi]
    by_cases hi2 : i = 2
    · rw [if_pos hi2, hget]
      obtain ⟨m, hm⟩ : ∃ m, A.length = m + 1 := ⟨A.length - 1, by omega⟩
      have hzB : ∀ x ∈ B, z + 3 < x := by
        intro x hx
        by_contra hc
        exact hsp.2 hi2 x (by simp [hx]) ⟨h2 x hx, not_lt.1 hc⟩
      rw [hm]
      simp only
      rw [List.getElem?_eq_getElem (show m < level.length by omega)]
      rw [← hm]
      refine ⟨_, _, rfl, ?_, ?_, ?_, ?_⟩
      · rw [(insert_at A B z (z + 3)).2, List.pairwise_append, List.pairwise_cons, List.pairwise_cons]
        refine ⟨h1, ⟨?_, hzB, h3⟩, ?_⟩
        · intro x hx
          rcases List.mem_cons.1 hx with rfl | hx
          · linarith
          · exact h2 x hx
        · intro a ha x hx
          rcases List.mem_cons.1 hx with rfl | hx
          · exact hAz a ha
          · rcases List.mem_cons.1 hx with rfl | hx
            · have := hAz a ha
              linarith
            · exact h4 a ha x (by simp [hx])
      · rw [(insert_at A B z (z + 3)).2, List.length_insertIdx_of_le_length (by omega)]
        simp
        omega
      · intro x
        rw [(insert_at A B z (z + 3)).2]
        have : added i z x ↔ x = z + 3 := by
          unfold added
          constructor
          · rintro (⟨h, _⟩ | ⟨_, h⟩)
            · exact absurd h hi
            · exact h
          · exact fun h => Or.inr ⟨hi2, h⟩
        rw [this]
        simp only [List.mem_append, List.mem_cons]
        tauto
      · rw [(insert_at A B z (z + 3)).2]
        simp
    · rw [if_neg hi2]
      refine ⟨_, _, rfl, hs, by simp; omega, fun x => ?_, by simp⟩
      have : ¬ added i z x := by
        rintro (⟨h, _⟩ | ⟨h, _⟩)
        · exact hi h
        · exact hi2 h
      simp [this]

/-- **C115** Where there is space, a thin element is added above each of the first two interfaces and below the third, and
the stops still increase. -/
theorem C115_thin_partial : ∀ (zs : List K) (i b : Nat) (stop : List K) (level : List Nat), stop.Pairwise (· < ·) →
    zs.Pairwise (· < ·) → (∀ z ∈ zs, z ∈ stop) → (∃ x ∈ stop, ∀ z ∈ zs, x < z) → (∃ x ∈ stop, ∀ z ∈ zs, z < x) →
    (∀ j z, zs[j]? = some z → Space stop (i + j) z) → level.length = stop.length →
    (∀ x ∈ stop.take b, ∀ z ∈ zs, x < z) → b ≤ stop.length →
    ∃ stop' level', thinAll zs i b stop level = .ok (stop', level') ∧ stop'.Pairwise (· < ·) ∧
      level'.length = stop'.length ∧
      ∀ x, x ∈ stop' ↔ x ∈ stop ∨ ∃ j z, zs[j]? = some z ∧ added (i + j) z x := by
  intro zs
  induction zs with
  | nil =>
    intro i b stop level hs _ _ _ _ _ hl _ _
    exact ⟨stop, level, rfl, hs, hl, fun x => by simp⟩
  | cons z zs ih =>
    intro i b stop level hs hzs hin hlo hhi hsp hl hb hbl
    obtain ⟨A, B, rfl, hA, hB⟩ := split_at hs (hin z (by simp))
    obtain ⟨lo, lo1, lo2⟩ := hlo
    obtain ⟨hi, hi1, hi2⟩ := hhi
    have hAne : A ≠ [] := by
      rintro rfl
      have h1 := lo2 z (by simp)
      rcases List.mem_append.1 lo1 with h | h
      · simp at h
      · rcases List.mem_cons.1 h with rfl | h
        · exact lt_irrefl _ h1
        · exact lt_asymm h1 (hB _ h)
    have hBne : B ≠ [] := by
      rintro rfl
      have h1 := hi2 z (by simp)
      rcases List.mem_append.1 hi1 with h | h
      · exact lt_asymm h1 (hA _ h)
      · rw [List.mem_singleton] at h
        exact lt_irrefl _ (h ▸ h1)
    have hbA : b ≤ A.length := by
      by_contra hc
      have : z ∈ (A ++ z :: B).take b := by
        rw [List.take_append]
        apply List.mem_append_right
        obtain ⟨m, hm⟩ : ∃ m, b - A.length = m + 1 := ⟨b - A.length - 1, by omega⟩
        rw [hm, List.take_succ_cons]
        simp
      exact lt_irrefl _ (hb z this z (by simp))
    have hsp0 := hsp 0 z rfl
    rw [Nat.add_zero] at hsp0
    obtain ⟨s1, l1, e1, e2, e3, e4, e5⟩ := thin_spec hs hsp0 hbA hAne hBne hl
    unfold thinAll
    rw [e1]
    simp only [Res.ok_bind]
    have hzz : ∀ w ∈ zs, z < w := (List.pairwise_cons.1 hzs).1
    have hold : ∀ x, x ∈ A ++ z :: B → x ∈ s1 := fun x hx => (e4 x).2 (Or.inl hx)
    have hnew : ∀ j w, zs[j]? = some w → Space s1 (i + 1 + j) w := by
      intro j w hw
      have h0 := hsp (j + 1) w (by simpa using hw)
      rw [show i + (j + 1) = i + 1 + j by omega] at h0
      have hzw := hzz w (List.mem_of_getElem? hw)
      constructor
      · intro hj x hx hc
        rcases (e4 x).1 hx with hx | hx
        · exact h0.1 hj x hx hc
        · rcases hx with ⟨_, rfl⟩ | ⟨h, _⟩
          · linarith [hc.1]
          · omega
      · intro hj x hx hc
        rcases (e4 x).1 hx with hx | hx
        · exact h0.2 hj x hx hc
        · rcases hx with ⟨_, rfl⟩ | ⟨h, _⟩
          · linarith [hc.1]
          · omega
    have hlen : A.length ≤ s1.length := by
      have := congrArg List.length e5
      rw [List.length_take] at this
      omega
    obtain ⟨s2, l2, f1, f2, f3, f4⟩ := ih (i + 1) A.length s1 l1 e2 (List.pairwise_cons.1 hzs).2
      (fun w hw => hold w (hin w (by simp [hw]))) ⟨lo, hold lo lo1, fun w hw => lo2 w (by simp [hw])⟩
      ⟨hi, hold hi hi1, fun w hw => hi2 w (by simp [hw])⟩ hnew e3
      (fun x hx w hw => by rw [e5] at hx; exact lt_trans (hA x hx) (hzz w hw)) hlen
    refine ⟨s2, l2, f1, f2, f3, fun x => ?_⟩
    rw [f4, e4]
    constructor
    · rintro ((h | h) | ⟨j, w, h1, h2⟩)
      · exact Or.inl h
      · exact Or.inr ⟨0, z, rfl, by simpa using h⟩
      · exact Or.inr ⟨j + 1, w, by simpa using h1, by rw [show i + (j + 1) = i + 1 + j by omega]; exact h2⟩
    · rintro (h | ⟨j, w, h1, h2⟩)
      · exact Or.inl (Or.inl h)
      · rcases j with _ | j
        · simp only [List.getElem?_cons_zero, Option.some.injEq] at h1
          subst h1
          exact Or.inl (Or.inr (by simpa using h2))
        · exact Or.inr ⟨j, w, by simpa using h1, by rw [show i + 1 + j = i + (j + 1) by omega]; exact h2⟩

omit [IsStrictOrderedRing K] in
theorem thin_sublist {z : K} {i b b' : Nat} {stop stop' : List K} {level level' : List Nat}
    (h : thin z i b stop level = .ok (b', stop', level')) : stop.Sublist stop' := by
  have ins : ∀ (l : List K) (k : Nat) (w : K), l.Sublist (l.insertIdx k w) := fun l k w => List.sublist_insertIdx l k w
  unfold thin at h
  simp only at h
  split at h
  · split at h
    · simp only [Res.ok.injEq, Prod.mk.injEq] at h
      rw [← h.2.1]
      exact ins _ _ _
    · cases h
  · split at h
    · split at h
      · split at h
        · simp only [Res.ok.injEq, Prod.mk.injEq] at h
          rw [← h.2.1]
          exact ins _ _ _
        · cases h
      · cases h
    · simp only [Res.ok.injEq, Prod.mk.injEq] at h
      rw [← h.2.1]

omit [IsStrictOrderedRing K] in
theorem thinAll_sublist : ∀ (zs : List K) (i b : Nat) (stop stop' : List K) (level level' : List Nat),
    thinAll zs i b stop level = .ok (stop', level') → stop.Sublist stop' := by
  intro zs
  induction zs with
  | nil =>
    intro i b stop stop' level level' h
    simp only [thinAll, Res.ok.injEq, Prod.mk.injEq] at h
    rw [h.1]
  | cons z zs ih =>
    intro i b stop stop' level level' h
    simp only [thinAll, Res.bind_eq_ok] at h
    obtain ⟨⟨b1, s1, l1⟩, h1, h2⟩ := h
    exact (thin_sublist h1).trans (ih _ _ _ _ _ _ h2)

/-- **C115** Where there is none the stops do not increase any more: with a stop less than three above the first interface
the elements there are turned over.  The surface is such a stop if the first layer is three thick or less. -/
theorem C115_thin_wrong {stop stop' : List K} {level level' : List Nat} (hs : stop.Pairwise (· < ·)) {z x : K}
    (hz : z ∈ stop) (hx : x ∈ stop) (h1 : z - 3 ≤ x) (h2 : x < z) {zs : List K}
    (h : thinAll (z :: zs) 0 0 stop level = .ok (stop', level')) : ¬ stop'.Pairwise (· < ·) := by
  intro hp
  simp only [thinAll, Res.bind_eq_ok] at h
  obtain ⟨⟨b1, s1, l1⟩, e1, e2⟩ := h
  have hp1 := List.Pairwise.sublist (thinAll_sublist _ _ _ _ _ _ _ e2) hp
  obtain ⟨A, B, rfl, hA, hB⟩ := split_at hs hz
  have hxA : x ∈ A := by
    rcases List.mem_append.1 hx with h | h
    · exact h
    · rcases List.mem_cons.1 h with rfl | h
      · exact absurd h2 (lt_irrefl _)
      · exact absurd (hB x h) (lt_asymm h2)
  unfold thin at e1
  simp only [find_eq (Nat.zero_le _) hA] at e1
  rw [if_pos (Or.inl trivial)] at e1
  split at e1
  · rename_i y v hy hv
    have : y = z := by
      rw [List.getElem?_append_right (le_refl _), Nat.sub_self] at hy
      simpa using hy.symm
    subst this
    simp only [Res.ok.injEq, Prod.mk.injEq] at e1
    rw [← e1.2.1, (insert_at A B y (y - 3)).1, List.pairwise_append] at hp1
    have := hp1.2.2 x hxA (y - 3) (by simp)
    linarith
  · cases e1

/-- Two layers below a load: a case that meets the hypotheses. -/
example : stops (K := ℚ) (fun x => x) [⟨8, 1, 0⟩, ⟨20, 1, 0⟩] 10 3
    = some (.ok ([0, 8, 18, 28], [0, 0, 0, 0])) := by decide +kernel

end OP.Fem.Stops
