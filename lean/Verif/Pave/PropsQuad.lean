import Verif.Pave.AxialLemmas
/-!
# C71: when the integration stops
-/
namespace OP.Pave

open List

/-! ## Specification -/

/-- The sum of the values of all integration points of some intervals. -/
noncomputable def total (f : ℝ × ℝ → Ax) (qs : List Panel) : Ax := ((qs.flatMap Panel.nodes).map f).sum

/-- Every component of `b` is at most the fraction `eps` of that of `t`; only the deflection counts when only deflections
are asked for. -/
def Small (disp : Bool) (eps : ℝ) (b t : Ax) : Prop :=
  |b.vdp| ≤ eps * |t.vdp| ∧ (disp = false → |b.vse| ≤ eps * |t.vse| ∧ |b.rse| ≤ eps * |t.rse| ∧ |b.tse| ≤ eps * |t.tse| ∧
    |b.sse| ≤ eps * |t.sse| ∧ |b.rdp| ≤ eps * |t.rdp|)

/-- The results of a load from its integrals: stresses and displacements scale with the radius, displacements also with the
compliance, and the radial displacement over the distance is moved from the radial to the tangential stress. -/
noncomputable def physical (disp : Bool) (r a v E : ℝ) (s : Ax) : Ax :=
  { vse := a * s.vse, rse := a * (s.rse - if 0 < r ∧ disp = false then s.rdp / r else 0)
    tse := a * (s.tse + if 0 < r ∧ disp = false then s.rdp / r else 0)
    sse := a * s.sse, rdp := a * (1 + v) / E * s.rdp, vdp := a * (1 + v) / E * s.vdp }

/-! ## Lemmas -/

theorem foldl_pend (f : ℝ × ℝ → Ax) : ∀ (ns : List (ℝ × ℝ)) (s : Ax), ns.foldl (fun s n => s + f n) s = s + (ns.map f).sum
  | [], s => by simp
  | n :: ns, s => by rw [foldl_cons, foldl_pend f ns, map_cons, sum_cons, add_assoc]

theorem total_nil (f : ℝ × ℝ → Ax) : total f [] = 0 := rfl

theorem total_append (f : ℝ × ℝ → Ax) (a b : List Panel) : total f (a ++ b) = total f a + total f b := by
  simp [total]

theorem total_single (f : ℝ × ℝ → Ax) (q : Panel) : total f [q] = (q.nodes.map f).sum := by simp [total]

/-- Only the deflection is integrated. -/
def Only (disp : Bool) (s : Ax) : Prop := disp = true → s.vse = 0 ∧ s.rse = 0 ∧ s.tse = 0 ∧ s.sse = 0 ∧ s.rdp = 0

theorem Only.add {disp : Bool} {a b : Ax} (ha : Only disp a) (hb : Only disp b) : Only disp (a + b) := by
  intro h
  obtain ⟨a1, a2, a3, a4, a5⟩ := ha h
  obtain ⟨b1, b2, b3, b4, b5⟩ := hb h
  simp [*]

theorem only_zero (disp : Bool) : Only disp 0 := fun _ => ⟨rfl, rfl, rfl, rfl, rfl⟩

theorem only_sum {disp : Bool} {f : ℝ × ℝ → Ax} (hf : ∀ n, Only disp (f n)) : ∀ ns : List (ℝ × ℝ), Only disp (ns.map f).sum
  | [] => only_zero disp
  | n :: ns => (hf n).add (only_sum hf ns)

theorem only_total {disp : Bool} {f : ℝ × ℝ → Ax} (hf : ∀ n, Only disp (f n)) (qs : List Panel) : Only disp (total f qs) :=
  only_sum hf _

theorem acc_sum (disp : Bool) (eps : ℝ) (c : Cell) (ha : c.active = true) (h : Only disp c.pend) :
    (accumulate disp eps c).sum = c.sum + c.pend ∧ (accumulate disp eps c).pend = 0 ∧
    ((accumulate disp eps c).active = false → 0 < eps ∧ Small disp eps c.pend (c.sum + c.pend)) := by
  unfold accumulate
  rw [if_pos ha]
  cases disp with
  | true =>
    obtain ⟨h1, h2, h3, h4, h5⟩ := h rfl
    simp only [if_true]
    refine ⟨?_, ?_, ?_⟩
    · ext <;> simp [*]
    · ext <;> simp [*]
    · intro hd
      simp only [decide_eq_false_iff_not, not_or, gt_iff_lt, not_lt] at hd
      exact ⟨not_le.1 hd.2, hd.1, by simp⟩
  | false =>
    simp only [Bool.false_eq_true, if_false]
    refine ⟨rfl, trivial, ?_⟩
    intro hd
    simp only [decide_eq_false_iff_not, not_or, gt_iff_lt, not_lt] at hd
    obtain ⟨⟨h1, h2, h3, h4, h5, h6⟩, h0⟩ := hd
    exact ⟨not_le.1 h0, h6, fun _ => ⟨h1, h2, h3, h4, h5⟩⟩

theorem panelStep_inactive (f : ℝ × ℝ → Ax) (disp : Bool) (eps : ℝ) (q : Panel) (c : Cell) (h : c.active = false) :
    panelStep f disp eps q c = c := by
  simp [panelStep, h, accumulate]

theorem foldl_inactive (f : ℝ × ℝ → Ax) (disp : Bool) (eps : ℝ) (c : Cell) (h : c.active = false) : ∀ qs : List Panel,
    qs.foldl (fun c q => panelStep f disp eps q c) c = c
  | [] => rfl
  | q :: qs => by rw [foldl_cons, panelStep_inactive f disp eps q c h, foldl_inactive f disp eps c h qs]

/-- What an entry holds after some intervals. -/
def Held (f : ℝ × ℝ → Ax) (disp : Bool) (eps : ℝ) (qs : List Panel) (c : Cell) : Prop :=
  (c.active = true ∧ ∃ done block, qs = done ++ block ∧ c.sum = total f done ∧ c.pend = total f block) ∨
  (c.active = false ∧ 0 < eps ∧ ∃ done block rest, qs = done ++ block ++ rest ∧ c.sum = total f (done ++ block) ∧ c.pend = 0 ∧
    Small disp eps (total f block) (total f (done ++ block)))

theorem held (f : ℝ × ℝ → Ax) (disp : Bool) (eps : ℝ) (hf : ∀ n, Only disp (f n)) (qs : List Panel) :
    Held f disp eps qs (qs.foldl (fun c q => panelStep f disp eps q c) ⟨0, 0, true⟩) := by
  induction qs using List.reverseRecOn with
  | nil => exact Or.inl ⟨rfl, [], [], rfl, rfl, rfl⟩
  | append_singleton qs q ih =>
    rw [foldl_append, foldl_cons, foldl_nil]
    generalize qs.foldl (fun c q => panelStep f disp eps q c) ⟨0, 0, true⟩ = c at *
    rcases ih with ⟨ha, done, block, he, hs, hp⟩ | ⟨ha, h0, done, block, rest, he, hs, hp, hsm⟩
    · simp only [panelStep, if_pos ha, foldl_pend]
      have hp' : c.pend + (q.nodes.map f).sum = total f (block ++ [q]) := by rw [hp, total_append, total_single]
      rw [hp']
      by_cases hq : q.full = true
      · rw [if_pos hq]
        obtain ⟨h1, h2, h3⟩ := acc_sum disp eps ⟨c.sum, total f (block ++ [q]), c.active⟩ ha (only_total hf _)
        simp only [hs, ← total_append] at h1 h3
        cases hx : (accumulate disp eps ⟨c.sum, total f (block ++ [q]), c.active⟩).active with
        | true =>
          refine Or.inl ⟨hx, done ++ (block ++ [q]), [], by simp [he], ?_, ?_⟩
          · rw [hs, h1]
          · rw [h2]; rfl
        | false =>
          rw [hs] at hx
          have := h3 hx
          refine Or.inr ⟨by rw [hs]; exact hx, this.1, done, block ++ [q], [], by simp [he], ?_, h2, this.2⟩
          rw [hs, h1]
      · rw [if_neg hq]
        exact Or.inl ⟨ha, done, block ++ [q], by simp [he], hs, rfl⟩
    · rw [panelStep_inactive f disp eps q c ha]
      exact Or.inr ⟨ha, h0, done, block, rest ++ [q], by simp [he], hs, hp, hsm⟩

theorem finalize_eq (disp : Bool) (r a v E : ℝ) (c : Cell) (hs : Only disp c.sum) (hp : Only disp c.pend) :
    finalize disp r a v E c = physical disp r a v E (c.sum + c.pend) := by
  have h := (acc_sum disp 0 { c with active := true } rfl hp).1
  simp only [finalize, h]
  have ho := hs.add hp
  generalize c.sum + c.pend = s at *
  cases disp with
  | true =>
    obtain ⟨h1, h2, h3, h4, h5⟩ := ho rfl
    simp only [if_true, physical]
    ext <;> simp [*]
    ring
  | false =>
    simp only [Bool.false_eq_true, if_false, physical, and_true, gt_iff_lt]
    ext <;> simp only
    · ring
    · split_ifs <;> ring
    · split_ifs <;> ring
    · ring
    · ring
    · ring

theorem contrib_only (bs : Bessel) (l : Lim) (p : Pav) (disp : Bool) (a : ℝ) (x : Spot) (n : ℝ × ℝ) :
    Only disp (contrib bs l p disp a x n) := by
  intro h
  simp [contrib, h]

/-! ## Theorems -/

/-- **C71**, independence: the joint loop over all depths and distances, with its early exit, gives each of them what it
would get alone. -/
theorem C71_independent (f : Spot → ℝ × ℝ → Ax) (disp : Bool) (eps : ℝ) : ∀ (qs : List Panel) (g : List (Spot × Cell)),
    (∀ q ∈ qs, q.nodes ≠ []) →
    panels f disp eps qs g = g.map fun e => (e.1, qs.foldl (fun c q => panelStep (f e.1) disp eps q c) e.2)
  | [], g, _ => by simp [panels]
  | q :: qs, g, h => by
    rw [panels]
    by_cases hall : g.all (fun e => !e.2.active)
    · rw [if_pos (Or.inr hall)]
      refine (map_id g).symm.trans (map_congr_left fun e he => ?_)
      have : e.2.active = false := by simpa using all_eq_true.1 hall e he
      rw [foldl_inactive _ _ _ _ this]
      rfl
    · rw [if_neg (by rw [not_or]; exact ⟨h q (by simp), hall⟩), C71_independent f disp eps qs _ fun q hq => h q (by simp [hq]),
        map_map]
      rfl

/-- **C71**, the precise procedures (`eps = 0`): the results belong to the sum over every integration point. -/
theorem C71_precise (bs : Bessel) (l : Lim) (p : Pav) (qs : ℝ → List Panel) (stop : ℝ → ℝ → ℝ × ℝ) (z : ℝ) (il : Nat)
    (disp : Bool) (E : Nat → ℝ) (a r : ℝ) :
    integrate bs l p qs stop 0 z il disp E a r = physical disp r a (p.v il) (E il)
      (total (contrib bs l { p with E := E } disp a ⟨z, il, r, (stop a r).1, (stop a r).2⟩) (qs a)) := by
  have hf := contrib_only bs l { p with E := E } disp a ⟨z, il, r, (stop a r).1, (stop a r).2⟩
  simp only [integrate]
  generalize contrib bs l { p with E := E } disp a ⟨z, il, r, (stop a r).1, (stop a r).2⟩ = f at *
  rcases held f disp 0 hf (qs a) with ⟨-, done, block, he, hs, hp⟩ | ⟨-, h0, -⟩
  · rw [finalize_eq _ _ _ _ _ _ (by rw [hs]; exact only_total hf _) (by rw [hp]; exact only_total hf _), hs, hp,
      ← total_append, ← he]
  · exact absurd h0 (lt_irrefl 0)

/-- **C71**, the fast procedures: the results belong to the sum over the integration points of an initial part of the
intervals; unless that is all of them, the last block added changed every sum by at most the fraction `eps`. -/
theorem C71_fast (bs : Bessel) (l : Lim) (p : Pav) (qs : ℝ → List Panel) (stop : ℝ → ℝ → ℝ × ℝ) (eps z : ℝ) (il : Nat)
    (disp : Bool) (E : Nat → ℝ) (a r : ℝ) :
    let f := contrib bs l { p with E := E } disp a ⟨z, il, r, (stop a r).1, (stop a r).2⟩
    ∃ done block rest, qs a = done ++ block ++ rest ∧
      integrate bs l p qs stop eps z il disp E a r = physical disp r a (p.v il) (E il) (total f (done ++ block)) ∧
      (rest = [] ∨ Small disp eps (total f block) (total f (done ++ block))) := by
  intro f
  have hf : ∀ n, Only disp (f n) := contrib_only bs l { p with E := E } disp a ⟨z, il, r, (stop a r).1, (stop a r).2⟩
  have he : integrate bs l p qs stop eps z il disp E a r = finalize disp r a (p.v il) (E il)
    ((qs a).foldl (fun c q => panelStep f disp eps q c) ⟨0, 0, true⟩) := rfl
  rw [he]
  rcases held f disp eps hf (qs a) with ⟨-, done, block, he, hs, hp⟩ | ⟨-, h0, done, block, rest, he, hs, hp, hsm⟩
  · refine ⟨done, block, [], by rw [append_nil, he], ?_, Or.inl rfl⟩
    rw [finalize_eq _ _ _ _ _ _ (by rw [hs]; exact only_total hf _) (by rw [hp]; exact only_total hf _), hs, hp,
      ← total_append]
  · refine ⟨done, block, rest, he, ?_, Or.inr hsm⟩
    rw [finalize_eq _ _ _ _ _ _ (by rw [hs]; exact only_total hf _) (by rw [hp]; exact only_zero _), hs, hp, add_zero]

/-- **C49** below the centre of a load: shear stress and radial displacement vanish, since `j1(0) = 0`. -/
theorem C49_centre (bs : Bessel) (hb : bs.j1 0 = 0) (l : Lim) (p : Pav) (qs : ℝ → List Panel) (stop : ℝ → ℝ → ℝ × ℝ) (eps z : ℝ)
    (il : Nat) (disp : Bool) (E : Nat → ℝ) (a : ℝ) :
    (integrate bs l p qs stop eps z il disp E a 0).sse = 0 ∧ (integrate bs l p qs stop eps z il disp E a 0).rdp = 0 := by
  obtain ⟨done, block, rest, -, he, -⟩ := C71_fast bs l p qs stop eps z il disp E a 0
  have h : ∀ ns : List (ℝ × ℝ),
      ((ns.map (contrib bs l { p with E := E } disp a ⟨z, il, 0, (stop a 0).1, (stop a 0).2⟩)).sum).sse = 0 ∧
      ((ns.map (contrib bs l { p with E := E } disp a ⟨z, il, 0, (stop a 0).1, (stop a 0).2⟩)).sum).rdp = 0 := by
    intro ns
    induction ns with
    | nil => exact ⟨rfl, rfl⟩
    | cons n ns ih =>
      rw [map_cons, sum_cons, Ax.asse, Ax.ardp, ih.1, ih.2]
      simp [contrib, hb]
  rw [he]
  obtain ⟨h1, h2⟩ := h ((done ++ block).flatMap Panel.nodes)
  simp only [physical, total, h1, h2]
  constructor <;> ring

/-- **C71** for a half space: the deflection is inversely proportional to its modulus, whatever the procedure. -/
theorem C71_half_space (bs : Bessel) (l : Lim) (h v f : Nat → ℝ) (hh : h 0 = 0) (E0 : Nat → ℝ) (qs : ℝ → List Panel)
    (stop : ℝ → ℝ → ℝ × ℝ) (eps z : ℝ) (disp : Bool) (a r : ℝ) : ∃ K, ∀ E : Nat → ℝ,
    (integrate bs l ⟨1, h, v, E0, f⟩ qs stop eps z 0 disp E a r).vdp = K / E 0 := by
  have hE : ∀ E : Nat → ℝ, contrib bs l ⟨1, h, v, E, f⟩ disp a ⟨z, 0, r, (stop a r).1, (stop a r).2⟩ =
      contrib bs l ⟨1, h, v, E0, f⟩ disp a ⟨z, 0, r, (stop a r).1, (stop a r).2⟩ := by
    intro E
    have hc : ∀ m, cols l ⟨1, h, v, E, f⟩ m 0 = cols l ⟨1, h, v, E0, f⟩ m 0 := by
      intro m
      simp [cols, last, hh]
    have ha : ∀ m, abcd l ⟨1, h, v, E, f⟩ m 0 = abcd l ⟨1, h, v, E0, f⟩ m 0 := by
      intro m
      funext i
      simp only [abcd, CD, det0, Nat.sub_self, hc]
    funext n
    simp only [contrib, ha]
  obtain ⟨c, hc⟩ : ∃ c, ∀ E : Nat → ℝ, integrate bs l ⟨1, h, v, E0, f⟩ qs stop eps z 0 disp E a r =
      finalize disp r a (v 0) (E 0) c := ⟨_, fun E => by simp only [integrate, hE]; rfl⟩
  refine ⟨(accumulate disp 0 { c with active := true }).sum.vdp * (a * (v 0 + 1)), fun E => ?_⟩
  rw [hc]
  simp only [finalize]
  split_ifs <;> simp only <;> ring

/-! ## Non-vacuity -/

/-- Two intervals of one point each; the joint loop needs at least one point in each. -/
example : ∀ q ∈ [Panel.mk [(1, 1)] true, Panel.mk [(2, 1)] false], q.nodes ≠ [] := by simp

/-- The fast procedure does stop early: the second block is small, the third is never looked at. -/
example : let f : ℝ × ℝ → Ax := fun n => ⟨0, 0, 0, 0, 0, n.2⟩
    Small true 1e-8 (total f [⟨[(2, 1e-9)], true⟩]) (total f ([⟨[(1, 1)], true⟩] ++ [⟨[(2, 1e-9)], true⟩])) := by
  simp [Small, total]
  norm_num [abs_of_pos]

/-- There are functions with `j1 0 = 0`, such as the first Bessel function; here the identity. -/
example : (Bessel.mk (fun _ => 1) (fun x => x)).j1 0 = 0 := rfl

end OP.Pave
