import Verif.Pave.PropsAxial
import Verif.Pave.PropsQuad
import Verif.Pave.BesselJ
import Mathlib.Analysis.SpecialFunctions.Sqrt
/-!
# C125: inside a layer the results are an elastic state in equilibrium
-/
namespace OP.Pave

open List

/-! ## Specification -/

/-- Stresses `S` and displacements `U`, as functions of the place, are at `q` an elastic state of modulus `E` and Poisson's
ratio `v` in equilibrium: the strains, which are the symmetric part of the derivatives of the displacements, follow from the
stresses by Hooke's law, and the divergence of the stresses is zero (there are no body forces). -/
def ElasticState (v E : ℝ) (S : (Fin 3 → ℝ) → Fin 3 → Fin 3 → ℝ) (U : (Fin 3 → ℝ) → Fin 3 → ℝ) (q : Fin 3 → ℝ) : Prop :=
  ∃ G F : Fin 3 → Fin 3 → ℝ,
    (∀ i j, HasDerivAt (fun t => U (Function.update q j t) i) (G i j) (q j)) ∧
    (∀ i j, HasDerivAt (fun t => S (Function.update q j t) i j) (F i j) (q j)) ∧
    (∀ i j, E * ((G i j + G j i) / 2) = (1 + v) * S q i j - if i = j then v * (S q 0 0 + S q 1 1 + S q 2 2) else 0) ∧
    ∀ i, ∑ j, F i j = 0

/-- The same in cylindrical axes, without any dependence on the angle; `s r z` is the state at the distance `r` and the
depth `z`. -/
def AxialState (v E : ℝ) (s : ℝ → ℝ → Ax) (r z : ℝ) : Prop :=
  ∃ ur uz wr wz a b c d e : ℝ,
    HasDerivAt (fun x => (s x z).rdp) ur r ∧ HasDerivAt (fun x => (s r x).rdp) uz z ∧
    HasDerivAt (fun x => (s x z).vdp) wr r ∧ HasDerivAt (fun x => (s r x).vdp) wz z ∧
    HasDerivAt (fun x => (s x z).rse) a r ∧ HasDerivAt (fun x => (s x z).tse) b r ∧
    HasDerivAt (fun x => (s x z).sse) c r ∧ HasDerivAt (fun x => (s r x).sse) d z ∧ HasDerivAt (fun x => (s r x).vse) e z ∧
    E * ur = (s r z).rse - v * ((s r z).tse + (s r z).vse) ∧
    E * ((s r z).rdp / r) = (s r z).tse - v * ((s r z).rse + (s r z).vse) ∧
    E * wz = (s r z).vse - v * ((s r z).rse + (s r z).tse) ∧
    E * (uz + wr) = 2 * (1 + v) * (s r z).sse ∧
    a + d + ((s r z).rse - (s r z).tse) / r = 0 ∧ c + e + (s r z).sse / r = 0

/-! ## One integration point -/

/-- What one integration point adds, from the values of the Bessel functions and of the integrands. -/
noncomputable def nodeState (m k a v E : ℝ) (J0 J1 T0 T1 T2 T3 : ℝ → ℝ) (r z : ℝ) : Ax where
  vse := a * (k * J0 r * m * ((1 - 2 * v) * (T1 z + T3 z) + (T0 z - T2 z)))
  rse := a * (k * J0 r * m * ((1 + 2 * v) * (T1 z + T3 z) - (T0 z - T2 z)) - k * J1 r * ((T1 z + T3 z) - (T0 z - T2 z)) / r)
  tse := a * (k * J0 r * m * (2 * v) * (T1 z + T3 z) + k * J1 r * ((T1 z + T3 z) - (T0 z - T2 z)) / r)
  sse := a * (k * J1 r * m * (2 * v * (T3 z - T1 z) + (T0 z + T2 z)))
  rdp := a * (1 + v) / E * (k * J1 r * ((T1 z + T3 z) - (T0 z - T2 z)))
  vdp := a * (1 + v) / E * (k * J0 r * (2 * (1 - 2 * v) * (T3 z - T1 z) - (T0 z + T2 z)))

theorem nodeState_axial {m k a v E : ℝ} {J0 J1 T0 T1 T2 T3 : ℝ → ℝ} {r z : ℝ} (hr : r ≠ 0) (hE : E ≠ 0)
    (hJ0 : HasDerivAt J0 (-(m * J1 r)) r) (hJ1 : HasDerivAt J1 (m * J0 r - J1 r / r) r)
    (hT0 : HasDerivAt T0 (m * (T1 z - T0 z)) z) (hT1 : HasDerivAt T1 (-m * T1 z) z)
    (hT2 : HasDerivAt T2 (m * (T3 z + T2 z)) z) (hT3 : HasDerivAt T3 (m * T3 z) z) :
    AxialState v E (nodeState m k a v E J0 J1 T0 T1 T2 T3) r z := by
  have hd : HasDerivAt (fun x => J1 x / x) ((m * J0 r - J1 r / r) / r - J1 r / r ^ 2) r := by
    refine (hJ1.div (hasDerivAt_id r) hr).congr_deriv ?_
    simp only [id]
    field_simp
  have c0 (A : ℝ) : HasDerivAt (fun x => A * J0 x) (A * -(m * J1 r)) r := hJ0.const_mul A
  have c1 (A : ℝ) : HasDerivAt (fun x => A * J1 x) (A * (m * J0 r - J1 r / r)) r := hJ1.const_mul A
  have cd (A B : ℝ) : HasDerivAt (fun x => A * J0 x + B * (J1 x / x))
      (A * -(m * J1 r) + B * ((m * J0 r - J1 r / r) / r - J1 r / r ^ 2)) r := (c0 A).add (hd.const_mul B)
  have ct (A B C D : ℝ) : HasDerivAt (fun x => A * T0 x + B * T1 x + C * T2 x + D * T3 x)
      (A * (m * (T1 z - T0 z)) + B * (-m * T1 z) + C * (m * (T3 z + T2 z)) + D * (m * T3 z)) z :=
    (((hT0.const_mul A).add (hT1.const_mul B)).add (hT2.const_mul C)).add (hT3.const_mul D)
  refine ⟨_, _, _, _, _, _, _, _, _,
    (c1 (a * (1 + v) / E * k * ((T1 z + T3 z) - (T0 z - T2 z)))).congr_of_eventuallyEq (.of_forall fun x => ?_),
    (ct (-(a * (1 + v) / E * (k * J1 r))) (a * (1 + v) / E * (k * J1 r)) (a * (1 + v) / E * (k * J1 r))
      (a * (1 + v) / E * (k * J1 r))).congr_of_eventuallyEq (.of_forall fun x => ?_),
    (c0 (a * (1 + v) / E * k * (2 * (1 - 2 * v) * (T3 z - T1 z) - (T0 z + T2 z)))).congr_of_eventuallyEq (.of_forall fun x => ?_),
    (ct (-(a * (1 + v) / E * (k * J0 r))) (-(a * (1 + v) / E * (k * J0 r) * (2 * (1 - 2 * v)))) (-(a * (1 + v) / E * (k * J0 r)))
      (a * (1 + v) / E * (k * J0 r) * (2 * (1 - 2 * v)))).congr_of_eventuallyEq (.of_forall fun x => ?_),
    (cd (a * k * m * ((1 + 2 * v) * (T1 z + T3 z) - (T0 z - T2 z))) (-(a * k * ((T1 z + T3 z) - (T0 z - T2 z))))).congr_of_eventuallyEq
      (.of_forall fun x => ?_),
    (cd (a * k * m * (2 * v) * (T1 z + T3 z)) (a * k * ((T1 z + T3 z) - (T0 z - T2 z)))).congr_of_eventuallyEq
      (.of_forall fun x => ?_),
    (c1 (a * k * m * (2 * v * (T3 z - T1 z) + (T0 z + T2 z)))).congr_of_eventuallyEq (.of_forall fun x => ?_),
    (ct (a * (k * J1 r * m)) (-(a * (k * J1 r * m) * (2 * v))) (a * (k * J1 r * m)) (a * (k * J1 r * m) * (2 * v))).congr_of_eventuallyEq
      (.of_forall fun x => ?_),
    (ct (a * (k * J0 r * m)) (a * (k * J0 r * m) * (1 - 2 * v)) (-(a * (k * J0 r * m))) (a * (k * J0 r * m) * (1 - 2 * v))).congr_of_eventuallyEq
      (.of_forall fun x => ?_), ?_, ?_, ?_, ?_, ?_, ?_⟩
  all_goals simp only [nodeState]
  any_goals ring1
  all_goals field_simp
  all_goals ring1

/-! The states form a linear space, and only the values near the place count. -/

theorem AxialState.congr {v E : ℝ} {s s' : ℝ → ℝ → Ax} {r z : ℝ} (h : AxialState v E s r z)
    (hs : ∀ᶠ q : ℝ × ℝ in nhds (r, z), s' q.1 q.2 = s q.1 q.2) : AxialState v E s' r z := by
  have hr : ∀ᶠ x in nhds r, s' x z = s x z :=
    (Continuous.tendsto (f := fun x : ℝ => (x, z)) (by fun_prop) r).eventually hs
  have hz : ∀ᶠ x in nhds z, s' r x = s r x :=
    (Continuous.tendsto (f := fun x : ℝ => (r, x)) (by fun_prop) z).eventually hs
  have e : s' r z = s r z := hz.self_of_nhds
  obtain ⟨ur, uz, wr, wz, a, b, c, d, e', h1, h2, h3, h4, h5, h6, h7, h8, h9, h⟩ := h
  refine ⟨ur, uz, wr, wz, a, b, c, d, e', h1.congr_of_eventuallyEq ?_, h2.congr_of_eventuallyEq ?_,
    h3.congr_of_eventuallyEq ?_, h4.congr_of_eventuallyEq ?_, h5.congr_of_eventuallyEq ?_, h6.congr_of_eventuallyEq ?_,
    h7.congr_of_eventuallyEq ?_, h8.congr_of_eventuallyEq ?_, h9.congr_of_eventuallyEq ?_, by rw [e]; exact h⟩
  all_goals first
    | (filter_upwards [hr] with x hx; rw [hx])
    | (filter_upwards [hz] with x hx; rw [hx])

theorem AxialState.zero (v E r z : ℝ) : AxialState v E (fun _ _ => 0) r z :=
  ⟨0, 0, 0, 0, 0, 0, 0, 0, 0, hasDerivAt_const .., hasDerivAt_const .., hasDerivAt_const .., hasDerivAt_const ..,
    hasDerivAt_const .., hasDerivAt_const .., hasDerivAt_const .., hasDerivAt_const .., hasDerivAt_const .., by simp⟩

theorem AxialState.add {v E : ℝ} {s t : ℝ → ℝ → Ax} {r z : ℝ} (hs : AxialState v E s r z) (ht : AxialState v E t r z) :
    AxialState v E (fun r z => s r z + t r z) r z := by
  obtain ⟨ur, uz, wr, wz, a, b, c, d, e, h1, h2, h3, h4, h5, h6, h7, h8, h9, g1, g2, g3, g4, g5, g6⟩ := hs
  obtain ⟨ur', uz', wr', wz', a', b', c', d', e', h1', h2', h3', h4', h5', h6', h7', h8', h9', g1', g2', g3', g4', g5', g6'⟩ := ht
  refine ⟨_, _, _, _, _, _, _, _, _, h1.add h1', h2.add h2', h3.add h3', h4.add h4', h5.add h5', h6.add h6', h7.add h7',
    h8.add h8', h9.add h9', ?_, ?_, ?_, ?_, ?_, ?_⟩ <;>
    simp only [Ax.avse, Ax.arse, Ax.atse, Ax.asse, Ax.ardp, Ax.avdp, add_div, add_sub_add_comm] at * <;> linarith

theorem AxialState.rest {v E : ℝ} {s t : ℝ → ℝ → Ax} {r z : ℝ} (hs : AxialState v E (fun r z => s r z + t r z) r z)
    (ht : AxialState v E s r z) : AxialState v E t r z := by
  obtain ⟨ur, uz, wr, wz, a, b, c, d, e, h1, h2, h3, h4, h5, h6, h7, h8, h9, g1, g2, g3, g4, g5, g6⟩ := hs
  obtain ⟨ur', uz', wr', wz', a', b', c', d', e', h1', h2', h3', h4', h5', h6', h7', h8', h9', g1', g2', g3', g4', g5', g6'⟩ := ht
  refine ⟨_, _, _, _, _, _, _, _, _, (h1.sub h1').congr_of_eventuallyEq (.of_forall fun x => ?_),
    (h2.sub h2').congr_of_eventuallyEq (.of_forall fun x => ?_), (h3.sub h3').congr_of_eventuallyEq (.of_forall fun x => ?_),
    (h4.sub h4').congr_of_eventuallyEq (.of_forall fun x => ?_), (h5.sub h5').congr_of_eventuallyEq (.of_forall fun x => ?_),
    (h6.sub h6').congr_of_eventuallyEq (.of_forall fun x => ?_), (h7.sub h7').congr_of_eventuallyEq (.of_forall fun x => ?_),
    (h8.sub h8').congr_of_eventuallyEq (.of_forall fun x => ?_), (h9.sub h9').congr_of_eventuallyEq (.of_forall fun x => ?_),
    ?_, ?_, ?_, ?_, ?_, ?_⟩
  all_goals simp only [Ax.avse, Ax.arse, Ax.atse, Ax.asse, Ax.ardp, Ax.avdp, add_div, add_sub_add_comm, add_sub_cancel_left,
    Pi.sub_apply] at *
  all_goals linarith

section node
variable {bs : Bessel} (h0 : ∀ x, 0 < x → HasDerivAt bs.j0 (-bs.j1 x) x)
  (h1 : ∀ x, 0 < x → HasDerivAt bs.j1 (bs.j0 x - bs.j1 x / x) x)

/-- The integrands as functions of the depth. -/
theorem buildT_deriv {l : Lim} {m z : ℝ} (c : V4) (hz : m * z < l.maxExp) :
    HasDerivAt (fun z => buildT l m z c 0) (m * (buildT l m z c 1 - buildT l m z c 0)) z ∧
    HasDerivAt (fun z => buildT l m z c 1) (-m * buildT l m z c 1) z ∧
    HasDerivAt (fun z => buildT l m z c 2) (m * (buildT l m z c 3 + buildT l m z c 2)) z ∧
    HasDerivAt (fun z => buildT l m z c 3) (m * buildT l m z c 3) z := by
  have hd : HasDerivAt (fun z => Real.exp (-(m * z))) (-m * Real.exp (-(m * z))) z := by
    have := (((hasDerivAt_id z).const_mul m).neg).exp
    exact this.congr_deriv (by simp; ring)
  have hu : HasDerivAt (fun z => gexp l (m * z)) (m * gexp l (m * z)) z := by
    have he : HasDerivAt (fun z => Real.exp (m * z)) (m * Real.exp (m * z)) z :=
      (((hasDerivAt_id z).const_mul m).exp).congr_deriv (by simp; ring)
    have hg : gexp l (m * z) = Real.exp (m * z) := by rw [gexp, if_pos hz]
    rw [hg]
    refine he.congr_of_eventuallyEq ?_
    have ho : IsOpen {x : ℝ | m * x < l.maxExp} := isOpen_lt (by fun_prop) continuous_const
    filter_upwards [ho.mem_nhds hz] with x hx
    rw [gexp, if_pos hx]
  have hl : ∀ a b : ℝ, HasDerivAt (fun z => m * (a + b * z)) (m * b) z := fun a b => by
    have := (((hasDerivAt_id z).const_mul b).const_add a).const_mul m
    exact this.congr_deriv (by simp)
  refine ⟨?_, ?_, ?_, ?_⟩
  · exact ((hl (c 2) (c 3)).mul hd).congr_deriv (by simp [buildT]; ring)
  · exact (hd.mul_const (c 3)).congr_deriv (by simp [buildT]; ring)
  · exact ((hl (c 0) (c 1)).mul hu).congr_deriv (by simp [buildT]; ring)
  · exact (hu.mul_const (c 1)).congr_deriv (by simp [buildT]; ring)

include h0 h1 in
/-- **C125** Every integration point that counts for all results adds an elastic state in equilibrium, for all pavements,
layers, radii and distances from the load, if the exponential is not cut off. -/
theorem C125_node (l : Lim) (p : Pav) (a : ℝ) (il : Nat) (n : ℝ × ℝ) (M : ℝ → ℝ × ℝ) {r z : ℝ}
    (hn : ∀ᶠ x in nhds r, n.1 < (M x).1 ∧ n.1 < (M x).2)
    (hr : 0 < r) (hz : n.1 * z < l.maxExp) (hE : p.E il ≠ 0) :
    AxialState (p.v il) (p.E il)
      (fun r z => physical false r a (p.v il) (p.E il) (contrib bs l p false a ⟨z, il, r, (M r).1, (M r).2⟩ n)) r z := by
  obtain ⟨m, w⟩ := n
  dsimp only at hn hz
  have hnear : ∀ᶠ q : ℝ × ℝ in nhds (r, z), 0 < q.1 ∧ m < (M q.1).1 ∧ m < (M q.1).2 :=
    (continuous_fst.tendsto (r, z)).eventually ((eventually_gt_nhds hr).and hn)
  by_cases hm : m ≤ 0
  · refine (AxialState.zero _ _ r z).congr (.of_forall fun q => ?_)
    have h : ∀ i, buildT l m q.2 (abcd l p m il) i = 0 := by
      have hc : abcd l p m il = fun _ => 0 := by funext i; simp [abcd, hm]
      intro i
      rw [hc]
      fin_cases i <;> simp [buildT]
    ext <;> simp [physical, contrib, h]
  · have hm := not_le.1 hm
    have hJ0 : HasDerivAt (fun x => bs.j0 (m * x)) (-(m * bs.j1 (m * r))) r :=
      ((h0 (m * r) (mul_pos hm hr)).comp r ((hasDerivAt_id r).const_mul m)).congr_deriv (by simp; ring)
    have hJ1 : HasDerivAt (fun x => bs.j1 (m * x)) (m * bs.j0 (m * r) - bs.j1 (m * r) / r) r :=
      ((h1 (m * r) (mul_pos hm hr)).comp r ((hasDerivAt_id r).const_mul m)).congr_deriv (by simp; field_simp)
    obtain ⟨t0, t1, t2, t3⟩ := buildT_deriv (abcd l p m il) hz
    refine (nodeState_axial (J0 := fun x => bs.j0 (m * x)) (J1 := fun x => bs.j1 (m * x)) (k := w * (m * bs.j1 (m * a))) (a := a)
      (v := p.v il) hr.ne' hE hJ0 hJ1 t0 t1 t2 t3).congr ?_
    filter_upwards [hnear] with q hq
    obtain ⟨q1, q2, q3⟩ := hq
    ext <;> simp [physical, contrib, nodeState, q1, q2, q3]

/-! ## One load -/

theorem physical_zero (r a v E : ℝ) : physical false r a v E 0 = 0 := by ext <;> simp [physical]

theorem physical_add (r a v E : ℝ) (s t : Ax) : physical false r a v E (s + t) = physical false r a v E s + physical false r a v E t := by
  by_cases h : 0 < r <;> ext <;> simp [physical, h] <;> ring

/-- Near the distance `r` a node counts for all results or for none. -/
def Together (M : ℝ → ℝ × ℝ) (r m : ℝ) : Prop :=
  (∀ᶠ x in nhds r, m < (M x).1 ∧ m < (M x).2) ∨ ∀ᶠ x in nhds r, ¬ m < (M x).1 ∧ ¬ m < (M x).2

include h0 h1 in
theorem nodes_axial (l : Lim) (p : Pav) (a : ℝ) (il : Nat) (M : ℝ → ℝ × ℝ) {r z : ℝ} (hr : 0 < r) (hE : p.E il ≠ 0) :
    ∀ ns : List (ℝ × ℝ), (∀ n ∈ ns, Together M r n.1 ∧ n.1 * z < l.maxExp) →
    AxialState (p.v il) (p.E il) (fun r z => physical false r a (p.v il) (p.E il)
      (ns.map (contrib bs l p false a ⟨z, il, r, (M r).1, (M r).2⟩)).sum) r z
  | [], _ => (AxialState.zero _ _ r z).congr (.of_forall fun q => by rw [map_nil, sum_nil, physical_zero])
  | n :: ns, h => by
    have hn : AxialState (p.v il) (p.E il)
        (fun r z => physical false r a (p.v il) (p.E il) (contrib bs l p false a ⟨z, il, r, (M r).1, (M r).2⟩ n)) r z := by
      rcases (h n (by simp)).1 with ht | ht
      · exact C125_node h0 h1 l p a il n M ht hr (h n (by simp)).2 hE
      · refine (AxialState.zero _ _ r z).congr ?_
        filter_upwards [(continuous_fst.tendsto (r, z)).eventually ht] with q hq
        ext <;> simp [physical, contrib, hq]
    exact (hn.add (nodes_axial l p a il M hr hE ns fun n hn => h n (by simp [hn]))).congr
      (.of_forall fun q => by rw [map_cons, sum_cons, physical_add])

include h0 h1 in
/-- **C125**, one load: the results of the integration by the precise procedures, as functions of the distance from the
centre and of the depth. -/
theorem C125_load (l : Lim) (p : Pav) (qs : ℝ → List Panel) (stop : ℝ → ℝ → ℝ × ℝ) (a : ℝ) (il : Nat) {r z : ℝ} (hr : 0 < r)
    (hE : p.E il ≠ 0) (hq : ∀ q ∈ qs a, ∀ n ∈ q.nodes, Together (stop a) r n.1 ∧ n.1 * z < l.maxExp) :
    AxialState (p.v il) (p.E il) (fun r z => integrate bs l p qs stop 0 z il false p.E a r) r z := by
  refine (nodes_axial h0 h1 l p a il (stop a) hr hE ((qs a).flatMap Panel.nodes) fun n hn => ?_).congr (.of_forall fun q => ?_)
  · obtain ⟨q, h1, h2⟩ := mem_flatMap.1 hn
    exact hq q h1 n h2
  · rw [C71_precise]
    rfl

end node

/-! ## From one load to all loads -/

theorem ElasticState.congr {v E : ℝ} {S S' : (Fin 3 → ℝ) → Fin 3 → Fin 3 → ℝ} {U U' : (Fin 3 → ℝ) → Fin 3 → ℝ} {q : Fin 3 → ℝ}
    (h : ElasticState v E S U q) (hS : ∀ x i j, S' x i j = S x i j) (hU : ∀ x i, U' x i = U x i) : ElasticState v E S' U' q := by
  have e1 : S' = S := by funext x i j; exact hS x i j
  have e2 : U' = U := by funext x i; exact hU x i
  rw [e1, e2]
  exact h

theorem ElasticState.zero (v E : ℝ) (q : Fin 3 → ℝ) : ElasticState v E (fun _ _ _ => 0) (fun _ _ => 0) q :=
  ⟨fun _ _ => 0, fun _ _ => 0, fun _ _ => hasDerivAt_const .., fun _ _ => hasDerivAt_const .., by simp, by simp⟩

theorem ElasticState.add {v E : ℝ} {S S' : (Fin 3 → ℝ) → Fin 3 → Fin 3 → ℝ} {U U' : (Fin 3 → ℝ) → Fin 3 → ℝ} {q : Fin 3 → ℝ}
    (h : ElasticState v E S U q) (h' : ElasticState v E S' U' q) :
    ElasticState v E (fun x i j => S x i j + S' x i j) (fun x i => U x i + U' x i) q := by
  obtain ⟨G, F, a, b, c, d⟩ := h
  obtain ⟨G', F', a', b', c', d'⟩ := h'
  refine ⟨fun i j => G i j + G' i j, fun i j => F i j + F' i j, fun i j => (a i j).add (a' i j), fun i j => (b i j).add (b' i j),
    fun i j => ?_, fun i => ?_⟩
  · have h1 := c i j
    have h2 := c' i j
    dsimp only
    split_ifs at * <;> linarith
  · rw [Finset.sum_add_distrib, d, d', add_zero]

theorem ElasticState.smul {v E : ℝ} {S : (Fin 3 → ℝ) → Fin 3 → Fin 3 → ℝ} {U : (Fin 3 → ℝ) → Fin 3 → ℝ} {q : Fin 3 → ℝ}
    (k : ℝ) (h : ElasticState v E S U q) : ElasticState v E (fun x i j => k * S x i j) (fun x i => k * U x i) q := by
  obtain ⟨G, F, a, b, c, d⟩ := h
  refine ⟨fun i j => k * G i j, fun i j => k * F i j, fun i j => (a i j).const_mul k, fun i j => (b i j).const_mul k,
    fun i j => ?_, fun i => ?_⟩
  · have h1 := c i j
    dsimp only
    split_ifs at * <;> linear_combination k * h1
  · rw [← Finset.mul_sum, d, mul_zero]

/-- The stress tensor in Cartesian axes, in the direction with cosine `c` and sine `t`. -/
noncomputable def cart (c t : ℝ) (s : Ax) : Fin 3 → Fin 3 → ℝ :=
  t![t![c * c * s.rse + t * t * s.tse, c * t * (s.rse - s.tse), c * s.sse],
    t![c * t * (s.rse - s.tse), c * c * s.tse + t * t * s.rse, t * s.sse], t![c * s.sse, t * s.sse, s.vse]]

noncomputable def cartU (c t : ℝ) (s : Ax) : Fin 3 → ℝ := t![c * s.rdp, t * s.rdp, s.vdp]

theorem rot_cart (l : Load) (x y : ℝ) (h : l.distance x y ≠ 0) (s : Ax) :
    rotT (bearing l x y) (centred (l.distance x y) s).stress = cart ((x - l.x) / l.distance x y) ((y - l.y) / l.distance x y) s ∧
    rotV (bearing l x y) (centred (l.distance x y) s).displ = cartU ((x - l.x) / l.distance x y) ((y - l.y) / l.distance x y) s := by
  have hb : bearing l x y = rot ((x - l.x) / l.distance x y) ((y - l.y) / l.distance x y) := by simp [bearing, h]
  have hc : centred (l.distance x y) s = s := by simp [centred, h]
  rw [hb, hc]
  generalize (x - l.x) / l.distance x y = c
  generalize (y - l.y) / l.distance x y = t
  constructor
  · funext i j
    revert i j
    refine all3 (all3 ?_ ?_ ?_) (all3 ?_ ?_ ?_) (all3 ?_ ?_ ?_) <;>
      simp only [cart, rotT, Ax.stress, rot, Fin.sum_univ_three, v3_0, v3_1, v3_2] <;> ring
  · funext i
    revert i
    refine all3 ?_ ?_ ?_ <;> simp only [cartU, rotV, Ax.displ, rot, Fin.sum_univ_three, v3_0, v3_1, v3_2] <;> ring

/-- An axially symmetric state about the axis of a load, in Cartesian axes. -/
theorem axial_elastic {v E : ℝ} {s : ℝ → ℝ → Ax} (l : Load) (q : Fin 3 → ℝ) (hq : l.distance (q 0) (q 1) ≠ 0)
    (h : AxialState v E s (l.distance (q 0) (q 1)) (q 2)) :
    ElasticState v E (fun x => rotT (bearing l (x 0) (x 1)) (centred (l.distance (x 0) (x 1)) (s (l.distance (x 0) (x 1)) (x 2))).stress)
      (fun x => rotV (bearing l (x 0) (x 1)) (centred (l.distance (x 0) (x 1)) (s (l.distance (x 0) (x 1)) (x 2))).displ) q := by
  have hnear : ∀ j, ∀ᶠ τ in nhds (q j), l.distance (Function.update q j τ 0) (Function.update q j τ 1) ≠ 0 := fun j => by
    have hu (i : Fin 3) : Continuous fun τ => Function.update q j τ i :=
      (continuous_apply i).comp (continuous_const.update j continuous_id : Continuous fun τ => Function.update q j τ)
    have hc : Continuous fun τ => l.distance (Function.update q j τ 0) (Function.update q j τ 1) := by
      unfold Load.distance hyp2
      exact Real.continuous_sqrt.comp (((continuous_const.sub (hu 0)).pow 2).add ((continuous_const.sub (hu 1)).pow 2))
    refine hc.continuousAt.eventually_ne ?_
    rw [Function.update_eq_self]
    exact hq
  have hsq := distance_sq l (q 0) (q 1)
  have hR0 : HasDerivAt (fun x => l.distance x (q 1)) ((q 0 - l.x) / l.distance (q 0) (q 1)) (q 0) := by
    have hp : HasDerivAt (fun x => (l.x - x) ^ 2 + (l.y - q 1) ^ 2) (-(2 * (l.x - q 0))) (q 0) :=
      ((((hasDerivAt_id (q 0)).const_sub l.x).pow 2).add_const _).congr_deriv (by simp)
    have hne : (l.x - q 0) ^ 2 + (l.y - q 1) ^ 2 ≠ 0 := fun h0 => hq (by rw [Load.distance, hyp2, h0, Real.sqrt_zero])
    refine (hp.sqrt hne).congr_deriv ?_
    rw [Load.distance, hyp2, neg_div, mul_div_mul_left _ _ two_ne_zero, ← neg_div, neg_sub]
  have hR1 : HasDerivAt (fun y => l.distance (q 0) y) ((q 1 - l.y) / l.distance (q 0) (q 1)) (q 1) := by
    have hp : HasDerivAt (fun y => (l.x - q 0) ^ 2 + (l.y - y) ^ 2) (-(2 * (l.y - q 1))) (q 1) :=
      ((((hasDerivAt_id (q 1)).const_sub l.y).pow 2).const_add _).congr_deriv (by simp)
    have hne : (l.x - q 0) ^ 2 + (l.y - q 1) ^ 2 ≠ 0 := fun h0 => hq (by rw [Load.distance, hyp2, h0, Real.sqrt_zero])
    refine (hp.sqrt hne).congr_deriv ?_
    rw [Load.distance, hyp2, neg_div, mul_div_mul_left _ _ two_ne_zero, ← neg_div, neg_sub]
  set r := l.distance (q 0) (q 1) with hr
  set c := (q 0 - l.x) / r with hc
  set t := (q 1 - l.y) / r with ht
  have hct : c * c + t * t = 1 := by
    rw [hc, ht, div_mul_div_comm, div_mul_div_comm, ← add_div, ← sq, ← sq, ← sq, ← hsq, div_self (pow_ne_zero 2 hq)]
  have hX : q 0 - l.x = c * r := by rw [hc, div_mul_cancel₀ _ hq]
  have hY : q 1 - l.y = t * r := by rw [ht, div_mul_cancel₀ _ hq]
  have hC0 : HasDerivAt (fun x => (x - l.x) / l.distance x (q 1)) (t * t / r) (q 0) := by
    refine ((((hasDerivAt_id (q 0)).sub_const l.x)).div hR0 hq).congr_deriv ?_
    simp only [id]
    rw [hX, ← hr]
    field_simp
    linear_combination -hct
  have hT0 : HasDerivAt (fun x => (q 1 - l.y) / l.distance x (q 1)) (-(c * t) / r) (q 0) := by
    refine ((hasDerivAt_const (q 0) (q 1 - l.y)).div hR0 hq).congr_deriv ?_
    rw [hY, ← hr]
    field_simp
    ring
  have hC1 : HasDerivAt (fun y => (q 0 - l.x) / l.distance (q 0) y) (-(c * t) / r) (q 1) := by
    refine ((hasDerivAt_const (q 1) (q 0 - l.x)).div hR1 hq).congr_deriv ?_
    rw [hX, ← hr]
    field_simp
    ring
  have hT1 : HasDerivAt (fun y => (y - l.y) / l.distance (q 0) y) (c * c / r) (q 1) := by
    refine ((((hasDerivAt_id (q 1)).sub_const l.y)).div hR1 hq).congr_deriv ?_
    simp only [id]
    rw [hY, ← hr]
    field_simp
    linear_combination -hct
  obtain ⟨ur, uz, wr, wz, a, b, d, e, f, h1, h2, h3, h4, h5, h6, h7, h8, h9, g1, g2, g3, g4, g5, g6⟩ := h
  -- along x and y
  have p0 {g : ℝ → ℝ} {g' : ℝ} (h : HasDerivAt g g' r) : HasDerivAt (fun x => g (l.distance x (q 1))) (g' * c) (q 0) :=
    HasDerivAt.comp (q 0) (h₂ := g) h hR0
  have p1 {g : ℝ → ℝ} {g' : ℝ} (h : HasDerivAt g g' r) : HasDerivAt (fun y => g (l.distance (q 0) y)) (g' * t) (q 1) :=
    HasDerivAt.comp (q 1) (h₂ := g) h hR1
  set σ := s r (q 2) with hσ
  refine ⟨t![t![t * t / r * σ.rdp + c * (ur * c), -(c * t) / r * σ.rdp + c * (ur * t), c * uz],
      t![-(c * t) / r * σ.rdp + t * (ur * c), c * c / r * σ.rdp + t * (ur * t), t * uz], t![wr * c, wr * t, wz]],
    t![t![2 * c * (t * t / r) * σ.rse + c * c * (a * c) + 2 * t * (-(c * t) / r) * σ.tse + t * t * (b * c),
        (-(c * t) / r * t + c * (c * c / r)) * (σ.rse - σ.tse) + c * t * (a * t - b * t), c * e],
      t![(t * t / r * t + c * (-(c * t) / r)) * (σ.rse - σ.tse) + c * t * (a * c - b * c),
        2 * c * (-(c * t) / r) * σ.tse + c * c * (b * t) + 2 * t * (c * c / r) * σ.rse + t * t * (a * t), t * e],
      t![t * t / r * σ.sse + c * (d * c), c * c / r * σ.sse + t * (d * t), f]], ?_, ?_, ?_, ?_⟩
  · intro i j
    have hev : (fun τ => rotV (bearing l (Function.update q j τ 0) (Function.update q j τ 1))
        (centred (l.distance (Function.update q j τ 0) (Function.update q j τ 1))
          (s (l.distance (Function.update q j τ 0) (Function.update q j τ 1)) (Function.update q j τ 2))).displ i) =ᶠ[nhds (q j)]
        fun τ => cartU ((Function.update q j τ 0 - l.x) / l.distance (Function.update q j τ 0) (Function.update q j τ 1))
          ((Function.update q j τ 1 - l.y) / l.distance (Function.update q j τ 0) (Function.update q j τ 1))
          (s (l.distance (Function.update q j τ 0) (Function.update q j τ 1)) (Function.update q j τ 2)) i := by
      filter_upwards [hnear j] with τ hτ
      rw [(rot_cart l _ _ hτ _).2]
    refine HasDerivAt.congr_of_eventuallyEq ?_ hev
    clear hev
    revert i j
    refine all3 (all3 ?_ ?_ ?_) (all3 ?_ ?_ ?_) (all3 ?_ ?_ ?_) <;> simp [cartU]
    · exact hC0.mul (p0 h1)
    · exact hC1.mul (p1 h1)
    · exact h2.const_mul c
    · exact hT0.mul (p0 h1)
    · exact hT1.mul (p1 h1)
    · exact h2.const_mul t
    · exact p0 h3
    · exact p1 h3
    · exact h4
  · intro i j
    have hev : (fun τ => rotT (bearing l (Function.update q j τ 0) (Function.update q j τ 1))
        (centred (l.distance (Function.update q j τ 0) (Function.update q j τ 1))
          (s (l.distance (Function.update q j τ 0) (Function.update q j τ 1)) (Function.update q j τ 2))).stress i j) =ᶠ[nhds (q j)]
        fun τ => cart ((Function.update q j τ 0 - l.x) / l.distance (Function.update q j τ 0) (Function.update q j τ 1))
          ((Function.update q j τ 1 - l.y) / l.distance (Function.update q j τ 0) (Function.update q j τ 1))
          (s (l.distance (Function.update q j τ 0) (Function.update q j τ 1)) (Function.update q j τ 2)) i j := by
      filter_upwards [hnear j] with τ hτ
      rw [(rot_cart l _ _ hτ _).1]
    refine HasDerivAt.congr_of_eventuallyEq ?_ hev
    clear hev
    revert i j
    refine all3 (all3 ?_ ?_ ?_) (all3 ?_ ?_ ?_) (all3 ?_ ?_ ?_) <;> simp [cart]
    · exact (((hC0.mul hC0).mul (p0 h5)).add ((hT0.mul hT0).mul (p0 h6))).congr_deriv (by
        simp only [Pi.mul_apply, ← hr, ← hc, ← ht, ← hσ]; ring)
    · exact (((hC1.mul hT1).mul ((p1 h5).sub (p1 h6)))).congr_deriv (by simp only [Pi.mul_apply, Pi.sub_apply, ← hr, ← hc, ← ht, ← hσ])
    · exact h8.const_mul c
    · exact (((hC0.mul hT0).mul ((p0 h5).sub (p0 h6)))).congr_deriv (by simp only [Pi.mul_apply, Pi.sub_apply, ← hr, ← hc, ← ht, ← hσ])
    · exact (((hC1.mul hC1).mul (p1 h6)).add ((hT1.mul hT1).mul (p1 h5))).congr_deriv (by
        simp only [Pi.mul_apply, ← hr, ← hc, ← ht, ← hσ]; ring)
    · exact h8.const_mul t
    · exact hC0.mul (p0 h7)
    · exact hT1.mul (p1 h7)
    · exact h9
  · have hS : rotT (bearing l (q 0) (q 1)) (centred (l.distance (q 0) (q 1)) (s (l.distance (q 0) (q 1)) (q 2))).stress =
        cart c t σ := (rot_cart l _ _ hq σ).1
    simp only [hS]
    clear_value c t r σ
    refine all3 (all3 ?_ ?_ ?_) (all3 ?_ ?_ ?_) (all3 ?_ ?_ ?_) <;>
      simp only [cart, v3_0, v3_1, v3_2, Fin.reduceEq, ↓reduceIte]
    · linear_combination t * t * g2 + c * c * g1 - v * σ.vse * hct
    · linear_combination c * t * g1 - c * t * g2
    · linear_combination c / 2 * g4
    · linear_combination c * t * g1 - c * t * g2
    · linear_combination c * c * g2 + t * t * g1 - v * σ.vse * hct
    · linear_combination t / 2 * g4
    · linear_combination c / 2 * g4
    · linear_combination t / 2 * g4
    · linear_combination g3 + v * (σ.rse + σ.tse) * hct
  · refine all3 ?_ ?_ ?_ <;> simp only [Fin.sum_univ_three, v3_0, v3_1, v3_2]
    · linear_combination c * g5 + c * (a + (σ.rse - σ.tse) / r) * hct
    · linear_combination t * g5 + t * (a + (σ.rse - σ.tse) / r) * hct
    · linear_combination g6 + (d + σ.sse / r) * hct

theorem loads_elastic {v E : ℝ} {ax : ℝ → ℝ → ℝ → Ax} {q : Fin 3 → ℝ} : ∀ ls : List Load,
    (∀ l ∈ ls, l.distance (q 0) (q 1) ≠ 0 ∧ AxialState v E (fun r z => ax z l.radius r) (l.distance (q 0) (q 1)) (q 2)) →
    ElasticState v E (fun x i j => (ls.map (stressOf (ax (x 2)) (x 0) (x 1) i j)).sum)
      (fun x i => (ls.map (displOf (ax (x 2)) (x 0) (x 1) i)).sum) q
  | [], _ => (ElasticState.zero v E q).congr (fun _ _ _ => rfl) fun _ _ => rfl
  | l :: ls, h => by
    obtain ⟨h1, h2⟩ := h l (by simp)
    refine (((axial_elastic l q h1 h2).smul l.pressure).add (loads_elastic ls fun l hl => h l (by simp [hl]))).congr
      (fun x i j => ?_) fun x i => ?_
    · rw [map_cons, sum_cons]; rfl
    · rw [map_cons, sum_cons]; rfl

/-- **C125** The stresses and displacements calculated by the precise procedures, as functions of the place in a layer, are an
elastic state of that layer in equilibrium, for all pavements, loads and groups, away from the axes of the loads, if near the
place every integration point counts for all results or for none, and no exponential is cut off.  The functions `j0` and `j1`
only have to satisfy the differential equations of the Bessel functions. -/
theorem C125_elastic_partial {bs : Bessel} (h0 : ∀ x, 0 < x → HasDerivAt bs.j0 (-bs.j1 x) x)
    (h1 : ∀ x, 0 < x → HasDerivAt bs.j1 (bs.j0 x - bs.j1 x / x) x) (hb : bs.j1 0 = 0) (dmin : ℝ) (hd : 0 ≤ dmin) (l : Lim) (p : Pav)
    (qs : ℝ → List Panel) (stop : ℝ → ℝ → ℝ × ℝ) (il : Nat) (hE : p.E il ≠ 0) (Q : Option (Nat → ℝ)) (nl : Nat)
    (groups : List (List Load)) (ls : List Load) (hls : ls ∈ groups)
    (hsep : ∀ a ∈ radii groups, ∀ b ∈ radii groups, |a - b| ≤ dmin → a = b) (q : Fin 3 → ℝ)
    (haxis : ∀ ld ∈ ls, (q 0, q 1) ≠ (ld.x, ld.y))
    (hnodes : ∀ ld ∈ ls, ∀ k ∈ qs ld.radius, ∀ n ∈ k.nodes,
      Together (stop ld.radius) (ld.distance (q 0) (q 1)) n.1 ∧ n.1 * q 2 < l.maxExp) :
    let o (x : Fin 3 → ℝ) := calculate dmin false false (integrate bs l p qs stop 0 (x 2) il) p.E Q nl groups ls (x 0) (x 1) il
    ElasticState (p.v il) (p.E il) (fun x => (o x).d.stress) (fun x => (o x).d.displ) q := by
  intro o
  have hdist : ∀ ld ∈ ls, ld.distance (q 0) (q 1) ≠ 0 := fun ld hl h => by
    have := distance_sq ld (q 0) (q 1)
    rw [h] at this
    have e1 : q 0 - ld.x = 0 := pow_eq_zero_iff (two_ne_zero) |>.1 (by nlinarith [sq_nonneg (q 0 - ld.x), sq_nonneg (q 1 - ld.y)])
    have e2 : q 1 - ld.y = 0 := pow_eq_zero_iff (two_ne_zero) |>.1 (by nlinarith [sq_nonneg (q 0 - ld.x), sq_nonneg (q 1 - ld.y)])
    exact haxis ld hl (Prod.ext (sub_eq_zero.1 e1) (sub_eq_zero.1 e2))
  have hs (x : Fin 3 → ℝ) := C49_superposition dmin hd (integrate bs l p qs stop 0 (x 2) il) p.E Q nl groups ls hls hsep
    (fun a => (C49_centre bs hb l p qs stop 0 (x 2) il false p.E a).1) (x 0) (x 1) il
  refine (loads_elastic (ax := fun z => integrate bs l p qs stop 0 z il false p.E) ls fun ld hl => ⟨hdist ld hl, ?_⟩).congr
    (fun x i j => (hs x).1 i j) fun x i => (hs x).2.1 i
  exact C125_load h0 h1 l p qs stop ld.radius il (lt_of_le_of_ne (distance_nonneg ..) (hdist ld hl).symm) hE (hnodes ld hl)

/-- **C125**, whatever the stopping points: the results of a load are those with one and the same stopping point for all results,
the lesser of the two, to which `C125_elastic_partial` applies, and what the integration points between the two stopping points add. -/
theorem C125_rest (bs : Bessel) (l : Lim) (p : Pav) (qs : ℝ → List Panel) (stop : ℝ → ℝ → ℝ × ℝ) (z : ℝ) (il : Nat) (a r : ℝ) :
    let k := min (stop a r).1 (stop a r).2
    integrate bs l p qs stop 0 z il false p.E a r = integrate bs l p qs (fun _ _ => (k, k)) 0 z il false p.E a r +
      physical false r a (p.v il) (p.E il) (total (fun n => if k ≤ n.1 then
        contrib bs l p false a ⟨z, il, r, (stop a r).1, (stop a r).2⟩ n else 0) (qs a)) := by
  intro k
  rw [C71_precise, C71_precise, ← physical_add]
  congr 1
  simp only [total]
  induction (qs a).flatMap Panel.nodes with
  | nil => simp
  | cons n ns ih =>
    rw [map_cons, map_cons, map_cons, sum_cons, sum_cons, sum_cons, ih]
    have e : contrib bs l p false a ⟨z, il, r, (stop a r).1, (stop a r).2⟩ n = contrib bs l p false a ⟨z, il, r, k, k⟩ n +
        if k ≤ n.1 then contrib bs l p false a ⟨z, il, r, (stop a r).1, (stop a r).2⟩ n else 0 := by
      by_cases hk : k ≤ n.1
      · have e0 : contrib bs l p false a ⟨z, il, r, k, k⟩ n = 0 := by
          ext <;> simp [contrib, not_lt.2 hk]
        rw [e0, if_pos hk, zero_add]
      · rw [if_neg hk, add_zero]
        obtain ⟨k1, k2⟩ := lt_min_iff.1 (not_le.1 hk)
        have hk' := not_le.1 hk
        ext <;> simp [contrib, k1, k2, hk']
    have e' : contrib bs l { p with E := p.E } false a ⟨z, il, r, (stop a r).1, (stop a r).2⟩ n =
        contrib bs l { p with E := p.E } false a ⟨z, il, r, k, k⟩ n +
        if k ≤ n.1 then contrib bs l p false a ⟨z, il, r, (stop a r).1, (stop a r).2⟩ n else 0 := e
    exact (congrArg (fun x : Ax => x + _) e').trans (add_add_add_comm (G := Ax) _ _ _ _)

/-! ## What the points between the two stopping points do -/

/-- The coefficients of a half-space. -/
theorem abcd_half (l : Lim) (h v E f : Nat → ℝ) (hh : h 0 = 0) {m : ℝ} (hm : 0 < m) :
    abcd l ⟨1, h, v, E, f⟩ m 0 = q![0, 0, -(2 * v 0) / m ^ 3, -1 / m ^ 2] := by
  have hc : cols l ⟨1, h, v, E, f⟩ m 0 = (q![0, 0, 1, 0], q![0, 0, 0, 1]) := by simp [cols, last, hh]
  have hm' := hm.ne'
  have hd : det0 l ⟨1, h, v, E, f⟩ m = -m := by
    simp [det0, hc, B1, Fin.sum_univ_four]
    ring
  funext i
  simp only [abcd, if_neg (not_le.2 hm), CD, hd, Nat.sub_self, hc]
  fin_cases i <;> simp [B1, Fin.sum_univ_four] <;> field_simp

/-- A point between, alone. -/
theorem between_node {bs : Bessel} (h0 : ∀ x, 0 < x → HasDerivAt bs.j0 (-bs.j1 x) x)
    (l : Lim) (h v E f : Nat → ℝ) (hh : h 0 = 0) (hv : -1 < v 0) (hv' : v 0 < 1) (hE : 0 < E 0) (a : ℝ) (ha : 0 < a) (n : ℝ × ℝ) (hm : 0 < n.1)
    (hw : n.2 ≠ 0) (M : ℝ → ℝ × ℝ) {r z : ℝ} (hr : 0 < r) (hz : 0 ≤ z) (hn : ∀ᶠ x in nhds r, (M x).2 ≤ n.1 ∧ n.1 < (M x).1)
    (hja : bs.j1 (n.1 * a) ≠ 0) (hjr : bs.j1 (n.1 * r) ≠ 0) :
    ¬ AxialState (v 0) (E 0) (fun r z => physical false r a (v 0) (E 0)
      (contrib bs l ⟨1, h, v, E, f⟩ false a ⟨z, 0, r, (M r).1, (M r).2⟩ n)) r z := by
  obtain ⟨m, w⟩ := n
  dsimp only at *
  rintro ⟨ur, uz, wr, wz, -, -, -, -, -, -, g2, g3, -, -, -, -, -, -, -, -, -, g4, -, -⟩
  obtain ⟨n1, n2⟩ := hn.self_of_nhds
  have hJ0 : HasDerivAt (fun x => bs.j0 (m * x)) (-(m * bs.j1 (m * r))) r :=
    ((h0 (m * r) (mul_pos hm hr)).comp r ((hasDerivAt_id r).const_mul m)).congr_deriv (by simp; ring)
  -- no shear stress and no radial displacement
  have huz : uz = 0 := by
    refine g2.unique ((hasDerivAt_const z (0 : ℝ)).congr_of_eventuallyEq (.of_forall fun x => ?_))
    simp [physical, contrib, not_lt.2 n1]
  have hsse : (physical false r a (v 0) (E 0) (contrib bs l ⟨1, h, v, E, f⟩ false a ⟨z, 0, r, (M r).1, (M r).2⟩ (m, w))).sse = 0 := by
    simp [physical, contrib, not_lt.2 n1]
  rw [huz, hsse, zero_add, mul_zero] at g4
  have hwr : wr = 0 := (mul_eq_zero.1 g4).resolve_left hE.ne'
  set W := 2 * (1 - 2 * v 0) * (buildT l m z (abcd l ⟨1, h, v, E, f⟩ m 0) 3 - buildT l m z (abcd l ⟨1, h, v, E, f⟩ m 0) 1) -
    (buildT l m z (abcd l ⟨1, h, v, E, f⟩ m 0) 0 + buildT l m z (abcd l ⟨1, h, v, E, f⟩ m 0) 2) with hW
  have hWpos : 0 < W := by
    have e : W = Real.exp (-(m * z)) * ((2 * (1 - v 0) + m * z) / m ^ 2) := by
      rw [hW, abcd_half l h v E f hh hm]
      simp only [buildT, v4_0, v4_1, v4_2, v4_3]
      field_simp
      ring
    rw [e]
    have : 0 ≤ m * z := by positivity
    have : 0 < 2 * (1 - v 0) + m * z := by linarith
    positivity
  have hd : HasDerivAt (fun x => (a * (1 + v 0) / E 0 * (w * (m * bs.j1 (m * a)) * W)) * bs.j0 (m * x))
      (a * (1 + v 0) / E 0 * (w * (m * bs.j1 (m * a)) * W) * -(m * bs.j1 (m * r))) r := hJ0.const_mul _
  have hu := g3.unique (hd.congr_of_eventuallyEq (by
    filter_upwards [hn] with x hx
    simp only [physical, contrib, if_pos hx.2, ← hW]
    ring))
  rw [hwr] at hu
  have : a * (1 + v 0) / E 0 ≠ 0 := by
    have : 0 < 1 + v 0 := by linarith
    positivity
  have hne : a * (1 + v 0) / E 0 * (w * (m * bs.j1 (m * a)) * W) * -(m * bs.j1 (m * r)) ≠ 0 :=
    mul_ne_zero (mul_ne_zero this (mul_ne_zero (mul_ne_zero hw (mul_ne_zero hm.ne' hja)) hWpos.ne'))
      (neg_ne_zero.2 (mul_ne_zero hm.ne' hjr))
  exact hne hu.symm

/-- **C125** fails with an integration point that counts for the vertical results but not for the others, whatever the other points
are: in every half-space the state under a load is then not elastic, since the vertical displacement of that point changes with the
distance without a shear stress, unless a Bessel function happens to vanish.  (The stopping points of the two kinds of results
differ, and the code puts integration points of their own between them.) -/
theorem C125_between_wrong {bs : Bessel} (h0 : ∀ x, 0 < x → HasDerivAt bs.j0 (-bs.j1 x) x)
    (h1 : ∀ x, 0 < x → HasDerivAt bs.j1 (bs.j0 x - bs.j1 x / x) x)
    (l : Lim) (h v E f : Nat → ℝ) (hh : h 0 = 0) (hv : -1 < v 0) (hv' : v 0 < 1) (hE : 0 < E 0) (a : ℝ) (ha : 0 < a)
    (qs : ℝ → List Panel) (stop : ℝ → ℝ → ℝ × ℝ) {r z : ℝ} (hr : 0 < r) (hz : 0 ≤ z) (m w : ℝ) (before after : List (ℝ × ℝ))
    (hq : (qs a).flatMap Panel.nodes = before ++ (m, w) :: after) (hm : 0 < m) (hw : w ≠ 0)
    (hn : ∀ᶠ x in nhds r, (stop a x).2 ≤ m ∧ m < (stop a x).1)
    (hothers : ∀ n ∈ before ++ after, Together (stop a) r n.1 ∧ n.1 * z < l.maxExp)
    (hja : bs.j1 (m * a) ≠ 0) (hjr : bs.j1 (m * r) ≠ 0) :
    ¬ AxialState (v 0) (E 0) (fun r z => integrate bs l ⟨1, h, v, E, f⟩ qs stop 0 z 0 false E a r) r z := by
  intro hs
  refine between_node h0 l h v E f hh hv hv' hE a ha (m, w) hm hw (stop a) hr hz hn hja hjr (AxialState.rest (hs.congr ?_)
    (nodes_axial h0 h1 l ⟨1, h, v, E, f⟩ a 0 (stop a) hr hE.ne' (before ++ after) hothers))
  refine .of_forall fun q => ?_
  dsimp only
  rw [C71_precise, ← physical_add, total, hq]
  congr 1
  rw [map_append, map_append, map_cons, sum_append, sum_append, sum_cons, add_assoc, add_comm (contrib ..)]

/-! ## Non-vacuity -/

/-- The Bessel functions satisfy the hypotheses on `j0` and `j1`, and the first does not vanish everywhere. -/
example : (∀ x, 0 < x → HasDerivAt besselJ.j0 (-besselJ.j1 x) x) ∧
    (∀ x, 0 < x → HasDerivAt besselJ.j1 (besselJ.j0 x - besselJ.j1 x / x) x) ∧ besselJ.j1 0 = 0 ∧ ∃ x, 0 < x ∧ besselJ.j1 x ≠ 0 := by
  refine ⟨fun x _ => besselJ_j0 x, fun x hx => besselJ_j1 x hx.ne', besselJ_zero.2, ?_⟩
  by_contra hc
  push Not at hc
  have hj : ∀ x, 0 < x → besselJ.j0 x = 0 := fun x hx => by
    have e : HasDerivAt besselJ.j1 0 x := (hasDerivAt_const x (0 : ℝ)).congr_of_eventuallyEq (by
      filter_upwards [eventually_gt_nhds hx] with y hy using hc y hy)
    have := e.unique (besselJ_j1 x hx.ne')
    rw [hc x hx, zero_div, sub_zero] at this
    exact this.symm
  have hcont := (besselJ_j0 0).continuousAt
  have hne := hcont.eventually_ne (y := 0) (by rw [besselJ_zero.1]; norm_num)
  obtain ⟨ε, hε, hb⟩ := Metric.eventually_nhds_iff.1 hne
  exact hb (y := ε / 2) (by rw [Real.dist_eq, sub_zero, abs_of_pos (by linarith)]; linarith) (hj _ (by linarith))

/-- Two loads of different radius, a place between them, and integration points below and above common stopping points. -/
example : let stop : ℝ → ℝ → ℝ × ℝ := fun _ _ => (3, 3)
    let qs : ℝ → List Panel := fun _ => [⟨[(1, 1), (2, 1)], true⟩, ⟨[(4, 1)], true⟩]
    let q : Fin 3 → ℝ := t![1, 1, 5]
    (∀ ld ∈ demoLoads, (q 0, q 1) ≠ (ld.x, ld.y)) ∧
    ∀ ld ∈ demoLoads, ∀ k ∈ qs ld.radius, ∀ n ∈ k.nodes,
      Together (stop ld.radius) (ld.distance (q 0) (q 1)) n.1 ∧ n.1 * q 2 < (700 : ℝ) := by
  refine ⟨by simp [demoLoads], ?_⟩
  intro ld _ k hk n hn
  simp only [mem_cons, not_mem_nil, or_false] at hk
  rcases hk with rfl | rfl
  · simp only [mem_cons, not_mem_nil, or_false] at hn
    rcases hn with rfl | rfl
    · exact ⟨.inl (.of_forall fun _ => by norm_num), by norm_num⟩
    · exact ⟨.inl (.of_forall fun _ => by norm_num), by norm_num⟩
  · simp only [mem_cons, not_mem_nil, or_false] at hn
    subst hn
    exact ⟨.inr (.of_forall fun _ => by norm_num), by norm_num⟩

/-- A point between different stopping points. -/
example : let stop : ℝ → ℝ → ℝ × ℝ := fun _ _ => (3, 2)
    ([Panel.mk [(1, 1), (5 / 2, 1)] true].flatMap Panel.nodes = [(1, 1)] ++ ((5 / 2 : ℝ), (1 : ℝ)) :: []) ∧
    (∀ᶠ x in nhds (1 : ℝ), (stop 1 x).2 ≤ 5 / 2 ∧ 5 / 2 < (stop 1 x).1) ∧
    ∀ n ∈ [((1 : ℝ), (1 : ℝ))] ++ [], Together (stop 1) 1 n.1 ∧ n.1 * 5 < (700 : ℝ) := by
  refine ⟨rfl, .of_forall fun _ => by norm_num, ?_⟩
  intro n hn
  simp only [append_nil, mem_cons, not_mem_nil, or_false] at hn
  subst hn
  exact ⟨.inl (.of_forall fun _ => by norm_num), by norm_num⟩

end OP.Pave
