import Verif.Pave.PropsGaussAll
/-!
# C100: the tables the code makes
-/
namespace OP.Pave.Gauss
open Polynomial Finset Filter Topology

/-- **C100** (the tables of the code): for every polynomial of degree below `2n`, the tables that the searches of the code end with integrate it as exactly as wanted,
if the tolerance is small enough. -/
theorem C100_limit {n : Nat} (hn0 : 0 < n) (hn : n ≤ 16) (q : ℝ[X]) (hq : q.natDegree < 2 * n) {δ : ℝ} (hδ : 0 < δ) : ∃ ε0 > 0, ∀ eps : ℝ, 0 < eps → eps < ε0 →
    ∃ z pp : Nat → ℝ, (∀ i, 2 * i + 1 ≤ n → ∃ fuel, newton eps n fuel (guess n i) = some (z i, pp i)) ∧
      |∑ j ∈ range n, (row n z pp).2 j * q.eval ((row n z pp).1 j) - ∫ x in (-1 : ℝ)..1, q.eval x| < δ := by
  obtain ⟨ζ, hf, hs⟩ := C100_searches hn
  choose! fuel r g1 g2 _ g4 using hs
  have hroot : ∀ i, 2 * i + 1 ≤ n → (LP n).1.eval (ζ i) = 0 := fun i hi => by
    have := hf.zero i hi
    rwa [legendre_eval] at this
  have hpos : ∀ᶠ eps : ℝ in 𝓝[>] 0, 0 < eps := self_mem_nhdsWithin
  have t0 : Tendsto (fun eps : ℝ => eps) (𝓝[>] 0) (𝓝 0) := tendsto_id.mono_left nhdsWithin_le_nhds
  have t1 : ∀ i, 2 * i + 1 ≤ n → Tendsto (fun eps => (r eps i).1) (𝓝[>] 0) (𝓝 (ζ i)) := fun i hi => by
    have h1 : Tendsto (fun eps : ℝ => ζ i + eps * 2) (𝓝[>] 0) (𝓝 (ζ i)) := by
      have := (t0.mul_const (2 : ℝ)).const_add (ζ i)
      rwa [zero_mul, add_zero] at this
    refine tendsto_of_tendsto_of_tendsto_of_le_of_le' tendsto_const_nhds h1 ?_ ?_
    · filter_upwards [hpos] with eps he using g2 eps he i hi
    · filter_upwards [hpos] with eps he
      linarith [g4 eps he i hi]
  have cs : ∀ i, 2 * i + 1 ≤ n → ContinuousAt (slope n) (ζ i) := fun i hi => by
    have h1 := (root_simple n _ (hroot i hi)).2
    have h2 : slope n = fun x => (n : ℝ) * (x * (LP n).1.eval x - (LP n).2.eval x) / (x * x - 1) := funext fun x => by rw [slope, legendre_eval]
    rw [h2]
    refine ContinuousAt.div ?_ ?_ (by nlinarith)
    · exact (continuous_const.mul ((continuous_id.mul (LP n).1.continuous).sub (LP n).2.continuous)).continuousAt
    · exact ((continuous_id.mul continuous_id).sub continuous_const).continuousAt
  have t2 : ∀ i, 2 * i + 1 ≤ n → Tendsto (fun eps => (r eps i).2) (𝓝[>] 0) (𝓝 (slope n (ζ i))) := fun i hi => by
    have hy : ∀ eps : ℝ, ∃ y, 0 < eps → (r eps i).2 = slope n y ∧ |(r eps i).1 - y| ≤ eps := fun eps => by
      by_cases he : 0 < eps
      · obtain ⟨y, -, h2, h3⟩ := C100_stop eps n _ _ _ (g1 eps he i hi)
        exact ⟨y, fun _ => ⟨h2, h3⟩⟩
      · exact ⟨0, fun h => absurd h he⟩
    choose y hy using hy
    have ty : Tendsto y (𝓝[>] 0) (𝓝 (ζ i)) := by
      have a1 := (t1 i hi).sub t0
      have a2 := (t1 i hi).add t0
      rw [sub_zero] at a1
      rw [add_zero] at a2
      refine tendsto_of_tendsto_of_tendsto_of_le_of_le' a1 a2 ?_ ?_
      · filter_upwards [hpos] with eps he
        linarith [(abs_le.1 (hy eps he).2).2]
      · filter_upwards [hpos] with eps he
        linarith [(abs_le.1 (hy eps he).2).1]
    refine ((cs i hi).tendsto.comp ty).congr' ?_
    filter_upwards [hpos] with eps he using (hy eps he).1.symm
  -- the weights
  have tw : ∀ i, 2 * i + 1 ≤ n → Tendsto (fun eps => 2 / (1 - (r eps i).1 * (r eps i).1) / (r eps i).2 / (r eps i).2) (𝓝[>] 0)
      (𝓝 (2 / (1 - ζ i * ζ i) / slope n (ζ i) / slope n (ζ i))) := fun i hi => by
    obtain ⟨h1, h2⟩ := root_simple n _ (hroot i hi)
    rw [← slope_eval n _ h2.ne] at h1
    exact ((tendsto_const_nhds.div (tendsto_const_nhds.sub ((t1 i hi).mul (t1 i hi))) (by nlinarith)).div (t2 i hi) h1).div (t2 i hi) h1
  have tj : ∀ j ∈ range n, Tendsto (fun eps => (row n (fun i => (r eps i).1) fun i => (r eps i).2).2 j * q.eval ((row n (fun i => (r eps i).1) fun i => (r eps i).2).1 j))
      (𝓝[>] 0) (𝓝 ((row n ζ fun i => slope n (ζ i)).2 j * q.eval ((row n ζ fun i => slope n (ζ i)).1 j))) := fun j hj => by
    have hj := mem_range.1 hj
    simp only [(row_get n _ _ j hj).1, (row_get n _ _ j hj).2]
    split_ifs with h
    · exact (tw j h.le).mul ((q.continuous.tendsto _).comp (t1 j h.le).neg)
    · exact (tw _ (by omega)).mul ((q.continuous.tendsto _).comp (t1 _ (by omega)))
  have ts := tendsto_finsetSum (range n) tj
  rw [(C100_exact_partial n hn0 ζ (fun i => slope n (ζ i)) hf fun _ _ => rfl).1 q hq] at ts
  have ev := (Metric.tendsto_nhds.1 ts δ hδ)
  rw [eventually_nhdsWithin_iff, Metric.eventually_nhds_iff] at ev
  obtain ⟨ε0, h0, hb⟩ := ev
  refine ⟨ε0, h0, fun eps he hlt => ⟨fun i => (r eps i).1, fun i => (r eps i).2, fun i hi => ⟨fuel eps i, g1 eps he i hi⟩, ?_⟩⟩
  have := hb (y := eps) (by rw [Real.dist_eq, sub_zero, abs_of_pos he]; exact hlt) he
  rwa [Real.dist_eq] at this

/-- The fifth power on three points, say. -/
example : (X ^ 5 : ℝ[X]).natDegree < 2 * 3 := by rw [natDegree_X_pow]; norm_num

end OP.Pave.Gauss
