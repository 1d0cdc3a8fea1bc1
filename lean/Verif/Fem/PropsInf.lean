import Verif.Fem.PropsStiff
/-!
# C86: the mapping of infinite elements
-/
namespace OP.Fem
variable {K : Type} [Field K] [LinearOrder K] [IsStrictOrderedRing K]

/-- The corners of a box along the axes from `a` to `b`, in the order of the nodes of a block. -/
def corners (a b : Fin 3 → K) (k : Nat) : Fin 3 → K := ![if k % 4 < 2 then a 0 else b 0, if k % 2 < 1 then a 1 else b 1, if k < 4 then a 2 else b 2]

/-- The sides of an infinite element: bounded with a node at either end, or infinite at one end. -/
def TwoNodes (s : Shape) : Prop := s = .linear ∨ s = .infPos ∨ s = .infNeg

/-- How fast the coordinate grows along a side of length 1. -/
def slope (s : Shape) (r : K) : K :=
  match s with
  | .infPos => 2 / ((1 - r) * (1 - r))
  | .infNeg => 2 / ((1 + r) * (1 + r))
  | _ => 1 / 2

theorem slope_pos {s : Shape} {r : K} (h1 : -1 < r) (h2 : r < 1) : 0 < slope s r := by
  have a : 0 < 1 - r := by linarith
  have b : 0 < 1 + r := by linarith
  cases s <;> simp only [slope] <;> positivity

theorem two_shp {s : Shape} (hs : TwoNodes s) {r : K} (h1 : -1 < r) (h2 : r < 1) :
    getn s = 2 ∧ ∃ p, shp s 0 r true = (p, -slope s r) ∧ shp s 1 r true = (1 - p, slope s r) := by
  have a : 1 - r ≠ 0 := by linarith
  have b : 1 + r ≠ 0 := by linarith
  rcases hs with rfl | rfl | rfl
  · refine ⟨rfl, getN .linear 0 r true, ?_, ?_⟩
    · simp only [shp, getN, getdN, N2, dN2, slope, Prod.mk.injEq, true_and]; norm_num
    · simp only [shp, getN, getdN, N2, dN2, slope, Prod.mk.injEq]
      exact ⟨by ring, by norm_num⟩
  · refine ⟨rfl, getN .infPos 0 r true, ?_, ?_⟩
    · simp only [shp, getN, getdN, dMpi, slope, Prod.mk.injEq, true_and, if_true]; ring
    · simp only [shp, getN, getdN, Mpi, dMpi, slope, Prod.mk.injEq, if_true, and_true]
      field_simp; ring
  · refine ⟨rfl, getN .infNeg 0 r true, ?_, ?_⟩
    · simp only [shp, getN, getdN, dMni, slope, Prod.mk.injEq, true_and, if_true]; ring
    · simp only [shp, getN, getdN, Mni, dMni, slope, Prod.mk.injEq, if_true, and_true]
      field_simp; ring

/-- **C86**, infinite elements: a block along the axes, any of whose sides may be infinite, is mapped by a matrix with the lengths of its sides, each with the positive slope of the mapping
(C60), on the diagonal and zeros elsewhere. So it is never rejected, unless a side is very short, and its derivatives are those of the shape functions divided by these numbers. -/
theorem C86_infinite {sx sy sz : Shape} (hx : TwoNodes sx) (hy : TwoNodes sy) (hz : TwoNodes sz) (a b g : Fin 3 → K) (hg : ∀ i, -1 < g i ∧ g i < 1) (hab : ∀ i, a i < b i) :
    let J := jacobian (getn sz * (getn sx * getn sy)) (fun k i => (blockSF sx sy sz true (g 0) (g 1) (g 2)).getD k 0 i.succ) (corners a b)
    let d : Fin 3 → K := ![(b 0 - a 0) * slope sx (g 0), (b 1 - a 1) * slope sy (g 1), (b 2 - a 2) * slope sz (g 2)]
    (∀ i j, J i j = if i = j then d i else 0) ∧ (∀ i, 0 < d i) ∧
    ∀ eps : K, (∀ i, eps ≤ d i) → ∀ B : Nat → Fin 3 → K, invMulGauss eps J B = .ok (d 0 * d 1 * d 2, fun n => ![B n 0 / d 0, B n 1 / d 1, B n 2 / d 2]) := by
  intro J d
  obtain ⟨nx, px, x0, x1⟩ := two_shp hx (hg 0).1 (hg 0).2
  obtain ⟨ny, py, y0, y1⟩ := two_shp hy (hg 1).1 (hg 1).2
  obtain ⟨nz, pz, z0, z1⟩ := two_shp hz (hg 2).1 (hg 2).2
  have hJ : ∀ i j, J i j = if i = j then d i else 0 := by
    intro i j
    simp only [J, jacobian_eq, grad, nx, ny, nz, blockSF, show List.range 2 = [0, 1] from rfl, List.flatMap_cons, List.flatMap_nil, List.map_cons, List.map_nil, x0, x1, y0, y1, z0, z1,
      Finset.sum_range_succ, Finset.sum_range_zero, List.cons_append, List.nil_append, List.append_nil, List.getD_cons_zero, List.getD_cons_succ]
    fin_cases i <;> fin_cases j <;> simp [prod, corners, d] <;> ring
  have hd : ∀ i, 0 < d i := by
    intro i
    have s0 := slope_pos (s := sx) (hg 0).1 (hg 0).2
    have s1 := slope_pos (s := sy) (hg 1).1 (hg 1).2
    have s2 := slope_pos (s := sz) (hg 2).1 (hg 2).2
    fin_cases i
    · exact mul_pos (sub_pos.2 (hab 0)) s0
    · exact mul_pos (sub_pos.2 (hab 1)) s1
    · exact mul_pos (sub_pos.2 (hab 2)) s2
  refine ⟨hJ, hd, fun eps he B => ?_⟩
  have h := C86_box (eps := eps) (J := J) (fun i j h => by rw [hJ, if_neg h]) (fun i => by rw [hJ, if_pos rfl, abs_of_pos (hd i)]; exact he i) B
  simp only [hJ, if_true] at h
  exact h

/-- Such an element: infinite below and to one side, at the centre of its coordinates. -/
example : let d : Fin 3 → ℚ := ![(3 - 1) * slope .linear 0, (5 - 2) * slope .infPos 0, (0 - (-4)) * slope .infNeg 0]
    d 0 = 1 ∧ d 1 = 6 ∧ d 2 = 8 ∧ TwoNodes .infPos := by
  refine ⟨?_, ?_, ?_, Or.inr (Or.inl rfl)⟩ <;> simp [slope] <;> norm_num

end OP.Fem
