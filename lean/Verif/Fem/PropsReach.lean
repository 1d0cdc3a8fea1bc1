import Verif.Fem.PropsVariable
import Verif.Fem.PropsElem
/-!
# C85: the patterns of nodes that meshes give
-/
namespace OP.Fem.Nodes
open OP.Fem

theorem sided_top {nz : Nat} (h : 2 ≤ nz) : Sided nz (topPlaces nz) := by
  intro i hi hc l hl
  have hc := of_decide_eq_true hc
  exact decide_eq_true (by omega)

theorem adapts_top {nz : Nat} (h : 2 ≤ nz) {i : Nat} (hi : i < nz) : Adapts nz (topPlaces nz) i := by
  unfold Adapts
  by_cases e : i = nz - 1
  · rw [show topPlaces nz (i * 4) = true from decide_eq_true (by omega), show topPlaces nz (i * 4 + 1) = true from decide_eq_true (by omega),
      show topPlaces nz (i * 4 + 2) = true from decide_eq_true (by omega), show topPlaces nz (i * 4 + 3) = true from decide_eq_true (by omega),
      show topPlaces nz (4 * nz + i) = true from decide_eq_true (by omega)]
    decide
  · rw [show topPlaces nz (i * 4) = false from decide_eq_false (by omega), show topPlaces nz (i * 4 + 1) = false from decide_eq_false (by omega),
      show topPlaces nz (i * 4 + 2) = false from decide_eq_false (by omega), show topPlaces nz (i * 4 + 3) = false from decide_eq_false (by omega),
      show topPlaces nz (4 * nz + i) = false from decide_eq_false (by omega)]
    decide

/-- **C85** for the elements of a mesh: under a mesh of boxes between lines, the shape functions of a variable or adaptor element that spans two by two boxes, with the mask that the search
gives it, add up to 1 and their derivatives to 0. -/
theorem C85_reached {K : Type} [Field K] [LinearOrder K] [IsStrictOrderedRing K] (L : Lines) (hnx : L.nx = 2) (hny : L.ny = 2) (cells : List Cell) (rs : List Req)
    (hrs : List.Forall₂ (fun r q => r.Asks (L.cell q)) rs cells) (a b c : Nat) (h1 : (⟨a, b, c⟩ : Cell) ∈ cells)
    (h2 : (⟨a + 1, b + 1, c⟩ : Cell) ∈ cells) (hc : ∀ q ∈ cells, c ≤ q.c) (sz : Shape) (hb : sz.bounded) (hz : 2 ≤ getn sz) (Z : Int)
    (hZ : ((getn sz - 1 : Nat) : Int) ≤ L.zs c - Z) (ad : Bool) :
    ∃ g g' mask e, Grid.build {} rs = .ok g ∧
      g.addVar ad sz (boxCorners ⟨L.xs a, L.ys b, Z⟩ ⟨L.xs (a + 2), L.ys (b + 2), L.zs c⟩) = .ok (g', mask) ∧ g'.elems = g.elems ++ [e] ∧
      ∀ (gx gy gz : K) (w : Nat → SF K),
        ∑ n ∈ Finset.range e.inel.length, (if ad then adaptorSF sz mask gx gy gz w n else variableSF sz mask gx gy gz w n) = unity := by
  obtain ⟨g, s, g', mask, s', inel, e1, -, e2, -, e3, -, -, e4, e5⟩ := C109_grid_partial L hnx hny cells rs hrs a b c h1 h2 hc sz hz Z hZ ad
  refine ⟨g, g', mask, _, e1, e2, e3, fun gx gy gz w => ?_⟩
  rw [show mask = number (getn sz) (topPlaces (getn sz)) from funext e5]
  show ∑ n ∈ Finset.range inel.length, _ = unity
  rw [e4]
  cases ad
  · exact C85_variable_sum hb (sided_top hz) gx gy gz w
  · exact C85_adaptor_sum hb (fun i hi => adapts_top hz hi) gx gy gz w

/-- The shape of the example beside `C109_grid_partial`, which has the other hypotheses -/
example : Shape.quadratic.bounded ∧ 2 ≤ getn .quadratic := ⟨⟨by decide, by decide⟩, by decide⟩

/-- Blocks, and then an element below them: the nodes of the element, and the values of its shape functions at a point. -/
def tryShapes (ad : Bool) (bs : List (C3 × C3)) (lo hi : C3) (gx gy gz : ℚ) : Res (List Nat × List ℚ) := do
  let g ← Grid.build {} (bs.map fun b => .block .linear (boxCorners b.1 b.2))
  let r ← g.addVar ad .linear (boxCorners lo hi)
  let inel := (r.1.elems.map Elem.inel).getLastD []
  return (inel, (List.range inel.length).map fun n => if ad then adaptorSF .linear r.2 gx gy gz (fun _ => 0) n 0 else variableSF .linear r.2 gx gy gz (fun _ => 0) n 0)

/-- **C85**, the code: meshes give the patterns for which the functions are wrong. With one finer block above the first corner of a variable element, the function of its first node, which
is below, is -1 at the node in the centre of its top; with one finer block above the last corner of an adaptor, its functions add up to 3/4 there. -/
theorem C85_reached_wrong :
    tryShapes false [(⟨0, 0, 0⟩, ⟨128, 128, 256⟩)] ⟨0, 0, -256⟩ ⟨256, 256, 0⟩ 0 0 1 = .ok ([8, 9, 10, 11, 0, 12, 13, 14, 1, 2, 3], [-1, 0, 0, 0, 0, 1 / 4, 1 / 4, 1 / 2, 0, 0, 1]) ∧
    tryShapes true [(⟨128, 128, 0⟩, ⟨256, 256, 256⟩)] ⟨0, 0, -256⟩ ⟨256, 256, 0⟩ 0 0 1 = .ok ([8, 9, 10, 11, 12, 13, 14, 3, 1, 2], [0, 0, 0, 0, 1 / 4, 0, 0, 0, 1 / 2, 0]) ∧
    [0, 0, 0, 0, 1 / 4, 0, 0, 0, 1 / 2, 0].sum = (3 / 4 : ℚ) := by decide +kernel

end OP.Fem.Nodes
