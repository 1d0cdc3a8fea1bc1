import Verif.Fem.ElemLemmas
import Mathlib.Tactic.FinCases
import Mathlib.Tactic.LinearCombination
/-!
# C85: shape functions of the elements
-/
namespace OP.Fem
variable {K : Type} [Field K] [LinearOrder K] [IsStrictOrderedRing K]

/-! ## Specification -/

/-- Values that add up to one and derivatives that add up to nothing. -/
def unity : SF K := ![1, 0, 0, 0]

/-- A place of a node in a level. -/
inductive Place
  | corner (l : Fin 4)
  | side (l : Fin 4)
  | centre
deriving DecidableEq

/-- Its coordinates in plan. -/
def Place.pos : Place → K × K
  | .corner 0 => (-1, -1)
  | .corner 1 => (-1, 1)
  | .corner 2 => (1, -1)
  | .corner 3 => (1, 1)
  | .side 0 => (-1, 0)
  | .side 1 => (0, 1)
  | .side 2 => (0, -1)
  | .side 3 => (1, 0)
  | .centre => (0, 0)

/-- The place has a node in level `i`. -/
def Place.At (nz : Nat) (p : Nat → Bool) (i : Nat) : Place → Prop
  | .corner _ => True
  | .side l => p (i * 4 + l.val)
  | .centre => p (4 * nz + i)

/-- The number of the node. -/
def Place.index (nz : Nat) (p : Nat → Bool) (i : Nat) : Place → Nat
  | .corner l => i * 4 + l.val
  | .side l => number nz p (i * 4 + l.val)
  | .centre => number nz p (4 * nz + i)

/-- The nodes in the middle of the sides of a level, and in its centre, form one of the patterns for which an adaptor works:
no side, one side, two opposite sides, or all sides and the centre. -/
def Adapts (nz : Nat) (p : Nat → Bool) (i : Nat) : Prop :=
  (p (i * 4), p (i * 4 + 1), p (i * 4 + 2), p (i * 4 + 3), p (4 * nz + i)) ∈
    [(false, false, false, false, false),
     (true, false, false, false, false), (false, true, false, false, false),
     (false, false, true, false, false), (false, false, false, true, false),
     (true, false, false, true, false), (false, true, true, false, false),
     (true, true, true, true, true)]

/-! ## Lemmas -/

omit [LinearOrder K] [IsStrictOrderedRing K] [Field K] in
theorem sf_ext {a b : SF K} (h0 : a 0 = b 0) (h1 : a 1 = b 1) (h2 : a 2 = b 2) (h3 : a 3 = b 3) : a = b := by
  funext q; fin_cases q <;> assumption

section
omit [LinearOrder K] [IsStrictOrderedRing K]
theorem prod_0 (x y z : K × K) : prod x y z 0 = x.1 * y.1 * z.1 := rfl
theorem prod_1 (x y z : K × K) : prod x y z 1 = x.2 * y.1 * z.1 := rfl
theorem prod_2 (x y z : K × K) : prod x y z 2 = x.1 * y.2 * z.1 := rfl
theorem prod_3 (x y z : K × K) : prod x y z 3 = x.1 * y.1 * z.2 := rfl
end

theorem sum_prod (nx ny : Nat) (x y : Nat → K × K) (z : K × K) :
    ∑ j ∈ Finset.range nx, ∑ k ∈ Finset.range ny, prod (x j) (y k) z =
      prod (∑ j ∈ Finset.range nx, x j) (∑ k ∈ Finset.range ny, y k) z := by
  apply sf_ext <;> simp only [Finset.sum_apply, prod_0, prod_1, prod_2, prod_3, Prod.fst_sum, Prod.snd_sum] <;>
    rw [Finset.sum_mul_sum, Finset.sum_mul] <;> refine Finset.sum_congr rfl fun j _ => ?_ <;> rw [Finset.sum_mul]

theorem sum_prod_z (nz : Nat) (x y : K × K) (z : Nat → K × K) :
    ∑ i ∈ Finset.range nz, prod x y (z i) = prod x y (∑ i ∈ Finset.range nz, z i) := by
  apply sf_ext <;> simp only [Finset.sum_apply, prod_0, prod_1, prod_2, prod_3, Prod.fst_sum, Prod.snd_sum,
    Finset.mul_sum]

theorem sum_list {α : Type} [AddCommMonoid α] (n : Nat) (f : Nat → α) :
    ((List.range n).map f).sum = ∑ l ∈ Finset.range n, f l := by
  induction n with
  | zero => rfl
  | succ n ih => rw [List.range_succ, List.map_append, List.sum_append, ih, Finset.sum_range_succ]; simp

theorem sum_shp {s : Shape} {map : Bool} (h : s.bounded ∨ map = true) {r : K} (hr : Finite s r) :
    ∑ n ∈ Finset.range (getn s), shp s n r map = (1, 0) := by
  obtain ⟨h1, h2⟩ := C60_sum s map h hr
  rw [sum_list] at h1 h2
  ext
  · rw [Prod.fst_sum]; exact h1
  · rw [Prod.snd_sum]; exact h2

theorem prod_one : prod (1, 0) (1, 0) (1, 0) = (unity : SF K) := by
  apply sf_ext <;> simp [prod, unity]

theorem sum_flatMap' (n : Nat) (g : Nat → List (SF K)) :
    ((List.range n).flatMap g).sum = ∑ i ∈ Finset.range n, (g i).sum := by
  have := sum_flatMap (K := K) (List.range n) g id
  simpa [sum_range_list] using this

theorem finite_of_bounded {s : Shape} (h : s.bounded) (r : K) : Finite s r := by
  cases s <;> first | trivial | exact absurd rfl h.1 | exact absurd rfl h.2

/-! ## Blocks -/

/-- C85: the shape functions of a block add up to 1 and their derivatives to 0; with infinite ends, the mapping functions
do. -/
theorem C85_block_sum {sx sy sz : Shape} {map : Bool} (h : sx.bounded ∧ sy.bounded ∧ sz.bounded ∨ map = true) {gx gy gz : K}
    (hx : Finite sx gx) (hy : Finite sy gy) (hz : Finite sz gz) : (blockSF sx sy sz map gx gy gz).sum = unity := by
  have hx' := sum_shp (map := map) (h.imp_left fun h => h.1) hx
  have hy' := sum_shp (map := map) (h.imp_left fun h => h.2.1) hy
  have hz' := sum_shp (map := map) (h.imp_left fun h => h.2.2) hz
  unfold blockSF
  simp only [sum_flatMap', sum_list]
  simp only [sum_prod, hx', hy', sum_prod_z, hz', prod_one]

theorem getElem_flatMap_const {α : Type} (g : Nat → List α) (c : Nat) (hg : ∀ i, (g i).length = c) (n i k : Nat) (hi : i < n)
    (hk : k < c) : ((List.range n).flatMap g)[c * i + k]? = (g i)[k]? := by
  induction n with
  | zero => omega
  | succ n ih =>
    have hlen : ((List.range n).flatMap g).length = c * n := by
      rw [List.length_flatMap]
      simp [hg, Nat.mul_comm]
    rw [List.range_succ, List.flatMap_append]
    by_cases h : i < n
    · rw [List.getElem?_append_left, ih h]
      rw [hlen]
      calc c * i + k < c * i + c := by omega
        _ = c * (i + 1) := by ring
        _ ≤ c * n := Nat.mul_le_mul_left c h
    · have : i = n := by omega
      subst this
      rw [List.getElem?_append_right (by omega), hlen, Nat.add_sub_cancel_left]
      simp

theorem block_entry (sx sy sz : Shape) (map : Bool) (gx gy gz : K) {i j k : Nat} (hi : i < getn sz) (hj : j < getn sx)
    (hk : k < getn sy) : (blockSF sx sy sz map gx gy gz)[getn sx * getn sy * i + getn sy * j + k]? =
      some (prod (shp sx j gx map) (shp sy k gy map) (shp sz i gz map)) := by
  unfold blockSF
  have h1 : getn sy * j + k < getn sx * getn sy := by
    calc getn sy * j + k < getn sy * j + getn sy := by omega
      _ = getn sy * (j + 1) := by ring
      _ ≤ getn sy * getn sx := Nat.mul_le_mul_left _ hj
      _ = getn sx * getn sy := Nat.mul_comm _ _
  rw [Nat.add_assoc, getElem_flatMap_const _ (getn sx * getn sy) (by simp [List.length_flatMap]) _ _ _ hi h1,
    getElem_flatMap_const _ (getn sy) (by simp) _ _ _ hj hk]
  simp [hk]

/-- C85: each shape function of a block is 1 at its node and 0 at the others. -/
theorem C85_block_nodes (sx sy sz : Shape) (map : Bool) {i j k i' j' k' : Nat} {x y z : K}
    (hx : (nodes sx)[j']? = some x) (hy : (nodes sy)[k']? = some y) (hz : (nodes sz)[i']? = some z)
    (hi : i < getn sz) (hj : j < getn sx) (hk : k < getn sy) :
    (blockSF sx sy sz map x y z)[getn sx * getn sy * i + getn sy * j + k]?.map (· 0) =
      some (if i = i' ∧ j = j' ∧ k = k' then 1 else 0) := by
  rw [block_entry _ _ _ _ _ _ _ hi hj hk]
  have ex := (C60_nodes (K := K) sx map).2 j' x hx j hj
  have ey := (C60_nodes (K := K) sy map).2 k' y hy k hk
  have ez := (C60_nodes (K := K) sz map).2 i' z hz i hi
  simp only [Option.map_some, prod_0, shp, ex, ey, ez]
  congr 1
  by_cases h1 : i = i' <;> by_cases h2 : j = j' <;> by_cases h3 : k = k' <;> simp [h1, h2, h3]

/-! ## Variable elements -/

/-- C85: the shape functions of a variable element add up to 1 and their derivatives to 0, whichever sides have a node in the
middle, if a level with a node in its centre has one on each side. -/
theorem C85_variable_sum {sz : Shape} (hb : sz.bounded) {p : Nat → Bool} (hs : Sided (getn sz) p) (gx gy gz : K)
    (a : Nat → SF K) :
    ∑ n ∈ Finset.range (nnd (getn sz) p), variableSF sz (number (getn sz) p) gx gy gz a n = unity := by
  have hz' := sum_shp (map := true) (.inl hb) (finite_of_bounded hb gz)
  have hU : (unity : SF K) = ∑ i ∈ Finset.range (getn sz), prod (1, 0) (1, 0) (shp sz i gz true) := by
    rw [sum_prod_z, hz', prod_one]
  rw [sum_all, hU]
  apply Finset.sum_congr rfl
  intro i hi
  rw [Finset.mem_range] at hi
  have c0 := variable_corner hs gx gy gz a hi (show 0 < 4 by omega)
  have c1 := variable_corner hs gx gy gz a hi (show 1 < 4 by omega)
  have c2 := variable_corner hs gx gy gz a hi (show 2 < 4 by omega)
  have c3 := variable_corner hs gx gy gz a hi (show 3 < 4 by omega)
  simp only [Nat.add_zero] at c0
  have b0 : besideXY 0 = 2 := rfl
  have b1 : besideXY 1 = 0 := rfl
  have b2 : besideXY 2 = 3 := rfl
  have b3 : besideXY 3 = 1 := rfl
  rw [b0] at c0; rw [b1] at c1; rw [b2] at c2; rw [b3] at c3
  simp only [Nat.add_zero] at c1
  rw [c0, c1, c2, c3]
  have s0 : ∀ h : p (i * 4), _ := fun h => variable_side hs gx gy gz a hi (show 0 < 4 by omega) h
  have s1 : ∀ h : p (i * 4 + 1), _ := fun h => variable_side hs gx gy gz a hi (show 1 < 4 by omega) h
  have s2 : ∀ h : p (i * 4 + 2), _ := fun h => variable_side hs gx gy gz a hi (show 2 < 4 by omega) h
  have s3 : ∀ h : p (i * 4 + 3), _ := fun h => variable_side hs gx gy gz a hi (show 3 < 4 by omega) h
  simp only [Nat.add_zero] at s0
  have hc : p (4 * getn sz + i) → p (i * 4) ∧ p (i * 4 + 1) ∧ p (i * 4 + 2) ∧ p (i * 4 + 3) := fun h =>
    ⟨hs i hi h 0 (by omega), hs i hi h 1 (by omega), hs i hi h 2 (by omega), hs i hi h 3 (by omega)⟩
  have hsum : corner sz gx gy gz i 0 + corner sz gx gy gz i 1 + corner sz gx gy gz i 2 + corner sz gx gy gz i 3 =
      prod (1, 0) (1, 0) (shp sz i gz true) := by
    apply sf_ext <;> simp [corner, prod, cornerX, cornerY, N2, dN2] <;> ring
  rw [← hsum]
  generalize corner sz gx gy gz i 0 = C0, corner sz gx gy gz i 1 = C1, corner sz gx gy gz i 2 = C2,
    corner sz gx gy gz i 3 = C3 at *
  by_cases h : p (4 * getn sz + i) = true
  · obtain ⟨h0, h1, h2, h3⟩ := hc h
    have hm := variable_centre hs gx gy gz a hi h
    simp only [h, h0, h1, h2, h3, if_true] at *
    rw [s0 trivial, s1 trivial, s2 trivial, s3 trivial, hm]
    generalize side sz gx gy gz i 0 = S0, side sz gx gy gz i 1 = S1, side sz gx gy gz i 2 = S2, side sz gx gy gz i 3 = S3,
      centre sz gx gy gz i = M
    module
  · simp only [h, if_false] at *
    generalize side sz gx gy gz i 0 = S0, side sz gx gy gz i 1 = S1, side sz gx gy gz i 2 = S2, side sz gx gy gz i 3 = S3
      at *
    have e : ∀ (b : Bool) (n : Nat) (S : SF K), (b = true → variableSF sz (number (getn sz) p) gx gy gz a n = S + 0) →
        (if b = true then variableSF sz (number (getn sz) p) gx gy gz a n else 0) = if b = true then S else 0 := by
      intro b n S hh
      cases b
      · rfl
      · simpa using hh rfl
    simp only [Bool.false_eq_true, if_false] at *
    rw [e _ _ S0 s0, e _ _ S1 s1, e _ _ S2 s2, e _ _ S3 s3]
    split_ifs <;> module

theorem N2_at : N2 0 (-1 : K) = 1 ∧ N2 1 (-1 : K) = 0 ∧ N2 0 (0 : K) = 1 / 2 ∧ N2 1 (0 : K) = 1 / 2 ∧ N2 0 (1 : K) = 0 ∧
    N2 1 (1 : K) = 1 := by
  unfold N2; norm_num

theorem NA_at : NA 1 (-1 : K) = 0 ∧ NA 1 (0 : K) = 1 ∧ NA 1 (1 : K) = 0 := by
  unfold NA; norm_num

theorem N3_at : N3 0 (-1 : K) = 1 ∧ N3 1 (-1 : K) = 0 ∧ N3 2 (-1 : K) = 0 ∧ N3 0 (0 : K) = 0 ∧ N3 1 (0 : K) = 1 ∧
    N3 2 (0 : K) = 0 ∧ N3 0 (1 : K) = 0 ∧ N3 1 (1 : K) = 0 ∧ N3 2 (1 : K) = 1 := by
  unfold N3; norm_num

/-- C85: each shape function of a variable element is 1 at its node and 0 at the others. -/
theorem C85_variable_nodes {sz : Shape} {p : Nat → Bool} (hs : Sided (getn sz) p) {i i' : Nat} {z : K}
    (hz : (nodes sz)[i']? = some z) (hi : i < getn sz) {P P' : Place} (hP : P.At (getn sz) p i) (hP' : P'.At (getn sz) p i')
    (a : Nat → SF K) :
    variableSF sz (number (getn sz) p) P'.pos.1 P'.pos.2 z a (P.index (getn sz) p i) 0 =
      if i = i' ∧ P = P' then 1 else 0 := by
  have ez : (shp sz i z true).1 = if i = i' then 1 else 0 := (C60_nodes (K := K) sz true).2 i' z hz i hi
  obtain ⟨a1, a2, a3, a4, a5, a6⟩ := N2_at (K := K)
  obtain ⟨b1, b2, b3⟩ := NA_at (K := K)
  have hc : p (4 * getn sz + i) → p (i * 4) ∧ p (i * 4 + 1) ∧ p (i * 4 + 2) ∧ p (i * 4 + 3) := fun h =>
    ⟨hs i hi h 0 (by omega), hs i hi h 1 (by omega), hs i hi h 2 (by omega), hs i hi h 3 (by omega)⟩
  by_cases h : i = i'
  · subst h
    rw [if_pos rfl] at ez
    generalize e : p (4 * getn sz + i) = B at hc
    generalize e0 : p (i * 4) = B0 at hc
    generalize e1 : p (i * 4 + 1) = B1 at hc
    generalize e2 : p (i * 4 + 2) = B2 at hc
    generalize e3 : p (i * 4 + 3) = B3 at hc
    cases P with
    | corner l =>
      rw [show (Place.corner l).index (getn sz) p i = i * 4 + l.val from rfl, variable_corner hs _ _ _ _ hi l.isLt]
      rcases P' with l' | l' | _
      · fin_cases l <;> fin_cases l' <;>
          simp [Place.pos, corner, side, centre, besideXY, cornerX, cornerY, prod_0, ez, a1, a2, a3, a4, a5, a6,
            b1, b2, b3, apply_ite (fun w : SF K => w 0)]
      · fin_cases l <;> fin_cases l' <;> simp [Place.At, e0, e1, e2, e3] at hP' <;> subst hP' <;>
          simp [Place.pos, corner, side, centre, besideXY, cornerX, cornerY, prod_0, ez, a1, a2, a3, a4, a5, a6,
            b1, b2, b3, e, e0, e1, e2, e3, apply_ite (fun w : SF K => w 0)] <;> norm_num
      · simp only [Place.At, e] at hP'
        obtain ⟨h0, h1, h2, h3⟩ := hc hP'
        subst hP' h0 h1 h2 h3
        fin_cases l <;>
          simp [Place.pos, corner, side, centre, besideXY, cornerX, cornerY, prod_0, ez, a1, a2, a3, a4, a5, a6,
            b1, b2, b3, e, e0, e1, e2, e3] <;> norm_num
    | side l =>
      rw [show (Place.side l).index (getn sz) p i = number (getn sz) p (i * 4 + l.val) from rfl,
        variable_side hs _ _ _ _ hi l.isLt hP]
      rcases P' with l' | l' | _
      · fin_cases l <;> fin_cases l' <;>
          simp [Place.pos, corner, side, centre, besideXY, cornerX, cornerY, prod_0, ez, a1, a2, a3, a4, a5, a6,
            b1, b2, b3, apply_ite (fun w : SF K => w 0)]
      · fin_cases l <;> fin_cases l' <;> simp [Place.At, e0, e1, e2, e3] at hP' <;> subst hP' <;>
          simp [Place.pos, corner, side, centre, besideXY, cornerX, cornerY, prod_0, ez, a1, a2, a3, a4, a5, a6,
            b1, b2, b3, e, e0, e1, e2, e3, apply_ite (fun w : SF K => w 0)] <;> norm_num
      · simp only [Place.At, e] at hP'
        obtain ⟨h0, h1, h2, h3⟩ := hc hP'
        subst hP' h0 h1 h2 h3
        fin_cases l <;>
          simp [Place.pos, corner, side, centre, besideXY, cornerX, cornerY, prod_0, ez, a1, a2, a3, a4, a5, a6,
            b1, b2, b3, e, e0, e1, e2, e3] <;> norm_num
    | centre =>
      rw [show Place.centre.index (getn sz) p i = number (getn sz) p (4 * getn sz + i) from rfl,
        variable_centre hs _ _ _ _ hi hP]
      rcases P' with l' | l' | _ <;> (try fin_cases l') <;>
        simp [Place.pos, centre, prod_0, ez, b1, b2, b3]
  · rw [if_neg h] at ez
    rw [if_neg (fun e => h e.1)]
    cases P with
    | corner l =>
      rw [show (Place.corner l).index (getn sz) p i = i * 4 + l.val from rfl, variable_corner hs _ _ _ _ hi l.isLt]
      simp only [corner, side, centre, Pi.add_apply, apply_ite (fun w : SF K => w 0), Pi.smul_apply, prod_0, ez, mul_zero,
        smul_zero, Pi.zero_apply, ite_self, add_zero]
    | side l =>
      rw [show (Place.side l).index (getn sz) p i = number (getn sz) p (i * 4 + l.val) from rfl,
        variable_side hs _ _ _ _ hi l.isLt hP]
      simp only [corner, side, centre, Pi.add_apply, apply_ite (fun w : SF K => w 0), Pi.smul_apply, prod_0, ez, mul_zero,
        smul_zero, Pi.zero_apply, ite_self, add_zero]
    | centre =>
      rw [show Place.centre.index (getn sz) p i = number (getn sz) p (4 * getn sz + i) from rfl,
        variable_centre hs _ _ _ _ hi hP]
      simp only [centre, prod_0, ez, mul_zero]

/-! ## Adaptors -/

/-- What an adaptor holds for a corner, the middle of a side and the centre of a level. -/
def acorner (sz : Shape) (mask : Nat → Nat) (gx gy gz : K) (i l : Nat) : SF K :=
  prod (adaptX mask i l gx) (adaptY mask i l gy) (shp sz i gz true)
/-- The middle of a side. -/
def aside (sz : Shape) (mask : Nat → Nat) (gx gy gz : K) (i l : Nat) : SF K :=
  if l = 0 ∨ l = 3 then prod (adaptX mask i l gx) (N3 1 gy, dN3 1 gy) (shp sz i gz true)
  else prod (N3 1 gx, dN3 1 gx) (adaptY mask i l gy) (shp sz i gz true)
/-- The centre. -/
def acentre (sz : Shape) (gx gy gz : K) (i : Nat) : SF K :=
  prod (N3 1 gx, dN3 1 gx) (N3 1 gy, dN3 1 gy) (shp sz i gz true)

theorem adaptorWrites_eq (sz : Shape) (mask : Nat → Nat) (gx gy gz : K) :
    adaptorWrites sz mask gx gy gz =
      levelWrites (getn sz) mask (acorner sz mask gx gy gz) (aside sz mask gx gy gz) (acentre sz gx gy gz) := by
  rfl

theorem getn_pos (s : Shape) : 0 < getn s := by cases s <;> decide

/-- What an adaptor has in level `i`, from which places have a node. -/
def alevel (b0 b1 b2 b3 b : Bool) (gx gy : K) (z : K × K) : SF K :=
  let X : Bool → Nat → K × K := fun b l => if b then (N3 (2 * (l / 2)) gx, dN3 (2 * (l / 2)) gx) else cornerX l gx
  let Y : Bool → Nat → K × K := fun b l => if b then (N3 (2 * (l % 2)) gy, dN3 (2 * (l % 2)) gy) else cornerY l gy
  let mx : K × K := (N3 1 gx, dN3 1 gx)
  let my : K × K := (N3 1 gy, dN3 1 gy)
  prod (X b2 0) (Y b0 0) z + prod (X b1 1) (Y b0 1) z + prod (X b2 2) (Y b3 2) z + prod (X b1 3) (Y b3 3) z
    + ((if b0 then prod (X b2 0) my z else 0) + (if b1 then prod mx (Y b0 1) z else 0)
      + (if b2 then prod mx (Y b3 2) z else 0) + (if b3 then prod (X b1 3) my z else 0))
    + if b then prod mx my z else 0

theorem adaptor_levels (sz : Shape) (p : Nat → Bool) (gx gy gz : K) (a : Nat → SF K) :
    ∑ n ∈ Finset.range (nnd (getn sz) p), adaptorSF sz (number (getn sz) p) gx gy gz a n =
      ∑ i ∈ Finset.range (getn sz), alevel (p (i * 4)) (p (i * 4 + 1)) (p (i * 4 + 2)) (p (i * 4 + 3)) (p (4 * getn sz + i))
        gx gy (shp sz i gz true) := by
  have hz := getn_pos sz
  rw [sum_all]
  refine Finset.sum_congr rfl fun i hi => ?_
  rw [Finset.mem_range] at hi
  unfold adaptorSF
  rw [adaptorWrites_eq]
  have c := fun l hl => level_corner p (acorner sz (number (getn sz) p) gx gy gz) (aside sz (number (getn sz) p) gx gy gz)
    (acentre sz gx gy gz) a (l := l) hi hl
  have s := fun l hl hp => level_side p (acorner sz (number (getn sz) p) gx gy gz) (aside sz (number (getn sz) p) gx gy gz)
    (acentre sz gx gy gz) a (l := l) hi hl hp
  have m := level_centre p (acorner sz (number (getn sz) p) gx gy gz) (aside sz (number (getn sz) p) gx gy gz)
    (acentre sz gx gy gz) a hi
  have key : ∀ (b : Bool) (v w : SF K), (b = true → v = w) → (if b = true then v else 0) = if b = true then w else 0 := by
    intro b v w h; cases b
    · rfl
    · exact h rfl
  have c0 := c 0 (by omega); have c1 := c 1 (by omega); have c2 := c 2 (by omega); have c3 := c 3 (by omega)
  have s0 := s 0 (by omega); have s1 := s 1 (by omega); have s2 := s 2 (by omega); have s3 := s 3 (by omega)
  rw [Nat.add_zero] at c0
  simp only [Nat.add_zero] at s0
  rw [c0, c1, c2, c3, key _ _ _ s0, key _ _ _ s1, key _ _ _ s2, key _ _ _ s3, key _ _ _ m]
  have e : ∀ k, (number (getn sz) p k ≠ 0) = (p k = true) := fun k => by rw [ne_eq, number_zero hz, Bool.not_eq_false]
  simp only [acorner, aside, acentre, adaptX, adaptY, besideX, besideY, e, alevel, if_true, if_false,
    show ((1:Nat) = 0) = False by simp, show ((2:Nat) = 0) = False by simp, show ((3:Nat) = 0) = False by simp,
    show ((0:Nat) = 3) = False by simp,
    show ((1:Nat) = 3) = False by simp, show ((2:Nat) = 3) = False by simp, show ((2:Nat) = 1) = False by simp,
    show ((3:Nat) = 1) = False by simp, show ((3:Nat) = 2) = False by simp, show ((0:Nat) = 1) = False by simp,
    show ((0:Nat) = 2) = False by simp, or_false, false_or, or_self, true_or, Nat.add_zero]

theorem alevel_good {b0 b1 b2 b3 b : Bool} (h : (b0, b1, b2, b3, b) ∈
    [(false, false, false, false, false),
     (true, false, false, false, false), (false, true, false, false, false),
     (false, false, true, false, false), (false, false, false, true, false),
     (true, false, false, true, false), (false, true, true, false, false),
     (true, true, true, true, true)]) (gx gy : K) (z : K × K) : alevel b0 b1 b2 b3 b gx gy z = prod (1, 0) (1, 0) z := by
  simp only [List.mem_cons, Prod.mk.injEq, List.not_mem_nil, or_false] at h
  rcases h with ⟨rfl, rfl, rfl, rfl, rfl⟩ | ⟨rfl, rfl, rfl, rfl, rfl⟩ | ⟨rfl, rfl, rfl, rfl, rfl⟩ | ⟨rfl, rfl, rfl, rfl, rfl⟩ |
    ⟨rfl, rfl, rfl, rfl, rfl⟩ | ⟨rfl, rfl, rfl, rfl, rfl⟩ | ⟨rfl, rfl, rfl, rfl, rfl⟩ | ⟨rfl, rfl, rfl, rfl, rfl⟩ <;>
  apply sf_ext <;> simp [alevel, prod_0, prod_1, prod_2, prod_3, cornerX, cornerY, N2, dN2, N3, dN3] <;> ring

theorem alevel_bad {b0 b1 b2 b3 b : Bool} (h : (b0, b1, b2, b3, b) ∉
    [(false, false, false, false, false),
     (true, false, false, false, false), (false, true, false, false, false),
     (false, false, true, false, false), (false, false, false, true, false),
     (true, false, false, true, false), (false, true, true, false, false),
     (true, true, true, true, true)]) (z : K × K) (hz : z.1 = 1) : alevel b0 b1 b2 b3 b 0 0 z 0 ≠ 1 := by
  obtain ⟨a1, a2, a3, a4, a5, a6⟩ := N2_at (K := K)
  obtain ⟨d1, d2, d3, d4, d5, d6, d7, d8, d9⟩ := N3_at (K := K)
  cases b0 <;> cases b1 <;> cases b2 <;> cases b3 <;> cases b <;> simp at h <;>
    simp [alevel, prod_0, cornerX, cornerY, hz, a3, a4, d4, d5, d6] <;> norm_num

/-- C85: the shape functions of an adaptor add up to 1 and their derivatives to 0, if the extra nodes of each level form one
of the eight patterns of `Adapts`. -/
theorem C85_adaptor_sum {sz : Shape} (hb : sz.bounded) {p : Nat → Bool} (hp : ∀ i < getn sz, Adapts (getn sz) p i) (gx gy gz : K)
    (a : Nat → SF K) :
    ∑ n ∈ Finset.range (nnd (getn sz) p), adaptorSF sz (number (getn sz) p) gx gy gz a n = unity := by
  have hz' := sum_shp (map := true) (.inl hb) (finite_of_bounded hb gz)
  have hU : (unity : SF K) = ∑ i ∈ Finset.range (getn sz), prod (1, 0) (1, 0) (shp sz i gz true) := by
    rw [sum_prod_z, hz', prod_one]
  rw [adaptor_levels, hU]
  exact Finset.sum_congr rfl fun i hi => alevel_good (hp i (Finset.mem_range.1 hi)) gx gy _

/-- C85, the code: with any other pattern in a level the shape functions do not add up to 1 in the middle of that level. -/
theorem C85_adaptor_wrong (sz : Shape) {p : Nat → Bool} {i : Nat} {z : K} (hz : (nodes sz)[i]? = some z)
    (hp : ¬ Adapts (getn sz) p i) (a : Nat → SF K) :
    (∑ n ∈ Finset.range (nnd (getn sz) p), adaptorSF sz (number (getn sz) p) 0 0 z a n) 0 ≠ 1 := by
  have hi : i < getn sz := by
    rw [← (C60_nodes (K := K) sz true).1]
    exact (List.getElem?_eq_some_iff.1 hz).1
  have ez : ∀ j < getn sz, (shp sz j z true).1 = if j = i then 1 else 0 := fun j hj =>
    (C60_nodes (K := K) sz true).2 i z hz j hj
  rw [adaptor_levels, Finset.sum_apply, Finset.sum_eq_single i]
  · exact alevel_bad hp _ (by rw [ez i hi, if_pos rfl])
  · intro j hj hne
    have := ez j (Finset.mem_range.1 hj)
    rw [if_neg hne] at this
    simp only [alevel, Pi.add_apply, apply_ite (fun w : SF K => w 0), prod_0, this, mul_zero, Pi.zero_apply, ite_self, add_zero]
  · intro h; exact absurd (Finset.mem_range.2 hi) h

/-! ## Cases -/

/-- C85, the code: if a level has a node in its centre but not on each side, a shape function of a variable element need not
vanish at another node.  Here the lower level has nodes in its centre and on the first side only. -/
theorem C85_variable_wrong :
    let p : Nat → Bool := fun m => m = 0 || m = 8
    Place.centre.At 2 p 0 ∧ (Place.corner 0).index 2 p 0 = 0 ∧
      variableSF .linear (number 2 p) 0 0 (-1) (fun _ => 0) 0 0 = (-5 / 4 : ℚ) := by
  refine ⟨rfl, rfl, ?_⟩
  decide +kernel

/-- One extra node on a side satisfies the hypotheses of the sums. -/
example : Sided 2 (fun m => m = 4) ∧ (∀ i < 2, Adapts 2 (fun m => m = 4) i) ∧ nnd 2 (fun m => m = 4) = 9 := by
  refine ⟨?_, ?_, by decide⟩
  · unfold Sided; decide
  · unfold Adapts; decide

/-- All sides and the centre of the upper level as well. -/
example : Sided 2 (fun m => 4 ≤ m && m < 8 || m = 9) ∧ (∀ i < 2, Adapts 2 (fun m => 4 ≤ m && m < 8 || m = 9) i) := by
  constructor
  · unfold Sided; decide
  · unfold Adapts; decide

/-- Nodes on two sides that meet, as at the corner of a refined region, are not a pattern of `Adapts`, though `Sided`. -/
example : Sided 2 (fun m => m = 0 || m = 1) ∧ ¬ Adapts 2 (fun m => m = 0 || m = 1) 0 := by
  constructor
  · unfold Sided; decide
  · unfold Adapts; decide

example : Shape.linear.bounded ∧ (nodes (K := ℚ) .linear)[(0 : Nat)]? = some (-1) := by
  refine ⟨⟨by decide, by decide⟩, rfl⟩

/-- The node in the middle of a side of a variable element. -/
example : variableSF .linear (number 2 fun m => m = 4) (-1) 0 1 (fun _ => 0) 8 0 = (1 : ℚ) ∧
    variableSF .linear (number 2 fun m => m = 4) (-1) 0 1 (fun _ => 0) 4 0 = (0 : ℚ) := by
  decide +kernel

end OP.Fem
