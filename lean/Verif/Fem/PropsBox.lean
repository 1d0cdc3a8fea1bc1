import Verif.Fem.PropsGrid
import Verif.Fem.PropsSolveUse
import Mathlib.Tactic.NormNum
import Mathlib.Tactic.Push
import Mathlib.Order.Monotone.Basic
import Mathlib.Algebra.Order.Ring.Rat
/-!
# C108: meshes of boxes

Where the nodes of a box are; that elements which share a face share its nodes; that boxes between the lines of a grid always fit,
and that boxes which are too thin never do.
-/
namespace OP.Fem.Nodes

open OP.Fem (Shape getn)

/-! ### Specification -/

/-- The corners of a box, in order -/
def boxCorners (lo hi : C3) : Corners := fun l =>
  ⟨if l.val % 4 < 2 then lo.x else hi.x, if l.val % 2 < 1 then lo.y else hi.y, if l.val < 4 then lo.z else hi.z⟩

/-- The division of the line from `a` to `b` into `m` parts, to the nearest unit -/
structure IsLine (m : Nat) (a b : Int) (v : Nat → Int) : Prop where
  first : v 0 = a
  last : v m = b
  near : ∀ j ≤ m, 2 * |(m : Int) * v j - ((m - j) * a + j * b)| ≤ m

/-! ### Rounding -/

theorem toFixed_int (n : Int) : toFixed ((n : Rat) / 256) = n := by
  unfold toFixed
  rw [div_mul_cancel₀ _ (by norm_num)]
  by_cases h : 0 ≤ (n : Rat) / 256
  · rw [if_pos h, Int.floor_eq_iff]
    constructor <;> linarith
  · rw [if_neg h, neg_eq_iff_eq_neg, Int.floor_eq_iff]
    push_cast
    constructor <;> linarith

theorem toFixed_near (d : Rat) : (toFixed d : Rat) - 1 / 2 ≤ d * 256 ∧ d * 256 ≤ toFixed d + 1 / 2 := by
  unfold toFixed
  by_cases h : 0 ≤ d
  · rw [if_pos h]
    have h1 := Int.floor_le (d * 256 + 1 / 2)
    have h2 := Int.lt_floor_add_one (d * 256 + 1 / 2)
    constructor <;> linarith
  · rw [if_neg h]
    have h1 := Int.floor_le (1 / 2 - d * 256)
    have h2 := Int.lt_floor_add_one (1 / 2 - d * 256)
    push_cast
    constructor <;> linarith

theorem toFixed_mono {x y : Rat} (h : x ≤ y) : toFixed x ≤ toFixed y := by
  unfold toFixed
  by_cases hx : 0 ≤ x
  · rw [if_pos hx, if_pos (hx.trans h)]
    exact Int.floor_le_floor (by linarith)
  · rw [if_neg hx]
    have hx' : 0 ≤ ⌊1 / 2 - x * 256⌋ := Int.floor_nonneg.2 (by linarith)
    by_cases hy : 0 ≤ y
    · rw [if_pos hy]
      have : 0 ≤ ⌊y * 256 + 1 / 2⌋ := Int.floor_nonneg.2 (by linarith)
      omega
    · rw [if_neg hy]
      have := Int.floor_le_floor (show 1 / 2 - y * 256 ≤ 1 / 2 - x * 256 by linarith)
      omega

theorem toFixed_strict {x y : Rat} (h : x + 1 / 256 ≤ y) : toFixed x < toFixed y := by
  unfold toFixed
  by_cases hx : 0 ≤ x
  · rw [if_pos hx, if_pos (by linarith)]
    have := Int.floor_le_floor (show (x * 256 + 1 / 2) + 1 ≤ y * 256 + 1 / 2 by linarith)
    rw [Int.floor_add_one] at this
    omega
  · rw [if_neg hx]
    by_cases hy : 0 ≤ y
    · rw [if_pos hy]
      have h1 := Int.lt_floor_add_one (1 / 2 - x * 256)
      have h2 := Int.lt_floor_add_one (y * 256 + 1 / 2)
      have : (0 : Rat) < (⌊1 / 2 - x * 256⌋ + ⌊y * 256 + 1 / 2⌋ : Int) := by push_cast; linarith
      have := Int.cast_pos.1 this
      omega
    · rw [if_neg hy]
      have := Int.floor_le_floor (show (1 / 2 - y * 256) + 1 ≤ 1 / 2 - x * 256 by linarith)
      rw [Int.floor_add_one] at this
      omega

/-- The coordinate between `a` and `b` -/
def line (m : Nat) (a b : Int) (j : Nat) : Int := toFixed ((((m : Rat) - j) * a + j * b) / m / 256)

theorem line_isLine {m : Nat} (hm : 0 < m) (a b : Int) : IsLine m a b (line m a b) := by
  have hm' : (0 : Rat) < m := by exact_mod_cast hm
  refine ⟨?_, ?_, ?_⟩
  · unfold line
    rw [show (((m : Rat) - (0 : Nat)) * a + (0 : Nat) * b) / m = a by push_cast; field_simp; ring]
    exact toFixed_int a
  · unfold line
    rw [show (((m : Rat) - m) * a + m * b) / m = b by field_simp; ring]
    exact toFixed_int b
  · intro j hj
    obtain ⟨h1, h2⟩ := toFixed_near ((((m : Rat) - j) * a + j * b) / m / 256)
    rw [div_mul_cancel₀ _ (by norm_num)] at h1 h2
    rw [show toFixed ((((m : Rat) - j) * a + j * b) / m / 256) = line m a b j from rfl] at h1 h2
    rw [le_div_iff₀ hm'] at h1
    rw [div_le_iff₀ hm'] at h2
    have : (2 * |(m : Rat) * line m a b j - ((m - j) * a + j * b)|) ≤ m := by
      rw [← le_div_iff₀' (by norm_num), abs_le]
      constructor <;> linarith
    exact_mod_cast this

theorem line_mono {m : Nat} {a b : Int} (h : a ≤ b) (j : Nat) : line m a b j ≤ line m a b (j + 1) := by
  apply toFixed_mono
  have h' : (a : Rat) ≤ b := by exact_mod_cast h
  have hm : (0 : Rat) ≤ m := Nat.cast_nonneg m
  apply div_le_div_of_nonneg_right _ (by norm_num)
  apply div_le_div_of_nonneg_right _ hm
  push_cast
  linarith

theorem line_strict {m : Nat} (hm : 0 < m) {a b : Int} (h : (m : Int) ≤ b - a) (j : Nat) : line m a b j < line m a b (j + 1) := by
  apply toFixed_strict
  have h' : (m : Rat) ≤ b - a := by exact_mod_cast h
  have hm' : (0 : Rat) < m := by exact_mod_cast hm
  rw [← add_div, div_le_div_iff_of_pos_right (by norm_num), ← le_sub_iff_add_le', ← sub_div, le_div_iff₀ hm']
  push_cast
  linarith

/-! ### The nodes of a box -/

theorem finRange8 : List.finRange 8 = [0, 1, 2, 3, 4, 5, 6, 7] := by decide

theorem mix_z {mz mx my : Nat} (hz : 0 < mz) (hx : 0 < mx) (hy : 0 < my) (i j k : Nat) (a b : Int) :
    mix mz mx my i j k (fun l => if l.val < 4 then a else b) = line mz a b i := by
  have hz' : (mz : Rat) ≠ 0 := by exact_mod_cast hz.ne'
  have hx' : (mx : Rat) ≠ 0 := by exact_mod_cast hx.ne'
  have hy' : (my : Rat) ≠ 0 := by exact_mod_cast hy.ne'
  unfold mix line
  congr 1
  rw [finRange8]
  simp only [weight, List.map_cons, List.map_nil, List.sum_cons, List.sum_nil]
  norm_num
  field_simp
  ring

theorem mix_x {mz mx my : Nat} (hz : 0 < mz) (hx : 0 < mx) (hy : 0 < my) (i j k : Nat) (a b : Int) :
    mix mz mx my i j k (fun l => if l.val % 4 < 2 then a else b) = line mx a b j := by
  have hz' : (mz : Rat) ≠ 0 := by exact_mod_cast hz.ne'
  have hx' : (mx : Rat) ≠ 0 := by exact_mod_cast hx.ne'
  have hy' : (my : Rat) ≠ 0 := by exact_mod_cast hy.ne'
  unfold mix line
  congr 1
  rw [finRange8]
  simp only [weight, List.map_cons, List.map_nil, List.sum_cons, List.sum_nil]
  norm_num
  field_simp
  ring

theorem mix_y {mz mx my : Nat} (hz : 0 < mz) (hx : 0 < mx) (hy : 0 < my) (i j k : Nat) (a b : Int) :
    mix mz mx my i j k (fun l => if l.val % 2 < 1 then a else b) = line my a b k := by
  have hz' : (mz : Rat) ≠ 0 := by exact_mod_cast hz.ne'
  have hx' : (mx : Rat) ≠ 0 := by exact_mod_cast hx.ne'
  have hy' : (my : Rat) ≠ 0 := by exact_mod_cast hy.ne'
  unfold mix line
  congr 1
  rw [finRange8]
  simp only [weight, List.map_cons, List.map_nil, List.sum_cons, List.sum_nil]
  norm_num
  field_simp
  ring

/-- A box as a brick -/
def box (nx ny nz : Nat) (lo hi : C3) : Brick := ⟨nx, ny, nz, boxCorners lo hi⟩

theorem box_place {nx ny nz : Nat} (hx : 2 ≤ nx) (hy : 2 ≤ ny) (hz : 2 ≤ nz) (lo hi : C3) (i j k : Nat) :
    (box nx ny nz lo hi).place i j k =
      ⟨line (nx - 1) lo.x hi.x j, line (ny - 1) lo.y hi.y k, line (nz - 1) lo.z hi.z i⟩ := by
  have h1 : 0 < nx - 1 := by omega
  have h2 : 0 < ny - 1 := by omega
  have h3 : 0 < nz - 1 := by omega
  unfold Brick.place placeOf box boxCorners
  congr 1
  · exact mix_x h3 h1 h2 i j k lo.x hi.x
  · exact mix_y h3 h1 h2 i j k lo.y hi.y
  · exact mix_z h3 h1 h2 i j k lo.z hi.z

theorem box_increasing {lo hi : C3} (hx : lo.x < hi.x) (hy : lo.y < hi.y) (hz : lo.z < hi.z) : (boxCorners lo hi).Increasing := by
  refine ⟨?_, ?_, ?_⟩ <;> simp [boxCorners] <;> omega

/-- C108: the nodes of a box divide its sides evenly, to the nearest unit of the coordinates. -/
theorem C108_box {nx ny nz : Nat} (hx : 2 ≤ nx) (hy : 2 ≤ ny) (hz : 2 ≤ nz) (lo hi : C3) :
    ∃ X Y Z, IsLine (nx - 1) lo.x hi.x X ∧ IsLine (ny - 1) lo.y hi.y Y ∧ IsLine (nz - 1) lo.z hi.z Z ∧
      ∀ i j k, (box nx ny nz lo hi).place i j k = ⟨X j, Y k, Z i⟩ :=
  ⟨_, _, _, line_isLine (by omega) _ _, line_isLine (by omega) _ _, line_isLine (by omega) _ _, box_place hx hy hz lo hi⟩

/-! ### Elements that share a face -/

/-- C108: elements of any shape that share the four corners of a face have the same nodes there. -/
theorem C108_faces (a b : Brick) (hax : 2 ≤ a.nx) (hay : 2 ≤ a.ny) (haz : 2 ≤ a.nz) (hbx : 2 ≤ b.nx) (hby : 2 ≤ b.ny) (hbz : 2 ≤ b.nz) :
    (a.nx = b.nx → a.ny = b.ny → (b.c 0 = a.c 4 ∧ b.c 1 = a.c 5 ∧ b.c 2 = a.c 6 ∧ b.c 3 = a.c 7) →
      ∀ j k, b.place 0 j k = a.place (a.nz - 1) j k) ∧
    (a.nz = b.nz → a.ny = b.ny → (b.c 0 = a.c 2 ∧ b.c 1 = a.c 3 ∧ b.c 4 = a.c 6 ∧ b.c 5 = a.c 7) →
      ∀ i k, b.place i 0 k = a.place i (a.nx - 1) k) ∧
    (a.nz = b.nz → a.nx = b.nx → (b.c 0 = a.c 1 ∧ b.c 2 = a.c 3 ∧ b.c 4 = a.c 5 ∧ b.c 6 = a.c 7) →
      ∀ i j, b.place i j 0 = a.place i j (a.ny - 1)) := by
  have e1 : ((a.nx - 1 : Nat) : Rat) ≠ 0 := by exact_mod_cast (show a.nx - 1 ≠ 0 by omega)
  have e2 : ((a.ny - 1 : Nat) : Rat) ≠ 0 := by exact_mod_cast (show a.ny - 1 ≠ 0 by omega)
  have e3 : ((a.nz - 1 : Nat) : Rat) ≠ 0 := by exact_mod_cast (show a.nz - 1 ≠ 0 by omega)
  have e4 : ((b.nx - 1 : Nat) : Rat) ≠ 0 := by exact_mod_cast (show b.nx - 1 ≠ 0 by omega)
  have e5 : ((b.ny - 1 : Nat) : Rat) ≠ 0 := by exact_mod_cast (show b.ny - 1 ≠ 0 by omega)
  have e6 : ((b.nz - 1 : Nat) : Rat) ≠ 0 := by exact_mod_cast (show b.nz - 1 ≠ 0 by omega)
  refine ⟨?_, ?_, ?_⟩
  · rintro h1 h2 ⟨c1, c2, c3, c4⟩ j k
    unfold Brick.place placeOf mix
    rw [finRange8]
    simp only [weight, List.map_cons, List.map_nil, List.sum_cons, List.sum_nil, c1, c2, c3, c4, h1, h2]
    rw [h1] at e1
    rw [h2] at e2
    congr 1 <;> congr 1 <;> norm_num <;> field_simp
  · rintro h1 h2 ⟨c1, c2, c3, c4⟩ j k
    unfold Brick.place placeOf mix
    rw [finRange8]
    simp only [weight, List.map_cons, List.map_nil, List.sum_cons, List.sum_nil, c1, c2, c3, c4, h1, h2]
    congr 1 <;> congr 1 <;> norm_num <;> field_simp
  · rintro h1 h2 ⟨c1, c2, c3, c4⟩ j k
    unfold Brick.place placeOf mix
    rw [finRange8]
    simp only [weight, List.map_cons, List.map_nil, List.sum_cons, List.sum_nil, c1, c2, c3, c4, h1, h2]
    congr 1 <;> congr 1 <;> norm_num <;> field_simp

/-! ### Boxes between the lines of a grid -/

/-- The divisions of consecutive intervals, one after the other -/
def along (m : Nat) (xs : Nat → Int) (n : Nat) : Int := line m (xs (n / m)) (xs (n / m + 1)) (n % m)

theorem along_strict {m : Nat} (hm : 0 < m) {xs : Nat → Int} (h : ∀ a, (m : Int) ≤ xs (a + 1) - xs a) : StrictMono (along m xs) := by
  apply strictMono_nat_of_lt_succ
  intro n
  unfold along
  have hs := line_strict hm (h (n / m)) (n % m)
  have hlt := Nat.mod_lt n hm
  by_cases hc : n % m + 1 < m
  · have e1 : (n + 1) / m = n / m := by
      rw [Nat.div_eq_iff hm]
      have := Nat.div_add_mod n m
      rw [Nat.mul_comm] at this
      omega
    have e2 : (n + 1) % m = n % m + 1 := by
      have h1 := Nat.div_add_mod n m
      have h2 := Nat.div_add_mod (n + 1) m
      rw [e1] at h2
      omega
    rw [e1, e2]
    exact hs
  · have hdiv : n + 1 = m * (n / m + 1) := by
      have := Nat.div_add_mod n m
      rw [Nat.mul_add, Nat.mul_one]
      omega
    have e1 : (n + 1) / m = n / m + 1 := by rw [hdiv, Nat.mul_div_cancel_left _ hm]
    have e2 : (n + 1) % m = 0 := by rw [hdiv, Nat.mul_mod_right]
    rw [e1, e2, (line_isLine hm _ _).first]
    have e3 := (line_isLine hm (xs (n / m)) (xs (n / m + 1))).last
    rw [show n % m + 1 = m by omega, e3] at hs
    exact hs

theorem along_eq {m : Nat} (hm : 0 < m) (xs : Nat → Int) (a : Nat) {j : Nat} (hj : j ≤ m) :
    along m xs (a * m + j) = line m (xs a) (xs (a + 1)) j := by
  unfold along
  by_cases hc : j < m
  · rw [show (a * m + j) / m = a by rw [Nat.mul_comm, Nat.mul_add_div hm, Nat.div_eq_of_lt hc, Nat.add_zero],
      show (a * m + j) % m = j by rw [Nat.mul_comm, Nat.mul_add_mod, Nat.mod_eq_of_lt hc]]
  · obtain rfl : j = m := by omega
    rw [show a * j + j = (a + 1) * j by ring, Nat.mul_div_cancel _ hm, Nat.mul_mod_left, (line_isLine hm _ _).first, (line_isLine hm _ _).last]

/-- A cell of a grid -/
structure Cell where
  a : Nat
  b : Nat
  c : Nat

/-- Three families of lines, far enough apart for the nodes between them -/
structure Lines where
  nx : Nat
  ny : Nat
  nz : Nat
  hx : 2 ≤ nx
  hy : 2 ≤ ny
  hz : 2 ≤ nz
  xs : Nat → Int
  ys : Nat → Int
  zs : Nat → Int
  wx : ∀ a, ((nx - 1 : Nat) : Int) ≤ xs (a + 1) - xs a
  wy : ∀ a, ((ny - 1 : Nat) : Int) ≤ ys (a + 1) - ys a
  wz : ∀ a, ((nz - 1 : Nat) : Int) ≤ zs (a + 1) - zs a

/-- The box between the lines -/
def Lines.cell (L : Lines) (q : Cell) : Brick :=
  box L.nx L.ny L.nz ⟨L.xs q.a, L.ys q.b, L.zs q.c⟩ ⟨L.xs (q.a + 1), L.ys (q.b + 1), L.zs (q.c + 1)⟩

/-- The node with these numbers along the three families -/
def Lines.pt (L : Lines) (n u v : Nat) : C3 := ⟨along (L.nx - 1) L.xs n, along (L.ny - 1) L.ys u, along (L.nz - 1) L.zs v⟩

theorem Lines.pt_inj (L : Lines) {n u v n' u' v' : Nat} (h : L.pt n u v = L.pt n' u' v') : n = n' ∧ u = u' ∧ v = v' := by
  have := L.hx
  have := L.hy
  have := L.hz
  simp only [Lines.pt, C3.mk.injEq] at h
  exact ⟨(along_strict (by omega) L.wx).injective h.1, (along_strict (by omega) L.wy).injective h.2.1,
    (along_strict (by omega) L.wz).injective h.2.2⟩

theorem Lines.place (L : Lines) (q : Cell) {i j k : Nat} (h : (L.cell q).In i j k) :
    (L.cell q).place i j k = L.pt (q.a * (L.nx - 1) + j) (q.b * (L.ny - 1) + k) (q.c * (L.nz - 1) + i) := by
  have hx := L.hx
  have hy := L.hy
  have hz := L.hz
  obtain ⟨h1, h2, h3⟩ := h
  change i < L.nz at h1
  change j < L.nx at h2
  change k < L.ny at h3
  unfold Lines.cell Lines.pt
  rw [box_place hx hy hz, along_eq (by omega) _ _ (by omega), along_eq (by omega) _ _ (by omega), along_eq (by omega) _ _ (by omega)]

theorem Brick.In.mono {b : Brick} {i j k i' j' k' : Nat} (h : b.In i j k) (hi : i' ≤ i) (hj : j' ≤ j) (hk : k' ≤ k) : b.In i' j' k' :=
  ⟨by have := h.1; omega, by have := h.2.1; omega, by have := h.2.2; omega⟩

/-- Boxes between lines fit. -/
theorem Lines.fit (L : Lines) (cells : List Cell) : Fit (cells.map L.cell) := by
  intro d p q q' h h'
  obtain ⟨_, hb, h⟩ := h
  obtain ⟨_, hb', h'⟩ := h'
  obtain ⟨e, _, rfl⟩ := List.mem_map.1 hb
  obtain ⟨e', _, rfl⟩ := List.mem_map.1 hb'
  generalize hp : p = p' at h'
  cases h with
  | @xm i j k hin =>
    cases h' with
    | @xm i' j' k' hin' =>
      rw [L.place e hin, L.place e' hin'] at hp
      obtain ⟨g1, g2, g3⟩ := L.pt_inj hp
      rw [L.place e (hin.mono le_rfl (by omega) le_rfl), L.place e' (hin'.mono le_rfl (by omega) le_rfl), g2, g3]
      congr 1; omega
  | @xp i j k hin =>
    cases h' with
    | @xp i' j' k' hin' =>
      rw [L.place e (hin.mono le_rfl (by omega) le_rfl), L.place e' (hin'.mono le_rfl (by omega) le_rfl)] at hp
      obtain ⟨g1, g2, g3⟩ := L.pt_inj hp
      rw [L.place e hin, L.place e' hin', g2, g3]
      congr 1; omega
  | @ym i j k hin =>
    cases h' with
    | @ym i' j' k' hin' =>
      rw [L.place e hin, L.place e' hin'] at hp
      obtain ⟨g1, g2, g3⟩ := L.pt_inj hp
      rw [L.place e (hin.mono le_rfl le_rfl (by omega)), L.place e' (hin'.mono le_rfl le_rfl (by omega)), g1, g3]
      congr 1; omega
  | @yp i j k hin =>
    cases h' with
    | @yp i' j' k' hin' =>
      rw [L.place e (hin.mono le_rfl le_rfl (by omega)), L.place e' (hin'.mono le_rfl le_rfl (by omega))] at hp
      obtain ⟨g1, g2, g3⟩ := L.pt_inj hp
      rw [L.place e hin, L.place e' hin', g1, g3]
      congr 1; omega
  | @zm i j k hin =>
    cases h' with
    | @zm i' j' k' hin' =>
      rw [L.place e hin, L.place e' hin'] at hp
      obtain ⟨g1, g2, g3⟩ := L.pt_inj hp
      rw [L.place e (hin.mono (by omega) le_rfl le_rfl), L.place e' (hin'.mono (by omega) le_rfl le_rfl), g1, g2]
      congr 1; omega
  | @zp i j k hin =>
    cases h' with
    | @zp i' j' k' hin' =>
      rw [L.place e (hin.mono (by omega) le_rfl le_rfl), L.place e' (hin'.mono (by omega) le_rfl le_rfl)] at hp
      obtain ⟨g1, g2, g3⟩ := L.pt_inj hp
      rw [L.place e hin, L.place e' hin', g1, g2]
      congr 1; omega

theorem nodup_all (b : Brick) : b.all.Nodup := by
  unfold Brick.all
  rw [List.nodup_iff_injective_getElem]
  have h := triples_get b.nz b.nx b.ny
  intro x y hxy
  have key : ∀ x : Fin (triples b.nz b.nx b.ny).length,
      (x : Nat) = (triples b.nz b.nx b.ny)[x].1 * (b.nx * b.ny) + ((triples b.nz b.nx b.ny)[x].2.1 * b.ny + (triples b.nz b.nx b.ny)[x].2.2) := by
    intro x
    have hx : x.1 < b.nz * (b.nx * b.ny) := Nat.lt_of_lt_of_eq x.2 h.1
    have hpos : 0 < b.nx * b.ny := Nat.pos_of_ne_zero fun e => by rw [e, Nat.mul_zero] at hx; omega
    have hny : 0 < b.ny := Nat.pos_of_ne_zero fun e => by rw [e, Nat.mul_zero] at hpos; omega
    have h1 : x.1 / (b.nx * b.ny) < b.nz := Nat.div_lt_of_lt_mul (by rw [Nat.mul_comm]; exact hx)
    have h2 : x.1 % (b.nx * b.ny) / b.ny < b.nx := Nat.div_lt_of_lt_mul (by rw [Nat.mul_comm b.ny]; exact Nat.mod_lt _ hpos)
    have h3 : x.1 % (b.nx * b.ny) % b.ny < b.ny := Nat.mod_lt _ hny
    have hsum : x.1 / (b.nx * b.ny) * (b.nx * b.ny) + (x.1 % (b.nx * b.ny) / b.ny * b.ny + x.1 % (b.nx * b.ny) % b.ny) = x.1 := by
      rw [Nat.div_add_mod', Nat.div_add_mod']
    have := h.2 _ h1 _ h2 _ h3
    rw [hsum] at this
    have hget := (List.getElem?_eq_some_iff.1 this).2
    have : (triples b.nz b.nx b.ny)[x] = (x.1 / (b.nx * b.ny), x.1 % (b.nx * b.ny) / b.ny, x.1 % (b.nx * b.ny) % b.ny) := hget
    rw [this]
    exact hsum.symm
  apply Fin.ext
  rw [key x, key y]
  have : (triples b.nz b.nx b.ny)[x] = (triples b.nz b.nx b.ny)[y] := hxy
  rw [this]

theorem inel_nodup {b : Brick} {ks : List C3} (hk : ∀ t ∈ b.all, b.at_ t ∈ ks)
    (hi : ∀ t ∈ b.all, ∀ t' ∈ b.all, b.at_ t = b.at_ t' → t = t') : (b.inel ks).Nodup := by
  unfold Brick.inel
  rw [List.map_map]
  refine List.Nodup.map_on ?_ (nodup_all b)
  intro t ht t' ht' h
  apply hi t ht t' ht'
  have h1 := get_idx (hk t ht)
  have h2 := get_idx (hk t' ht')
  simp only [Function.comp_apply] at h
  rw [h, h2] at h1
  exact (Option.some.inj h1).symm

theorem Lines.inj (L : Lines) (q : Cell) : ∀ t ∈ (L.cell q).all, ∀ t' ∈ (L.cell q).all, (L.cell q).at_ t = (L.cell q).at_ t' → t = t' := by
  rintro ⟨i, j, k⟩ ht ⟨i', j', k'⟩ ht' h
  unfold Brick.at_ at h
  rw [L.place q (mem_triples.1 ht), L.place q (mem_triples.1 ht')] at h
  obtain ⟨h1, h2, h3⟩ := L.pt_inj h
  simp only [Prod.mk.injEq]
  omega

/-- An element as the solver sees it -/
def Elem.toSolver {K : Type} (e : Elem) (ke : Nat → Nat → Blk K) : SElem K := ⟨e.inel.length, fun i => e.inel[i]?.getD 0, ke⟩

/-- C108: boxes between the lines of a grid, added in any order, with their corners in any mirrored order, and some perhaps left out,
always make a mesh.  The nodes of an element are distinct and exist, which is what the solver (C90) asks for. -/
theorem C108_grid (L : Lines) (cells : List Cell) (rs : List Req) (h : List.Forall₂ (fun r q => r.Asks (L.cell q)) rs cells) :
    ∃ g s, Grid.build {} rs = .ok g ∧ Built g (cells.map L.cell) s ∧
      ∀ e ∈ g.elems, e.inel.Nodup ∧ e.inel.length = L.nx * L.ny * L.nz ∧ (∀ a ∈ e.inel, a < g.node.size) ∧
        ∀ (K : Type) [Field K] (ke : Nat → Nat → Blk K), (∀ i < e.inel.length, tr (ke i i) = ke i i) →
          (e.toSolver ke).Ok g.node.size := by
  have h' : List.Forall₂ Req.Asks rs (cells.map L.cell) := List.forall₂_map_right_iff.2 h
  obtain ⟨g, s, t, ht, e, G⟩ := (GInv.build h' GInv.init).1 (by rw [List.nil_append]; exact (fit_iff _).1 (L.fit cells))
  rw [List.nil_append] at G
  refine ⟨g, s, e, G.built, ?_⟩
  intro el hel
  obtain ⟨n, hn⟩ := List.mem_iff_get.1 hel
  have hlen := G.elems.length_eq
  obtain ⟨_, _, _, g4⟩ := (List.forall₂_iff_get.1 G.elems).2 n.1 n.2 (hlen ▸ n.2)
  rw [show g.elems.get ⟨n.1, n.2⟩ = el from hn] at g4
  have hb := List.get_mem (cells.map L.cell) ⟨n.1, hlen ▸ n.2⟩
  generalize (cells.map L.cell).get ⟨n.1, hlen ▸ n.2⟩ = b at g4 hb
  have hk : ∀ t ∈ b.all, b.at_ t ∈ s.keys := fun t ht => (G.mem _).2 ⟨b, hb, t, ht, rfl⟩
  obtain ⟨q, _, rfl⟩ := List.mem_map.1 hb
  have hnd : el.inel.Nodup := by rw [g4]; exact inel_nodup hk (L.inj q)
  have hlt : ∀ a ∈ el.inel, a < g.node.size := by
    intro a ha
    rw [g4] at ha
    unfold Brick.inel at ha
    obtain ⟨p, hp, rfl⟩ := List.mem_map.1 ha
    obtain ⟨t, ht, rfl⟩ := List.mem_map.1 hp
    have := List.idxOf_lt_length_iff.2 (hk t ht)
    rw [G.inv.size]
    simpa [Spec.keys] using this
  refine ⟨hnd, ?_, hlt, ?_⟩
  · rw [g4]
    unfold Brick.inel Brick.all
    rw [List.length_map, List.length_map, (triples_get _ _ _).1]
    show L.nz * (L.nx * L.ny) = _
    ring
  · intro K _ ke hke
    refine ⟨?_, ?_, hke⟩
    · intro i hi
      show (el.inel[i]?.getD 0) < _
      rw [List.getElem?_eq_getElem hi]
      exact hlt _ (List.getElem_mem hi)
    · intro i hi j hj hij
      change (el.inel[i]?.getD 0) = (el.inel[j]?.getD 0) at hij
      change i < el.inel.length at hi
      change j < el.inel.length at hj
      rw [List.getElem?_eq_getElem hi, List.getElem?_eq_getElem hj] at hij
      exact (List.Nodup.getElem_inj_iff hnd).1 hij

/-! ### Boxes that are too thin -/

/-- A division with a repeated value, in which a repetition goes on to both sides, is constant. -/
theorem thin_false {m : Nat} {a b : Int} {v : Nat → Int} (h0 : v 0 = a) (h1 : v m = b) (hm : ∀ j, v j ≤ v (j + 1)) (hab : a < b)
    (ht : b - a < m) (up : ∀ j, j + 1 < m → v j = v (j + 1) → v (j + 1) = v (j + 2))
    (down : ∀ j, j + 1 < m → v (j + 1) = v (j + 2) → v j = v (j + 1)) : False := by
  obtain ⟨j, hj, e⟩ : ∃ j < m, v j = v (j + 1) := by
    by_contra hc
    push Not at hc
    have : ∀ j ≤ m, a + j ≤ v j := by
      intro j
      induction j with
      | zero => intro _; omega
      | succ j ih =>
        intro hj
        have h2 := hc j (by omega)
        have h3 := hm j
        have h4 := ih (by omega)
        push_cast
        omega
    have := this m le_rfl
    omega
  have hup : ∀ n, j + n + 1 ≤ m → v (j + n) = v (j + n + 1) := by
    intro n
    induction n with
    | zero => intro _; exact e
    | succ n ih => intro hn; exact up (j + n) (by omega) (ih (by omega))
  have hdown : ∀ n ≤ j, v (j - n) = v (j - n + 1) := by
    intro n
    induction n with
    | zero => intro _; exact e
    | succ n ih =>
      intro hn
      have := ih (by omega)
      rw [show j - n = j - (n + 1) + 1 by omega] at this
      exact down _ (by omega) this
  have hall : ∀ i < m, v i = v (i + 1) := by
    intro i hi
    by_cases hij : i ≤ j
    · have := hdown (j - i) (by omega)
      rwa [show j - (j - i) = i by omega] at this
    · have := hup (i - j) (by omega)
      rwa [show j + (i - j) = i by omega] at this
  have : ∀ i ≤ m, v i = a := by
    intro i
    induction i with
    | zero => intro _; exact h0
    | succ i ih => intro hi; rw [← hall i (by omega)]; exact ih (by omega)
  have := this m le_rfl
  omega

/-- C108: a box that is too thin for its nodes never fits, on its own or with others: an assertion fails. -/
theorem C108_thin_wrong {nx ny nz : Nat} (hx : 2 ≤ nx) (hy : 2 ≤ ny) (hz : 2 ≤ nz) {lo hi : C3} (h1 : lo.x < hi.x) (h2 : lo.y < hi.y)
    (h3 : lo.z < hi.z) (ht : hi.x - lo.x < (nx - 1 : Nat) ∨ hi.y - lo.y < (ny - 1 : Nat) ∨ hi.z - lo.z < (nz - 1 : Nat))
    (rs : List Req) (bs : List Brick) (h : List.Forall₂ Req.Asks rs bs) (hb : box nx ny nz lo hi ∈ bs) : Grid.build {} rs = .ub := by
  apply (C108_bricks rs bs h).2
  intro hf
  have pl := box_place hx hy hz lo hi
  have both : ∀ d p q q', (box nx ny nz lo hi).Joins d p q → (box nx ny nz lo hi).Joins d p q' → q = q' :=
    fun d p q q' e e' => hf d p q q' ⟨_, hb, e⟩ ⟨_, hb, e'⟩
  have inn : ∀ i j k, i < nz → j < nx → k < ny → (box nx ny nz lo hi).In i j k := fun i j k a b c => ⟨a, b, c⟩
  rcases ht with ht | ht | ht
  · have L := line_isLine (show 0 < nx - 1 by omega) lo.x hi.x
    refine thin_false L.first L.last (line_mono h1.le) h1 ht ?_ ?_
    · intro j hj e
      have a1 := Brick.Joins.xp (inn 0 (j + 1) 0 (by omega) (by omega) (by omega))
      have a2 := Brick.Joins.xp (inn 0 (j + 2) 0 (by omega) (by omega) (by omega))
      rw [pl, pl] at a1 a2
      rw [e] at a1
      have := both _ _ _ _ a1 a2
      simpa using this
    · intro j hj e
      have a1 := Brick.Joins.xm (inn 0 (j + 1) 0 (by omega) (by omega) (by omega))
      have a2 := Brick.Joins.xm (inn 0 (j + 2) 0 (by omega) (by omega) (by omega))
      rw [pl, pl] at a1 a2
      rw [← e] at a2
      have := both _ _ _ _ a1 a2
      simpa using this
  · have L := line_isLine (show 0 < ny - 1 by omega) lo.y hi.y
    refine thin_false L.first L.last (line_mono h2.le) h2 ht ?_ ?_
    · intro k hk e
      have a1 := Brick.Joins.yp (inn 0 0 (k + 1) (by omega) (by omega) (by omega))
      have a2 := Brick.Joins.yp (inn 0 0 (k + 2) (by omega) (by omega) (by omega))
      rw [pl, pl] at a1 a2
      rw [e] at a1
      have := both _ _ _ _ a1 a2
      simpa using this
    · intro k hk e
      have a1 := Brick.Joins.ym (inn 0 0 (k + 1) (by omega) (by omega) (by omega))
      have a2 := Brick.Joins.ym (inn 0 0 (k + 2) (by omega) (by omega) (by omega))
      rw [pl, pl] at a1 a2
      rw [← e] at a2
      have := both _ _ _ _ a1 a2
      simpa using this
  · have L := line_isLine (show 0 < nz - 1 by omega) lo.z hi.z
    refine thin_false L.first L.last (line_mono h3.le) h3 ht ?_ ?_
    · intro i hi' e
      have a1 := Brick.Joins.zp (inn (i + 1) 0 0 (by omega) (by omega) (by omega))
      have a2 := Brick.Joins.zp (inn (i + 2) 0 0 (by omega) (by omega) (by omega))
      rw [pl, pl] at a1 a2
      rw [e] at a1
      have := both _ _ _ _ a1 a2
      simpa using this
    · intro i hi' e
      have a1 := Brick.Joins.zm (inn (i + 1) 0 0 (by omega) (by omega) (by omega))
      have a2 := Brick.Joins.zm (inn (i + 2) 0 0 (by omega) (by omega) (by omega))
      rw [pl, pl] at a1 a2
      rw [← e] at a2
      have := both _ _ _ _ a1 a2
      simpa using this

/-! ### Infinite elements -/

theorem outer_eq (x : Int) (b : Bool) : outer x b = if b then min x (2 * x) else max x (2 * x) := by
  unfold outer
  cases b <;> by_cases h : x > 0 <;> simp [h] <;> omega

theorem line_asks {sz : Shape} {c0 c1 : C3} (h1 : c0.x = c1.x) (h2 : c0.y = c1.y) (hx : c0.x ≠ 0) (hy : c0.y ≠ 0) (hz : c0.z ≠ c1.z) :
    (Req.line sz c0 c1).Asks (box 2 2 (getn sz) ⟨min c0.x (2 * c0.x), min c0.y (2 * c0.y), min c0.z c1.z⟩
      ⟨max c0.x (2 * c0.x), max c0.y (2 * c0.y), max c0.z c1.z⟩) := by
  have hc : (lineCorners c0 c1).mirror false false (decide (c1.z < c0.z)) =
      boxCorners ⟨min c0.x (2 * c0.x), min c0.y (2 * c0.y), min c0.z c1.z⟩ ⟨max c0.x (2 * c0.x), max c0.y (2 * c0.y), max c0.z c1.z⟩ := by
    funext l
    by_cases g : c1.z < c0.z
    · rw [decide_eq_true g]
      fin_cases l <;> simp [lineCorners, boxCorners, Corners.mirror, outer_eq] <;> omega
    · rw [decide_eq_false g]
      fin_cases l <;> simp [lineCorners, boxCorners, Corners.mirror, outer_eq] <;> omega
  refine ⟨infShape c0.x, infShape c0.y, sz, lineCorners c0 c1, false, false, decide (c1.z < c0.z), ?_, ?_, ?_⟩
  · simp only [Req.setup]
    rw [if_pos ⟨h1, h2⟩]
  · rw [hc]
    have : ∀ x, getn (infShape x) = 2 := by
      intro x
      unfold infShape
      by_cases g : x > 0
      · rw [if_pos g]; rfl
      · rw [if_neg g]; rfl
    rw [this, this]
    rfl
  · refine box_increasing ?_ ?_ ?_
    · show min c0.x (2 * c0.x) < max c0.x (2 * c0.x); omega
    · show min c0.y (2 * c0.y) < max c0.y (2 * c0.y); omega
    · show min c0.z c1.z < max c0.z c1.z; omega

theorem infShape_n (x : Int) : getn (infShape x) = 2 := by
  unfold infShape
  by_cases g : x > 0
  · rw [if_pos g]; rfl
  · rw [if_neg g]; rfl

theorem faceX_asks {sz : Shape} {x y y' z z' : Int} (hx : x ≠ 0) (hy : y ≠ y') (hz : z ≠ z') :
    (Req.face sz ⟨x, y, z⟩ ⟨x, y', z⟩ ⟨x, y, z'⟩ ⟨x, y', z'⟩).Asks (box 2 2 (getn sz) ⟨min x (2 * x), min y y', min z z'⟩
      ⟨max x (2 * x), max y y', max z z'⟩) := by
  have hc : (faceXCorners ⟨x, y, z⟩ ⟨x, y', z⟩ ⟨x, y, z'⟩ ⟨x, y', z'⟩).mirror false (decide (y' < y)) (decide (z' < z)) =
      boxCorners ⟨min x (2 * x), min y y', min z z'⟩ ⟨max x (2 * x), max y y', max z z'⟩ := by
    funext l
    by_cases g : y' < y <;> by_cases k : z' < z
    · rw [decide_eq_true g, decide_eq_true k]
      fin_cases l <;> simp [faceXCorners, boxCorners, Corners.mirror, outer_eq] <;> omega
    · rw [decide_eq_true g, decide_eq_false k]
      fin_cases l <;> simp [faceXCorners, boxCorners, Corners.mirror, outer_eq] <;> omega
    · rw [decide_eq_false g, decide_eq_true k]
      fin_cases l <;> simp [faceXCorners, boxCorners, Corners.mirror, outer_eq] <;> omega
    · rw [decide_eq_false g, decide_eq_false k]
      fin_cases l <;> simp [faceXCorners, boxCorners, Corners.mirror, outer_eq] <;> omega
  refine ⟨infShape x, .linear, sz, faceXCorners ⟨x, y, z⟩ ⟨x, y', z⟩ ⟨x, y, z'⟩ ⟨x, y', z'⟩, false, decide (y' < y), decide (z' < z), ?_, ?_, ?_⟩
  · simp [Req.setup]
  · rw [hc, infShape_n]
    rfl
  · refine box_increasing ?_ ?_ ?_
    · show min x (2 * x) < max x (2 * x); omega
    · show min y y' < max y y'; omega
    · show min z z' < max z z'; omega

theorem faceY_asks {sz : Shape} {x x' y z z' : Int} (hx : x ≠ x') (hy : y ≠ 0) (hz : z ≠ z') :
    (Req.face sz ⟨x, y, z⟩ ⟨x', y, z⟩ ⟨x, y, z'⟩ ⟨x', y, z'⟩).Asks (box 2 2 (getn sz) ⟨min x x', min y (2 * y), min z z'⟩
      ⟨max x x', max y (2 * y), max z z'⟩) := by
  have hc : (faceYCorners ⟨x, y, z⟩ ⟨x', y, z⟩ ⟨x, y, z'⟩ ⟨x', y, z'⟩).mirror (decide (x' < x)) false (decide (z' < z)) =
      boxCorners ⟨min x x', min y (2 * y), min z z'⟩ ⟨max x x', max y (2 * y), max z z'⟩ := by
    funext l
    by_cases g : x' < x <;> by_cases k : z' < z
    · rw [decide_eq_true g, decide_eq_true k]
      fin_cases l <;> simp [faceYCorners, boxCorners, Corners.mirror, outer_eq] <;> omega
    · rw [decide_eq_true g, decide_eq_false k]
      fin_cases l <;> simp [faceYCorners, boxCorners, Corners.mirror, outer_eq] <;> omega
    · rw [decide_eq_false g, decide_eq_true k]
      fin_cases l <;> simp [faceYCorners, boxCorners, Corners.mirror, outer_eq] <;> omega
    · rw [decide_eq_false g, decide_eq_false k]
      fin_cases l <;> simp [faceYCorners, boxCorners, Corners.mirror, outer_eq] <;> omega
  refine ⟨.linear, infShape y, sz, faceYCorners ⟨x, y, z⟩ ⟨x', y, z⟩ ⟨x, y, z'⟩ ⟨x', y, z'⟩, decide (x' < x), false, decide (z' < z), ?_, ?_, ?_⟩
  · simp [Req.setup, hx]
  · rw [hc, infShape_n]
    rfl
  · refine box_increasing ?_ ?_ ?_
    · show min x x' < max x x'; omega
    · show min y (2 * y) < max y (2 * y); omega
    · show min z z' < max z z'; omega

/-- C108: an infinite element is the box from its line or rectangle to the double distance from the axes, however its points are
ordered. -/
theorem C108_infinite (sz : Shape) :
    (∀ x y z z', x ≠ 0 → y ≠ 0 → z ≠ z' → (Req.line sz ⟨x, y, z⟩ ⟨x, y, z'⟩).Asks (box 2 2 (getn sz)
      ⟨min x (2 * x), min y (2 * y), min z z'⟩ ⟨max x (2 * x), max y (2 * y), max z z'⟩)) ∧
    (∀ x y y' z z', x ≠ 0 → y ≠ y' → z ≠ z' → (Req.face sz ⟨x, y, z⟩ ⟨x, y', z⟩ ⟨x, y, z'⟩ ⟨x, y', z'⟩).Asks (box 2 2 (getn sz)
      ⟨min x (2 * x), min y y', min z z'⟩ ⟨max x (2 * x), max y y', max z z'⟩)) ∧
    (∀ x x' y z z', x ≠ x' → y ≠ 0 → z ≠ z' → (Req.face sz ⟨x, y, z⟩ ⟨x', y, z⟩ ⟨x, y, z'⟩ ⟨x', y, z'⟩).Asks (box 2 2 (getn sz)
      ⟨min x x', min y (2 * y), min z z'⟩ ⟨max x x', max y (2 * y), max z z'⟩)) :=
  ⟨fun _ _ _ _ h1 h2 h3 => line_asks rfl rfl h1 h2 h3, fun _ _ _ _ _ h1 h2 h3 => faceX_asks h1 h2 h3,
    fun _ _ _ _ _ h1 h2 h3 => faceY_asks h1 h2 h3⟩

/-! ### Concrete cases -/

/-- A grid of lines one apart -/
def unitLines : Lines := ⟨2, 2, 3, by omega, by omega, by omega, fun a => 256 * a, fun a => 256 * a, fun a => 256 * a,
  fun a => by push_cast; omega, fun a => by push_cast; omega, fun a => by push_cast; omega⟩

/-- Two cells that share a face, the second with its corners mirrored, meet the hypothesis of `C108_grid`. -/
example : List.Forall₂ (fun (r : Req) (q : Cell) => r.Asks (unitLines.cell q))
    [.block .quadratic (boxCorners ⟨0, 0, 0⟩ ⟨256, 256, 256⟩), .block .quadratic ((boxCorners ⟨256, 0, 0⟩ ⟨512, 256, 256⟩).mirror true false true)]
    [⟨0, 0, 0⟩, ⟨1, 0, 0⟩] := by
  refine .cons ?_ (.cons ?_ .nil)
  · exact ⟨.linear, .linear, .quadratic, _, false, false, false, rfl, by rw [mirror_none]; rfl, box_increasing (by decide) (by decide) (by decide)⟩
  · exact ⟨.linear, .linear, .quadratic, _, true, false, true, rfl, by rw [mirror_mirror]; exact (congrArg (Brick.mk 2 2 3) (mirror_none _)).symm,
      box_increasing (by decide) (by decide) (by decide)⟩

/-- They have eighteen nodes, six of which they share. -/
example : (Grid.build {} [.block .quadratic (boxCorners ⟨0, 0, 0⟩ ⟨256, 256, 256⟩),
    .block .quadratic ((boxCorners ⟨256, 0, 0⟩ ⟨512, 256, 256⟩).mirror true false true)] >>= fun g => .ok (g.node.size, g.elems.map Elem.inel)) =
    .ok (18, [[0, 1, 2, 3, 4, 5, 6, 7, 8, 9, 10, 11], [2, 3, 12, 13, 6, 7, 14, 15, 10, 11, 16, 17]]) := by decide +kernel

/-- A quadratic element one unit wide is refused, as `C108_thin_wrong` says. -/
example : Grid.build {} [.quad .linear (boxCorners ⟨0, 0, 0⟩ ⟨1, 256, 256⟩)] >>= (fun g => .ok g.node.size) = .ub := by decide +kernel

/-- Twisted corners are accepted if their means are in order: these are the corners of a box with two opposite ones exchanged. -/
theorem C108_twisted_wrong : ∃ c : Corners, (∀ l, ∃ m, c l = boxCorners ⟨0, 0, 0⟩ ⟨256, 256, 256⟩ m) ∧
    (∀ fx fy fz, c.mirror fx fy fz ≠ boxCorners ⟨0, 0, 0⟩ ⟨256, 256, 256⟩) ∧ ∃ l inel, setupBlock 2 2 2 c {} = .ok (l, inel) := by
  refine ⟨(boxCorners ⟨0, 0, 0⟩ ⟨256, 256, 256⟩).swap 0 7, by decide +kernel, by decide +kernel, ?_⟩
  have hk : (setupBlock 2 2 2 ((boxCorners ⟨0, 0, 0⟩ ⟨256, 256, 256⟩).swap 0 7) {} >>= fun g => .ok g.1.size) = .ok 8 := by decide +kernel
  cases hs : setupBlock 2 2 2 ((boxCorners ⟨0, 0, 0⟩ ⟨256, 256, 256⟩).swap 0 7) {} with
  | ok r => exact ⟨r.1, r.2, rfl⟩
  | throw => rw [hs] at hk; cases hk
  | ub => rw [hs] at hk; cases hk

end OP.Fem.Nodes
