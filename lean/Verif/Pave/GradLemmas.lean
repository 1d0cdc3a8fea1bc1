import Verif.Pave.DeflGrad
import Verif.Fem.PropsCg
import Verif.Lin.PropsOrth
import Mathlib.LinearAlgebra.FiniteDimensional.Lemmas
/-!
# Conjugate gradients with a bound on the length
-/
namespace OP.Pave.Grad

open OP.Lin OP.Fem Finset

/-! ## The method -/

section Method
variable {K : Type} [Field K] [LinearOrder K] [IsStrictOrderedRing K] {E : Type} [AddCommGroup E] [Module K E]
variable {d : LinearMap.BilinForm K E} {A : E →ₗ[K] E}

/-- What is known after `k` steps from zero: in addition, the point lies in the cone of the directions, which make no obtuse
angles. -/
structure Run (d : LinearMap.BilinForm K E) (A : E →ₗ[K] E) (B : E) (k : Nat) (R W : E) (rs vs ps : Nat → E) : Prop where
  past : Past d A LinearMap.id k R rs vs ps
  res : R = B - A W
  cone : ∀ x, (∀ i < k, 0 ≤ d x (ps i)) → 0 ≤ d x W
  ang : ∀ i j, i < k → j < k → 0 ≤ d (ps i) (ps j)

omit [IsStrictOrderedRing K] in
theorem Run.start (B : E) (rs vs ps : Nat → E) : Run d A B 0 B 0 rs vs ps :=
  ⟨by constructor <;> intros <;> omega, by simp, fun x _ => by simp, fun i j h => absurd h (by omega)⟩

theorem Run.next (hd : ∀ x y, d x y = d y x) (hpos : ∀ x, x ≠ 0 → 0 < d x x) (hA : Spd d A) {B : E} {k : Nat} {R W : E}
    {rs vs ps : Nat → E} (h : Run d A B k R W rs vs ps) (hR : R ≠ 0) {P : E}
    (hP : P = if k = 0 then R else R + (d R R / d (vs (k - 1)) (rs (k - 1))) • ps (k - 1)) :
    0 < d (A P) P ∧ 0 ≤ d W P ∧ d R P = d R R ∧ Run d A B (k + 1) (R - (d R R / d (A P) P) • A P) (W + (d R R / d (A P) P) • P)
      (Function.update rs k R) (Function.update vs k R) (Function.update ps k P) := by
  have hS : Spd d LinearMap.id := ⟨fun _ _ => rfl, hpos⟩
  obtain ⟨ha, hn⟩ := h.past.next hd hA hS (V := R) rfl hR hP
  have hRR := hpos R hR
  have hβ : k ≠ 0 → 0 ≤ d R R / d (vs (k - 1)) (rs (k - 1)) := by
    intro hk
    refine div_nonneg hRR.le ?_
    have e := h.past.res (k - 1) (by omega)
    rw [← e]
    exact (hpos _ (h.past.ne (k - 1) (by omega))).le
  have hps : ∀ i < k, 0 ≤ d (ps i) P := by
    intro i hi
    have hk : k ≠ 0 := by omega
    rw [hP, if_neg hk, map_add, map_smul, hd, h.past.resp i hi, zero_add]
    exact mul_nonneg (hβ hk) (h.ang i (k - 1) hi (by omega))
  have hWP : 0 ≤ d W P := by
    rw [hd]
    exact h.cone P fun i hi => by rw [hd]; exact hps i hi
  have hRP : d R P = d R R := by
    rw [hP]
    by_cases hk : k = 0
    · rw [if_pos hk]
    · rw [if_neg hk, map_add, map_smul, h.past.resp _ (by omega), smul_zero, add_zero]
  have hup : ∀ i, i < k → Function.update ps k P i = ps i := fun i hi => Function.update_of_ne (by omega) _ _
  have hPP : 0 ≤ d P P := by
    by_cases q : P = 0
    · rw [q]; simp
    · exact (hpos P q).le
  refine ⟨ha, hWP, hRP, hn, ?_, fun x hx => ?_, fun i j hi hj => ?_⟩
  · rw [h.res, map_add, map_smul, sub_sub]
  · rw [map_add, map_smul]
    refine add_nonneg (h.cone x fun i hi => ?_) (mul_nonneg (div_nonneg hRR.le ha.le) ?_)
    · have := hx i (by omega)
      rwa [hup i hi] at this
    · have := hx k (by omega)
      rwa [Function.update_self] at this
  · rcases Nat.lt_or_ge i k with hi' | hi'
    · rw [hup i hi']
      rcases Nat.lt_or_ge j k with hj' | hj'
      · rw [hup j hj']; exact h.ang i j hi' hj'
      · rw [show j = k by omega, Function.update_self]; exact hps i hi'
    · rw [show i = k by omega, Function.update_self]
      rcases Nat.lt_or_ge j k with hj' | hj'
      · rw [hup j hj', hd]; exact hps j hj'
      · rw [show j = k by omega, Function.update_self]; exact hPP

theorem Run.bound [FiniteDimensional K E] (hd : ∀ x y, d x y = d y x) (hpos : ∀ x, x ≠ 0 → 0 < d x x) {B : E} {k : Nat} {R W : E}
    {rs vs ps : Nat → E} (h : Run d A B k R W rs vs ps) : k ≤ Module.finrank K E :=
  h.past.bound hd ⟨fun _ _ => rfl, hpos⟩

/-- The directions lead towards the solution. -/
theorem Run.ahead [FiniteDimensional K E] (hd : ∀ x y, d x y = d y x) (hpos : ∀ x, x ≠ 0 → 0 < d x x) (hA : Spd d A) {B X : E}
    (hX : A X = B) : ∀ (m k : Nat) {R W : E} {rs vs ps : Nat → E}, m + k = Module.finrank K E + 1 →
      Run d A B k R W rs vs ps → ∀ i < k, 0 ≤ d (ps i) (X - W)
  | 0, k, R, W, rs, vs, ps, hm, h => by
    have := h.bound hd hpos
    omega
  | m + 1, k, R, W, rs, vs, ps, hm, h => by
    intro i hi
    by_cases hR : R = 0
    · have e : A (X - W) = 0 := by rw [map_sub, hX, ← h.res, hR]
      have : X - W = 0 := by
        by_contra q
        have := hA.pos _ q
        rw [e] at this
        simp at this
      rw [this]; simp
    · obtain ⟨ha, -, -, hn⟩ := h.next hd hpos hA hR rfl
      have ih := Run.ahead hd hpos hA hX m (k + 1) (by omega) hn i (by omega)
      rw [Function.update_of_ne (by omega)] at ih
      have e := hn.ang i k (by omega) (by omega)
      rw [Function.update_self, Function.update_of_ne (by omega)] at e
      have hRR := hpos R hR
      rw [← sub_sub, map_sub, map_smul] at ih
      have := mul_nonneg (div_nonneg hRR.le ha.le) e
      rw [smul_eq_mul] at ih
      linarith

/-- No point on the way is longer than the solution. -/
theorem Run.short [FiniteDimensional K E] (hd : ∀ x y, d x y = d y x) (hpos : ∀ x, x ≠ 0 → 0 < d x x) (hA : Spd d A) {B X : E}
    (hX : A X = B) {k : Nat} {R W : E} {rs vs ps : Nat → E} (h : Run d A B k R W rs vs ps) : d W W ≤ d X X := by
  have hk := h.bound hd hpos
  have h1 : 0 ≤ d (X - W) W := h.cone _ fun i hi => by
    rw [hd]
    exact Run.ahead hd hpos hA hX (Module.finrank K E + 1 - k) k (by omega) h i hi
  have h2 : 0 ≤ d (X - W) (X - W) := by
    by_cases q : X - W = 0
    · rw [q]; simp
    · exact (hpos _ q).le
  have e : d X X = d W W + 2 * d (X - W) W + d (X - W) (X - W) := by
    have : X = W + (X - W) := by abel
    generalize X - W = Y at *
    rw [this]
    simp only [map_add, LinearMap.add_apply]
    rw [hd W Y]; ring
  linarith

end Method

/-! ## The program -/

section Program
variable {K : Type} [Field K] [LinearOrder K] [IsStrictOrderedRing K]

/-- The part of an array that is used. -/
def vec (nl : Nat) (D : Nat → K) : Fin nl → K := fun i => D i

/-- The scalar product. -/
def dot0 (K : Type) [Field K] (nl : Nat) : LinearMap.BilinForm K (Fin nl → K) :=
  LinearMap.mk₂ K (fun x y => ∑ i, x i * y i) (fun _ _ _ => by simp [add_mul, sum_add_distrib])
    (fun _ _ _ => by simp [mul_assoc, mul_sum]) (fun _ _ _ => by simp [mul_add, sum_add_distrib])
    (fun _ _ _ => by simp [mul_left_comm, mul_sum])

omit [LinearOrder K] [IsStrictOrderedRing K] in
theorem dot0_apply (nl : Nat) (x y : Fin nl → K) : dot0 K nl x y = ∑ i, x i * y i := rfl

omit [LinearOrder K] [IsStrictOrderedRing K] in
theorem dot0_comm (nl : Nat) (x y : Fin nl → K) : dot0 K nl x y = dot0 K nl y x := by
  simp only [dot0_apply]; exact sum_congr rfl fun i _ => mul_comm _ _

theorem dot0_pos {nl : Nat} {x : Fin nl → K} (h : x ≠ 0) : 0 < dot0 K nl x x := by
  obtain ⟨i, hi⟩ := Function.ne_iff.1 h
  refine lt_of_lt_of_le (mul_self_pos.2 hi) ?_
  exact single_le_sum (f := fun i => x i * x i) (fun i _ => mul_self_nonneg _) (mem_univ i)

theorem dot0_nonneg {nl : Nat} (x : Fin nl → K) : 0 ≤ dot0 K nl x x := by
  rw [dot0_apply]; exact sum_nonneg fun i _ => mul_self_nonneg _

/-- The deflections along a change of the moduli. -/
def mapM (b : In K) : (Fin b.nl → K) →ₗ[K] (Fin b.dl → K) where
  toFun x j := ∑ i : Fin b.nl, b.PG (j * b.nl + i) * x i
  map_add' x y := by funext j; simp [mul_add, sum_add_distrib]
  map_smul' c x := by funext j; simp only [Pi.smul_apply, smul_eq_mul, mul_sum, RingHom.id_apply]; exact sum_congr rfl fun _ _ => by ring

/-- Its transpose. -/
def mapT (b : In K) : (Fin b.dl → K) →ₗ[K] (Fin b.nl → K) where
  toFun y i := ∑ j : Fin b.dl, y j * b.PG (j * b.nl + i)
  map_add' x y := by funext j; simp [add_mul, sum_add_distrib]
  map_smul' c x := by funext j; simp only [Pi.smul_apply, smul_eq_mul, mul_sum, RingHom.id_apply]; exact sum_congr rfl fun _ _ => by ring

omit [LinearOrder K] [IsStrictOrderedRing K] in
theorem mapT_dot (b : In K) (y : Fin b.dl → K) (x : Fin b.nl → K) : dot0 K b.nl (mapT b y) x = ∑ j, y j * mapM b x j := by
  simp only [dot0_apply, mapT, mapM, LinearMap.coe_mk, AddHom.coe_mk, sum_mul, mul_sum]
  rw [sum_comm]
  exact sum_congr rfl fun _ _ => sum_congr rfl fun _ _ => by ring

/-- The second derivatives. -/
def mapH (b : In K) (w : Fin b.dl → K) : (Fin b.nl → K) →ₗ[K] (Fin b.nl → K) where
  toFun x := mapT b fun j => 2 * w j * mapM b x j
  map_add' x y := by
    rw [← map_add]; congr 1; funext j; simp [mul_add]
  map_smul' c x := by
    rw [RingHom.id_apply, ← map_smul]; congr 1; funext j
    simp only [map_smul, Pi.smul_apply, smul_eq_mul]; ring

omit [LinearOrder K] [IsStrictOrderedRing K] in
theorem mapH_dot (b : In K) (w : Fin b.dl → K) (x y : Fin b.nl → K) :
    dot0 K b.nl (mapH b w x) y = ∑ j, 2 * w j * mapM b x j * mapM b y j := mapT_dot b _ y

/-- The moduli that matter. -/
abbrev Sub (b : In K) := LinearMap.range (mapT b)

/-- The scalar product there. -/
def dS (b : In K) : LinearMap.BilinForm K (Sub b) := (dot0 K b.nl).restrict (Sub b)

omit [LinearOrder K] [IsStrictOrderedRing K] in
theorem dS_apply (b : In K) (x y : Sub b) : dS b x y = dot0 K b.nl x y := rfl

omit [LinearOrder K] [IsStrictOrderedRing K] in
theorem dS_comm (b : In K) (x y : Sub b) : dS b x y = dS b y x := dot0_comm _ _ _

theorem dS_pos (b : In K) (x : Sub b) (h : x ≠ 0) : 0 < dS b x x :=
  dot0_pos fun q => h (Subtype.ext q)

/-- The second derivatives there. -/
def hS (b : In K) (w : Fin b.dl → K) : Sub b →ₗ[K] Sub b :=
  (mapH b w).restrict fun _ _ => ⟨_, rfl⟩

omit [LinearOrder K] [IsStrictOrderedRing K] in
theorem hS_coe (b : In K) (w : Fin b.dl → K) (x : Sub b) : (hS b w x : Fin b.nl → K) = mapH b w x := rfl

theorem hS_spd (b : In K) (w : Fin b.dl → K) (hw : ∀ j, 0 < w j) : Spd (dS b) (hS b w) := by
  constructor
  · intro x y
    rw [dS_comm b x, dS_apply, dS_apply, hS_coe, hS_coe, mapH_dot, mapH_dot]
    exact sum_congr rfl fun j _ => by ring
  · intro x hx
    rw [dS_apply, hS_coe, mapH_dot]
    have h0 : ∀ j ∈ univ, 0 ≤ 2 * w j * mapM b x j * mapM b x j := fun j _ => by
      have := mul_nonneg (hw j).le (mul_self_nonneg (mapM b (x : Fin b.nl → K) j))
      nlinarith
    refine lt_of_le_of_ne (sum_nonneg h0) fun e => ?_
    have hz : ∀ j, mapM b (x : Fin b.nl → K) j = 0 := by
      intro j
      have := (sum_eq_zero_iff_of_nonneg h0).1 e.symm j (mem_univ j)
      have h2 : 2 * w j ≠ 0 := mul_ne_zero two_ne_zero (hw j).ne'
      rw [mul_assoc] at this
      exact mul_self_eq_zero.1 ((mul_eq_zero.1 this).resolve_left h2)
    have := dS_pos b x hx
    obtain ⟨y, hy⟩ := x.2
    rw [dS_apply, ← hy, mapT_dot, hy, sum_eq_zero fun j _ => by rw [hz j, mul_zero]] at this
    exact lt_irrefl _ this

theorem finrank_sub (b : In K) : Module.finrank K (Sub b) ≤ b.nl := by
  have := Submodule.finrank_le (Sub b)
  simpa using this

/-- The squared misfit, with weights. -/
def err (b : In K) (w : Fin b.dl → K) (X : Fin b.nl → K) : K := ∑ j : Fin b.dl, w j * (b.CD j - b.MD j + mapM b X j) ^ 2

/-- Minus its gradient. -/
def neg (b : In K) (w : Fin b.dl → K) (X : Fin b.nl → K) : Fin b.nl → K :=
  mapT b fun j => -(2 * w j * (b.CD j - b.MD j + mapM b X j))

omit [LinearOrder K] [IsStrictOrderedRing K] in
theorem err_add (b : In K) (w : Fin b.dl → K) (X Y : Fin b.nl → K) :
    err b w (X + Y) = err b w X - dot0 K b.nl (neg b w X) Y + ∑ j, w j * mapM b Y j ^ 2 := by
  rw [neg, mapT_dot, err, err, ← sum_sub_distrib, ← sum_add_distrib]
  refine sum_congr rfl fun j _ => ?_
  rw [map_add, Pi.add_apply]
  ring

omit [LinearOrder K] [IsStrictOrderedRing K] in
theorem neg_sub (b : In K) (w : Fin b.dl → K) (X : Fin b.nl → K) : neg b w X = neg b w 0 - mapH b w X := by
  rw [neg, neg, mapH]
  simp only [LinearMap.coe_mk, AddHom.coe_mk]
  rw [← map_sub]
  congr 1
  funext j
  simp only [Pi.sub_apply, map_zero, Pi.zero_apply]
  ring

/-- The gradient at the start. -/
def rhs (b : In K) (w : Fin b.dl → K) : Sub b := ⟨neg b w 0, _, rfl⟩

omit [LinearOrder K] [IsStrictOrderedRing K] in
theorem neg_coe (b : In K) (w : Fin b.dl → K) (X : Sub b) : neg b w X = ((rhs b w - hS b w X : Sub b) : Fin b.nl → K) := by
  rw [neg_sub]; rfl

/-- A point at which the gradient vanishes is no shorter than the points on the way. -/
theorem short_of (b : In K) (w : Fin b.dl → K) (hw : ∀ j, 0 < w j) {X : Fin b.nl → K} (hX : neg b w X = 0)
    {k : Nat} {R W : Sub b} {rs vs ps : Nat → Sub b} (h : Run (dS b) (hS b w) (rhs b w) k R W rs vs ps) :
    dS b W W ≤ dot0 K b.nl X X := by
  have hA := hS_spd b w hw
  have hinj : Function.Injective (hS b w) := by
    rw [← LinearMap.ker_eq_bot, LinearMap.ker_eq_bot']
    intro x hx
    by_contra q
    have := hA.pos x q
    rw [hx] at this
    simp at this
  have hsur := LinearMap.injective_iff_surjective.1 hinj
  obtain ⟨Y, hY⟩ := hsur (rhs b w)
  have h1 := h.short (dS_comm b) (dS_pos b) hA hY
  -- Y is the projection of X
  have h2 : dot0 K b.nl (Y : Fin b.nl → K) X = dS b Y Y := by
    obtain ⟨Z, hZ⟩ := hsur Y
    have e1 : mapH b w X = neg b w 0 := by
      have := neg_sub b w X
      rw [hX] at this
      exact (sub_eq_zero.1 this.symm).symm
    have e2 : dot0 K b.nl (mapH b w Z) X = dot0 K b.nl (mapH b w X) Z := by
      rw [mapH_dot, mapH_dot]
      exact sum_congr rfl fun j _ => by ring
    rw [← hZ, hS_coe, e2, e1]
    have e3 : neg b w 0 = ((hS b w (hS b w Z) : Sub b) : Fin b.nl → K) := by rw [hZ, hY]; rfl
    rw [e3, hZ, ← dS_apply, hA.symm, hZ]
  have h3 := dot0_nonneg (X - (Y : Fin b.nl → K))
  have e : dot0 K b.nl (X - (Y : Fin b.nl → K)) (X - Y) = dot0 K b.nl X X - 2 * dot0 K b.nl Y X + dS b Y Y := by
    simp only [map_sub, LinearMap.sub_apply]
    rw [dot0_comm _ X Y, dS_apply]; ring
  rw [e, h2] at h3
  linarith

end Program

end OP.Pave.Grad
