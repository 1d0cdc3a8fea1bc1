import Verif.Pave.GradLemmas
import Mathlib.Tactic.Linarith
import Mathlib.Tactic.Ring
import Mathlib.Tactic.FieldSimp
import Mathlib.Tactic.Positivity
import Mathlib.Tactic.NormNum
/-!
# C96: the gradient step of the back-calculation
-/
namespace OP.Pave.Grad

open OP.Lin OP.Fem Finset

section
variable {K : Type} [Field K] [LinearOrder K] [IsStrictOrderedRing K]

/-! ## Specification -/

/-- The deflection `j` after a change `X` of the logarithms of the moduli, to first order. -/
def In.after (b : In K) (X : Nat → K) (j : Nat) : K := b.CD j + ∑ i ∈ range b.nl, b.PG (j * b.nl + i) * X i

/-- The squared length of the gradient of deflection `j`. -/
def In.glen (b : In K) (j : Nat) : K := ∑ i ∈ range b.nl, b.PG (j * b.nl + i) ^ 2

/-- The sum of the squared distances from `X` to the planes on which the deflections are, to first order, as measured. -/
def In.planes (b : In K) (X : Nat → K) : K := ∑ j ∈ range b.dl, (b.after X j - b.MD j) ^ 2 / b.glen j

/-- The derivatives of that sum. -/
def In.deriv (b : In K) (X : Nat → K) (i : Nat) : K :=
  ∑ j ∈ range b.dl, 2 * (b.after X j - b.MD j) * b.PG (j * b.nl + i) / b.glen j

/-- The harmonic mean of the lengths of the gradients. -/
def In.mean (rt : K → K) (b : In K) : K := b.dl / ∑ j ∈ range b.dl, 1 / rt (b.glen j)

/-- The squared length of a change. -/
def sq (n : Nat) (X : Nat → K) : K := ∑ i ∈ range n, X i ^ 2

/-! ## Loops and weights -/

omit [LinearOrder K] [IsStrictOrderedRing K] in
theorem loop_fin (n : Nat) (t : Nat → K) (v : K) : loop 0 n (fun i s => s + t i) v = v + ∑ i : Fin n, t i := by
  rw [loop_add _ _ (Nat.zero_le _), ← range_eq_Ico, Fin.sum_univ_eq_sum_range]

omit [LinearOrder K] [IsStrictOrderedRing K] in
theorem loop_fin_sub (n : Nat) (t : Nat → K) (v : K) : loop 0 n (fun i s => s - t i) v = v - ∑ i : Fin n, t i := by
  rw [loop_sub _ _ (Nat.zero_le _), ← range_eq_Ico, Fin.sum_univ_eq_sum_range]

omit [LinearOrder K] [IsStrictOrderedRing K] in
theorem len2_glen (b : In K) (j : Nat) : b.len2 j = b.glen j := by
  rw [In.len2, loop_add _ _ (Nat.zero_le _), ← range_eq_Ico, zero_add, In.glen]
  exact sum_congr rfl fun i _ => by ring

omit [LinearOrder K] [IsStrictOrderedRing K] in
theorem inv_eq (rt : K → K) (b : In K) : b.inv rt = ∑ j ∈ range b.dl, 1 / rt (b.glen j) := by
  rw [In.inv, loop_add _ _ (Nat.zero_le _), ← range_eq_Ico, zero_add]
  exact sum_congr rfl fun j _ => by rw [len2_glen]

/-- The weights of the deflections. -/
def wts (rt : K → K) (b : In K) : Fin b.dl → K := fun j => 1 / b.DG rt j

/-- What is asked of the gradients: there is a deflection, and each has a gradient. -/
def In.Some (b : In K) : Prop := 0 < b.dl ∧ ∀ j < b.dl, 0 < b.glen j

theorem root_pos {rt : K → K} (hrt : IsRoot0 rt) {x : K} (h : 0 < x) : 0 < rt x := by
  obtain ⟨h1, h2⟩ := hrt x h.le
  refine lt_of_le_of_ne h1 fun e => ?_
  rw [← e, mul_zero] at h2
  exact h.ne h2

theorem inv_pos {rt : K → K} (hrt : IsRoot0 rt) {b : In K} (hb : b.Some) : 0 < b.inv rt := by
  rw [inv_eq]
  exact sum_pos (fun j hj => one_div_pos.2 (root_pos hrt (hb.2 j (mem_range.1 hj)))) ⟨0, mem_range.2 hb.1⟩

theorem mean_pos {rt : K → K} (hrt : IsRoot0 rt) {b : In K} (hb : b.Some) : 0 < b.mean rt := by
  rw [In.mean, ← inv_eq]
  exact div_pos (Nat.cast_pos.2 hb.1) (inv_pos hrt hb)

omit [LinearOrder K] [IsStrictOrderedRing K] in
theorem DG_eq (rt : K → K) (b : In K) (j : Nat) : b.DG rt j = b.glen j * b.mean rt ^ 2 := by
  rw [In.DG, len2_glen, In.mean, ← inv_eq, div_pow]; congr 1; ring

theorem wts_pos {rt : K → K} (hrt : IsRoot0 rt) {b : In K} (hb : b.Some) (j : Fin b.dl) : 0 < wts rt b j := by
  rw [wts, DG_eq]
  exact one_div_pos.2 (mul_pos (hb.2 j j.2) (pow_pos (mean_pos hrt hb) 2))

omit [LinearOrder K] [IsStrictOrderedRing K] in
theorem mapM_vec (b : In K) (X : Nat → K) (j : Fin b.dl) : mapM b (vec b.nl X) j = ∑ i ∈ range b.nl, b.PG (j * b.nl + i) * X i := by
  simp only [mapM, vec, LinearMap.coe_mk, AddHom.coe_mk]
  rw [Fin.sum_univ_eq_sum_range fun i => b.PG (j * b.nl + i) * X i]

omit [LinearOrder K] [IsStrictOrderedRing K] in
theorem along_eq (b : In K) (D : Nat → K) (j : Fin b.dl) : b.along D j = mapM b (vec b.nl D) j := by
  rw [mapM_vec, In.along, loop_add _ _ (Nat.zero_le _), ← range_eq_Ico, zero_add]

omit [LinearOrder K] [IsStrictOrderedRing K] in
theorem dot_vec (nl : Nat) (X : Nat → K) : dot0 K nl (vec nl X) (vec nl X) = sq nl X := by
  rw [dot0_apply, sq]
  simp only [vec]
  rw [Fin.sum_univ_eq_sum_range fun i => X i * X i]
  exact sum_congr rfl fun i _ => by ring

theorem err_planes {rt : K → K} (hrt : IsRoot0 rt) {b : In K} (hb : b.Some) (X : Nat → K) :
    err b (wts rt b) (vec b.nl X) = b.planes X / b.mean rt ^ 2 := by
  have hm := (mean_pos hrt hb).ne'
  rw [In.planes, sum_div, ← Fin.sum_univ_eq_sum_range (fun j => (b.after X j - b.MD j) ^ 2 / b.glen j / b.mean rt ^ 2), err]
  refine sum_congr rfl fun j _ => ?_
  have hg := (hb.2 j j.2).ne'
  rw [mapM_vec, wts, DG_eq, In.after]
  field_simp
  ring

theorem neg_deriv {rt : K → K} (hrt : IsRoot0 rt) {b : In K} (hb : b.Some) (X : Nat → K) (i : Fin b.nl) :
    neg b (wts rt b) (vec b.nl X) i = -(b.deriv X i / b.mean rt ^ 2) := by
  have hm := (mean_pos hrt hb).ne'
  rw [In.deriv, sum_div, ← sum_neg_distrib,
    ← Fin.sum_univ_eq_sum_range (fun j => -(2 * (b.after X j - b.MD j) * b.PG (j * b.nl + i) / b.glen j / b.mean rt ^ 2)), neg]
  simp only [mapT, LinearMap.coe_mk, AddHom.coe_mk]
  refine sum_congr rfl fun j _ => ?_
  have hg := (hb.2 j j.2).ne'
  rw [mapM_vec, wts, DG_eq, In.after]
  field_simp
  ring

/-! ## The rounds -/

/-- Where the loop stands after `k` steps, with the next direction chosen. -/
structure Top (rt : K → K) (b : In K) (Q0 : Nat → K) (k : Nat) (s : Vars K) (R W P : Sub b) (rs vs ps : Nat → Sub b) : Prop where
  run : Run (dS b) (hS b (wts rt b)) (rhs b (wts rt b)) k R W rs vs ps
  ne : R ≠ 0
  dir : P = if k = 0 then R else R + (dS b R R / dS b (vs (k - 1)) (rs (k - 1))) • ps (k - 1)
  hW : vec b.nl s.W = W
  hP : vec b.nl s.D = P
  hCD : ∀ j : Fin b.dl, s.CD j = b.CD j + mapM b W j
  hdgg : s.dgg = dS b R R
  hdd : s.dd = dS b W W
  short : s.dd ≤ 1
  less : err b (wts rt b) W ≤ err b (wts rt b) 0
  live : s.cut = false
  cols : ∀ a < k, ∀ i : Fin b.nl, s.Q (i * b.nl + a) = (ps a : Fin b.nl → K) i / rt (dS b (ps a) (ps a))
  rest : ∀ a, k ≤ a → a < b.nl → ∀ i < b.nl, s.Q (i * b.nl + a) = Q0 (i * b.nl + a)

/-- The first `m` columns are directions conjugate to each other, of unit length; the others are as before. -/
def Cols (rt : K → K) (b : In K) (Q0 Q : Nat → K) (m : Nat) : Prop :=
  m ≤ b.nl ∧ (∀ a < m, ∃ p : Sub b, p ≠ 0 ∧ ∀ i : Fin b.nl, Q (i * b.nl + a) = (p : Fin b.nl → K) i / rt (dS b p p)) ∧
  (∀ a < m, ∀ c < m, a ≠ c → ∑ j : Fin b.dl, wts rt b j * mapM b (vec b.nl fun i => Q (i * b.nl + a)) j *
    mapM b (vec b.nl fun i => Q (i * b.nl + c)) j = 0) ∧
  ∀ a, m ≤ a → a < b.nl → ∀ i < b.nl, Q (i * b.nl + a) = Q0 (i * b.nl + a)

/-- Where the loop may end. -/
def Ended (rt : K → K) (b : In K) (Q0 : Nat → K) (s : Vars K) : Prop :=
  err b (wts rt b) (vec b.nl s.W) ≤ err b (wts rt b) 0 ∧ sq b.nl s.W ≤ 2 ∧
  (dot0 K b.nl (neg b (wts rt b) (vec b.nl s.W)) (neg b (wts rt b) (vec b.nl s.W)) ≤ b.precision ∧ sq b.nl s.W ≤ 1 ∨
    ∀ X, neg b (wts rt b) X = 0 → 1 < dot0 K b.nl X X) ∧ ∃ m, Cols rt b Q0 s.Q m

omit [LinearOrder K] [IsStrictOrderedRing K] in
theorem slope_spec (rt : K → K) (b : In K) {s : Vars K} {W : Fin b.nl → K} (h : ∀ j : Fin b.dl, s.CD j = b.CD j + mapM b W j) :
    vec b.nl (slope rt b s).D = neg b (wts rt b) W ∧
    (slope rt b s).dgg = dot0 K b.nl (neg b (wts rt b) W) (neg b (wts rt b) W) := by
  have e : vec b.nl (slope rt b s).D = neg b (wts rt b) W := by
    funext i
    simp only [vec, slope, neg, mapT, LinearMap.coe_mk, AddHom.coe_mk]
    rw [loop_fin_sub b.dl (fun j => 2 * (s.CD j - b.MD j) * b.PG (j * b.nl + i) / b.DG rt j), zero_sub, ← sum_neg_distrib]
    refine sum_congr rfl fun j _ => ?_
    rw [h j, wts]
    ring
  refine ⟨e, ?_⟩
  rw [← e, dot0_apply]
  show loop 0 b.nl (fun i r => r + (slope rt b s).D i * (slope rt b s).D i) 0 = _
  rw [loop_fin b.nl (fun i => (slope rt b s).D i * (slope rt b s).D i), zero_add]
  rfl

omit [LinearOrder K] [IsStrictOrderedRing K] in
theorem col_loop (nl c : Nat) (hc : c < nl) (U Q : Nat → K) (i a : Nat) (ha : a < nl) :
    loop 0 nl (fun i Q => set Q (i * nl + c) (U i)) Q (i * nl + a) = if i < nl ∧ a = c then U i else Q (i * nl + a) := by
  have := loop_rule (f := fun i (Q : Nat → K) => set Q (i * nl + c) (U i))
    (fun m R => ∀ i a, a < nl → R (i * nl + a) = if i < m ∧ a = c then U i else Q (i * nl + a)) (lo := 0) (hi := nl) (s := Q)
    (Nat.zero_le _) (fun i a _ => by rw [if_neg (by omega)]) (by
      intro k R _ _ hR i a ha
      rw [set_addr _ _ hc ha, hR i a ha]
      by_cases q : i = k ∧ a = c
      · rw [if_pos q, if_pos (by omega), q.1]
      · rw [if_neg q]
        by_cases q2 : i < k ∧ a = c
        · rw [if_pos q2, if_pos (by omega)]
        · rw [if_neg q2, if_neg (by omega)])
  exact this i a ha

/-- One step. -/
theorem step_spec {rt : K → K} (hrt : IsRoot0 rt) {b : In K} (hb : b.Some) {Q0 : Nat → K} {k : Nat} (hk : k < b.nl) {s : Vars K}
    {R W P : Sub b} {rs vs ps : Nat → Sub b} (h : Top rt b Q0 k s R W P rs vs ps) :
    (1 < dS b (W + (dS b R R / dS b (hS b (wts rt b) P) P) • P) (W + (dS b R R / dS b (hS b (wts rt b) P) P) • P) ∧
      (stepAlong rt b (k + 1) s).cut = true ∧
      vec b.nl (stepAlong rt b (k + 1) s).W = (W : Fin b.nl → K) +
        rt ((1 - s.dd) / dS b (W + (dS b R R / dS b (hS b (wts rt b) P) P) • P) (W + (dS b R R / dS b (hS b (wts rt b) P) P) • P)) •
          ((dS b R R / dS b (hS b (wts rt b) P) P) • P : Sub b) ∨
     dS b (W + (dS b R R / dS b (hS b (wts rt b) P) P) • P) (W + (dS b R R / dS b (hS b (wts rt b) P) P) • P) ≤ 1 ∧
      (stepAlong rt b (k + 1) s).cut = false ∧
      vec b.nl (stepAlong rt b (k + 1) s).W = ((W + (dS b R R / dS b (hS b (wts rt b) P) P) • P : Sub b) : Fin b.nl → K) ∧
      (stepAlong rt b (k + 1) s).dd =
        dS b (W + (dS b R R / dS b (hS b (wts rt b) P) P) • P) (W + (dS b R R / dS b (hS b (wts rt b) P) P) • P)) ∧
    (stepAlong rt b (k + 1) s).dgg = s.dgg ∧ (stepAlong rt b (k + 1) s).G = s.D ∧
    (∀ j : Fin b.dl, (stepAlong rt b (k + 1) s).CD j =
      b.CD j + mapM b ((W + (dS b R R / dS b (hS b (wts rt b) P) P) • P : Sub b) : Fin b.nl → K) j) ∧
    (∀ a < b.nl, ∀ i : Fin b.nl, (stepAlong rt b (k + 1) s).Q (i * b.nl + a) =
      if a = k then (P : Fin b.nl → K) i / rt (dS b P P) else s.Q (i * b.nl + a)) := by
  obtain ⟨ha, hWP, hRP, -⟩ := h.run.next (dS_comm b) (dS_pos b) (hS_spd b _ (wts_pos hrt hb)) h.ne h.dir
  set w := wts rt b with hw
  set α := dS b R R / dS b (hS b w P) P with hα
  have hP0 : P ≠ 0 := by
    rintro q
    rw [q] at ha
    simp at ha
  have hPP := dS_pos b P hP0
  set ρ := rt (dS b P P) with hρ
  have hρ0 : ρ ≠ 0 := (root_pos hrt hPP).ne'
  -- the pieces of the code
  have e1 : loop 0 b.nl (fun i r => r + s.D i * s.D i) 0 = dS b P P := by
    rw [loop_fin b.nl (fun i => s.D i * s.D i), zero_add, dS_apply, ← h.hP]; rfl
  have e2 : ∀ j : Fin b.dl, b.along (fun i => s.D i / ρ) j = mapM b (P : Fin b.nl → K) j / ρ := by
    intro j
    rw [along_eq, ← h.hP, mapM_vec, mapM_vec, sum_div]
    exact sum_congr rfl fun i _ => by ring
  have e3 : loop 0 b.dl (fun j q => q + (s.CD j - b.MD j) * b.along (fun i => s.D i / ρ) j / b.DG rt j) 0 = -(dS b R P / (2 * ρ)) := by
    rw [loop_fin b.dl (fun j => (s.CD j - b.MD j) * b.along (fun i => s.D i / ρ) j / b.DG rt j), zero_add, h.run.res, dS_apply, ← neg_coe,
      neg, mapT_dot, sum_div, ← sum_neg_distrib]
    refine sum_congr rfl fun j _ => ?_
    rw [e2 j, h.hCD j, wts]
    field_simp
    ring
  have e4 : loop 0 b.dl (fun j p => p + b.along (fun i => s.D i / ρ) j * b.along (fun i => s.D i / ρ) j / b.DG rt j) 0 =
      dS b (hS b w P) P / (2 * ρ ^ 2) := by
    rw [loop_fin b.dl (fun j => b.along (fun i => s.D i / ρ) j * b.along (fun i => s.D i / ρ) j / b.DG rt j), zero_add, dS_apply, hS_coe,
      mapH_dot, sum_div]
    refine sum_congr rfl fun j _ => ?_
    rw [e2 j, hw, wts]
    field_simp
  have e5 : ∀ i, s.D i / ρ * (- -(dS b R P / (2 * ρ)) / (dS b (hS b w P) P / (2 * ρ ^ 2))) = α * s.D i := by
    intro i
    rw [hRP, hα]
    have := ha.ne'
    field_simp
  have e6 : loop 0 b.nl (fun i r => r + (s.W i + α * s.D i) ^ 2) 0 = dS b (W + α • P) (W + α • P) := by
    rw [loop_fin b.nl (fun i => (s.W i + α * s.D i) ^ 2), zero_add, dS_apply, dot0_apply]
    refine sum_congr rfl fun i _ => ?_
    rw [Submodule.coe_add, Submodule.coe_smul, ← h.hW, ← h.hP, pow_two]
    rfl
  have e7 : ∀ j : Fin b.dl, loop 0 b.nl (fun i c => c + b.PG (j * b.nl + i) * (α * s.D i)) (s.CD j) =
      b.CD j + mapM b ((W + α • P : Sub b) : Fin b.nl → K) j := by
    intro j
    rw [loop_add _ _ (Nat.zero_le _), ← range_eq_Ico, h.hCD j, Submodule.coe_add, Submodule.coe_smul, map_add, map_smul, ← h.hP,
      Pi.add_apply, Pi.smul_apply, mapM_vec, smul_eq_mul, mul_sum, add_assoc]
    congr 2
    exact sum_congr rfl fun i _ => by ring
  have hWn : (vec b.nl fun i => s.W i + α * s.D i) = ((W + α • P : Sub b) : Fin b.nl → K) := by
    rw [Submodule.coe_add, Submodule.coe_smul, ← h.hW, ← h.hP]; rfl
  unfold stepAlong
  simp only [e1, ← hρ, e3, e4, e5, e6]
  have hcol : ∀ a < b.nl, ∀ i : Fin b.nl, loop 0 b.nl (fun i Q => set Q (i * b.nl + (k + 1 - 1)) (s.D i / ρ)) s.Q (i * b.nl + a) =
      if a = k then (P : Fin b.nl → K) i / ρ else s.Q (i * b.nl + a) := by
    intro a ha i
    rw [Nat.add_sub_cancel, col_loop b.nl k hk _ _ i a ha, ← h.hP]
    by_cases q : a = k
    · rw [if_pos q, if_pos ⟨i.2, q⟩]; rfl
    · rw [if_neg q, if_neg fun x => q x.2]
  by_cases hr : 1 < dS b (W + α • P) (W + α • P)
  · rw [if_pos hr]
    refine ⟨Or.inl ⟨hr, rfl, ?_⟩, rfl, rfl, e7, hcol⟩
    rw [Submodule.coe_smul, ← h.hW, ← h.hP]; rfl
  · rw [if_neg hr]
    exact ⟨Or.inr ⟨not_lt.1 hr, rfl, hWn, rfl⟩, rfl, rfl, e7, hcol⟩

/-- Part of a step towards the minimum along a direction. -/
theorem err_part {b : In K} {w : Fin b.dl → K} {R W P : Sub b} (hR : R = rhs b w - hS b w W) (ha : 0 < dS b (hS b w P) P)
    (hRP : dS b R P = dS b R R) (hRR : 0 ≤ dS b R R) {t : K} (h0 : 0 ≤ t) (h1 : t ≤ 1) :
    err b w ((W : Fin b.nl → K) + t • ((dS b R R / dS b (hS b w P) P) • P : Sub b)) ≤ err b w W := by
  set α := dS b R R / dS b (hS b w P) P with hα
  have e1 : dot0 K b.nl (neg b w W) (t • ((α • P : Sub b) : Fin b.nl → K)) = t * (α * dS b R R) := by
    rw [neg_coe, ← hR, map_smul, Submodule.coe_smul, map_smul, ← dS_apply, hRP]; rfl
  have e2 : ∑ j, w j * mapM b (t • ((α • P : Sub b) : Fin b.nl → K)) j ^ 2 = t ^ 2 * α ^ 2 * (dS b (hS b w P) P / 2) := by
    rw [dS_apply, hS_coe, mapH_dot, sum_div, mul_sum]
    refine sum_congr rfl fun j _ => ?_
    rw [Submodule.coe_smul, map_smul, map_smul, Pi.smul_apply, Pi.smul_apply, smul_eq_mul, smul_eq_mul]
    ring
  rw [err_add, e1, e2]
  have e3 : α ^ 2 * dS b (hS b w P) P = α * dS b R R := by
    rw [hα]; field_simp
  have e4 : t ^ 2 * α ^ 2 * (dS b (hS b w P) P / 2) = t ^ 2 / 2 * (α * dS b R R) := by rw [← e3]; ring
  rw [e4]
  have h2 : 0 ≤ α * dS b R R := mul_nonneg (div_nonneg hRR ha.le) hRR
  nlinarith [mul_nonneg h0 h2, mul_nonneg (mul_nonneg h0 h2) (sub_nonneg.2 h1)]

theorem Top.cols_ok {rt : K → K} (hrt : IsRoot0 rt) {b : In K} {Q0 Q : Nat → K} {k : Nat} (hk : k ≤ b.nl) {R W : Sub b}
    {rs vs ps : Nat → Sub b} (h : Run (dS b) (hS b (wts rt b)) (rhs b (wts rt b)) k R W rs vs ps)
    (hne : ∀ a < k, ps a ≠ 0)
    (cols : ∀ a < k, ∀ i : Fin b.nl, Q (i * b.nl + a) = (ps a : Fin b.nl → K) i / rt (dS b (ps a) (ps a)))
    (rest : ∀ a, k ≤ a → a < b.nl → ∀ i < b.nl, Q (i * b.nl + a) = Q0 (i * b.nl + a)) : Cols rt b Q0 Q k := by
  refine ⟨hk, fun a ha => ⟨ps a, hne a ha, cols a ha⟩, fun a ha c hc hac => ?_, rest⟩
  have e : ∀ a < k, (vec b.nl fun i => Q (i * b.nl + a)) = (1 / rt (dS b (ps a) (ps a))) • (ps a : Fin b.nl → K) := by
    intro a ha
    funext i
    simp only [vec, Pi.smul_apply, smul_eq_mul]
    rw [cols a ha i]; ring
  have hconj : dS b (hS b (wts rt b) (ps a)) (ps c) = 0 := by
    rcases Nat.lt_or_gt_of_ne hac with q | q
    · have := h.past.conj a c q hc
      rw [dS_apply, hS_coe, mapH_dot] at this ⊢
      rw [← this]
      exact sum_congr rfl fun j _ => by ring
    · exact h.past.conj c a q ha
  rw [dS_apply, hS_coe, mapH_dot] at hconj
  rw [e a ha, e c hc]
  simp only [map_smul, Pi.smul_apply, smul_eq_mul]
  have : ∑ j, wts rt b j * (1 / rt (dS b (ps a) (ps a)) * mapM b (ps a : Fin b.nl → K) j) *
      (1 / rt (dS b (ps c) (ps c)) * mapM b (ps c : Fin b.nl → K) j) =
      (1 / rt (dS b (ps a) (ps a))) * (1 / rt (dS b (ps c) (ps c))) / 2 *
        ∑ j, 2 * wts rt b j * mapM b (ps a : Fin b.nl → K) j * mapM b (ps c : Fin b.nl → K) j := by
    rw [mul_sum]
    exact sum_congr rfl fun j _ => by ring
  rw [this, hconj, mul_zero]

theorem rounds_spec {rt : K → K} (hrt : IsRoot0 rt) {b : In K} (hb : b.Some) (hpr : 0 ≤ b.precision) {Q0 : Nat → K} :
    ∀ (m k : Nat) (s : Vars K) (R W P : Sub b) (rs vs ps : Nat → Sub b), m + k = b.nl → Top rt b Q0 k s R W P rs vs ps →
      (∀ a < k, ps a ≠ 0) → Ended rt b Q0 (rounds rt b m (k + 1) s) := by
  have hwp := wts_pos hrt hb
  have hA := hS_spd b _ hwp
  intro m
  induction m with
  | zero =>
    intro k s R W P rs vs ps hm h _
    obtain ⟨-, -, -, hn⟩ := h.run.next (dS_comm b) (dS_pos b) hA h.ne h.dir
    have h1 := hn.bound (dS_comm b) (dS_pos b)
    have h2 := finrank_sub b
    omega
  | succ m ih =>
    intro k s R W P rs vs ps hm h hne
    have hdgg : s.dgg ≠ 0 := by rw [h.hdgg]; exact (dS_pos b R h.ne).ne'
    have hk : k < b.nl := by omega
    obtain ⟨ha, hWP, hRP, hn⟩ := h.run.next (dS_comm b) (dS_pos b) hA h.ne h.dir
    obtain ⟨hcase, s1, s2, s3, s4⟩ := step_spec hrt hb hk h
    set t := stepAlong rt b (k + 1) s with ht
    set w := wts rt b with hw
    set α := dS b R R / dS b (hS b w P) P with hα
    have hRR := dS_pos b R h.ne
    have hα0 : 0 ≤ α := div_nonneg hRR.le ha.le
    have hP0 : P ≠ 0 := by
      rintro q
      rw [q] at ha
      simp at ha
    have hne' : ∀ a < k + 1, Function.update ps k P a ≠ 0 := by
      intro a ha'
      by_cases q : a = k
      · rw [q, Function.update_self]; exact hP0
      · rw [Function.update_of_ne q]; exact hne a (by omega)
    have hcols : ∀ a < k + 1, ∀ i : Fin b.nl, t.Q (i * b.nl + a) =
        (Function.update ps k P a : Fin b.nl → K) i / rt (dS b (Function.update ps k P a) (Function.update ps k P a)) := by
      intro a ha' i
      rw [s4 a (by omega) i]
      by_cases q : a = k
      · rw [if_pos q, q, Function.update_self]
      · rw [if_neg q, Function.update_of_ne q]; exact h.cols a (by omega) i
    have hrest : ∀ a, k + 1 ≤ a → a < b.nl → ∀ i < b.nl, t.Q (i * b.nl + a) = Q0 (i * b.nl + a) := by
      intro a h1 h2 i hi
      rw [s4 a h2 ⟨i, hi⟩, if_neg (by omega)]
      exact h.rest a (by omega) h2 i hi
    have hC : Cols rt b Q0 t.Q (k + 1) := Top.cols_ok hrt (by omega) hn hne' hcols hrest
    rw [rounds]
    simp only [if_neg hdgg, ← ht]
    rcases hcase with ⟨hr, c1, c2⟩ | ⟨hr, c1, c2, c3⟩
    · -- cut
      rw [c1, if_pos rfl]
      set r := dS b (W + α • P) (W + α • P) with hrd
      have hr0 : 0 < r := lt_trans one_pos hr
      have hq0 : 0 ≤ (1 - s.dd) / r := div_nonneg (sub_nonneg.2 h.short) hr0.le
      obtain ⟨q1, q2⟩ := hrt _ hq0
      set τ := rt ((1 - s.dd) / r) with hτ
      have hdd0 : 0 ≤ s.dd := by rw [h.hdd]; exact dot0_nonneg _
      have hτr : τ * τ * r = 1 - s.dd := by rw [q2]; field_simp
      have hτ1 : τ ≤ 1 := by
        by_contra q
        push Not at q
        nlinarith [mul_pos (lt_trans one_pos q) hr0]
      have hWD : (0 : K) ≤ dS b W (α • P) := by rw [map_smul]; exact mul_nonneg hα0 hWP
      have hrexp : r = s.dd + 2 * dS b W (α • P) + dS b (α • P) (α • P) := by
        rw [hrd, h.hdd]
        generalize α • P = Y
        simp only [map_add, LinearMap.add_apply]
        rw [dS_comm b Y W]; ring
      refine ⟨?_, ?_, Or.inr ?_, _, hC⟩
      · rw [c2]
        exact (err_part h.run.res ha hRP hRR.le q1 hτ1).trans h.less
      · rw [← dot_vec, c2]
        have e : ∀ c : K, dot0 K b.nl ((W : Fin b.nl → K) + c • ((α • P : Sub b) : Fin b.nl → K))
            ((W : Fin b.nl → K) + c • ((α • P : Sub b) : Fin b.nl → K)) =
            s.dd + 2 * c * dS b W (α • P) + c ^ 2 * dS b (α • P) (α • P) := by
          intro c
          rw [h.hdd]
          generalize α • P = Y
          simp only [dS_apply, map_add, map_smul, LinearMap.add_apply, LinearMap.smul_apply, smul_eq_mul]
          rw [dot0_comm b.nl (Y : Fin b.nl → K) W]
          ring
        have hm' := dot0_nonneg ((W : Fin b.nl → K) + (-τ) • ((α • P : Sub b) : Fin b.nl → K))
        rw [e] at hm' ⊢
        nlinarith [mul_nonneg (mul_self_nonneg τ) hdd0, mul_nonneg (mul_self_nonneg τ) hWD]
      · intro X hX
        exact lt_of_lt_of_le hr (short_of b w hwp hX hn)
    · rw [c1, if_neg (by simp)]
      obtain ⟨d1, d2⟩ := slope_spec rt b (s := t) (W := ((W + α • P : Sub b) : Fin b.nl → K)) s3
      set R' := R - α • hS b w P with hR'
      have hnegR : neg b w ((W + α • P : Sub b) : Fin b.nl → K) = R' := by
        rw [neg_coe, ← hn.res]
      rw [← hw, hnegR] at d1 d2
      have hless : err b w ((W + α • P : Sub b) : Fin b.nl → K) ≤ err b w 0 := by
        have := (err_part h.run.res ha hRP hRR.le (t := 1) zero_le_one le_rfl).trans h.less
        rwa [one_smul] at this
      by_cases hstop : (slope rt b t).dgg ≤ b.precision
      · rw [if_pos hstop]
        have hsW : (slope rt b t).W = t.W := rfl
        have hsq : sq b.nl t.W ≤ 1 := by rw [← dot_vec, c2]; exact hr
        refine ⟨?_, ?_, Or.inl ⟨?_, ?_⟩, _, hC⟩
        · rw [hsW, c2]; exact hless
        · rw [hsW]; linarith
        · rw [hsW, c2, ← hw, hnegR, ← d2]; exact hstop
        · rw [hsW]; exact hsq
      · rw [if_neg hstop]
        push Not at hstop
        have hR0 : R' ≠ 0 := by
          rintro q
          rw [d2, q] at hstop
          simp at hstop
          exact absurd hpr (not_le.2 hstop)
        refine ih (k + 1) _ R' (W + α • P) (R' + (dS b R' R' / dS b R R) • P) (Function.update rs k R) (Function.update vs k R)
          (Function.update ps k P) (by omega) ?_ hne'
        have hgg : (slope rt b t).gg = dS b R R := by
          show t.dgg = _
          rw [s1, h.hdgg]
        have hgg0 : (slope rt b t).gg ≠ 0 := by rw [hgg]; exact hRR.ne'
        have hdir : direct (slope rt b t) = { slope rt b t with D := fun i => (slope rt b t).D i + (slope rt b t).dgg * (slope rt b t).G i / (slope rt b t).gg } := by
          rw [direct, if_neg hgg0]
        rw [hdir]
        refine ⟨hn, hR0, ?_, c2, ?_, s3, d2, c3, ?_, hless, c1, hcols, hrest⟩
        · rw [if_neg (by omega), Nat.add_sub_cancel, Function.update_self, Function.update_self, Function.update_self]
        · have hG : (slope rt b t).G = s.D := s2
          rw [Submodule.coe_add, Submodule.coe_smul, ← d1, ← h.hP, hG, hgg, d2]
          funext i
          simp only [vec, Pi.add_apply, Pi.smul_apply, smul_eq_mul]
          rw [← dS_apply]
          ring
        · show t.dd ≤ 1
          rw [c3]; exact hr

theorem solve_ended {rt : K → K} (hrt : IsRoot0 rt) {b : In K} (hb : b.Some) (hpr : 0 ≤ b.precision) (Q D0 G0 : Nat → K) :
    Ended rt b Q (solve rt b Q D0 G0) := by
  unfold solve
  rw [rounds]
  simp only [if_pos]
  rw [if_neg (by simp)]
  set s : Vars K := ⟨b.CD, D0, G0, fun _ => 0, Q, 0, b.inv rt, 0, false⟩ with hs
  have hv : vec b.nl (fun _ => (0 : K)) = 0 := rfl
  obtain ⟨d1, d2⟩ := slope_spec rt b (s := s) (W := 0) (fun j => by rw [map_zero]; simp [hs])
  have hsW : (slope rt b s).W = fun _ => 0 := rfl
  have hsq : sq b.nl (fun _ => (0 : K)) = 0 := by simp [sq]
  by_cases hstop : (slope rt b s).dgg ≤ b.precision
  · rw [if_pos hstop]
    refine ⟨?_, ?_, Or.inl ⟨?_, ?_⟩, 0, Nat.zero_le _, fun a h => absurd h (by omega), fun a h => absurd h (by omega), fun _ _ _ _ _ => rfl⟩
    · rw [hsW, hv]
    · rw [hsW, hsq]; norm_num
    · rw [hsW, hv, ← d2]; exact hstop
    · rw [hsW, hsq]; norm_num
  · rw [if_neg hstop]
    push Not at hstop
    have hdir : direct (slope rt b s) = slope rt b s := by
      rw [direct, if_pos (show (slope rt b s).gg = 0 from rfl)]
    rw [hdir]
    have hR0 : rhs b (wts rt b) ≠ 0 := by
      intro q
      have : neg b (wts rt b) 0 = 0 := congrArg Subtype.val q
      rw [d2, this] at hstop
      simp at hstop
      exact absurd hpr (not_le.2 hstop)
    exact rounds_spec hrt hb hpr b.nl 0 _ (rhs b (wts rt b)) 0 (rhs b (wts rt b)) 0 0 0 (by omega)
      ⟨Run.start _ _ _ _, hR0, by rw [if_pos rfl], rfl, d1, fun j => by simp [slope, hs], d2, by simp [slope, hs], by simp [slope, hs],
        le_rfl, rfl, fun a h => absurd h (by omega), fun _ _ _ _ _ => rfl⟩ (fun a h => absurd h (by omega))

theorem minimiser_flat {rt : K → K} (hrt : IsRoot0 rt) {b : In K} (hb : b.Some) (X : Nat → K) (hX : ∀ Y, b.planes X ≤ b.planes Y) :
    neg b (wts rt b) (vec b.nl X) = 0 := by
  by_contra q
  set g := neg b (wts rt b) (vec b.nl X) with hg
  have hgg := dot0_pos q
  have hm := pow_pos (mean_pos hrt hb) 2
  set c := ∑ j, wts rt b j * mapM b g j ^ 2 with hc
  have hc0 : 0 ≤ c := sum_nonneg fun j _ => mul_nonneg (wts_pos hrt hb j).le (sq_nonneg _)
  have key : ∀ e : K, 0 ≤ -(e * dot0 K b.nl g g) + e ^ 2 * c := by
    intro e
    have h1 := hX fun i => X i + e * (if h : i < b.nl then g ⟨i, h⟩ else 0)
    have h2 : (vec b.nl fun i => X i + e * (if h : i < b.nl then g ⟨i, h⟩ else 0)) = vec b.nl X + e • g := by
      funext i
      simp [vec]
    have h3 : err b (wts rt b) (vec b.nl X) ≤ err b (wts rt b) (vec b.nl X + e • g) := by
      rw [← h2, err_planes hrt hb, err_planes hrt hb]
      exact div_le_div_of_nonneg_right h1 hm.le
    rw [err_add, ← hg, map_smul] at h3
    have h4 : ∑ j, wts rt b j * mapM b (e • g) j ^ 2 = e ^ 2 * c := by
      rw [hc, mul_sum]
      refine sum_congr rfl fun j _ => ?_
      rw [map_smul, Pi.smul_apply, smul_eq_mul]; ring
    rw [h4, smul_eq_mul] at h3
    linarith
  have h1 := key (dot0 K b.nl g g / (c + dot0 K b.nl g g))
  set G := dot0 K b.nl g g with hG
  have hs : 0 < c + G := by linarith
  have : -(G / (c + G) * G) + (G / (c + G)) ^ 2 * c = -(G ^ 3 / (c + G) ^ 2) := by
    field_simp; ring
  rw [this] at h1
  have := div_pos (pow_pos hgg 3) (pow_pos hs 2)
  linarith

/-! ## C96 -/

/-- **C96**, descent: if every deflection depends on some modulus, the step does not take the moduli further from the planes on
which the linearised deflections are as measured, in the sum of the squared distances. -/
theorem C96_descent {rt : K → K} (hrt : IsRoot0 rt) (b : In K) (hb : b.Some) (hpr : 0 ≤ b.precision) (Q D0 G0 : Nat → K) :
    b.planes (solve rt b Q D0 G0).W ≤ b.planes fun _ => 0 := by
  have h := (solve_ended hrt hb hpr Q D0 G0).1
  have hv : (0 : Fin b.nl → K) = vec b.nl fun _ => 0 := rfl
  rw [hv, err_planes hrt hb, err_planes hrt hb] at h
  exact (div_le_div_iff_of_pos_right (pow_pos (mean_pos hrt hb) 2)).1 h

/-- **C96**, minimum: if the sum of the squared distances has a minimum within one order of magnitude, the step leads to a point
of length at most one at which the derivatives of the sum vanish, up to the precision asked for; asked for exact results, it
leads to a minimum. -/
theorem C96_minimum {rt : K → K} (hrt : IsRoot0 rt) (b : In K) (hb : b.Some) (hpr : 0 ≤ b.precision) (Q D0 G0 : Nat → K)
    (X : Nat → K) (hX : ∀ Y, b.planes X ≤ b.planes Y) (hlen : sq b.nl X ≤ 1) :
    sq b.nl (solve rt b Q D0 G0).W ≤ 1 ∧
    ∑ i ∈ range b.nl, b.deriv (solve rt b Q D0 G0).W i ^ 2 ≤ b.precision * b.mean rt ^ 4 ∧
    (b.precision = 0 → ∀ Y, b.planes (solve rt b Q D0 G0).W ≤ b.planes Y) := by
  obtain ⟨-, -, h, -⟩ := solve_ended hrt hb hpr Q D0 G0
  have hflat := minimiser_flat hrt hb X hX
  rcases h with ⟨h1, h2⟩ | h
  · have hm := mean_pos hrt hb
    have e : dot0 K b.nl (neg b (wts rt b) (vec b.nl (solve rt b Q D0 G0).W)) (neg b (wts rt b) (vec b.nl (solve rt b Q D0 G0).W)) =
        (∑ i ∈ range b.nl, b.deriv (solve rt b Q D0 G0).W i ^ 2) / b.mean rt ^ 4 := by
      rw [dot0_apply, sum_div, ← Fin.sum_univ_eq_sum_range (fun i => b.deriv (solve rt b Q D0 G0).W i ^ 2 / b.mean rt ^ 4)]
      refine sum_congr rfl fun i _ => ?_
      rw [neg_deriv hrt hb]
      have := hm.ne'
      field_simp
    refine ⟨h2, ?_, fun h0 Y => ?_⟩
    · rw [e] at h1
      exact (div_le_iff₀ (pow_pos hm 4)).1 h1
    · have hz : neg b (wts rt b) (vec b.nl (solve rt b Q D0 G0).W) = 0 := by
        by_contra q
        rw [h0] at h1
        exact absurd (dot0_pos q) (not_lt.2 h1)
      have := err_add b (wts rt b) (vec b.nl (solve rt b Q D0 G0).W) (vec b.nl Y - vec b.nl (solve rt b Q D0 G0).W)
      rw [add_sub_cancel, hz] at this
      simp only [map_zero, LinearMap.zero_apply, sub_zero] at this
      rw [err_planes hrt hb, err_planes hrt hb] at this
      have h5 : 0 ≤ ∑ j, wts rt b j * mapM b (vec b.nl Y - vec b.nl (solve rt b Q D0 G0).W) j ^ 2 :=
        sum_nonneg fun j _ => mul_nonneg (wts_pos hrt hb j).le (sq_nonneg _)
      have h6 : b.planes (solve rt b Q D0 G0).W / b.mean rt ^ 2 ≤ b.planes Y / b.mean rt ^ 2 := by linarith
      exact (div_le_div_iff_of_pos_right (pow_pos hm 2)).1 h6
  · have := h _ hflat
    rw [dot_vec] at this
    linarith

/-- **C96**, length: the value returned is the length of the step, and its square is at most two.  (Missing: at most one, the
order of magnitude at which the code cuts the step; `C96_too_long` shows that this fails.) -/
theorem C96_length_partial {rt : K → K} (hrt : IsRoot0 rt) (b : In K) (hb : b.Some) (hpr : 0 ≤ b.precision) (P Q D0 G0 : Nat → K) :
    (deflgrad rt b P Q D0 G0).2.2 = rt (∑ i ∈ range b.nl, (solve rt b Q D0 G0).W i ^ 2) ∧
    (deflgrad rt b P Q D0 G0).2.2 ^ 2 ≤ 2 := by
  have e : (deflgrad rt b P Q D0 G0).2.2 = rt (∑ i ∈ range b.nl, (solve rt b Q D0 G0).W i ^ 2) := by
    simp only [deflgrad]
    rw [loop_add _ _ (Nat.zero_le _), ← range_eq_Ico, zero_add]
    congr 1
    exact sum_congr rfl fun i _ => by ring
  refine ⟨e, ?_⟩
  rw [e, pow_two, (hrt _ (sum_nonneg fun i _ => sq_nonneg _)).2]
  exact (solve_ended hrt hb hpr Q D0 G0).2.1

/-- **C96**, moduli: each new logarithm is the old one plus the step, brought between one and nine. -/
theorem C96_bounds (rt : K → K) (b : In K) (P Q D0 G0 : Nat → K) (i : Nat) (hi : i < b.nl) :
    1 ≤ (deflgrad rt b P Q D0 G0).1 i ∧ (deflgrad rt b P Q D0 G0).1 i ≤ 9 ∧
    (1 ≤ P i + (solve rt b Q D0 G0).W i → P i + (solve rt b Q D0 G0).W i ≤ 9 →
      (deflgrad rt b P Q D0 G0).1 i = P i + (solve rt b Q D0 G0).W i) := by
  simp only [deflgrad, if_pos hi]
  exact ⟨le_min (le_max_left _ _) (by norm_num), min_le_right _ _, fun h1 h2 => by rw [max_eq_right h1, min_eq_left h2]⟩

/-- **C96**, directions: the first columns of the matrix of directions are replaced by unit vectors such that moving along one
of them does not change the derivative along another; the other columns are kept.  If these and those are linearly
independent, the matrix returned is orthonormal.  (Missing: dependent columns; `C96_directions_lost` shows that this fails.) -/
theorem C96_directions_partial {rt : K → K} (hrt : IsRoot0 rt) (b : In K) (hb : b.Some) (hpr : 0 ≤ b.precision) (P Q D0 G0 : Nat → K) :
    ∃ m ≤ b.nl, ∃ Q' : Nat → K, Q' = (solve rt b Q D0 G0).Q ∧ (∀ a < m, ∑ i ∈ range b.nl, Q' (i * b.nl + a) ^ 2 = 1) ∧
      (∀ a < m, ∀ c < m, a ≠ c → ∑ j ∈ range b.dl, (∑ i ∈ range b.nl, b.PG (j * b.nl + i) * Q' (i * b.nl + a)) *
        (∑ i ∈ range b.nl, b.PG (j * b.nl + i) * Q' (i * b.nl + c)) / b.glen j = 0) ∧
      (∀ a, m ≤ a → a < b.nl → ∀ i < b.nl, Q' (i * b.nl + a) = Q (i * b.nl + a)) ∧
      ((∀ x : Nat → K, (∀ r < b.nl, ∑ a ∈ range b.nl, Q' (r * b.nl + a) * x a = 0) → ∀ a < b.nl, x a = 0) →
        ∀ a < b.nl, ∀ c < b.nl, ∑ i ∈ range b.nl, (deflgrad rt b P Q D0 G0).2.1 (i * b.nl + a) *
          (deflgrad rt b P Q D0 G0).2.1 (i * b.nl + c) = if a = c then 1 else 0) := by
  obtain ⟨-, -, -, m, h0, h1, h2, h3⟩ := solve_ended hrt hb hpr Q D0 G0
  have hm := (mean_pos hrt hb).ne'
  refine ⟨m, h0, _, rfl, fun a ha => ?_, fun a ha c hc hac => ?_, h3, fun hi a ha c hc => ?_⟩
  · obtain ⟨p, hp, e⟩ := h1 a ha
    have hpp := dS_pos b p hp
    rw [← Fin.sum_univ_eq_sum_range (fun i => (solve rt b Q D0 G0).Q (i * b.nl + a) ^ 2)]
    have : ∀ i : Fin b.nl, (solve rt b Q D0 G0).Q (i * b.nl + a) ^ 2 = (p : Fin b.nl → K) i * (p : Fin b.nl → K) i / dS b p p := by
      intro i
      rw [e i, div_pow, pow_two (rt _), (hrt _ hpp.le).2, pow_two]
    rw [sum_congr rfl fun i _ => this i, ← sum_div, ← dot0_apply, ← dS_apply, div_self hpp.ne']
  · have := h2 a ha c hc hac
    have e : ∑ j ∈ range b.dl, (∑ i ∈ range b.nl, b.PG (j * b.nl + i) * (solve rt b Q D0 G0).Q (i * b.nl + a)) *
        (∑ i ∈ range b.nl, b.PG (j * b.nl + i) * (solve rt b Q D0 G0).Q (i * b.nl + c)) / b.glen j =
        b.mean rt ^ 2 * ∑ j : Fin b.dl, wts rt b j * mapM b (vec b.nl fun i => (solve rt b Q D0 G0).Q (i * b.nl + a)) j *
          mapM b (vec b.nl fun i => (solve rt b Q D0 G0).Q (i * b.nl + c)) j := by
      rw [mul_sum, ← Fin.sum_univ_eq_sum_range (fun j => (∑ i ∈ range b.nl, b.PG (j * b.nl + i) * (solve rt b Q D0 G0).Q (i * b.nl + a)) *
        (∑ i ∈ range b.nl, b.PG (j * b.nl + i) * (solve rt b Q D0 G0).Q (i * b.nl + c)) / b.glen j)]
      refine sum_congr rfl fun j _ => ?_
      rw [mapM_vec, mapM_vec, wts, DG_eq]
      have hg := (hb.2 j j.2).ne'
      field_simp
    rw [e, this, mul_zero]
  · exact C91_orthonormal hrt b.nl (solve rt b Q D0 G0).Q hi a ha c hc

end

/-! ## Cases -/

/-- The square root where it is rational, and zero elsewhere (which would show: nothing moves along a direction divided by
zero, and a step cut by a factor of zero is not taken). -/
def rtq (x : ℚ) : ℚ :=
  if mkRat (Nat.sqrt x.num.natAbs) (Nat.sqrt x.den) * mkRat (Nat.sqrt x.num.natAbs) (Nat.sqrt x.den) = x then
    mkRat (Nat.sqrt x.num.natAbs) (Nat.sqrt x.den) else 0

/-- Two deflections of two layers. -/
def demo : In ℚ := ⟨2, 2, fun p => if p = 0 then 1 else if p = 1 then 0 else if p = 2 then 4 / 5 else 3 / 5, fun _ => 0,
  fun j => if j = 0 then -(432 / 925) else 108 / 185, 0⟩

/-- **C96** fails at the bound on the length: here, the step is cut after the first of two directions, and is still longer
than one. -/
theorem C96_too_long : (solve rtq demo (fun _ => 0) (fun _ => 0) fun _ => 0).cut = true ∧
    1 < (solve rtq demo (fun _ => 0) (fun _ => 0) fun _ => 0).W 0 ^ 2 + (solve rtq demo (fun _ => 0) (fun _ => 0) fun _ => 0).W 1 ^ 2 := by
  decide +kernel

/-- Every root taken in `C96_too_long` and `C96_directions_lost` is a root. -/
theorem rtq_root (x : ℚ) (h : rtq x ≠ 0) : 0 < rtq x ∧ rtq x * rtq x = x := by
  rw [rtq] at h ⊢
  split at h
  case isTrue h1 =>
    rw [if_pos h1]
    refine ⟨lt_of_le_of_ne ?_ h.symm, h1⟩
    rw [Rat.mkRat_eq_div]
    positivity
  case isFalse => exact absurd rfl h

/-- Two deflections that depend on the lower of two layers only. -/
def lower : In ℚ := ⟨2, 2, fun p => if p = 1 then 1 else if p = 3 then 2 else 0, fun _ => 0, fun j => if j = 0 then 1 / 2 else 1, 0⟩

/-- **C96** fails for the directions: if only the lower of two layers matters, the single direction found takes the place of
the upper layer, and the orthogonalisation then removes the lower one.  The step itself is right, but the matrix returned is
singular: the next step does not see the upper layer at all. -/
theorem C96_directions_lost : (deflgrad rtq lower (fun _ => 3) (fun p => if p = 0 ∨ p = 3 then 1 else 0) (fun _ => 0) fun _ => 0).1 1 = 7 / 2 ∧
    ∀ p < 4, (deflgrad rtq lower (fun _ => 3) (fun p => if p = 0 ∨ p = 3 then 1 else 0) (fun _ => 0) fun _ => 0).2.1 p =
      if p = 2 then 1 else 0 := by
  decide +kernel

/-- The hypotheses of the theorems hold of these deflections. -/
example : demo.Some ∧ 0 ≤ demo.precision := by
  refine ⟨⟨by decide, ?_⟩, by decide +kernel⟩
  decide +kernel

/-- A minimum within one order of magnitude: the lower layer half an order stiffer. -/
example : lower.Some ∧ sq lower.nl (fun i => if i = 1 then (1 / 2 : ℚ) else 0) ≤ 1 ∧
    ∀ Y, lower.planes (fun i => if i = 1 then (1 / 2 : ℚ) else 0) ≤ lower.planes Y := by
  refine ⟨⟨by decide, by decide +kernel⟩, by decide +kernel, fun Y => ?_⟩
  have : lower.planes (fun i => if i = 1 then (1 / 2 : ℚ) else 0) = 0 := by decide +kernel
  rw [this]
  refine sum_nonneg fun j hj => div_nonneg (sq_nonneg _) (sum_nonneg fun i _ => sq_nonneg _)

end OP.Pave.Grad
