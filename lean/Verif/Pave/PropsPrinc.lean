import Verif.Pave.PrincLemmas
import Mathlib.LinearAlgebra.Matrix.NonsingularInverse
/-!
# C47: principal stresses and strains
-/
namespace OP.Pave

/-! ## Specification -/

/-- `w 0, w 1, w 2` are, up to an error of `√ε`, the eigenvalues of the matrix `S`: there is an orthonormal basis of vectors
`q k` with `‖S (q k) - w k (q k)‖² ≤ ε`. -/
def Eigen (ε : ℝ) (S : Fin 3 → Fin 3 → ℝ) (w : Fin 3 → ℝ) : Prop := ∃ q : Fin 3 → Fin 3 → ℝ,
  (∀ k l, ∑ i, q k i * q l i = if k = l then 1 else 0) ∧
  ∀ k, ∑ i, (∑ j, S i j * q k j - w k * q k i) ^ 2 ≤ ε

/-- The stress tensor of a point. -/
def tensor (s : T6) : Fin 3 → Fin 3 → ℝ := t![t![s.xx, s.xy, s.xz], t![s.xy, s.yy, s.yz], t![s.xz, s.yz, s.zz]]

/-- The three values in a vector. -/
def vec (p : ℝ × ℝ × ℝ) : Fin 3 → ℝ := t![p.1, p.2.1, p.2.2]

/-- In increasing order. -/
def Incr (p : ℝ × ℝ × ℝ) : Prop := p.1 ≤ p.2.1 ∧ p.2.1 ≤ p.2.2

/-! ## Lemmas -/

theorem sort3_incr (a b c : ℝ) : Incr (sort3 a b c) := by
  simp only [sort3, Incr]
  split_ifs <;> constructor <;> simp only <;> linarith

theorem sort3_ind (P : ℝ → ℝ → ℝ → Prop) (h01 : ∀ a b c, P a b c → P b a c) (h02 : ∀ a b c, P a b c → P c b a)
    (h12 : ∀ a b c, P a b c → P a c b) (a b c : ℝ) (h : P a b c) :
    P (sort3 a b c).1 (sort3 a b c).2.1 (sort3 a b c).2.2 := by
  simp only [sort3]
  split_ifs <;> simp only <;> first
    | exact h
    | exact h01 _ _ _ h
    | exact h02 _ _ _ h
    | exact h12 _ _ _ h
    | exact h12 _ _ _ (h02 _ _ _ (h01 _ _ _ h))
    | exact h02 _ _ _ (h01 _ _ _ h)
    | exact h12 _ _ _ (h01 _ _ _ h)
    | exact h12 _ _ _ (h02 _ _ _ h)

theorem sort3_of_incr (p : ℝ × ℝ × ℝ) (h : Incr p) : sort3 p.1 p.2.1 p.2.2 = p := by
  obtain ⟨h1, h2⟩ := h
  simp only [sort3, if_neg (not_lt.2 h1), if_neg (not_lt.2 (h1.trans h2)), if_neg (not_lt.2 h2), gt_iff_lt]

theorem sort3_eq (a b c : ℝ) : sort3 a b c =
    (min a (min b c), a + b + c - min a (min b c) - max a (max b c), max a (max b c)) := by
  have h1 := sort3_ind (fun x y z => min x (min y z) = min a (min b c))
    (fun x y z h => by rw [← h, min_left_comm]) (fun x y z h => by rw [← h, min_comm y x, min_left_comm, min_comm z])
    (fun x y z h => by rw [← h, min_comm z]) a b c rfl
  have h2 := sort3_ind (fun x y z => max x (max y z) = max a (max b c))
    (fun x y z h => by rw [← h, max_left_comm]) (fun x y z h => by rw [← h, max_comm y x, max_left_comm, max_comm z])
    (fun x y z h => by rw [← h, max_comm z]) a b c rfl
  have h3 := sort3_ind (fun x y z => x + y + z = a + b + c) (fun _ _ _ h => by linarith) (fun _ _ _ h => by linarith)
      (fun _ _ _ h => by linarith) a b c rfl
  obtain ⟨i1, i2⟩ := sort3_incr a b c
  generalize sort3 a b c = p at *
  obtain ⟨x, y, z⟩ := p
  simp only at *
  rw [min_eq_left i2, min_eq_left i1] at h1
  rw [max_eq_right i2, max_eq_right (i1.trans i2)] at h2
  rw [← h1, ← h2, ← h3]
  simp only [Prod.mk.injEq, true_and, and_true]
  ring

theorem sort3_swap01 (a b c : ℝ) : sort3 b a c = sort3 a b c := by
  rw [sort3_eq, sort3_eq, min_left_comm, max_left_comm, add_comm b a]

theorem sort3_swap12 (a b c : ℝ) : sort3 a c b = sort3 a b c := by
  rw [sort3_eq, sort3_eq, min_comm c, max_comm c, add_right_comm]

/-- The half differences do not depend on the order of the values. -/
theorem shear_sorted (a b c : ℝ) :
    let p := sort3 a b c
    sort3 (|a - c| * 0.5) (|a - b| * 0.5) (|b - c| * 0.5) =
      (min ((p.2.1 - p.1) / 2) ((p.2.2 - p.2.1) / 2), max ((p.2.1 - p.1) / 2) ((p.2.2 - p.2.1) / 2), (p.2.2 - p.1) / 2) := by
  intro p
  have h := sort3_ind (fun x y z => sort3 (|x - z| * 0.5) (|x - y| * 0.5) (|y - z| * 0.5) =
    sort3 (|a - c| * 0.5) (|a - b| * 0.5) (|b - c| * 0.5))
    (fun x y z h => by
      rw [← h, abs_sub_comm y x, sort3_swap12 _ (|x - z| * 0.5), sort3_swap01, sort3_swap12 _ (|x - y| * 0.5)])
    (fun x y z h => by
      rw [← h, abs_sub_comm z x, abs_sub_comm z y, abs_sub_comm y x, sort3_swap12])
    (fun x y z h => by
      rw [← h, abs_sub_comm z y, sort3_swap01]) a b c rfl
  rw [← h]
  have hi := sort3_incr a b c
  change Incr p at hi
  change sort3 (|p.1 - p.2.2| * 0.5) (|p.1 - p.2.1| * 0.5) (|p.2.1 - p.2.2| * 0.5) = _
  obtain ⟨h1, h2⟩ := hi
  rw [abs_of_nonpos (by linarith : p.1 - p.2.2 ≤ 0), abs_of_nonpos (by linarith : p.1 - p.2.1 ≤ 0),
    abs_of_nonpos (by linarith : p.2.1 - p.2.2 ≤ 0)]
  simp only [sort3, min_def, max_def]
  split_ifs <;> simp only [Prod.mk.injEq] <;> refine ⟨?_, ?_, ?_⟩ <;> linarith

theorem eigen_perm (ε : ℝ) (S : Fin 3 → Fin 3 → ℝ) (w w' : Fin 3 → ℝ) (f : Fin 3 → Fin 3) (hf : Function.Injective f)
    (hw : ∀ k, w' k = w (f k)) (h : Eigen ε S w) : Eigen ε S w' := by
  obtain ⟨q, h1, h2⟩ := h
  refine ⟨fun k => q (f k), fun k l => ?_, fun k => ?_⟩
  · rw [h1]
    simp only [hf.eq_iff]
  · rw [hw]; exact h2 (f k)

theorem eigen_sort (ε : ℝ) (S : Fin 3 → Fin 3 → ℝ) (a b c : ℝ) (h : Eigen ε S t![a, b, c]) : Eigen ε S (vec (sort3 a b c)) := by
  refine sort3_ind (fun a b c => Eigen ε S t![a, b, c]) ?_ ?_ ?_ a b c h
  · intro a b c h
    exact eigen_perm ε S t![a, b, c] t![b, a, c] t![1, 0, 2] (by decide) (all3 rfl rfl rfl) h
  · intro a b c h
    exact eigen_perm ε S t![a, b, c] t![c, b, a] t![2, 1, 0] (by decide) (all3 rfl rfl rfl) h
  · intro a b c h
    exact eigen_perm ε S t![a, b, c] t![a, c, b] t![0, 2, 1] (by decide) (all3 rfl rfl rfl) h

/-- A nearly diagonal matrix has its diagonal entries as eigenvalues. -/
theorem Similar.eigen {s r : T6} (h : Similar s r) {ε : ℝ} (hr : r.xy ^ 2 + r.xz ^ 2 + r.yz ^ 2 ≤ ε) :
    Eigen ε (tensor s) t![r.xx, r.yy, r.zz] := by
  obtain ⟨q, h1, h2⟩ := h
  refine ⟨q, h1, ?_⟩
  have e : ∀ k i, ∑ j, tensor s i j * q k j = ∑ l, r.mat k l * q l i := h2
  have o00 := h1 0 0
  have o01 := h1 0 1
  have o02 := h1 0 2
  have o11 := h1 1 1
  have o12 := h1 1 2
  have o22 := h1 2 2
  simp [Fin.sum_univ_three] at o00 o01 o02 o11 o12 o22
  refine all3 ?_ ?_ ?_
  · simp only [e]
    have : ∑ i, (∑ l, r.mat 0 l * q l i - t![r.xx, r.yy, r.zz] 0 * q 0 i) ^ 2 = r.xy ^ 2 + r.xz ^ 2 := by
      simp [Fin.sum_univ_three, T6.m00, T6.m01, T6.m02, T6.m10, T6.m11, T6.m12, T6.m20, T6.m21, T6.m22]
      linear_combination r.xy ^ 2 * o11 + r.xz ^ 2 * o22 + 2 * r.xy * r.xz * o12
    rw [this]
    linarith [sq_nonneg r.yz]
  · simp only [e]
    have : ∑ i, (∑ l, r.mat 1 l * q l i - t![r.xx, r.yy, r.zz] 1 * q 1 i) ^ 2 = r.xy ^ 2 + r.yz ^ 2 := by
      simp [Fin.sum_univ_three, T6.m00, T6.m01, T6.m02, T6.m10, T6.m11, T6.m12, T6.m20, T6.m21, T6.m22]
      linear_combination r.xy ^ 2 * o00 + r.yz ^ 2 * o22 + 2 * r.xy * r.yz * o02
    rw [this]
    linarith [sq_nonneg r.xz]
  · simp only [e]
    have : ∑ i, (∑ l, r.mat 2 l * q l i - t![r.xx, r.yy, r.zz] 2 * q 2 i) ^ 2 = r.xz ^ 2 + r.yz ^ 2 := by
      simp [Fin.sum_univ_three, T6.m00, T6.m01, T6.m02, T6.m10, T6.m11, T6.m12, T6.m20, T6.m21, T6.m22]
      linear_combination r.xz ^ 2 * o00 + r.yz ^ 2 * o11 + 2 * r.xz * r.yz * o01
    rw [this]
    linarith [sq_nonneg r.xy]

theorem sweep_similar (s : T6) : Similar s (sweep s) := by
  have h1 : (rotXZ s).xz = 0 := by
    unfold rotXZ
    split_ifs with h
    · rfl
    · exact not_not.1 h
  have h2 : (rotXY (rotXZ s)).xy = 0 := by
    unfold rotXY
    split_ifs with h
    · rfl
    · exact not_not.1 h
  exact ((rotXZ_similar s).trans (rotXY_similar _ h1)).trans (rotYZ_similar _ h2)

/-- After a sweep only two entries are left, the smaller one first. -/
theorem sweep_shape (s : T6) : (sweep s).yz = 0 ∧ |(sweep s).xy| ≤ |(sweep s).xz| := by
  unfold sweep
  have h1 : (rotXZ s).xz = 0 := by
    unfold rotXZ
    split_ifs with h
    · rfl
    · exact not_not.1 h
  have h2 : (rotXY (rotXZ s)).xy = 0 ∧ ((rotXY (rotXZ s)).yz = 0 → (rotXY (rotXZ s)).xz = 0) := by
    unfold rotXY
    split_ifs with h
    · exact ⟨rfl, fun h => by simp only at h ⊢; rw [h, mul_zero]⟩
    · exact ⟨not_not.1 h, fun _ => h1⟩
  generalize rotXY (rotXZ s) = r at *
  unfold rotYZ
  split_ifs with h
  · refine ⟨rfl, ?_⟩
    have ht := (tanOf_spec (r.zz - r.yy) r.yz h).2
    simp only
    rw [abs_mul, abs_neg]
    exact mul_le_of_le_one_left (abs_nonneg _) ht
  · refine ⟨not_not.1 h, ?_⟩
    rw [h2.1, h2.2 (not_not.1 h)]

/-- From then on each sweep halves what is left. -/
theorem sweep_halves (s : T6) (hyz : s.yz = 0) (hle : |s.xy| ≤ |s.xz|) :
    (sweep s).xy ^ 2 + (sweep s).xz ^ 2 ≤ (s.xy ^ 2 + s.xz ^ 2) / 2 := by
  have hsq : s.xy ^ 2 ≤ s.xz ^ 2 := sq_le_sq.2 hle
  -- first rotation
  have h1 : (rotXZ s).xz = 0 ∧ (rotXZ s).xy ^ 2 + (rotXZ s).yz ^ 2 ≤ s.xy ^ 2 := by
    unfold rotXZ
    split_ifs with h
    · generalize tanOf (s.zz - s.xx) s.xz = t
      have hc := csq t
      simp only [hyz]
      generalize 1 / hyp2 t 1 = c at *
      refine ⟨trivial, le_of_eq ?_⟩
      linear_combination s.xy ^ 2 * hc
    · have : s.xz = 0 := not_not.1 h
      exact ⟨this, by rw [hyz]; linarith⟩
  generalize hr : rotXZ s = r at *
  have e : sweep s = rotYZ (rotXY r) := by rw [← hr]; rfl
  have h2 : (rotXY r).xy = 0 ∧ (rotXY r).xz ^ 2 + (rotXY r).yz ^ 2 ≤ s.xy ^ 2 := by
    unfold rotXY
    split_ifs with h
    · generalize tanOf (r.yy - r.xx) r.xy = t
      have hc := csq t
      simp only [div_eq_mul_one_div r.yz]
      generalize 1 / hyp2 t 1 = c at *
      refine ⟨trivial, ?_⟩
      have : (-t * (r.yz * c)) ^ 2 + (r.yz * c) ^ 2 = r.yz ^ 2 := by linear_combination r.yz ^ 2 * hc
      rw [this]
      linarith [sq_nonneg r.xy]
    · refine ⟨not_not.1 h, ?_⟩
      rw [h1.1]
      linarith [sq_nonneg r.xy]
  have h3 : ∀ u : T6, u.xy = 0 → u.xz ^ 2 + u.yz ^ 2 ≤ s.xy ^ 2 →
      (rotYZ u).xy ^ 2 + (rotYZ u).xz ^ 2 ≤ s.xy ^ 2 := by
    intro u hu1 hu2
    unfold rotYZ
    split_ifs with h
    · generalize tanOf (u.zz - u.yy) u.yz = t
      have hc := csq t
      simp only [div_eq_mul_one_div u.xz]
      generalize 1 / hyp2 t 1 = c at *
      have : (-t * (u.xz * c)) ^ 2 + (u.xz * c) ^ 2 = u.xz ^ 2 := by linear_combination u.xz ^ 2 * hc
      rw [this]
      linarith [sq_nonneg u.yz]
    · rw [hu1]
      linarith [sq_nonneg u.yz]
  have h4 := h3 (rotXY r) h2.1 h2.2
  rw [e]
  linarith

theorem sweep_trace (s : T6) : (sweep s).xx + (sweep s).yy + (sweep s).zz = s.xx + s.yy + s.zz := by
  have h1 : (rotXZ s).xx + (rotXZ s).yy + (rotXZ s).zz = s.xx + s.yy + s.zz := by
    unfold rotXZ; split_ifs
    · simp only; ring
    · rfl
  have h2 : ∀ s : T6, (rotXY s).xx + (rotXY s).yy + (rotXY s).zz = s.xx + s.yy + s.zz := by
    intro s
    unfold rotXY; split_ifs
    · simp only; ring
    · rfl
  have h3 : ∀ s : T6, (rotYZ s).xx + (rotYZ s).yy + (rotYZ s).zz = s.xx + s.yy + s.zz := by
    intro s
    unfold rotYZ; split_ifs
    · simp only; ring
    · rfl
  rw [sweep, h3, h2, h1]

theorem jacobi_sound : ∀ (n : Nat) (t : ℝ) (s r : T6), s.xy ^ 2 + s.xz ^ 2 + s.yz ^ 2 ≤ t → jacobi n t s = some r →
    Similar s r ∧ r.xy ^ 2 + r.xz ^ 2 + r.yz ^ 2 ≤ 1e-30 ∧ r.xx + r.yy + r.zz = s.xx + s.yy + s.zz
  | 0, _, _, _, _, h => by simp [jacobi] at h
  | n + 1, t, s, r, ht, h => by
    simp only [jacobi] at h
    by_cases hc : t > 1e-30
    · rw [if_pos hc] at h
      have hs := sweep_shape s
      obtain ⟨h1, h2, h3⟩ := jacobi_sound n _ _ r (by rw [hs.1]; apply le_of_eq; ring) h
      exact ⟨(sweep_similar s).trans h1, h2, h3.trans (sweep_trace s)⟩
    · rw [if_neg hc, Option.some.injEq] at h
      subst h
      exact ⟨Similar.refl s, ht.trans (not_lt.1 hc), rfl⟩

theorem jacobi_more : ∀ (n m : Nat) (t : ℝ) (s r : T6), jacobi n t s = some r → n ≤ m → jacobi m t s = some r
  | 0, _, _, _, _, h, _ => by simp [jacobi] at h
  | n + 1, 0, _, _, _, _, hm => by omega
  | n + 1, m + 1, t, s, r, h, hm => by
    simp only [jacobi] at h ⊢
    by_cases hc : t > 1e-30
    · rw [if_pos hc] at h ⊢
      exact jacobi_more n m _ _ r h (by omega)
    · rw [if_neg hc] at h ⊢
      exact h

theorem jacobi_ends : ∀ (k : Nat) (s : T6), s.yz = 0 → |s.xy| ≤ |s.xz| → s.xy ^ 2 + s.xz ^ 2 ≤ 2 ^ k * 1e-30 →
    ∃ r, jacobi (k + 1) (s.xy * s.xy + s.xz * s.xz) s = some r
  | 0, s, _, _, h => by
    refine ⟨s, ?_⟩
    have : ¬ s.xy * s.xy + s.xz * s.xz > 1e-30 := by
      rw [not_lt]
      linarith
    simp only [jacobi, if_neg this]
  | k + 1, s, h1, h2, h => by
    by_cases hc : s.xy * s.xy + s.xz * s.xz > 1e-30
    · have hs := sweep_shape s
      have hh := sweep_halves s h1 h2
      obtain ⟨r, hr⟩ := jacobi_ends k (sweep s) hs.1 hs.2 (by
        have e : (2 : ℝ) ^ (k + 1) * 1e-30 = 2 * (2 ^ k * 1e-30) := by ring
        rw [e] at h
        linarith)
      exact ⟨r, by rw [jacobi, if_pos hc]; exact hr⟩
    · exact ⟨s, by rw [jacobi, if_neg hc]⟩

/-! ## Theorems -/

/-- **C47**, termination: for every stress state the rotations end, whatever the loop bound above some number. -/
theorem C47_terminates (v E : ℝ) (s : T6) : ∃ n d, ∀ fuel, n ≤ fuel → principle fuel v E s = some d := by
  obtain ⟨n, r, h⟩ : ∃ n r, jacobi n (s.xy * s.xy + s.xz * s.xz + s.yz * s.yz) s = some r := by
    by_cases hc : s.xy * s.xy + s.xz * s.xz + s.yz * s.yz > 1e-30
    · have hs := sweep_shape s
      obtain ⟨k, hk⟩ := pow_unbounded_of_one_lt (((sweep s).xy ^ 2 + (sweep s).xz ^ 2) / 1e-30) (one_lt_two (α := ℝ))
      obtain ⟨r, hr⟩ := jacobi_ends k (sweep s) hs.1 hs.2 (by
        rw [div_lt_iff₀ (by norm_num)] at hk
        exact hk.le)
      exact ⟨k + 2, r, by rw [jacobi, if_pos hc]; exact hr⟩
    · exact ⟨1, s, by rw [jacobi, if_neg hc]⟩
  obtain ⟨d, hd⟩ : ∃ d, principle n v E s = some d := ⟨_, by rw [principle, h]; rfl⟩
  refine ⟨n, d, fun fuel hf => ?_⟩
  rw [← hd, principle, principle, h, jacobi_more n fuel _ _ r h hf]

/-- **C47**, eigenvalues: the principal stresses come in increasing order, and are the eigenvalues of the stress tensor to
an error of `10⁻¹⁵`, with an orthonormal basis of eigenvectors; their sum is the trace. -/
theorem C47_principal (fuel : Nat) (v E : ℝ) (s : T6) (d : PData) (h : principle fuel v E s = some d) :
    Incr d.ps ∧ Eigen 1e-30 (tensor s) (vec d.ps) ∧ d.ps.1 + d.ps.2.1 + d.ps.2.2 = s.xx + s.yy + s.zz := by
  simp only [principle, Option.map_eq_some_iff] at h
  obtain ⟨r, hr, rfl⟩ := h
  obtain ⟨hsim, hoff, htr⟩ := jacobi_sound _ _ _ _ (by apply le_of_eq; ring) hr
  refine ⟨sort3_incr _ _ _, eigen_sort _ _ _ _ _ (hsim.eigen hoff), ?_⟩
  have h1 : ∀ a b c : ℝ, (sort3 a b c).1 + (sort3 a b c).2.1 + (sort3 a b c).2.2 = a + b + c := fun a b c =>
    sort3_ind (fun x y z => x + y + z = a + b + c) (fun _ _ _ h => by linarith) (fun _ _ _ h => by linarith)
      (fun _ _ _ h => by linarith) a b c rfl
  rw [h1, htr]

/-- **C47**, completeness: every eigenvalue of the stress tensor is one of the reported values, to `√3 · 10⁻¹⁵`. -/
theorem C47_all_eigenvalues (fuel : Nat) (v E : ℝ) (s : T6) (d : PData) (h : principle fuel v E s = some d)
    (μ : ℝ) (x : Fin 3 → ℝ) (hx : ∃ i, x i ≠ 0) (hμ : ∀ i, ∑ j, tensor s i j * x j = μ * x i) :
    ∃ k, (vec d.ps k - μ) ^ 2 ≤ 3 * 1e-30 := by
  obtain ⟨-, ⟨q, ho, he⟩, -⟩ := C47_principal fuel v E s d h
  generalize vec d.ps = w at *
  -- The basis is complete.
  have hM : Matrix.of q * (Matrix.of q).transpose = 1 := by
    ext k l
    rw [Matrix.mul_apply, Matrix.one_apply]
    exact ho k l
  have hM' := mul_eq_one_comm.1 hM
  have hc : ∀ i j, ∑ k, q k i * q k j = if i = j then 1 else 0 := by
    intro i j
    have := congrFun (congrFun hM' i) j
    rw [Matrix.mul_apply, Matrix.one_apply] at this
    exact this
  have hsum : ∑ k, (∑ i, q k i * x i) ^ 2 = ∑ i, x i ^ 2 := by
    have c00 := hc 0 0
    have c01 := hc 0 1
    have c02 := hc 0 2
    have c11 := hc 1 1
    have c12 := hc 1 2
    have c22 := hc 2 2
    simp [Fin.sum_univ_three] at *
    linear_combination x 0 ^ 2 * c00 + x 1 ^ 2 * c11 + x 2 ^ 2 * c22 + 2 * x 0 * x 1 * c01 + 2 * x 0 * x 2 * c02 +
      2 * x 1 * x 2 * c12
  have hpos : 0 < ∑ i, x i ^ 2 := by
    obtain ⟨i, hi⟩ := hx
    exact Finset.sum_pos' (fun _ _ => sq_nonneg _) ⟨i, Finset.mem_univ i, by positivity⟩
  -- The residual bounds the component along each vector.
  have hb : ∀ k, (w k - μ) ^ 2 * (∑ i, q k i * x i) ^ 2 ≤ (∑ i, x i ^ 2) * 1e-30 := by
    intro k
    have e : (μ - w k) * ∑ i, q k i * x i = ∑ i, x i * (∑ j, tensor s i j * q k j - w k * q k i) := by
      have m0 := hμ 0
      have m1 := hμ 1
      have m2 := hμ 2
      simp only [Fin.sum_univ_three, tensor, v3_0, v3_1, v3_2] at m0 m1 m2 ⊢
      linear_combination (-q k 0) * m0 - q k 1 * m1 - q k 2 * m2
    have hcs := Finset.sum_mul_sq_le_sq_mul_sq Finset.univ x (fun i => ∑ j, tensor s i j * q k j - w k * q k i)
    rw [← e, mul_pow] at hcs
    have e2 : (w k - μ) ^ 2 = (μ - w k) ^ 2 := by ring
    rw [e2]
    exact hcs.trans (mul_le_mul_of_nonneg_left (he k) hpos.le)
  by_contra hn
  rw [not_exists] at hn
  have hlt : ∀ k, 3 * 1e-30 < (w k - μ) ^ 2 := fun k => not_le.1 (hn k)
  have h1 : ∑ k, (w k - μ) ^ 2 * (∑ i, q k i * x i) ^ 2 ≤ 3 * ((∑ i, x i ^ 2) * 1e-30) := by
    have := Finset.sum_le_sum fun k (_ : k ∈ (Finset.univ : Finset (Fin 3))) => hb k
    simpa using this
  have h2 : (3 * 1e-30) * ∑ i, x i ^ 2 < ∑ k, (w k - μ) ^ 2 * (∑ i, q k i * x i) ^ 2 := by
    rw [← hsum, Finset.mul_sum]
    refine Finset.sum_lt_sum (fun k _ => mul_le_mul_of_nonneg_right (hlt k).le (sq_nonneg _)) ?_
    obtain ⟨k, -, hk⟩ := Finset.exists_ne_zero_of_sum_ne_zero (by rw [hsum]; exact hpos.ne')
    exact ⟨k, Finset.mem_univ k, mul_lt_mul_of_pos_right (hlt k) (lt_of_le_of_ne (sq_nonneg _) (Ne.symm hk))⟩
  linarith

/-- **C47**, shear: the greatest principal shear stress is half the difference of the extreme principal stresses, the other
two are half the differences of neighbours, in increasing order. -/
theorem C47_shear (fuel : Nat) (v E : ℝ) (s : T6) (d : PData) (h : principle fuel v E s = some d) :
    d.pss.2.2 = (d.ps.2.2 - d.ps.1) / 2 ∧
    d.pss.1 = min ((d.ps.2.1 - d.ps.1) / 2) ((d.ps.2.2 - d.ps.2.1) / 2) ∧
    d.pss.2.1 = max ((d.ps.2.1 - d.ps.1) / 2) ((d.ps.2.2 - d.ps.2.1) / 2) := by
  simp only [principle, Option.map_eq_some_iff] at h
  obtain ⟨r, -, rfl⟩ := h
  simp only
  rw [shear_sorted r.xx r.yy r.zz]
  exact ⟨rfl, rfl, rfl⟩

/-- **C47**, strains: Hooke's law for the strains, and for the principal strains, which come in increasing order like the
stresses they belong to. -/
theorem C47_hooke (fuel : Nat) (v E : ℝ) (hE : 0 < E) (hv : -1 < v) (s : T6) (d : PData) (h : principle fuel v E s = some d) :
    (E * d.e.1 = s.xx - v * (s.yy + s.zz) ∧ E * d.e.2.1 = s.yy - v * (s.zz + s.xx) ∧
      E * d.e.2.2 = s.zz - v * (s.xx + s.yy)) ∧
    (E * d.g.1 = 2 * (1 + v) * s.xy ∧ E * d.g.2.1 = 2 * (1 + v) * s.xz ∧ E * d.g.2.2 = 2 * (1 + v) * s.yz) ∧
    (E * d.pe.1 = d.ps.1 - v * (d.ps.2.1 + d.ps.2.2) ∧ E * d.pe.2.1 = d.ps.2.1 - v * (d.ps.2.2 + d.ps.1) ∧
      E * d.pe.2.2 = d.ps.2.2 - v * (d.ps.1 + d.ps.2.1)) ∧ Incr d.pe ∧
    (E * d.pg.1 = 2 * (1 + v) * d.pss.1 ∧ E * d.pg.2.1 = 2 * (1 + v) * d.pss.2.1 ∧
      E * d.pg.2.2 = 2 * (1 + v) * d.pss.2.2) ∧ Incr d.pg := by
  simp only [principle, Option.map_eq_some_iff] at h
  obtain ⟨r, -, rfl⟩ := h
  have hE' := hE.ne'
  simp only
  have h1 := sort3_incr r.xx r.yy r.zz
  have h2 := sort3_incr (|r.xx - r.zz| * 0.5) (|r.xx - r.yy| * 0.5) (|r.yy - r.zz| * 0.5)
  generalize sort3 r.xx r.yy r.zz = p at *
  generalize sort3 (|r.xx - r.zz| * 0.5) (|r.xx - r.yy| * 0.5) (|r.yy - r.zz| * 0.5) = q at *
  have ht2 : 0 < 1 / E := by positivity
  have ht1 : 0 < 2 * (v + 1) / E := div_pos (by linarith) hE
  have e1 : Incr ((p.1 - v * (p.2.1 + p.2.2)) * (1 / E), (p.2.1 - v * (p.2.2 + p.1)) * (1 / E),
      (p.2.2 - v * (p.1 + p.2.1)) * (1 / E)) := by
    constructor
    · exact mul_le_mul_of_nonneg_right (by nlinarith [h1.1]) ht2.le
    · exact mul_le_mul_of_nonneg_right (by nlinarith [h1.2]) ht2.le
  have e2 : Incr (2 * (v + 1) / E * q.1, 2 * (v + 1) / E * q.2.1, 2 * (v + 1) / E * q.2.2) :=
    ⟨mul_le_mul_of_nonneg_left h2.1 ht1.le, mul_le_mul_of_nonneg_left h2.2 ht1.le⟩
  have s1 := sort3_of_incr _ e1
  have s2 := sort3_of_incr _ e2
  simp only at s1 s2
  rw [s1, s2]
  refine ⟨⟨?_, ?_, ?_⟩, ⟨?_, ?_, ?_⟩, ⟨?_, ?_, ?_⟩, e1, ⟨?_, ?_, ?_⟩, e2⟩ <;> (try simp only) <;>
    first | (field_simp; done) | (field_simp; ring)

/-- **C47**, finite element code: its principal values are computed for every tensor, come in increasing order, and are the
eigenvalues to an error of `10⁻¹⁵`. -/
theorem C47_fem (s : T6) : ∃ n p, (∀ fuel, n ≤ fuel → femPrinciple fuel s = some p) ∧
    Incr p ∧ Eigen 1e-30 (tensor s) (vec p) := by
  obtain ⟨n, d, h⟩ := C47_terminates 0 1 s
  have hp := C47_principal n 0 1 s d (h n le_rfl)
  refine ⟨n, d.ps, fun fuel hf => ?_, hp.1, hp.2.1⟩
  have h' := h fuel hf
  simp only [principle, Option.map_eq_some_iff] at h'
  obtain ⟨r, hr, rfl⟩ := h'
  rw [femPrinciple, hr]
  rfl

/-- A state with shear, in a material with the usual constants, meets the hypotheses; `(1, 1, 0)` is an eigenvector of it. -/
example : let s : T6 := ⟨1, 1, 5, 2, 0, 0⟩
    (∃ fuel d, principle fuel 0.35 100 s = some d) ∧ (0 : ℝ) < 100 ∧ (-1 : ℝ) < 0.35 ∧
    (∃ i, t![(1 : ℝ), 1, 0] i ≠ 0) ∧ ∀ i, ∑ j, tensor s i j * t![(1 : ℝ), 1, 0] j = 3 * t![(1 : ℝ), 1, 0] i := by
  refine ⟨?_, by norm_num, by norm_num, ⟨0, by simp⟩, ?_⟩
  · obtain ⟨n, d, h⟩ := C47_terminates 0.35 100 ⟨1, 1, 5, 2, 0, 0⟩
    exact ⟨n, d, h n le_rfl⟩
  · refine all3 ?_ ?_ ?_ <;> simp [Fin.sum_univ_three, tensor] <;> norm_num

end OP.Pave
