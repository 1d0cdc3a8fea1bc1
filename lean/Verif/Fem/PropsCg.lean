import Verif.Fem.Solve
import Verif.Fem.PropsCholUse
import Mathlib.LinearAlgebra.BilinearForm.Orthogonal
import Mathlib.LinearAlgebra.FiniteDimensional.Basic
import Mathlib.LinearAlgebra.Dimension.Constructions
/-!
# C90: conjugate gradients
-/
namespace OP.Fem

/-! ## The method -/

section Method
variable {K : Type} [Field K] [LinearOrder K] [IsStrictOrderedRing K] {E : Type} [AddCommGroup E] [Module K E]

/-- What is known after `k` steps: the residuals `rs`, the preconditioned residuals `vs` and the directions `ps` of the past,
and the present residual. -/
structure Past (d : LinearMap.BilinForm K E) (A S : E →ₗ[K] E) (k : Nat) (R : E) (rs vs ps : Nat → E) : Prop where
  res : ∀ i < k, S (vs i) = rs i
  ne : ∀ i < k, vs i ≠ 0
  step : ∀ i < k, ∃ c : K, A (ps i) = c • (rs i - if i + 1 < k then rs (i + 1) else R)
  first : 0 < k → ps 0 = vs 0
  dir : ∀ i, i + 1 < k → ∃ b : K, ps (i + 1) = vs (i + 1) + b • ps i
  conj : ∀ i j, i < j → j < k → d (A (ps j)) (ps i) = 0
  orth : ∀ i j, i < j → j < k → d (rs j) (vs i) = 0
  resp : ∀ i < k, d R (ps i) = 0

variable {d : LinearMap.BilinForm K E} {A S : E →ₗ[K] E}

/-- What is asked of the scalar product and the matrices. -/
structure Spd (d : LinearMap.BilinForm K E) (A : E →ₗ[K] E) : Prop where
  symm : ∀ x y, d (A x) y = d x (A y)
  pos : ∀ x, x ≠ 0 → 0 < d (A x) x

theorem Past.resv (hd : ∀ x y, d x y = d y x) {k : Nat} {R : E} {rs vs ps : Nat → E} (h : Past d A S k R rs vs ps) :
    ∀ i < k, d R (vs i) = 0 := by
  intro i hi
  cases i with
  | zero => rw [← h.first hi]; exact h.resp 0 hi
  | succ i =>
    obtain ⟨b, hb⟩ := h.dir i hi
    have : vs (i + 1) = ps (i + 1) - b • ps i := by rw [hb, add_sub_cancel_right]
    rw [this, map_sub, map_smul, h.resp _ hi, h.resp i (by omega), smul_zero, sub_zero]

/-- There are no more steps than dimensions. -/
theorem Past.bound [FiniteDimensional K E] (hd : ∀ x y, d x y = d y x) (hS : Spd d S) {k : Nat} {R : E} {rs vs ps : Nat → E}
    (h : Past d A S k R rs vs ps) : k ≤ Module.finrank K E := by
  have key : ∀ i j, i < j → j < k → d (S (vs i)) (vs j) = 0 := by
    intro i j hij hj
    rw [hS.symm, h.res j hj, hd]
    exact h.orth i j hij hj
  have hli : LinearIndependent K fun i : Fin k => vs i := by
    refine LinearMap.BilinForm.linearIndependent_of_iIsOrtho (B := d.comp S LinearMap.id) ?_ ?_
    · intro i j hij
      show d (S (vs i)) (vs j) = 0
      rcases Nat.lt_or_gt_of_ne (fun h => hij (Fin.ext h)) with h' | h'
      · exact key i j h' j.2
      · rw [hS.symm, hd]; exact key j i h' i.2
    · intro i hi
      have : d (S (vs i)) (vs i) = 0 := hi
      exact (hS.pos _ (h.ne i i.2)).ne' this
  have := hli.fintype_card_le_finrank
  simpa using this

/-- One step. -/
theorem Past.next (hd : ∀ x y, d x y = d y x) (hA : Spd d A) (hS : Spd d S) {k : Nat} {R : E} {rs vs ps : Nat → E} (h : Past d A S k R rs vs ps)
    {V P : E} (hV : S V = R) (hR : R ≠ 0)
    (hP : P = if k = 0 then V else V + (d V R / d (vs (k - 1)) (rs (k - 1))) • ps (k - 1)) :
    0 < d (A P) P ∧ Past d A S (k + 1) (R - (d V R / d (A P) P) • A P) (Function.update rs k R) (Function.update vs k V)
      (Function.update ps k P) := by
  have hV0 : V ≠ 0 := by rintro rfl; rw [map_zero] at hV; exact hR hV.symm
  have hVR : 0 < d V R := by
    have := hS.pos V hV0
    rwa [hV, hd] at this
  have hresv := h.resv hd
  -- the direction and the residual
  have hRP : d R P = d V R := by
    rw [hP]
    by_cases hk : k = 0
    · rw [if_pos hk, hd]
    · rw [if_neg hk, map_add, map_smul, h.resp _ (by omega), smul_zero, add_zero, hd]
  have hP0 : P ≠ 0 := by
    rintro rfl
    rw [map_zero] at hRP
    exact hVR.ne hRP
  have ha := hA.pos P hP0
  have hVS : ∀ i < k, d V (rs i) = 0 := by
    intro i hi
    rw [← h.res i hi, ← hS.symm, hV]
    exact hresv i hi
  -- conjugacy
  have hconj : ∀ i < k, d (A P) (ps i) = 0 := by
    intro i hi
    obtain ⟨c, hc⟩ := h.step i hi
    have hk : k ≠ 0 := by omega
    rw [hA.symm, hP, if_neg hk, LinearMap.map_add, LinearMap.add_apply, LinearMap.map_smul, LinearMap.smul_apply]
    by_cases hi' : i + 1 < k
    · rw [if_pos hi'] at hc
      have h2 : d (ps (k - 1)) (A (ps i)) = 0 := by
        rw [← hA.symm]; exact h.conj i (k - 1) (by omega) (by omega)
      rw [h2, hc, map_smul, map_sub, hVS i hi, hVS _ hi', sub_zero, smul_zero, smul_zero, add_zero]
    · rw [if_neg hi'] at hc
      have hik : k - 1 = i := by omega
      rw [hik] at *
      have hvr : 0 < d (vs i) (rs i) := by
        have := hS.pos _ (h.ne i hi)
        rwa [h.res i hi, hd] at this
      have hps : d (ps i) (rs i) = d (vs i) (rs i) := by
        cases i with
        | zero => rw [h.first (by omega)]
        | succ i =>
          obtain ⟨b, hb⟩ := h.dir i hi
          rw [hb, LinearMap.map_add, LinearMap.add_apply, LinearMap.map_smul, LinearMap.smul_apply]
          have : d (ps i) (rs (i + 1)) = 0 := by
            clear hP hb hc
            -- the residual is orthogonal to the directions before
            have hall : ∀ j, j ≤ i → d (ps j) (rs (i + 1)) = 0 := by
              intro j
              induction j with
              | zero => intro _; rw [h.first (by omega), hd]; exact h.orth 0 (i + 1) (by omega) hi
              | succ j ih =>
                intro hj
                obtain ⟨b, hb⟩ := h.dir j (by omega)
                rw [hb, LinearMap.map_add, LinearMap.add_apply, LinearMap.map_smul, LinearMap.smul_apply, ih (by omega), smul_zero, add_zero, hd]
                exact h.orth _ _ (by omega) hi
            exact hall i (le_refl i)
          rw [this, smul_zero, add_zero]
      have hpr : d (ps i) R = 0 := by rw [hd]; exact h.resp i hi
      rw [hc, map_smul, map_smul, map_sub, map_sub, hVS i hi, hpr, hps, sub_zero]
      simp only [smul_eq_mul]
      field_simp
      ring
  have hup : ∀ (f : Nat → E) (x : E) i, i < k → Function.update f k x i = f i := fun f x i hi => Function.update_of_ne (by omega) _ _
  refine ⟨ha, ⟨fun i hi => ?_, fun i hi => ?_, fun i hi => ?_, fun _ => ?_, fun i hi => ?_, fun i j hij hj => ?_, fun i j hij hj => ?_, fun i hi => ?_⟩⟩
  · rcases Nat.lt_or_ge i k with hik | hik
    · rw [hup _ _ i hik, hup _ _ i hik]; exact h.res i hik
    · obtain rfl : i = k := by omega
      rw [Function.update_self, Function.update_self, hV]
  · rcases Nat.lt_or_ge i k with hik | hik
    · rw [hup _ _ i hik]; exact h.ne i hik
    · obtain rfl : i = k := by omega
      rw [Function.update_self]; exact hV0
  · rcases Nat.lt_or_ge i k with hik | hik
    · obtain ⟨c, hc⟩ := h.step i hik
      refine ⟨c, ?_⟩
      rw [hup _ _ i hik, hup _ _ i hik, if_pos (by omega), hc]
      by_cases h1 : i + 1 < k
      · rw [if_pos h1, hup _ _ _ h1]
      · have : i + 1 = k := by omega
        rw [if_neg h1, this, Function.update_self]
    · obtain rfl : i = k := by omega
      refine ⟨d (A P) P / d V R, ?_⟩
      rw [Function.update_self, Function.update_self, if_neg (by omega), sub_sub_cancel, smul_smul, div_mul_div_cancel₀ hVR.ne', div_self ha.ne', one_smul]
  · by_cases hk : k = 0
    · subst hk; rw [Function.update_self, Function.update_self, hP, if_pos rfl]
    · rw [hup _ _ 0 (by omega), hup _ _ 0 (by omega)]; exact h.first (by omega)
  · rcases Nat.lt_or_ge (i + 1) k with hik | hik
    · rw [hup _ _ _ hik, hup _ _ _ hik, hup _ _ i (by omega)]; exact h.dir i hik
    · have hik : k = i + 1 := by omega
      subst hik
      rw [Function.update_self, Function.update_self, hup _ _ i (by omega), hP, if_neg (by omega)]
      exact ⟨_, rfl⟩
  · rw [hup _ _ i (by omega)]
    rcases Nat.lt_or_ge j k with hjk | hjk
    · rw [hup _ _ j hjk]; exact h.conj i j hij hjk
    · obtain rfl : j = k := by omega
      rw [Function.update_self]; exact hconj i hij
  · rw [hup _ _ i (by omega)]
    rcases Nat.lt_or_ge j k with hjk | hjk
    · rw [hup _ _ j hjk]; exact h.orth i j hij hjk
    · obtain rfl : j = k := by omega
      rw [Function.update_self]; exact hresv i hij
  · rw [LinearMap.map_sub, LinearMap.sub_apply, LinearMap.map_smul, LinearMap.smul_apply]
    rcases Nat.lt_or_ge i k with hik | hik
    · rw [hup _ _ i hik, h.resp i hik, hconj i hik, smul_zero, sub_zero]
    · obtain rfl : i = k := by omega
      rw [Function.update_self, hRP, smul_eq_mul, div_mul_cancel₀ _ ha.ne', sub_self]

end Method

/-! ## The program -/

section Program
variable {K : Type} [Field K]

/-- The part of a vector that is used. -/
abbrev Vec (K : Type) (nnd : Nat) := Fin nnd → Fin 3 → K

/-- The part of a vector that is used. -/
def cut (nnd : Nat) (X : SVec K) : Vec K nnd := fun n => X n

/-- The scalar product. -/
def dotB (K : Type) [Field K] (nnd : Nat) : LinearMap.BilinForm K (Vec K nnd) :=
  LinearMap.mk₂ K (fun x y => ∑ n, ∑ i, x n i * y n i)
    (by intro x y z; simp only [Pi.add_apply, add_mul, Finset.sum_add_distrib])
    (by intro c x y; simp only [Pi.smul_apply, smul_eq_mul, mul_assoc, Finset.mul_sum])
    (by intro x y z; simp only [Pi.add_apply, mul_add, Finset.sum_add_distrib])
    (by intro c x y; simp only [Pi.smul_apply, smul_eq_mul, mul_left_comm _ c, Finset.mul_sum])

theorem dotB_apply (nnd : Nat) (x y : Vec K nnd) : dotB K nnd x y = ∑ n, ∑ i, x n i * y n i := rfl

theorem dot_cut (nnd : Nat) (X Y : SVec K) : dot nnd X Y = dotB K nnd (cut nnd X) (cut nnd Y) := by
  rw [dotB_apply, dot, Finset.sum_range]; rfl

theorem dotB_comm (nnd : Nat) (x y : Vec K nnd) : dotB K nnd x y = dotB K nnd y x := by
  simp only [dotB_apply, mul_comm]

/-- The matrix with given blocks. -/
def matL (nnd : Nat) (M : Nat → Nat → Blk K) : Vec K nnd →ₗ[K] Vec K nnd where
  toFun x := fun a => ∑ b : Fin nnd, mv (M a b) (x b)
  map_add' x y := by funext a; simp only [Pi.add_apply, mv_vadd, Finset.sum_add_distrib]
  map_smul' c x := by
    funext a i
    simp only [Pi.smul_apply, Finset.sum_apply, mv, smul_eq_mul, RingHom.id_apply, Finset.mul_sum, mul_left_comm _ c]

theorem matL_cut (nnd : Nat) (M : Nat → Nat → Blk K) (X : SVec K) (a : Fin nnd) :
    matL nnd M (cut nnd X) a = ∑ b ∈ Finset.range nnd, mv (M a b) (X b) := by
  rw [Finset.sum_range]; rfl

theorem matL_symm (nnd : Nat) {M : Nat → Nat → Blk K} (hM : ∀ a < nnd, ∀ b < nnd, M b a = tr (M a b)) (x y : Vec K nnd) :
    dotB K nnd (matL nnd M x) y = dotB K nnd x (matL nnd M y) := by
  have e : ∀ s t : Vec K nnd, dotB K nnd (matL nnd M s) t = ∑ a : Fin nnd, ∑ b : Fin nnd, ∑ i, ∑ j, M a b i j * s b j * t a i := by
    intro s t
    rw [dotB_apply]
    refine Finset.sum_congr rfl fun a _ => ?_
    rw [Finset.sum_comm]
    refine Finset.sum_congr rfl fun i _ => ?_
    show (∑ b : Fin nnd, mv (M a b) (s b)) i * t a i = _
    rw [Finset.sum_apply, Finset.sum_mul]
    refine Finset.sum_congr rfl fun b _ => ?_
    simp only [mv, Finset.sum_mul]
  rw [dotB_comm nnd x, e, e, Finset.sum_comm]
  refine Finset.sum_congr rfl fun a _ => Finset.sum_congr rfl fun b _ => ?_
  rw [Finset.sum_comm]
  refine Finset.sum_congr rfl fun i _ => Finset.sum_congr rfl fun j _ => ?_
  rw [hM a a.2 b b.2]
  show M a b i j * _ * _ = _
  ring

theorem cut_setAll (nnd : Nat) (X : SVec K) (f : SVec K) : cut nnd (setAll nnd X f) = cut nnd f := by
  funext n
  exact if_pos n.2

theorem finrank_vec (nnd : Nat) : Module.finrank K (Vec K nnd) = 3 * nnd := by
  simp [Module.finrank_pi_fintype, mul_comm]

variable [LinearOrder K] [IsStrictOrderedRing K]

theorem dotB_pos {nnd : Nat} {x : Vec K nnd} (h : x ≠ 0) : 0 < dotB K nnd x x := by
  obtain ⟨n, hn⟩ := Function.ne_iff.1 h
  obtain ⟨i, hi⟩ := Function.ne_iff.1 hn
  rw [dotB_apply]
  refine Finset.sum_pos' (fun n _ => Finset.sum_nonneg fun i _ => mul_self_nonneg _) ⟨n, Finset.mem_univ _, ?_⟩
  exact Finset.sum_pos' (fun i _ => mul_self_nonneg _) ⟨i, Finset.mem_univ _, lt_of_le_of_ne (mul_self_nonneg _) (Ne.symm (mul_self_ne_zero.2 hi))⟩

/-- The preconditioner is positive definite. -/
theorem square_spd {G : Fac K} {nnd : Nat} (hG : G.Sorted nnd) (hD : ∀ n < nnd, ∀ i, 0 < (G n).1 i i) :
    Spd (dotB K nnd) (matL nnd (square G nnd)) := by
  refine ⟨matL_symm nnd fun a _ b _ => square_symm G nnd a b, fun x hx => ?_⟩
  have e : dotB K nnd (matL nnd (square G nnd) x) x = dotB K nnd (matL nnd (factor G) x) (matL nnd (factor G) x) := by
    rw [dotB_comm]
    have h1 : ∀ (a b : Fin nnd) i, mv (square G nnd a b) (x b) i = ∑ q : Fin nnd, mv (tr (factor G q a)) (mv (factor G q b) (x b)) i := by
      intro a b i
      unfold square
      rw [fsum_mv, Finset.sum_apply, Finset.sum_range]
      exact Finset.sum_congr rfl fun q _ => by rw [mv_tmul]
    have h2 : dotB K nnd x (matL nnd (square G nnd) x) = ∑ a : Fin nnd, ∑ b : Fin nnd, ∑ q : Fin nnd, ∑ i, x a i * mv (tr (factor G q a)) (mv (factor G q b) (x b)) i := by
      rw [dotB_apply]
      refine Finset.sum_congr rfl fun a _ => ?_
      show ∑ i, x a i * (∑ b : Fin nnd, mv (square G nnd a b) (x b)) i = _
      simp only [Finset.sum_apply, h1, Finset.mul_sum]
      rw [Finset.sum_comm]
      refine Finset.sum_congr rfl fun b _ => ?_
      rw [Finset.sum_comm]
    have h3 : dotB K nnd (matL nnd (factor G) x) (matL nnd (factor G) x) = ∑ q : Fin nnd, ∑ a : Fin nnd, ∑ b : Fin nnd, ∑ i, mv (factor G q a) (x a) i * mv (factor G q b) (x b) i := by
      rw [dotB_apply]
      refine Finset.sum_congr rfl fun q _ => ?_
      show ∑ i, (∑ b : Fin nnd, mv (factor G q b) (x b)) i * (∑ b : Fin nnd, mv (factor G q b) (x b)) i = _
      simp only [Finset.sum_apply, Finset.sum_mul_sum]
      rw [Finset.sum_comm]
      refine Finset.sum_congr rfl fun b _ => ?_
      rw [Finset.sum_comm]
    rw [h2, h3]
    have h4 : ∀ (s : Blk K) (v w : Fin 3 → K), ∑ i, v i * mv (tr s) w i = ∑ i, mv s v i * w i := by
      intro s v w
      simp only [mv, tr, Fin.sum_univ_three]
      ring
    simp only [h4]
    rw [Finset.sum_congr rfl fun a _ => Finset.sum_comm, Finset.sum_comm]
  rw [e]
  refine dotB_pos fun h0 => hx ?_
  -- the triangular matrix has no kernel
  have key : ∀ k, k ≤ nnd → ∀ n : Fin nnd, nnd - k ≤ n → x n = 0 := by
    intro k
    induction k with
    | zero => intro _ n hn; have := n.2; omega
    | succ k ih =>
      intro hk n hn
      rcases Nat.lt_or_ge n (nnd - k) with hlt | hge
      · have h1 : matL nnd (factor G) x n = 0 := by rw [h0]; rfl
        have h2 : matL nnd (factor G) x n = mv (factor G n n) (x n) := by
          show ∑ b : Fin nnd, mv (factor G n b) (x b) = _
          refine Finset.sum_eq_single n (fun b _ hb => ?_) fun h => absurd (Finset.mem_univ _) h
          rcases Nat.lt_or_gt_of_ne (fun h => hb (Fin.ext h)) with h' | h'
          · rw [factor_below G h', mv_zero]
          · rw [ih (by omega) b (by omega), mv_vzero]
        rw [h2, factor_diag] at h1
        have hd := hD n n.2
        have g := fun i => congrFun h1 i
        simp only [mv, Fin.sum_univ_three] at g
        have g2 := g 2; have g1 := g 1; have g0 := g 0
        simp only [upper, Pi.zero_apply] at g0 g1 g2
        have d0 := (one_div_pos.2 (hd 0)).ne'; have d1 := (one_div_pos.2 (hd 1)).ne'; have d2 := (one_div_pos.2 (hd 2)).ne'
        have z2 : x n 2 = 0 := by simpa [(hd 2).ne'] using g2
        have z1 : x n 1 = 0 := by simpa [z2, (hd 1).ne'] using g1
        have z0 : x n 0 = 0 := by simpa [z1, z2, (hd 0).ne'] using g0
        funext i
        fin_cases i
        · exact z0
        · exact z1
        · exact z2
      · exact ih (by omega) n hge
  funext n
  exact key nnd (le_refl _) n (by omega)

/-- The loop ends with a residual within the tolerance, and changes nothing where the systems are the identity. -/
theorem cgLoop_spec {A : SMat K} (g : A.Good) {nnd : Nat} (ht : ∀ c < nnd, (A c).Tidy) (hA : Spd (dotB K nnd) (matL nnd A.entry))
    {G : Fac K} (hG : G.Sorted nnd) (hD : ∀ n < nnd, ∀ i, 0 < (G n).1 i i) {tol ri : K} (hri : 0 < tol * ri)
    (Z : Nat → Fin 3 → Prop) (hZA : ∀ x : Vec K nnd, (∀ n i, Z n.1 i → x n i = 0) → ∀ n i, Z n.1 i → matL nnd A.entry x n i = 0)
    (hZS : ∀ x : Vec K nnd, (∀ n i, Z n.1 i → matL nnd (square G nnd) x n i = 0) → ∀ n i, Z n.1 i → x n i = 0) (F : SVec K) :
    ∀ k it (s : Cg K), k + it = 3 * nnd → cut nnd s.R = cut nnd F - matL nnd A.entry (cut nnd s.U) →
      (∀ (n : Fin nnd) i, Z n.1 i → s.R n i = 0) → (0 < it → ∀ (n : Fin nnd) i, Z n.1 i → s.P n i = 0) →
      (∃ rs vs ps, Past (dotB K nnd) (matL nnd A.entry) (matL nnd (square G nnd)) it (cut nnd s.R) rs vs ps ∧
        (0 < it → cut nnd s.P = ps (it - 1) ∧ s.ro = dotB K nnd (vs (it - 1)) (rs (it - 1)))) →
      ∃ U', cgLoop A G nnd tol ri k it s = .ok U' ∧
        dotB K nnd (cut nnd F - matL nnd A.entry (cut nnd U')) (cut nnd F - matL nnd A.entry (cut nnd U')) < tol * ri ∧
        ∀ (n : Fin nnd) i, Z n.1 i → U' n i = s.U n i := by
  have hS := square_spd hG hD
  have hdim := finrank_vec (K := K) nnd
  have hsub := fun R V => subst_spec hG (fun m hm i => (hD m hm i).ne') R V
  intro k
  induction k with
  | zero =>
    rintro it s hk hR hZR hZP ⟨rs, vs, ps, hp, hpp⟩
    refine ⟨s.U, rfl, ?_, fun _ _ _ => rfl⟩
    rw [← hR]
    by_cases h0 : cut nnd s.R = 0
    · rw [h0, map_zero]; exact hri
    · exfalso
      have hV : matL nnd (square G nnd) (cut nnd (backward G nnd (forward G nnd s.R s.V))) = cut nnd s.R := by
        funext a; rw [matL_cut, hsub _ _ a a.2]; rfl
      obtain ⟨-, hnext⟩ := hp.next (dotB_comm nnd) hA hS hV h0 rfl
      have := hnext.bound (dotB_comm nnd) hS
      omega
  | succ k ih =>
    rintro it s hk hR hZR hZP ⟨rs, vs, ps, hp, hpp⟩
    unfold cgLoop
    by_cases hstop : dot nnd s.R s.R < tol * ri
    · rw [if_pos hstop]
      refine ⟨s.U, rfl, ?_, fun _ _ _ => rfl⟩
      rw [← hR, ← dot_cut]; exact hstop
    · rw [if_neg hstop]
      have h0 : cut nnd s.R ≠ 0 := by
        intro h0
        rw [dot_cut, h0, map_zero] at hstop
        exact hstop hri
      obtain ⟨V, hVd⟩ : ∃ V, V = backward G nnd (forward G nnd s.R s.V) := ⟨_, rfl⟩
      have hV : matL nnd (square G nnd) (cut nnd V) = cut nnd s.R := by
        funext a; rw [matL_cut, hVd, hsub _ _ a a.2]; rfl
      dsimp only
      rw [← hVd]
      obtain ⟨P, hPd⟩ : ∃ P, P = if it = 0 then setAll nnd s.P V else setAll nnd s.P fun n => V n + (dot nnd V s.R / s.ro) • s.P n := ⟨_, rfl⟩
      rw [← hPd]
      have hPc : cut nnd P = if it = 0 then cut nnd V else cut nnd V + (dotB K nnd (cut nnd V) (cut nnd s.R) / dotB K nnd (vs (it - 1)) (rs (it - 1))) • ps (it - 1) := by
        rw [hPd]
        by_cases hit : it = 0
        · rw [if_pos hit, if_pos hit, cut_setAll]
        · obtain ⟨q1, q2⟩ := hpp (by omega)
          rw [if_neg hit, if_neg hit, cut_setAll, ← q1, ← q2, ← dot_cut]
          rfl
      obtain ⟨ha, hnext⟩ := hp.next (dotB_comm nnd) hA hS hV h0 hPc
      obtain ⟨W, hW, hWe, -⟩ := good_mul g ht P s.W
      have hWc : cut nnd W = matL nnd A.entry (cut nnd P) := by
        funext a; rw [matL_cut]; exact hWe a a.2
      rw [hW, Res.ok_bind]
      have hVZ : ∀ (n : Fin nnd) i, Z n.1 i → cut nnd V n i = 0 := hZS _ fun n i hz => by
        rw [hV]; exact hZR n i hz
      have hPZ : ∀ (n : Fin nnd) i, Z n.1 i → cut nnd P n i = 0 := by
        intro n i hz
        rw [hPc]
        by_cases hit : it = 0
        · rw [if_pos hit]; exact hVZ n i hz
        · rw [if_neg hit, ← (hpp (by omega)).1]
          show cut nnd V n i + _ * s.P n i = 0
          rw [hVZ n i hz, hZP (by omega) n i hz, mul_zero, add_zero]
      have hWZ : ∀ (n : Fin nnd) i, Z n.1 i → cut nnd W n i = 0 := by
        rw [hWc]; exact hZA _ hPZ
      rw [if_pos (show dot nnd W P > 0 by rw [dot_cut, hWc]; exact ha)]
      have hRn : cut nnd (setAll nnd s.R fun n => s.R n - (dot nnd V s.R / dot nnd W P) • W n) = cut nnd s.R - (dotB K nnd (cut nnd V) (cut nnd s.R) / dotB K nnd (matL nnd A.entry (cut nnd P)) (cut nnd P)) • matL nnd A.entry (cut nnd P) := by
        rw [cut_setAll, dot_cut, dot_cut, ← hWc]; rfl
      have hUn : cut nnd (setAll nnd s.U fun n => s.U n + (dot nnd V s.R / dot nnd W P) • P n) = cut nnd s.U + (dotB K nnd (cut nnd V) (cut nnd s.R) / dotB K nnd (matL nnd A.entry (cut nnd P)) (cut nnd P)) • cut nnd P := by
        rw [cut_setAll, dot_cut, dot_cut, ← hWc]; rfl
      obtain ⟨U', e1, e2, e3⟩ := ih (it + 1) ⟨setAll nnd s.U fun n => s.U n + (dot nnd V s.R / dot nnd W P) • P n,
          setAll nnd s.R fun n => s.R n - (dot nnd V s.R / dot nnd W P) • W n, P, V, W, dot nnd V s.R⟩ (by omega)
        (by
          show cut nnd (setAll nnd s.R _) = cut nnd F - matL nnd A.entry (cut nnd (setAll nnd s.U _))
          rw [hRn, hUn, map_add, map_smul, hR, sub_sub])
        (by
          intro n i hz
          have := congrFun (congrFun (cut_setAll nnd s.R fun n => s.R n - (dot nnd V s.R / dot nnd W P) • W n) n) i
          refine this.trans ?_
          show s.R n i - _ * cut nnd W n i = 0
          rw [hZR n i hz, hWZ n i hz, mul_zero, sub_zero])
        (fun _ => hPZ)
        ⟨_, _, _, by
          show Past _ _ _ _ (cut nnd (setAll nnd s.R _)) _ _ _
          rw [hRn]; exact hnext, fun _ => ⟨by simp, by simp [dot_cut]⟩⟩
      refine ⟨U', e1, e2, fun n i hz => ?_⟩
      rw [e3 n i hz]
      have := congrFun (congrFun (cut_setAll nnd s.U fun n => s.U n + (dot nnd V s.R / dot nnd W P) • P n) n) i
      refine this.trans ?_
      show s.U n i + _ * cut nnd P n i = s.U n i
      rw [hPZ n i hz, mul_zero, add_zero]

theorem cg_spec {A : SMat K} (g : A.Good) {nnd : Nat} (ht : ∀ c < nnd, (A c).Tidy) (hA : Spd (dotB K nnd) (matL nnd A.entry))
    {G : Fac K} (hG : G.Sorted nnd) (hD : ∀ n < nnd, ∀ i, 0 < (G n).1 i i) {tol : K} (F U P W V R : SVec K) (hri : 0 < tol * dot nnd F F)
    (Z : Nat → Fin 3 → Prop) (hZA : ∀ x : Vec K nnd, (∀ n i, Z n.1 i → x n i = 0) → ∀ n i, Z n.1 i → matL nnd A.entry x n i = 0)
    (hZS : ∀ x : Vec K nnd, (∀ n i, Z n.1 i → matL nnd (square G nnd) x n i = 0) → ∀ n i, Z n.1 i → x n i = 0)
    (hZU : ∀ (n : Fin nnd) i, Z n.1 i → matL nnd A.entry (cut nnd U) n i = F n i) :
    ∃ U', cg A G nnd tol F U P W V R = .ok U' ∧
        dotB K nnd (cut nnd F - matL nnd A.entry (cut nnd U')) (cut nnd F - matL nnd A.entry (cut nnd U')) < tol * dot nnd F F ∧
        ∀ (n : Fin nnd) i, Z n.1 i → U' n i = U n i := by
  obtain ⟨R', h1, h2, -⟩ := good_residual g ht F U R
  unfold cg
  rw [h1, Res.ok_bind]
  have hR : cut nnd R' = cut nnd F - matL nnd A.entry (cut nnd U) := by
    funext a
    rw [Pi.sub_apply, matL_cut]
    exact h2 a a.2
  refine cgLoop_spec g ht hA hG hD hri Z hZA hZS F _ 0 ⟨U, R', P, V, W, 0⟩ (by omega) hR (fun n i hz => ?_) (fun h => absurd h (by omega))
    ⟨0, 0, 0, ?_, fun h => absurd h (by omega)⟩
  · have := congrFun (congrFun hR n) i
    refine this.trans ?_
    show F n i - matL nnd A.entry (cut nnd U) n i = 0
    rw [hZU n i hz, sub_self]
  · constructor <;> intros <;> omega

end Program

end OP.Fem
