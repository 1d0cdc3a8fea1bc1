import Verif.Lin.EigLemmas
/-!
# C92: eigenvalues, and equations and inverses from them
-/
namespace OP.Lin
open Finset
variable {K : Type} [Field K] [LinearOrder K] [IsStrictOrderedRing K]

/-- The test `fabs(x)+g == g` in exact arithmetic. -/
def negExact (x g : K) : Bool := decide (x + g = g)

theorem negExact_ok : NegOk (K := K) negExact 0 :=
  ⟨fun g => by unfold negExact; simp, fun x g _ h => by
    unfold negExact at h
    rw [decide_eq_true_eq] at h
    rw [zero_mul]; linarith⟩

/-- Every form is bounded. -/
theorem form_bound (n : Nat) (B : Nat → Nat → K) : ∃ ρ : K, 0 ≤ ρ ∧ ∀ y, |vbil n B y y| ≤ ρ * vdot n y y := by
  refine ⟨∑ r ∈ range n, ∑ s ∈ range n, |B r s|, sum_nonneg fun r _ => sum_nonneg fun s _ => abs_nonneg _, fun y => ?_⟩
  unfold vbil
  rw [sum_mul]
  refine (abs_sum_le_sum_abs _ _).trans (sum_le_sum fun r hr => ?_)
  rw [sum_mul]
  refine (abs_sum_le_sum_abs _ _).trans (sum_le_sum fun s hs => ?_)
  rw [mul_assoc, abs_mul]
  refine mul_le_mul_of_nonneg_left ?_ (abs_nonneg _)
  have h1 : ∀ k ∈ range n, y k * y k ≤ vdot n y y := fun k hk => single_le_sum (f := fun k => y k * y k) (fun i _ => mul_self_nonneg _) hk
  have h2 := h1 r hr
  have h3 := h1 s hs
  rw [abs_le]
  constructor
  · nlinarith [mul_self_nonneg (y r + y s)]
  · nlinarith [mul_self_nonneg (y r - y s)]

omit [IsStrictOrderedRing K] in
/-- For a symmetric matrix the lower triangle is enough. -/
theorem low_eq {n : Nat} {A : Nat → K} (hA : ∀ r < n, ∀ s < n, A (r * n + s) = A (s * n + r)) : ∀ r < n, ∀ s < n, low n A r s = A (r * n + s) := by
  intro r hr s hs
  unfold low
  split
  · rfl
  · exact (hA r hr s hs).symm

/-! ## `eig_ql` -/

/-- C92: whenever `eig_ql` ends, the columns are orthonormal and turn the matrix into the diagonal one of `d`, up to the numbers that
were taken for zero; when asked for, the numbers are in descending order; nothing outside the arrays changes. -/
theorem C92_eig {rt : K → K} (hrt : IsRoot0 rt) {neg : K → K → Bool} {τ : K} (hτ0 : 0 ≤ τ) (hneg : NegOk neg τ) (n fuel : Nat) (A d g : Nat → K) (sorted : Bool)
    {ρ : K} (hρ0 : 0 ≤ ρ) (hρ : ∀ y, |vbil n (low n A) y y| ≤ ρ * vdot n y y) {Q d' : Nat → K} (e : eigQl rt neg fuel n A d g sorted = some (Q, d')) :
    Diag n (low n A) Q d' (ρ * ((1 + 2 * τ) ^ (n * fuel) - 1)) ∧ (sorted = true → ∀ a b, a < b → b < n → d' b ≤ d' a) ∧
    (∀ p, n * n ≤ p → Q p = A p) ∧ ∀ k, n ≤ k → d' k = d k := by
  unfold eigQl at e
  by_cases hn : n = 0
  · subst hn
    rw [if_pos rfl] at e
    cases e
    exact ⟨⟨fun _ _ => rfl, fun x => by rw [show vbil 0 (low 0 A) (app 0 A x) (app 0 A x) = 0 from rfl, sum_range_zero, sub_zero, abs_zero,
      show vdot 0 x x = 0 from rfl, mul_zero]⟩, fun _ a b _ hb => by omega, fun _ _ => rfl, fun _ _ => rfl⟩
  · rw [if_neg hn, Option.map_eq_some_iff] at e
    obtain ⟨t, e1, e2⟩ := e
    obtain ⟨h1, h2, h3⟩ := C92_iteration hrt hτ0 hneg n fuel ⟨A, d, g⟩ t hρ0 hρ e1
    dsimp only at h1 h2 h3
    cases sorted with
    | false =>
      rw [if_neg (by simp)] at e2
      cases e2
      exact ⟨h1, fun h => absurd h (by simp), h2, fun k hk => (h3 k hk).1⟩
    | true =>
      rw [if_pos rfl] at e2
      obtain ⟨s1, s2, s3, s4⟩ := eigSort_spec (by omega) h1
      rw [e2] at s1 s2 s3 s4
      dsimp only at s1 s2 s3 s4
      refine ⟨s1, fun _ => s2, fun p hp => ?_, fun k hk => by rw [s4 k hk]; exact (h3 k hk).1⟩
      have hn : 0 < n := by omega
      have hp' : p = p / n * n + p % n := by rw [Nat.mul_comm]; exact (Nat.div_add_mod p n).symm
      rw [hp', s3 _ _ (Nat.mod_lt _ hn) ((Nat.le_div_iff_mul_le hn).2 hp), ← hp', h2 p hp]

/-- C92: with the exact test the columns are eigenvectors: `A q = d q`. -/
theorem C92_exact {rt : K → K} (hrt : IsRoot0 rt) (n fuel : Nat) (A d g : Nat → K) (sorted : Bool) (hA : ∀ r < n, ∀ s < n, A (r * n + s) = A (s * n + r))
    {Q d' : Nat → K} (e : eigQl rt negExact fuel n A d g sorted = some (Q, d')) :
    (∀ a < n, ∀ b < n, colDot n Q a b = if a = b then 1 else 0) ∧
    (∀ k < n, ∀ r < n, ∑ s ∈ range n, A (r * n + s) * Q (s * n + k) = d' k * Q (r * n + k)) ∧
    (sorted = true → ∀ a b, a < b → b < n → d' b ≤ d' a) := by
  obtain ⟨ρ, hρ0, hρ⟩ := form_bound n (low n A)
  obtain ⟨h1, h2, -, -⟩ := C92_eig hrt (le_refl 0) negExact_ok n fuel A d g sorted hρ0 hρ e
  rw [mul_zero, add_zero, one_pow, sub_self, mul_zero] at h1
  refine ⟨h1.orth, fun k hk r hr => ?_, h2⟩
  rw [← h1.eigen (low_symm n A) k hk r hr]
  exact sum_congr rfl fun s hs => by rw [low_eq hA r hr s (mem_range.1 hs)]

/-! ## A size for which the iteration ends -/

/-- One pass on two rows. -/
theorem qlPass_two {rt : K → K} (hrt : IsRoot0 rt) (t : Tri K) (he : t.e 1 ≠ 0) : (qlPass rt 2 0 1 t).e 1 = 0 := by
  unfold qlPass
  dsimp only
  obtain ⟨g0, hg0⟩ : ∃ g0, g0 = (t.d (0 + 1) - t.d 0) / (2 * t.e (0 + 1)) := ⟨_, rfl⟩
  rw [← hg0]
  obtain ⟨w, hw⟩ : ∃ w, w = g0 + (if 0 < g0 then 1 else -1) * rt (g0 * g0 + 1) := ⟨_, rfl⟩
  rw [← hw]
  have hr := (hrt (g0 * g0 + 1) (by have := mul_self_nonneg g0; linarith)).2
  have hw2 : w * w = 2 * g0 * w + 1 := by
    rw [hw]
    split
    · linear_combination hr
    · linear_combination hr
  have hw0 : w ≠ 0 := by
    rintro h
    rw [h] at hw2
    simp at hw2
  rw [Nat.zero_add] at *
  have hd : t.d 1 = t.d 0 + 2 * g0 * t.e 1 := by rw [hg0]; field_simp; ring
  have hg : t.d 1 - t.d 0 + t.e 1 / w = t.e 1 * w := by
    rw [hd]; field_simp; linear_combination -(t.e 1) * hw2
  rw [hg]
  have hpos : 0 < t.e 1 * t.e 1 + t.e 1 * w * (t.e 1 * w) := by
    have := mul_self_pos.2 he
    have := mul_self_nonneg (t.e 1 * w)
    linarith
  obtain ⟨r, hr'⟩ : ∃ r, r = rt (t.e 1 * t.e 1 + t.e 1 * w * (t.e 1 * w)) := ⟨_, rfl⟩
  have hr2 : r * r = t.e 1 * t.e 1 + t.e 1 * w * (t.e 1 * w) := by rw [hr']; exact (hrt _ hpos.le).2
  have hr0 : r ≠ 0 := by
    rintro h
    rw [h, mul_zero] at hr2
    exact hpos.ne' hr2.symm
  rw [show 1 - 0 = 1 from rfl]
  obtain ⟨v, hv, hb⟩ : ∃ v, v = qlSweep rt 2 1 1 ⟨t.A, t.d, t.e, t.e 1 * w, 1, 1, 0⟩ ∧ v.2 = false ∧ v.1.g = 0 := by
    refine ⟨_, rfl, ?_⟩
    unfold qlSweep
    dsimp only
    rw [one_mul]
    simp only [← hr', if_neg hr0]
    unfold qlSweep
    refine ⟨rfl, ?_⟩
    dsimp only
    rw [show 1 - 1 = 0 from rfl, set_same, set_ne _ _ (by omega), sub_zero, hd]
    field_simp
    linear_combination (t.e 1) ^ 3 * hw2 - t.e 1 * hr2
  rw [← hv, hb.1, if_neg (by simp)]
  dsimp only
  rw [set_same, hb.2]

/-- C92: for two rows the iteration ends, whatever the matrix. -/
theorem C92_two {rt : K → K} (hrt : IsRoot0 rt) {neg : K → K → Bool} {τ : K} (hneg : NegOk neg τ) (fuel : Nat) (s : Tri K) :
    ∃ t, eigTri rt neg 2 (fuel + 2) s = some t := by
  have h1 : ∀ t : Tri K, t.e 1 = 0 → ∀ f, qlWhile rt neg 2 0 (f + 1) t = some t := by
    intro t ht f
    unfold qlWhile qlFind
    rw [show 2 - 1 - 0 = 0 + 1 from rfl]
    dsimp only
    rw [Nat.zero_add, ht, abs_zero, if_pos (hneg.zero _), if_pos rfl]
  have h2 : ∀ t : Tri K, ∃ t', qlWhile rt neg 2 0 (fuel + 2) t = some t' := by
    intro t
    by_cases ht : t.e 1 = 0
    · exact ⟨t, h1 t ht _⟩
    · unfold qlWhile
      dsimp only
      by_cases hm : qlFind neg t.d t.e (2 - 1 - 0) 0 = 0
      · rw [if_pos hm]; exact ⟨t, rfl⟩
      · rw [if_neg hm]
        have : qlFind neg t.d t.e (2 - 1 - 0) 0 = 1 := by
          have := (qlFind_spec (neg := neg) (d := t.d) (e := t.e) (2 - 1 - 0) 0).2.1
          omega
        rw [this]
        exact ⟨_, h1 _ (qlPass_two hrt t ht) fuel⟩
  obtain ⟨t1, e1⟩ := h2 s
  refine ⟨t1, ?_⟩
  unfold eigTri qlFrom
  rw [e1]
  show qlFrom rt neg 2 (fuel + 2) 1 1 t1 = some t1
  unfold qlFrom
  rw [show qlWhile rt neg 2 (0 + 1) (fuel + 2) t1 = some t1 by unfold qlWhile qlFind; rfl]
  rfl

/-! ## How far the columns are from eigenvectors -/

/-- The product of a matrix with a vector. -/
def mv (n : Nat) (B : Nat → Nat → K) (y : Nat → K) (r : Nat) : K := ∑ s ∈ range n, B r s * y s

omit [LinearOrder K] [IsStrictOrderedRing K] in
theorem vbil_mv (n : Nat) (M : Nat → Nat → K) (x y : Nat → K) : vbil n M x y = vdot n x (mv n M y) := by
  unfold vbil vdot mv
  refine sum_congr rfl fun r _ => ?_
  rw [mul_sum]
  exact sum_congr rfl fun s _ => by ring

omit [LinearOrder K] [IsStrictOrderedRing K] in
theorem vbil_flip {n : Nat} {M : Nat → Nat → K} (hM : ∀ r < n, ∀ s < n, M r s = M s r) (x y : Nat → K) : vbil n M x y = vbil n M y x := by
  unfold vbil
  rw [sum_comm]
  exact sum_congr rfl fun r hr => sum_congr rfl fun s hs => by rw [hM s (mem_range.1 hs) r (mem_range.1 hr)]; ring

omit [LinearOrder K] [IsStrictOrderedRing K] in
theorem vbil_add (n : Nat) (M : Nat → Nat → K) (x y : Nat → K) (t : K) : vbil n M (fun k => x k + t * y k) (fun k => x k + t * y k) =
    vbil n M x x + t * vbil n M x y + t * vbil n M y x + t * t * vbil n M y y := by
  unfold vbil
  simp only [mul_sum, ← sum_add_distrib]
  exact sum_congr rfl fun r _ => sum_congr rfl fun s _ => by ring

omit [LinearOrder K] [IsStrictOrderedRing K] in
theorem vdot_add (n : Nat) (x y : Nat → K) (t : K) : vdot n (fun k => x k + t * y k) (fun k => x k + t * y k) =
    vdot n x x + 2 * t * vdot n x y + t * t * vdot n y y := by
  unfold vdot
  simp only [mul_sum, ← sum_add_distrib]
  exact sum_congr rfl fun r _ => by ring

theorem vdot_nn (n : Nat) (x : Nat → K) : 0 ≤ vdot n x x := sum_nonneg fun _ _ => mul_self_nonneg _

/-- A symmetric matrix with a small form takes vectors to small vectors. -/
theorem mv_small {n : Nat} {M : Nat → Nat → K} (hM : ∀ r < n, ∀ s < n, M r s = M s r) {δ : K} (hδ : 0 ≤ δ)
    (h : ∀ x, |vbil n M x x| ≤ δ * vdot n x x) (u : Nat → K) : vdot n (mv n M u) (mv n M u) ≤ δ ^ 2 * vdot n u u := by
  obtain ⟨y, hy⟩ : ∃ y, y = mv n M u := ⟨_, rfl⟩
  rw [← hy]
  have e1 : vbil n M y u = vdot n y y := by rw [vbil_mv, ← hy]
  have key : ∀ t : K, 2 * t * vdot n y y ≤ δ * (vdot n u u + t * t * vdot n y y) := by
    intro t
    have a1 := h fun k => u k + t * y k
    have a2 := h fun k => u k + (-t) * y k
    rw [vbil_add, vdot_add, vbil_flip hM u y, e1] at a1 a2
    have b1 := (abs_le.1 a1).2
    have b2 := (abs_le.1 a2).1
    nlinarith
  rcases eq_or_lt_of_le hδ with h0 | h0
  · have := key 1
    rw [← h0] at this ⊢
    have := vdot_nn n u
    nlinarith
  · have := key δ⁻¹
    have h1 : δ * δ⁻¹ = 1 := mul_inv_cancel₀ h0.ne'
    have h2 : δ * (2 * δ⁻¹ * vdot n y y) ≤ δ * (δ * (vdot n u u + δ⁻¹ * δ⁻¹ * vdot n y y)) := mul_le_mul_of_nonneg_left this hδ
    have h3 : δ * (2 * δ⁻¹ * vdot n y y) = 2 * vdot n y y := by linear_combination 2 * vdot n y y * h1
    have h4 : δ * (δ * (vdot n u u + δ⁻¹ * δ⁻¹ * vdot n y y)) = δ ^ 2 * vdot n u u + vdot n y y := by
      linear_combination vdot n y y * (δ * δ⁻¹ + 1) * h1
    rw [h3, h4] at h2
    linarith

/-- What `B` makes of a combination of the columns, beside what it would be for eigenvectors. -/
def offEig (n : Nat) (B : Nat → Nat → K) (Q d u : Nat → K) (r : Nat) : K := mv n B (app n Q u) r - app n Q (fun k => d k * u k) r

theorem Diag.small {n : Nat} {B : Nat → Nat → K} (hB : ∀ r s, B r s = B s r) {Q d : Nat → K} {δ : K} (hδ : 0 ≤ δ) (h : Diag n B Q d δ) (u : Nat → K) :
    vdot n (offEig n B Q d u) (offEig n B Q d u) ≤ δ ^ 2 * vdot n u u := by
  obtain ⟨M, hMd⟩ : ∃ M : Nat → Nat → K, M = fun a b => (∑ r ∈ range n, ∑ c ∈ range n, B r c * Q (r * n + a) * Q (c * n + b)) - if a = b then d a else 0 := ⟨_, rfl⟩
  have hM : ∀ a b, M a b = M b a := by
    intro a b
    rw [hMd]
    dsimp only
    congr 1
    · rw [sum_comm]
      exact sum_congr rfl fun r _ => sum_congr rfl fun s _ => by rw [hB s r]; ring
    · by_cases hab : a = b
      · rw [hab]
      · rw [if_neg hab, if_neg (Ne.symm hab)]
  have hf : ∀ x, vbil n M x x = vbil n B (app n Q x) (app n Q x) - ∑ k ∈ range n, d k * (x k * x k) := by
    intro x
    rw [vbil_app, hMd]
    unfold vbil
    rw [← sum_sub_distrib]
    refine sum_congr rfl fun a ha => ?_
    rw [show d a * (x a * x a) = ∑ b ∈ range n, (if a = b then d a else 0) * x a * x b by
      rw [sum_eq_single a]
      · rw [if_pos rfl]; ring
      · intro b _ hb; rw [if_neg (Ne.symm hb)]; ring
      · intro h; exact absurd ha h, ← sum_sub_distrib]
    exact sum_congr rfl fun b _ => by ring
  have h1 := mv_small (n := n) (fun r _ s _ => hM r s) hδ (fun x => by rw [hf]; exact h.form x) u
  have h2 : ∀ r < n, offEig n B Q d u r = app n Q (mv n M u) r := by
    intro r hr
    have e1 : ∀ a ∈ range n, mv n M u a = (∑ s ∈ range n, Q (s * n + a) * mv n B (app n Q u) s) - d a * u a := by
      intro a ha
      unfold mv app
      rw [hMd]
      dsimp only
      simp only [sub_mul, sum_sub_distrib]
      congr 1
      · simp only [mul_sum, sum_mul]
        rw [sum_comm]
        refine sum_congr rfl fun s _ => ?_
        rw [sum_comm]
        exact sum_congr rfl fun c _ => sum_congr rfl fun b _ => by ring
      · rw [sum_eq_single a]
        · rw [if_pos rfl]
        · intro b _ hb; rw [if_neg (Ne.symm hb)]; ring
        · intro h; exact absurd ha h
    unfold offEig
    rw [show app n Q (mv n M u) r = ∑ a ∈ range n, Q (r * n + a) * mv n M u a from rfl, sum_congr rfl fun a ha => by rw [e1 a ha]]
    simp only [mul_sub, sum_sub_distrib]
    rw [expand h.orth _ r hr]
    rfl
  rw [vdot_app_congr h2 h2, h.dot]
  exact h1

/-- The diagonal is bounded by the form. -/
theorem Diag.le {n : Nat} {B : Nat → Nat → K} {Q d : Nat → K} {δ ρ : K} (h : Diag n B Q d δ) (hρ : ∀ y, |vbil n B y y| ≤ ρ * vdot n y y) : ∀ k < n, |d k| ≤ ρ + δ := by
  intro k hk
  have h1 := h.form (vunit k)
  have h2 := hρ (app n Q (vunit k))
  rw [h.dot] at h2
  rw [vdot_unit hk, show vunit (K := K) k k = 1 from if_pos rfl, mul_one] at h1 h2
  rw [show ∑ j ∈ range n, d j * (vunit k j * vunit k j) = d k by
    rw [sum_eq_single k]
    · rw [show vunit (K := K) k k = 1 from if_pos rfl]; ring
    · intro b _ hb; rw [show vunit (K := K) k b = 0 from if_neg hb]; ring
    · intro h; exact absurd (mem_range.2 hk) h] at h1
  have a1 := abs_le.1 h1
  have a2 := abs_le.1 h2
  rw [abs_le]
  constructor <;> linarith

/-- The diagonal is away from zero when the matrix is. -/
theorem Diag.ge {n : Nat} {B : Nat → Nat → K} (hB : ∀ r s, B r s = B s r) {Q d : Nat → K} {δ μ : K} (hδ : 0 ≤ δ) (hμ0 : 0 ≤ μ) (h : Diag n B Q d δ)
    (hμ : ∀ y, μ ^ 2 * vdot n y y ≤ vdot n (mv n B y) (mv n B y)) : ∀ k < n, μ - δ ≤ |d k| := by
  intro k hk
  obtain ⟨q, hq⟩ : ∃ q, q = app n Q (vunit k) := ⟨_, rfl⟩
  obtain ⟨w, hw⟩ : ∃ w, w = offEig n B Q d (vunit k) := ⟨_, rfl⟩
  have hs := h.small hB hδ (vunit k)
  rw [← hw, vdot_unit hk, show vunit (K := K) k k = 1 from if_pos rfl, mul_one] at hs
  have hqq : vdot n q q = 1 := by rw [hq, h.dot, vdot_unit hk]; exact if_pos rfl
  have hm := hμ q
  have e1 : ∀ r < n, mv n B q r = w r + d k * q r := by
    intro r _
    rw [hw, hq]
    unfold offEig
    rw [show app n Q (fun j => d j * vunit k j) r = d k * app n Q (vunit k) r by
      unfold app
      rw [mul_sum]
      refine sum_congr rfl fun c _ => ?_
      unfold vunit
      by_cases hc : c = k
      · rw [hc]; ring
      · dsimp only
        rw [if_neg hc, mul_zero, mul_zero, mul_zero]]
    ring
  rw [vdot_app_congr e1 e1, vdot_add, hqq] at hm
  have hcs : vdot n w q ^ 2 ≤ vdot n w w * vdot n q q := by
    have := sum_mul_sq_le_sq_mul_sq (range n) w q
    unfold vdot
    simpa only [pow_two] using this
  rw [hqq, mul_one] at hcs
  have h3 : |vdot n w q| ≤ δ := abs_le_of_sq_le_sq (hcs.trans hs) hδ
  have h4 : d k * vdot n w q ≤ |d k| * δ := (le_abs_self _).trans (by rw [abs_mul]; exact mul_le_mul_of_nonneg_left h3 (abs_nonneg _))
  have h5 : d k * d k = |d k| * |d k| := (abs_mul_abs_self _).symm
  have h6 : μ ^ 2 ≤ (|d k| + δ) ^ 2 := by nlinarith
  have := abs_le_of_sq_le_sq h6 (by have := abs_nonneg (d k); linarith)
  linarith [le_abs_self μ]

/-! ## `bksub_eig` -/

omit [LinearOrder K] [IsStrictOrderedRing K] in
theorem orth_coord {n : Nat} {Q : Nat → K} (h : ∀ a < n, ∀ b < n, colDot n Q a b = if a = b then 1 else 0) (u : Nat → K) : ∀ k < n,
    ∑ s ∈ range n, Q (s * n + k) * app n Q u s = u k := by
  intro k hk
  unfold app
  simp only [mul_sum]
  rw [sum_comm, sum_eq_single k]
  · have := h k hk k hk
    rw [if_pos rfl] at this
    unfold colDot at this
    rw [show (∑ s ∈ range n, Q (s * n + k) * (Q (s * n + k) * u k)) = (∑ s ∈ range n, Q (s * n + k) * Q (s * n + k)) * u k by
      rw [sum_mul]; exact sum_congr rfl fun s _ => by ring, this, one_mul]
  · intro c hc hck
    have := h k hk c (mem_range.1 hc)
    rw [if_neg (Ne.symm hck)] at this
    unfold colDot at this
    rw [show (∑ s ∈ range n, Q (s * n + k) * (Q (s * n + c) * u c)) = (∑ s ∈ range n, Q (s * n + k) * Q (s * n + c)) * u c by
      rw [sum_mul]; exact sum_congr rfl fun s _ => by ring, this, zero_mul]
  · intro h; exact absurd (mem_range.2 hk) h

/-- C92: `bksub_eig` for one right-hand side and orthonormal columns: the part of the solution along a column is the part of the right-hand side
divided by the number of the column, and zero where that number is zero. -/
theorem C92_bksub {n : Nat} {Q : Nat → K} (h : ∀ a < n, ∀ b < n, colDot n Q a b = if a = b then 1 else 0) (d b : Nat → K) :
    (∀ k < n, (d k ≠ 0 → d k * ∑ s ∈ range n, Q (s * n + k) * bksubEig n Q d b 1 0 s = ∑ s ∈ range n, Q (s * n + k) * b s) ∧
      (d k = 0 → ∑ s ∈ range n, Q (s * n + k) * bksubEig n Q d b 1 0 s = 0)) ∧
    ∀ j, n ≤ j → bksubEig n Q d b 1 0 j = b j := by
  refine ⟨fun k hk => ?_, fun j hj => by rw [bksubEig_eq, if_neg (by omega)]⟩
  have e1 : ∑ s ∈ range n, Q (s * n + k) * bksubEig n Q d b 1 0 s = if d k ≠ 0 then (∑ s ∈ range n, Q (s * n + k) * b s) / d k else 0 := by
    rw [sum_congr rfl fun s hs => by rw [bksubEig_eq, if_pos (mem_range.1 hs)]]
    simp only [Nat.mul_one, Nat.add_zero]
    exact orth_coord h _ k hk
  rw [e1]
  constructor
  · intro h0; rw [if_pos h0]; field_simp
  · intro h0; rw [if_neg (by simp [h0])]

/-- C92, negation: `bksub_eig` writes to the first `n` numbers whatever the number of right-hand sides and the column asked for: for two or more
right-hand sides and rows, the last number of the column keeps the right-hand side. -/
theorem C92_columns_broken {n p : Nat} (hn : 2 ≤ n) (hp : 2 ≤ p) (Q d b : Nat → K) (c : Nat) :
    bksubEig n Q d b p c ((n - 1) * p + c) = b ((n - 1) * p + c) := by
  rw [bksubEig_eq, if_neg]
  have : (n - 1) * 2 ≤ (n - 1) * p := Nat.mul_le_mul_left _ hp
  omega

/-! ## `equ_eig` -/

/-- The parts of `b` along the columns over the numbers. -/
def coefs (n : Nat) (Q d b : Nat → K) (k : Nat) : K := (∑ s ∈ range n, Q (s * n + k) * b s) / d k

omit [LinearOrder K] [IsStrictOrderedRing K] in
theorem coefs_back {n : Nat} {Q d : Nat → K} (h : ∀ a < n, ∀ b < n, colDot n Q a b = if a = b then 1 else 0) (hd : ∀ k < n, d k ≠ 0) (b : Nat → K) :
    ∀ r < n, app n Q (fun k => d k * coefs n Q d b k) r = b r := by
  intro r hr
  rw [← expand h b r hr]
  unfold app coefs
  refine sum_congr rfl fun c hc => ?_
  have := hd c (mem_range.1 hc)
  field_simp

theorem coefs_small {n : Nat} {B : Nat → Nat → K} {Q d : Nat → K} {δ μ : K} (h : Diag n B Q d δ) (hμ0 : 0 < μ) (hμ : ∀ k < n, μ ≤ |d k|) (b : Nat → K) :
    μ ^ 2 * vdot n (coefs n Q d b) (coefs n Q d b) ≤ vdot n b b := by
  have hd : ∀ k < n, d k ≠ 0 := fun k hk h0 => by have := hμ k hk; rw [h0, abs_zero] at this; linarith
  rw [vdot_app_congr (fun r hr => (coefs_back h.orth hd b r hr).symm) (fun r hr => (coefs_back h.orth hd b r hr).symm), h.dot]
  unfold vdot
  rw [mul_sum]
  refine sum_le_sum fun k hk => ?_
  have h1 : μ ^ 2 ≤ d k ^ 2 := by rw [← sq_abs (d k)]; exact pow_le_pow_left₀ hμ0.le (hμ k (mem_range.1 hk)) 2
  have := mul_le_mul_of_nonneg_right h1 (mul_self_nonneg (coefs n Q d b k))
  nlinarith

end OP.Lin
