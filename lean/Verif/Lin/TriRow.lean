import Verif.Lin.TriLemmas
/-!
# Householder reduction: one row
-/
namespace OP.Lin
open Finset
variable {K : Type} [Field K] [LinearOrder K]

/-- The symmetric matrix when the rows below `k` are not yet reduced. -/
def stg (n k : Nat) (A e : Nat → K) (r s : Nat) : K :=
  if max r s < k then A (max r s * n + min r s) else if min r s = max r s then A (max r s * n + max r s)
  else if min r s + 1 = max r s then e (max r s) else 0

theorem stg_symm (n k : Nat) (A e : Nat → K) (r s : Nat) : stg n k A e r s = stg n k A e s r := by
  unfold stg; rw [max_comm, min_comm]

theorem stg_le {n k : Nat} {A e : Nat → K} {r s : Nat} (h : s ≤ r) : stg n k A e r s =
    if r < k then A (r * n + s) else if s = r then A (r * n + r) else if s + 1 = r then e r else 0 := by
  unfold stg; rw [max_eq_left h, min_eq_right h]

/-- The reflection that is stored in the row `i`. -/
def house (n i : Nat) (A d : Nat → K) (x : Nat → K) : Nat → K :=
  if d i = 0 then x else refl n (fun r => if r < i then A (i * n + r) else 0) (d i) x

theorem house_zero {n i : Nat} {A d : Nat → K} (h : d i = 0) (x : Nat → K) : house n i A d x = x := if_pos h

theorem house_ne {n i : Nat} {A d : Nat → K} {H : K} (h : d i = H) (hH : H ≠ 0) (x : Nat → K) :
    house n i A d x = refl n (fun r => if r < i then A (i * n + r) else 0) H x := by
  subst h; exact if_neg hH

/-- What the reduction of a row does. -/
structure RowOk (n i : Nat) (s s' : Tri K) : Prop where
  same : ∀ r, ∀ c < n, i < r ∨ i < c ∨ r = c ∧ c = i → s'.A (r * n + c) = s.A (r * n + c)
  dsame : ∀ k, k ≠ i → s'.d k = s.d k
  esame : ∀ k, i < k → s'.e k = s.e k
  form : ∀ x y, vbil n (stg n i s'.A s'.e) x y = vbil n (stg n (i + 1) s.A s.e) (house n i s'.A s'.d x) (house n i s'.A s'.d y)
  norm : s'.d i ≠ 0 → vdot n (fun r => if r < i then s'.A (i * n + r) else 0) (fun r => if r < i then s'.A (i * n + r) else 0) = 2 * s'.d i
  col : s'.d i ≠ 0 → ∀ r < i, s'.A (r * n + i) = s'.A (i * n + r) / s'.d i

variable [IsStrictOrderedRing K]

theorem hhRow_spec {rt : K → K} (hrt : IsRoot0 rt) {n t : Nat} (hi : t + 1 < n) (s : Tri K) : RowOk n (t + 1) s (hhRow rt n (t + 1) s) := by
  have hsc : loop 0 t (fun j v => v + |s.A ((t + 1) * n + j)|) 0 = ∑ j ∈ range t, |s.A ((t + 1) * n + j)| := by
    rw [loop_add (fun j => |s.A ((t + 1) * n + j)|) 0 (Nat.zero_le t), zero_add, range_eq_Ico]
  unfold hhRow
  dsimp only
  rw [Nat.add_sub_cancel, hsc]
  by_cases h0 : ∑ j ∈ range t, |s.A ((t + 1) * n + j)| = 0
  · rw [if_pos h0]
    have hz : ∀ j < t, s.A ((t + 1) * n + j) = 0 := fun j hj =>
      abs_eq_zero.1 ((sum_eq_zero_iff_of_nonneg fun i _ => abs_nonneg _).1 h0 j (mem_range.2 hj))
    refine ⟨fun r c _ _ => rfl, fun k hk => set_ne _ _ hk, fun k hk => set_ne _ _ (by omega), fun x y => ?_, fun h => absurd (set_same _ _ _) h,
      fun h => absurd (set_same _ _ _) h⟩
    rw [house_zero (set_same _ _ _), house_zero (set_same _ _ _)]
    refine vbil_congr (fun a ha b hb => ?_) x y
    wlog hab : b ≤ a generalizing a b
    · rw [stg_symm, this b hb a ha (by omega), stg_symm]
    rw [stg_le hab, stg_le hab]
    rcases Nat.lt_trichotomy a (t + 1) with h | h | h
    · rw [if_pos h, if_pos (by omega)]
    · subst h
      rw [if_neg (by omega), if_pos (show t + 1 < t + 1 + 1 by omega)]
      by_cases h1 : b = t + 1
      · rw [if_pos h1, h1]
      · rw [if_neg h1]
        by_cases h2 : b + 1 = t + 1
        · rw [if_pos h2]
          dsimp only
          rw [set_same, show b = t by omega]
        · rw [if_neg h2, hz b (by omega)]
    · rw [if_neg (show ¬a < t + 1 by omega), if_neg (show ¬a < t + 1 + 1 by omega)]
      dsimp only
      rw [set_ne _ _ (show a ≠ t + 1 by omega)]
  · rw [if_neg h0]
    obtain ⟨S, hS⟩ : ∃ S, S = (∑ j ∈ range t, |s.A ((t + 1) * n + j)|) + |s.A ((t + 1) * n + t)| := ⟨_, rfl⟩
    rw [← hS]
    have hSpos : 0 < S := by
      have h1 : 0 ≤ ∑ j ∈ range t, |s.A ((t + 1) * n + j)| := sum_nonneg fun _ _ => abs_nonneg _
      have h2 : 0 < ∑ j ∈ range t, |s.A ((t + 1) * n + j)| := lt_of_le_of_ne h1 (Ne.symm h0)
      have h3 := abs_nonneg (s.A ((t + 1) * n + t))
      linarith
    obtain ⟨v1, v2⟩ := hhDiv_spec hi S s.A (set s.d (t + 1) 0)
    obtain ⟨v, hv⟩ : ∃ v, v = hhDiv n (t + 1) S s.A (set s.d (t + 1) 0) := ⟨_, rfl⟩
    rw [← hv] at v1 v2 ⊢
    rw [set_set, set_same, zero_add] at v2
    -- the row over the scale, and its square
    obtain ⟨a, ha⟩ : ∃ a : Nat → K, a = fun j => s.A ((t + 1) * n + j) / S := ⟨_, rfl⟩
    have hrow : ∀ j < t + 1, v.1 ((t + 1) * n + j) = a j := fun j hj => by rw [v1 _ j (by omega), if_pos ⟨rfl, hj⟩, ha]
    have hSa : ∀ j, s.A ((t + 1) * n + j) = S * a j := fun j => by rw [ha]; field_simp
    obtain ⟨σ, hσ⟩ : ∃ σ, σ = ∑ j ∈ range (t + 1), a j * a j := ⟨_, rfl⟩
    have hd : v.2 (t + 1) = σ := by rw [v2, set_same, hσ, ha]
    have hσ0 : 0 < σ := by
      refine lt_of_le_of_ne (by rw [hσ]; exact sum_nonneg fun _ _ => mul_self_nonneg _) fun h => h0 ?_
      refine sum_eq_zero fun j hj => ?_
      have := (sum_eq_zero_iff_of_nonneg fun i _ => mul_self_nonneg (a i)).1 (by rw [← hσ, h]) j (mem_range.2 (by have := mem_range.1 hj; omega))
      rw [hSa, mul_self_eq_zero.1 this, mul_zero, abs_zero]
    obtain ⟨f, hf⟩ : ∃ f, f = (if 0 ≤ v.1 ((t + 1) * n + t) then -1 else 1) * rt (v.2 (t + 1)) := ⟨_, rfl⟩
    rw [← hf]
    rw [hrow t (by omega), hd] at hf ⊢
    obtain ⟨r1, r2⟩ := hrt σ hσ0.le
    have hff : f * f = σ := by
      rw [hf]
      split
      · rw [show (-1 : K) * rt σ * (-1 * rt σ) = rt σ * rt σ by ring, r2]
      · rw [one_mul, r2]
    have haf : a t * f ≤ 0 := by
      rw [hf]
      split
      · rename_i h; nlinarith [mul_nonneg h r1]
      · rename_i h; push Not at h; rw [one_mul]; exact mul_nonpos_of_nonpos_of_nonneg h.le r1
    obtain ⟨H, hH⟩ : ∃ H, H = σ - a t * f := ⟨_, rfl⟩
    rw [← hH]
    have hH0 : H ≠ 0 := by
      have : 0 < H := by rw [hH]; linarith
      exact this.ne'
    -- the vector
    obtain ⟨A2, hA2⟩ : ∃ A2, A2 = set v.1 ((t + 1) * n + t) (a t - f) := ⟨_, rfl⟩
    rw [← hA2]
    obtain ⟨u, hu⟩ : ∃ u : Nat → K, u = fun r => if r < t + 1 then A2 ((t + 1) * n + r) else 0 := ⟨_, rfl⟩
    have uval : ∀ r, u r = if r < t then a r else if r = t then a t - f else 0 := by
      intro r
      rw [hu]
      dsimp only
      rcases Nat.lt_trichotomy r t with h | h | h
      · rw [if_pos h, if_pos (by omega), hA2, set_addr _ _ (by omega) (by omega), if_neg (by omega), hrow r (by omega)]
      · rw [if_pos (by omega), if_neg (by omega), if_pos h, h, hA2, set_same]
      · rw [if_neg (by omega), if_neg (by omega), if_neg (by omega)]
    have A2other : ∀ r, ∀ c < n, ¬(r = t + 1 ∧ c < t + 1) → A2 (r * n + c) = s.A (r * n + c) := by
      intro r c hc hne
      rw [hA2, set_addr _ _ (by omega) hc, if_neg (by omega), v1 r c hc, if_neg hne]
    have u0 : ∀ r, t < r → u r = 0 := fun r hr => by rw [uval, if_neg (by omega), if_neg (by omega)]
    have urow : ∀ r < t + 1, A2 ((t + 1) * n + r) = u r := fun r hr => by rw [hu]; dsimp only; rw [if_pos hr]
    have cut : ∀ g : Nat → K, (∀ r, t < r → g r = 0) → ∑ r ∈ range n, g r = ∑ r ∈ range (t + 1), g r := by
      intro g hg
      refine (sum_subset (range_subset_range.2 (by omega)) fun r _ hr => hg r ?_).symm
      rw [mem_range] at hr; omega
    have uu : vdot n u u = 2 * H := by
      unfold vdot
      rw [cut _ fun r hr => by rw [u0 r hr, zero_mul], sum_range_succ, uval t, if_neg (by omega), if_pos rfl,
        sum_congr rfl fun r hr => by rw [uval r, if_pos (mem_range.1 hr)], hH]
      rw [sum_range_succ] at hσ
      have : ∑ j ∈ range t, a j * a j = σ - a t * a t := by rw [hσ]; ring
      rw [this]
      linear_combination hff
    have au : ∑ r ∈ range (t + 1), a r * u r = H := by
      rw [sum_range_succ, uval t, if_neg (by omega), if_pos rfl, sum_congr rfl fun r hr => by rw [uval r, if_pos (mem_range.1 hr)], hH]
      rw [sum_range_succ] at hσ
      have : ∑ j ∈ range t, a j * a j = σ - a t * a t := by rw [hσ]; ring
      rw [this]; ring
    -- the product with the matrix
    obtain ⟨B, hB⟩ : ∃ B, B = stg n (t + 1 + 1) s.A s.e := ⟨_, rfl⟩
    obtain ⟨w, hw⟩ : ∃ w : Nat → K, w = fun r => ∑ c ∈ range n, B r c * u c := ⟨_, rfl⟩
    have wcut : ∀ r, w r = ∑ c ∈ range (t + 1), B r c * u c := fun r => by
      rw [hw]; exact cut _ fun c hc => by rw [u0 c hc, mul_zero]
    have wi : w (t + 1) = S * H := by
      rw [wcut, ← au, mul_sum]
      refine sum_congr rfl fun c hc => ?_
      have hc := mem_range.1 hc
      rw [hB, stg_le (by omega), if_pos (by omega), hSa]; ring
    have whi : ∀ r, t + 1 < r → w r = 0 := by
      intro r hr
      rw [wcut]
      refine sum_eq_zero fun c hc => ?_
      have hc := mem_range.1 hc
      rw [hB, stg_le (by omega), if_neg (by omega), if_neg (by omega), if_neg (by omega), zero_mul]
    have wlo : ∀ r < t + 1, ∑ c ∈ range (t + 1), low n A2 r c * A2 ((t + 1) * n + c) = w r := by
      intro r hr
      rw [wcut]
      refine sum_congr rfl fun c hc => ?_
      have hc := mem_range.1 hc
      rw [urow c hc]
      congr 1
      unfold low
      rw [hB]
      by_cases h : c ≤ r
      · rw [if_pos h, stg_le h, if_pos (by omega), A2other r c (by omega) (by omega)]
      · rw [if_neg h, stg_symm, stg_le (by omega), if_pos (by omega), A2other c r (by omega) (by omega)]
    obtain ⟨q, hq⟩ : ∃ q : Nat → K, q = fun r => w r / H - vdot n u w / (2 * (H * H)) * u r := ⟨_, rfl⟩
    have qi : q (t + 1) = S := by rw [hq]; dsimp only; rw [wi, u0 _ (by omega), mul_zero, sub_zero]; field_simp
    have qhi : ∀ r, t + 1 < r → q r = 0 := fun r hr => by rw [hq]; dsimp only; rw [whi r hr, u0 r (by omega), mul_zero, sub_zero, zero_div]
    -- the loops
    obtain ⟨p1, p2, p3⟩ := hhP_spec hi H A2 (set s.e (t + 1) (S * f))
    obtain ⟨p, hp⟩ : ∃ p, p = hhP n (t + 1) H A2 (set s.e (t + 1) (S * f)) := ⟨_, rfl⟩
    rw [← hp] at p1 p2 p3 ⊢
    obtain ⟨q1, q2⟩ := hhQ_spec hi H p.2.2 p.1 p.2.1
    obtain ⟨z, hz⟩ : ∃ z, z = hhQ n (t + 1) H p.2.2 p.1 p.2.1 := ⟨_, rfl⟩
    rw [← hz] at q1 q2 ⊢
    have p3' : p.2.2 / (2 * H) = vdot n u w / (2 * (H * H)) := by
      have : p.2.2 = vdot n u w / H := by
        rw [p3]
        unfold vdot
        rw [cut _ fun r hr => by rw [u0 r hr, zero_mul], sum_div]
        refine sum_congr rfl fun r hr => ?_
        rw [wlo r (mem_range.1 hr), urow r (mem_range.1 hr)]; ring
      rw [this, div_div]; congr 1; ring
    have prow : ∀ c < t + 1, p.1 ((t + 1) * n + c) = u c := fun c hc => by rw [p1 _ c (by omega), if_neg (by omega), urow c hc]
    have ze : ∀ r < t + 1, p.2.1 r - p.2.2 / (2 * H) * p.1 ((t + 1) * n + r) = q r := fun r hr => by
      rw [p2, if_pos hr, wlo r hr, prow r hr, p3', hq]
    have zA : ∀ r, ∀ c < n, z.1 (r * n + c) = if r < t + 1 ∧ c ≤ r then s.A (r * n + c) - (u r * q c + q r * u c)
        else if r = t + 1 ∧ c < t + 1 then u c else if c = t + 1 ∧ r < t + 1 then u r / H else s.A (r * n + c) := by
      intro r c hc
      rw [q1 r c hc]
      by_cases h : r < t + 1 ∧ c ≤ r
      · rw [if_pos h, if_pos h, ze c (by omega), ze r h.1, prow r h.1, prow c (by omega), p1 r c hc, if_neg (by omega), A2other r c hc (by omega)]
      · rw [if_neg h, if_neg h]
        by_cases h1 : r = t + 1 ∧ c < t + 1
        · rw [if_pos h1, h1.1, prow c h1.2]
        · rw [if_neg h1, p1 r c hc]
          by_cases h2 : c = t + 1 ∧ r < t + 1
          · rw [if_pos h2, if_pos h2, urow r h2.2]
          · rw [if_neg h2, if_neg h2, A2other r c hc h1]
    have zrow : ∀ r < t + 1, z.1 ((t + 1) * n + r) = u r := fun r hr => by rw [zA _ r (by omega), if_neg (by omega), if_pos ⟨rfl, hr⟩]
    have zu : (fun r => if r < t + 1 then z.1 ((t + 1) * n + r) else 0) = u := by
      funext r
      by_cases h : r < t + 1
      · rw [if_pos h, zrow r h]
      · rw [if_neg h, u0 r (by omega)]
    have zehi : ∀ k, t + 1 < k → z.2 k = s.e k := fun k hk => by rw [q2, if_neg (by omega), p2, if_neg (by omega), set_ne _ _ (by omega)]
    refine ⟨fun r c hc h => ?_, fun k hk => ?_, fun k hk => zehi k hk, fun x y => ?_, fun _ => ?_, fun _ r hr => ?_⟩
    · dsimp only
      rw [zA r c hc, if_neg (by omega), if_neg (by omega), if_neg (by omega)]
    · dsimp only
      rw [set_ne _ _ hk, v2, set_ne _ _ hk]
    · rw [house_ne (set_same _ _ _) hH0, house_ne (set_same _ _ _) hH0]
      dsimp only
      rw [zu, ← hB]
      refine refl_bil (w := w) (q := q) hH0 (fun r c => by rw [hB]; exact stg_symm ..) (fun r _ => by rw [hw]) (fun r _ => by rw [hq]) (fun r hr c hc => ?_) x y
      wlog hcr : c ≤ r generalizing r c
      · have := this c hc r hr (by omega)
        rw [stg_symm, this, hB, stg_symm]; ring
      rw [stg_le hcr, hB, stg_le hcr]
      rcases Nat.lt_trichotomy r (t + 1) with h | h | h
      · rw [if_pos h, if_pos (by omega), zA r c hc, if_pos ⟨h, hcr⟩]
      · subst h
        rw [if_neg (by omega), if_pos (show t + 1 < t + 1 + 1 by omega), qi, u0 (t + 1) (by omega), zero_mul, zero_add]
        by_cases h1 : c = t + 1
        · rw [if_pos h1, h1, u0 (t + 1) (by omega), mul_zero, sub_zero, zA _ _ hr, if_neg (by omega), if_neg (by omega), if_neg (by omega)]
        · rw [if_neg h1, hSa, uval c]
          by_cases h2 : c + 1 = t + 1
          · rw [if_pos h2, if_neg (by omega), if_pos (by omega), q2, if_neg (by omega), p2, if_neg (by omega), set_same, show c = t by omega]; ring
          · rw [if_neg h2, if_pos (by omega)]; ring
      · have zrr : z.1 (r * n + r) = s.A (r * n + r) := by rw [zA r r hr, if_neg (by omega), if_neg (by omega), if_neg (by omega)]
        rw [if_neg (show ¬r < t + 1 by omega), if_neg (show ¬r < t + 1 + 1 by omega), u0 r (by omega), qhi r h, zero_mul, zero_mul, add_zero,
          sub_zero, zehi r h, zrr]
    · dsimp only
      rw [set_same, zu, uu]
    · dsimp only
      rw [set_same, zrow r hr, zA r (t + 1) hi, if_neg (by omega), if_neg (by omega), if_pos ⟨rfl, hr⟩]

end OP.Lin
