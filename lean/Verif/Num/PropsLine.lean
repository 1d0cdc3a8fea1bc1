import Verif.Num.FzeroProps
import Mathlib.Tactic.FieldSimp
import Mathlib.Tactic.LinearCombination
/-!
# C58: roots of straight lines

What the search achieves at all: on a straight line one step of the first loop crosses the root if it is within reach, and the second loop ends at the exact root.
-/
namespace OP.Num

variable {K : Type} [Field K] [LinearOrder K] [IsStrictOrderedRing K]

/-- The step of the second loop from a fresh bracket on a line goes to the root. -/
theorem propose_line (v : Env K) {m c x y z X Y Z : K} (hX : X = m * x + c) (hY : Y = m * y + c) (hz : z = x ∨ z = y) (hle : |X| ≤ |Y|)
    (hs : (0 < X ∧ Y < 0) ∨ (X < 0 ∧ 0 < Y)) (ht : 2 * tol v x < |y - x|) (h0 : 0 ≤ tol v x) :
    m * (x + (propose v ⟨x, y, z, y, X, Y, Z, Y, x - y, x - y, false⟩).1) + c = 0 := by
  have hY0 : Y ≠ 0 := by rcases hs with h | h; exacts [h.2.ne, h.2.ne']
  have hX0 : X ≠ 0 := by rcases hs with h | h; exacts [h.1.ne', h.1.ne]
  have hyx : y - x ≠ 0 := by
    intro h
    rw [h, abs_zero] at ht
    linarith
  set t := X / Y with htd
  have htn : t < 0 := by
    rcases hs with h | h
    · exact div_neg_of_pos_of_neg h.1 h.2
    · exact div_neg_of_neg_of_pos h.1 h.2
  have ht1 : -1 ≤ t := by
    have : |t| ≤ 1 := by rw [htd, abs_div]; exact div_le_one_of_le₀ hle (abs_nonneg _)
    exact (abs_le.1 this).1
  have hXt : X = t * Y := by rw [htd]; field_simp
  have hm : m * (y - x) = Y - X := by rw [hX, hY]; ring
  have hfit : fit v ⟨x, y, z, y, X, Y, Z, Y, x - y, x - y, false⟩ = (((y - x) * t, 1 - t), false) := by
    unfold fit
    dsimp only
    rw [if_neg (by rintro ⟨h1, -, h3⟩; rcases hz with h | h; exacts [h3 h.symm, h1 h.symm]), ← htd, if_neg]
    rintro (h | h)
    · exact (mul_ne_zero hyx htn.ne) h
    · rw [abs_mul, abs_mul, abs_of_neg htn, abs_of_pos (show (0 : K) < 1 - t by linarith), abs_sub_comm x y] at h
      have := abs_nonneg (y - x)
      nlinarith
  unfold propose
  rw [hfit]
  dsimp only
  set p := if (y - x) * t > 0 then (y - x) * t else -((y - x) * t) with hp
  set q := if (y - x) * t > 0 then -(1 - t) else 1 - t with hq
  have hpq : p / q = -((y - x) * t) / (1 - t) := by
    rw [hp, hq]
    by_cases h : (y - x) * t > 0
    · rw [if_pos h, if_pos h, div_neg, neg_div]
    · rw [if_neg h, if_neg h]
  have hpv : p = |y - x| * -t := by
    rw [hp]
    by_cases h : (y - x) * t > 0
    · rw [if_pos h, ← abs_of_neg htn, ← abs_mul, abs_of_pos h]
    · rw [if_neg h, ← abs_of_neg htn, ← abs_mul, abs_of_nonpos (not_lt.1 h)]
  have hqv : (y - x) * q = |y - x| * (1 - t) := by
    rw [hq]
    by_cases h : (y - x) * t > 0
    · have : y - x < 0 := by
        by_contra hc
        nlinarith [mul_nonpos_of_nonneg_of_nonpos (not_lt.1 hc) htn.le]
      rw [if_pos h, abs_of_neg this]; ring
    · have : 0 < y - x := by
        by_contra hc
        exact h (mul_pos_of_neg_of_neg (lt_of_le_of_ne (not_lt.1 hc) hyx) htn)
      rw [if_neg h, abs_of_pos this]
  have hqa : |q| = 1 - t := by
    rw [hq]
    by_cases h : (y - x) * t > 0
    · rw [if_pos h, abs_neg, abs_of_pos (by linarith)]
    · rw [if_neg h, abs_of_pos (by linarith)]
  have hpos : 0 < |y - x| := abs_pos.2 hyx
  by_cases hc : p ≠ 0 ∧ q ≠ 0 ∧ 2 * p < 3 / 2 * (y - x) * q - |tol v x * q| ∧ 2 * p < |(x - y) * q|
  · rw [if_pos hc]
    dsimp only
    rw [hpq]
    have h1 : (1 : K) - t ≠ 0 := by linarith
    field_simp
    linear_combination (1 - t) * (-hX) - t * hm + hXt
  · rw [if_neg hc]
    dsimp only
    have : t = -1 := by
      by_contra hne
      have hlt : -1 < t := lt_of_le_of_ne ht1 (Ne.symm hne)
      apply hc
      refine ⟨?_, ?_, ?_, ?_⟩
      · rw [hpv]; exact (mul_pos hpos (by linarith)).ne'
      · intro h; rw [h, abs_zero] at hqa; linarith
      · rw [mul_assoc, hqv, hpv, abs_mul, hqa, abs_of_nonneg h0]
        nlinarith [mul_nonneg hpos.le (show (0 : K) ≤ 1 + t by linarith), mul_pos (show (0 : K) < |y - x| - 2 * tol v x by linarith) (show (0 : K) < 1 - t by linarith)]
      · rw [abs_mul, hqa, hpv, abs_sub_comm x y]
        nlinarith [mul_pos hpos (show (0 : K) < 1 + t by linarith)]
    rw [this] at hXt
    linear_combination 1 / 2 * hm - hX + 1 / 2 * hXt

/-- The second loop ends there. -/
theorem hunt_line (v : Env K) (he : ∀ a, 0 ≤ v.eps a) {m c x y z Z : K} (hz : z = x ∨ z = y) (hle : |m * x + c| ≤ |m * y + c|)
    (hs : 0 < m * x + c ↔ ¬ 0 < m * y + c) (n : Nat) :
    ∃ r, hunt (fun t => m * t + c) v (n + 2) ⟨x, y, z, y, m * x + c, m * y + c, Z, m * y + c, x - y, x - y, false⟩ = .root r ∧
      (m * r + c = 0 ∨ (r = x ∧ |y - x| ≤ 2 * tol v x)) := by
  have hxy : x - y ≠ 0 := by
    intro h
    rw [sub_eq_zero.1 h] at hs
    tauto
  by_cases hX : m * x + c = 0
  · refine ⟨x, ?_, .inl hX⟩
    unfold hunt
    exact if_pos (.inl hX)
  by_cases ht : |y - x| ≤ 2 * tol v x
  · refine ⟨x, ?_, .inr ⟨rfl, ht⟩⟩
    unfold hunt
    rw [if_neg (by dsimp only; tauto)]
    dsimp only
    rw [if_pos ht]
  have h0 : 0 ≤ tol v x := by unfold tol; have := he (max |x| (1 / 1000000)); linarith
  have hs' : (0 < m * x + c ∧ m * y + c < 0) ∨ (m * x + c < 0 ∧ 0 < m * y + c) := by
    by_cases hp : 0 < m * x + c
    · refine .inl ⟨hp, lt_of_le_of_ne (not_lt.1 (hs.1 hp)) fun h => ?_⟩
      rw [h, abs_zero, abs_of_pos hp] at hle
      linarith
    · exact .inr ⟨lt_of_le_of_ne (not_lt.1 hp) hX, by by_contra h; exact hp (hs.2 h)⟩
  have hr := propose_line v (Z := Z) rfl rfl hz hle hs' (not_le.1 ht) h0
  set s : Hunt K := ⟨x, y, z, y, m * x + c, m * y + c, Z, m * y + c, x - y, x - y, false⟩ with hsd
  refine ⟨x + (propose v s).1, ?_, .inl hr⟩
  unfold hunt
  rw [if_neg (by rw [hsd]; dsimp only; tauto)]
  dsimp only
  rw [if_neg (show ¬ |s.c - s.x| ≤ 2 * tol v s.x from ht)]
  have hmv : move (fun t => m * t + c) v s = { s with z := s.y, Z := s.Y, y := s.x, Y := s.X, x := s.x + (propose v s).1, X := 0, e := (propose v s).2.1, d := (propose v s).1, fp := (propose v s).2.2 } := by
    unfold move
    dsimp only
    rw [if_neg]
    · rw [show m * (s.x + (propose v s).1) + c = 0 from hr]
    · rintro ⟨-, h⟩
      rw [show m * (s.x + (propose v s).1) + c = 0 from hr, abs_zero] at h
      exact absurd (he s.C) (not_le.2 h)
  rw [hmv]
  have key : ∀ t : Hunt K, t.X = 0 → t.x = x + (propose v s).1 → hunt (fun t => m * t + c) v (n + 1) t = .root (x + (propose v s).1) := by
    intro t h1 h2
    unfold hunt
    rw [if_pos (.inl h1), h2]
  unfold other
  dsimp only
  by_cases hss : sameSide 0 s.C = true
  · rw [if_pos hss, if_neg (show ¬ |s.X| < |(0 : K)| by rw [abs_zero]; have := abs_nonneg s.X; exact not_lt.2 this)]
    have hC : ¬ 0 < m * y + c := by
      intro h
      simp [sameSide, hsd, h] at hss
    have hXp : 0 < m * x + c := hs.2 hC
    rw [if_neg (by simp [sameSide, hsd, hXp])]
    exact key _ rfl rfl
  · rw [if_neg hss, if_neg hss]
    exact key _ rfl rfl

/-- **C58**, lines: between two points on different sides of a straight line, the exact root is returned, unless the two points are already closer than the tolerance. -/
theorem C58_line (v : Env K) (he : ∀ a, 0 ≤ v.eps a) (m c x y : K) (ll lr : Option K) (hs : 0 < m * x + c ↔ ¬ 0 < m * y + c) :
    ∃ r, core (fun t => m * t + c) v x y ll lr = .root r ∧ (m * r + c = 0 ∨ ((r = x ∨ r = y) ∧ |y - x| ≤ 2 * tol v r)) := by
  unfold core search
  by_cases hsw : |m * y + c| < |m * x + c|
  · simp only [if_pos hsw]
    rw [if_pos (by
      have : sameSide (m * x + c) (m * y + c) = false := by
        unfold sameSide
        by_cases h : 0 < m * x + c <;> by_cases h' : 0 < m * y + c <;> simp [h, h'] <;> tauto
      rw [this]; rfl)]
    obtain ⟨r, h1, h2⟩ := hunt_line v he (z := y) (x := y) (y := x) (Z := m * y + c) (.inl rfl) hsw.le (by tauto) 98
    exact ⟨r, h1, h2.imp id fun h => ⟨.inr h.1, by rw [h.1, abs_sub_comm]; exact h.2⟩⟩
  · simp only [if_neg hsw]
    rw [if_pos (by
      have : sameSide (m * y + c) (m * x + c) = false := by
        unfold sameSide
        by_cases h : 0 < m * x + c <;> by_cases h' : 0 < m * y + c <;> simp [h, h'] <;> tauto
      rw [this]; rfl)]
    obtain ⟨r, h1, h2⟩ := hunt_line v he (z := y) (x := x) (y := y) (Z := m * y + c) (.inr rfl) (not_lt.1 hsw) hs 98
    exact ⟨r, h1, h2.imp id fun h => ⟨.inl h.1, by rw [h.1]; exact h.2⟩⟩

/-- **C58**, lines: the first loop, without limits, goes a twentieth beyond the root `ρ` of a straight line if that is within 7.6 intervals of the nearer point and not
next to it. -/
theorem C58_cross (v : Env K) {m ρ x y : K} (hm : m ≠ 0) (hxy : x ≠ y) (h1 : v.eps (x - y) < 21 / 20 * |ρ - x|) (h2 : |ρ - x| < 76 / 10 * |x - y|) :
    further v x y (m * (x - ρ)) (m * (y - ρ)) none none - ρ = (ρ - x) / 20 := by
  have hne : m * (y - ρ) ≠ m * (x - ρ) := by
    intro h
    exact hxy (by linear_combination -(mul_left_cancel₀ hm h))
  have hd : 105 / 100 * (if m * (y - ρ) ≠ m * (x - ρ) then -(m * (x - ρ)) * (x - y) / (m * (x - ρ) - m * (y - ρ)) else x - y) = 21 / 20 * (ρ - x) := by
    rw [if_pos hne]
    have : m * (x - ρ) - m * (y - ρ) ≠ 0 := sub_ne_zero.2 (Ne.symm hne)
    have h3 : -(m * (x - ρ)) * (x - y) / (m * (x - ρ) - m * (y - ρ)) = ρ - x := by
      rw [div_eq_iff this]; ring
    rw [h3]; ring
  unfold further extent
  dsimp only
  rw [hd, if_pos]
  · ring
  · rw [abs_mul, abs_of_pos (show (0 : K) < 21 / 20 by norm_num)]
    refine ⟨h1, by linarith [abs_nonneg (x - y)], by simp, by simp⟩

/-- **C58**, the first loop without limits never goes further than eight times the interval it comes from, and never nowhere. -/
theorem C58_reach (v : Env K) (he : ∀ a, 0 ≤ v.eps a) {x y X Y : K} (hxy : x ≠ y) :
    further v x y X Y none none ≠ x ∧ |further v x y X Y none none - x| < 8 * |x - y| := by
  have h0 : 0 < |x - y| := abs_pos.2 (sub_ne_zero.2 hxy)
  unfold further extent
  dsimp only
  generalize 105 / 100 * (if Y ≠ X then -X * (x - y) / (X - Y) else x - y) = d
  split_ifs with h
  · obtain ⟨a, b, -, -⟩ := h
    refine ⟨fun hh => ?_, by rw [add_sub_cancel_left]; exact b⟩
    rw [add_eq_left] at hh
    rw [hh, abs_zero] at a
    exact absurd (he _) (not_le.2 a)
  · refine ⟨fun hh => ?_, by rw [add_sub_cancel_left, abs_mul, abs_two]; linarith⟩
    rw [add_eq_left] at hh
    have := mul_eq_zero.1 hh
    simp [sub_eq_zero, hxy] at this

/-- A line with a root between the points. -/
example : ∃ r, core (fun t : ℚ => 3 * t + -1) exEnv 0 1 none none = .root r ∧ 3 * r + -1 = 0 := by
  obtain ⟨r, h1, h2⟩ := C58_line exEnv (fun _ => by simp [exEnv]) 3 (-1) 0 1 none none (by norm_num)
  refine ⟨r, h1, h2.resolve_right ?_⟩
  rintro ⟨-, h⟩
  simp [tol, exEnv] at h
  norm_num at h

/-! ## The bracket -/

/-- The step goes towards the other end of the bracket, by at most three quarters of the way. -/
theorem propose_part (v : Env K) (s : Hunt K) : ∃ θ : K, 0 < θ ∧ θ ≤ 3 / 4 ∧ (propose v s).1 = θ * (s.c - s.x) := by
  unfold propose
  dsimp only
  set r := fit v s
  generalize hp : (if r.1.1 > 0 then r.1.1 else -r.1.1) = p
  generalize hq : (if r.1.1 > 0 then -r.1.2 else r.1.2) = q
  have hp0 : 0 ≤ p := by
    rw [← hp]
    by_cases h : r.1.1 > 0
    · rw [if_pos h]; exact h.le
    · rw [if_neg h]; linarith
  split_ifs with h
  · obtain ⟨h1, h2, h3, -⟩ := h
    have hpos : 0 < p := lt_of_le_of_ne hp0 (Ne.symm h1)
    have habs := abs_nonneg (tol v s.x * q)
    have hm : 0 < (s.c - s.x) * q := by linarith
    refine ⟨p / ((s.c - s.x) * q), div_pos hpos hm, ?_, ?_⟩
    · rw [div_le_iff₀ hm]; linarith
    · have h4 : s.c - s.x ≠ 0 := fun e => by rw [e, zero_mul] at hm; exact lt_irrefl _ hm
      dsimp only
      field_simp
  · exact ⟨1 / 2, by norm_num, by norm_num, rfl⟩

/-- **C58**, the second loop: each round takes a point between the ends of the bracket, at most three quarters of the way to the other end, and
continues with the part on whose ends the function differs in sign.  The bracket always gets shorter, and to half of its length after a round that
bisects: when the fitted curve is refused, or when its step is very small without a good value. -/
theorem C58_shrinks (f : K → K) (v : Env K) (s : Hunt K) (hs : s.c ≠ s.x) :
    let t := other (move f v s)
    |t.c - t.x| < |s.c - s.x| ∧
    ((propose v s).1 = 1 / 2 * (s.c - s.x) ∨ |(propose v s).1| < tol v s.x ∧ |f (s.x + (propose v s).1)| > v.eps s.C →
      |t.c - t.x| = |s.c - s.x| / 2) ∧ ∃ θ, 0 < θ ∧ θ ≤ 3 / 4 ∧ (move f v s).x = s.x + θ * (s.c - s.x) := by
  have hm : 0 < |s.c - s.x| := abs_pos.2 (sub_ne_zero.2 hs)
  have key : ∃ θ, 0 < θ ∧ θ ≤ 3 / 4 ∧ (move f v s).x = s.x + θ * (s.c - s.x) ∧
      ((propose v s).1 = 1 / 2 * (s.c - s.x) ∨ |(propose v s).1| < tol v s.x ∧ |f (s.x + (propose v s).1)| > v.eps s.C → θ = 1 / 2) := by
    by_cases h : |(propose v s).1| < tol v s.x ∧ |f (s.x + (propose v s).1)| > v.eps s.C
    · refine ⟨1 / 2, by norm_num, by norm_num, ?_, fun _ => rfl⟩
      unfold move
      dsimp only
      rw [if_pos h]
    · obtain ⟨θ, h1, h2, h3⟩ := propose_part v s
      refine ⟨θ, h1, h2, ?_, ?_⟩
      · unfold move
        dsimp only
        rw [if_neg h, h3]
      · rintro (g | g)
        · rw [h3] at g
          exact mul_right_cancel₀ (sub_ne_zero.2 hs) g
        · exact absurd g h
  obtain ⟨θ, h1, h2, h3, h4⟩ := key
  have hy : (move f v s).y = s.x := by unfold move; dsimp only; split <;> rfl
  have hc : (move f v s).c = s.c := by unfold move; dsimp only; split <;> rfl
  have hlen : |(other (move f v s)).c - (other (move f v s)).x| = θ * |s.c - s.x| ∨
      |(other (move f v s)).c - (other (move f v s)).x| = (1 - θ) * |s.c - s.x| := by
    unfold other
    split
    · left
      split
      · dsimp only
        rw [h3, hy, add_sub_cancel_left, abs_mul, abs_of_pos h1]
      · dsimp only
        rw [h3, hy, sub_add_cancel_left, abs_neg, abs_mul, abs_of_pos h1]
    · right
      rw [h3, hc, show s.c - (s.x + θ * (s.c - s.x)) = (1 - θ) * (s.c - s.x) by ring, abs_mul, abs_of_pos (by linarith)]
  refine ⟨?_, fun h => ?_, θ, h1, h2, h3⟩
  · rcases hlen with e | e <;> rw [e] <;> nlinarith
  · have := h4 h
    rcases hlen with e | e <;> rw [e, this] <;> ring

/-- A bracket from 0 to 4 with the values 3 and −1: the fit is refused, as the last step was too short, and the bracket is halved. -/
example : (propose (⟨fun _ => 1 / 1000, fun a => a, fun a _ => a⟩ : Env ℚ) ⟨0, 4, 4, 4, 3, -1, -1, -1, 1, 1, false⟩).1 = 2 := by decide +kernel

end OP.Num
