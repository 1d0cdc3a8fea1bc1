import Verif.Pave.LineSearch
import Mathlib.Tactic.Linarith
import Mathlib.Tactic.Ring
import Mathlib.Tactic.FieldSimp
import Mathlib.Tactic.Positivity
import Mathlib.Tactic.NormNum
import Mathlib.Analysis.Convex.SpecificFunctions.Basic
/-!
# C133: the line search and the conjugate gradients of the back-calculation
-/
namespace OP.Pave.LineSearch

open OP.Num OP.Lin

variable {K : Type} [Field K] [LinearOrder K]

/-! ## The loops -/

/-- Three points with the values of a function. -/
structure Good (g : K → K) (t : Tri K) : Prop where
  A : t.A = g t.a
  B : t.B = g t.b
  C : t.C = g t.c

theorem widen_good {g : K → K} {gr : K} {t : Tri K} (h : Good g t) (hB : t.B ≥ t.C) :
    Good g (widen g gr t) ∧ (widen g gr t).B ≤ t.B := by
  dsimp only [widen]
  split_ifs with h1 h2 h3 h4 h5
  · exact ⟨⟨h.B, rfl, h.C⟩, (h2.le).trans hB⟩
  · exact ⟨⟨h.A, h.B, rfl⟩, le_rfl⟩
  · exact ⟨⟨h.B, h.C, rfl⟩, hB⟩
  · exact ⟨⟨h.C, rfl, rfl⟩, h5.le.trans hB⟩
  · exact ⟨⟨h.B, h.C, rfl⟩, hB⟩
  · exact ⟨⟨h.B, h.C, rfl⟩, hB⟩

theorem bracket_good {g : K → K} {gr : K} : ∀ {n : Nat} {t u : Tri K}, Good g t → bracket g gr n t = some u →
    Good g u ∧ u.B ≤ t.B
  | 0, _, _, _, e => by simp [bracket] at e
  | n + 1, t, u, h, e => by
    simp only [bracket] at e
    split_ifs at e with c
    · obtain ⟨h1, h2⟩ := widen_good (gr := gr) h c.2
      obtain ⟨h3, h4⟩ := bracket_good h1 e
      exact ⟨h3, h4.trans h2⟩
    · cases e; exact ⟨h, le_rfl⟩

theorem tighten_b {g : K → K} {s : Ref K} {x : K} (h : s.B = g s.b) :
    (tighten g s x).B = g (tighten g s x).b ∧ (tighten g s x).B ≤ s.B ∧ (tighten g s x).B ≤ g x := by
  dsimp only [tighten]
  by_cases h1 : g x ≤ s.B
  · rw [if_pos h1]; exact ⟨rfl, h1, le_rfl⟩
  · rw [if_neg h1]
    have h2 := (not_le.1 h1).le
    split_ifs <;> exact ⟨h, le_rfl, h2⟩

theorem hunt_b {g : K → K} {gc tol : K} : ∀ {n : Nat} {s u : Ref K} {l : List K}, s.B = g s.b → hunt g gc tol n s = some (u, l) →
    u.B = g u.b ∧ u.B ≤ s.B ∧ ∀ x ∈ l, u.B ≤ g x
  | 0, _, _, _, _, e => by simp [hunt] at e
  | n + 1, s, u, l, h, e => by
    simp only [hunt] at e
    split_ifs at e with c
    · simp only [Option.map_eq_some_iff] at e
      obtain ⟨⟨u', l'⟩, e1, e2⟩ := e
      cases e2
      obtain ⟨t1, t2, t3⟩ := tighten_b (x := nextPoint gc s) h
      obtain ⟨q1, q2, q3⟩ := hunt_b t1 e1
      refine ⟨q1, q2.trans t2, fun x hx => ?_⟩
      rcases List.mem_cons.1 hx with rfl | hx
      · exact q2.trans t3
      · exact q3 x hx
    · cases e; exact ⟨h, le_rfl, fun x hx => by simp at hx⟩

theorem along_zero (f : (Nat → K) → K) (P D : Nat → K) : along f P D 0 = f P := by
  simp [along]

theorem along_neg (f : (Nat → K) → K) (P D : Nat → K) (s : K) : along f P (fun i => -D i) s = along f P D (-s) := by
  simp [along]

theorem open3_good (f : (Nat → K) → K) (gr : K) (P D : Nat → K) :
    Good (along f P (open3 f gr P D).1) (open3 f gr P D).2 ∧ (open3 f gr P D).2.B = f P ∧
      ((open3 f gr P D).1 = D ∨ (open3 f gr P D).1 = fun i => -D i) := by
  dsimp only [open3]
  split_ifs with h
  · refine ⟨⟨rfl, ?_, ?_⟩, along_zero f P D, Or.inr rfl⟩
    · dsimp only; rw [along_neg, neg_zero]
    · dsimp only; rw [along_neg, neg_neg]
  · exact ⟨⟨rfl, rfl, rfl⟩, along_zero f P D, Or.inl rfl⟩

theorem brent_eq {f : (Nat → K) → K} {gc tol : K} {n : Nat} {P D : Nat → K} {r : Found K} (h : brent f gc tol n P D = some r) :
    bracket (along f P r.D) (1 / (1 - gc)) n (open3 f (1 / (1 - gc)) P D).2 = some r.tri ∧
    hunt (along f P r.D) gc tol n (arrange3 r.tri) = some (r.last, r.looked) ∧ r.D = (open3 f (1 / (1 - gc)) P D).1 ∧
    r.b = r.last.b ∧ r.P = fun i => P i + r.b * r.D i := by
  simp only [brent, Option.bind_eq_some_iff, Option.map_eq_some_iff] at h
  obtain ⟨t, e1, ⟨u, l⟩, e2, rfl⟩ := h
  exact ⟨e1, e2, rfl, rfl, rfl⟩

/-- **C133**, the line search: for every error function, when it ends the moduli have moved along the direction given, or the
opposite one, by the number returned, and their error is not above the one at the start, nor above that of the middle of the
bracket or of any point looked at in the second loop. -/
theorem C133_no_worse (f : (Nat → K) → K) (gc tol : K) (n : Nat) (P D : Nat → K) (r : Found K)
    (h : brent f gc tol n P D = some r) :
    f r.P ≤ f P ∧ (r.D = D ∨ r.D = fun i => -D i) ∧ (∀ i, r.P i = P i + r.b * r.D i) ∧
      f r.P ≤ f (fun i => P i + r.tri.b * r.D i) ∧ ∀ x ∈ r.looked, f r.P ≤ f (fun i => P i + x * r.D i) := by
  obtain ⟨e1, e2, e3, e4, e5⟩ := brent_eq h
  obtain ⟨g1, g2, g3⟩ := open3_good f (1 / (1 - gc)) P D
  rw [← e3] at g1 g3
  obtain ⟨q1, q2⟩ := bracket_good g1 e1
  have ha : (arrange3 r.tri).B = along f P r.D (arrange3 r.tri).b := by
    unfold arrange3; split_ifs <;> exact q1.B
  have hb : (arrange3 r.tri).B = r.tri.B := by unfold arrange3; split_ifs <;> rfl
  obtain ⟨w1, w2, w3⟩ := hunt_b ha e2
  have hP : f r.P = r.last.B := by rw [w1, ← e4, e5]; rfl
  refine ⟨?_, g3, fun i => by rw [e5], ?_, ?_⟩
  · rw [hP, ← g2]; exact (w2.trans_eq hb).trans q2
  · rw [hP]; exact (w2.trans_eq hb).trans_eq q1.B
  · intro x hx; rw [hP]; exact w3 x hx

/-! ## Brackets -/

section Order
variable [IsStrictOrderedRing K]

/-- A bracket whose ends are not below its middle. -/
structure Brk (g : K → K) (s : Ref K) : Prop where
  ab : s.a ≤ s.b
  bc : s.b ≤ s.c
  B : s.B = g s.b
  ga : s.B ≤ g s.a
  gc : s.B ≤ g s.c

theorem nextPoint_in {gc : K} (h0 : 0 ≤ gc) (h1 : gc ≤ 1) {s : Ref K} (hab : s.a ≤ s.b) (hbc : s.b ≤ s.c) :
    s.a ≤ nextPoint gc s ∧ nextPoint gc s ≤ s.c := by
  obtain ⟨x, hx⟩ : ∃ x, nextPoint gc s = if x = 0 ∨ x < (s.a + s.b) / 2 ∨ x > (s.b + s.c) / 2 then
      s.b + gc * (if s.c - s.b < s.b - s.a then s.a - s.b else s.c - s.b) else x := ⟨_, rfl⟩
  rw [hx]
  split_ifs with h h'
  · constructor
    · nlinarith
    · nlinarith
  · constructor
    · nlinarith
    · nlinarith
  · push Not at h
    obtain ⟨-, h2, h3⟩ := h
    constructor <;> linarith

omit [Field K] [IsStrictOrderedRing K] in
theorem tighten_brk {g : K → K} {s : Ref K} {x : K} (h : Brk g s) (ha : s.a ≤ x) (hc : x ≤ s.c) :
    Brk g (tighten g s x) ∧ s.a ≤ (tighten g s x).a ∧ (tighten g s x).c ≤ s.c := by
  dsimp only [tighten]
  by_cases h1 : g x ≤ s.B
  · rw [if_pos h1]
    split_ifs with h2
    · exact ⟨⟨ha, h2.le, rfl, h1.trans h.ga, by dsimp only; rw [← h.B]; exact h1⟩, le_rfl, h.bc⟩
    · exact ⟨⟨not_lt.1 h2, hc, rfl, by dsimp only; rw [← h.B]; exact h1, h1.trans h.gc⟩, h.ab, le_rfl⟩
  · rw [if_neg h1]
    have h1 := (not_le.1 h1).le
    by_cases h2 : x < s.b
    · simp only [if_pos h2]
      split_ifs <;> exact ⟨⟨h2.le, h.bc, h.B, h1, h.gc⟩, ha, le_rfl⟩
    · simp only [if_neg h2]
      split_ifs <;> exact ⟨⟨h.ab, not_lt.1 h2, h.B, h.ga, h1⟩, le_rfl, hc⟩

theorem hunt_brk {g : K → K} {gc tol : K} (h0 : 0 ≤ gc) (h1 : gc ≤ 1) : ∀ {n : Nat} {s u : Ref K} {l : List K}, Brk g s →
    hunt g gc tol n s = some (u, l) → Brk g u ∧ s.a ≤ u.a ∧ u.c ≤ s.c ∧ u.c - u.a ≤ tol * (1 + u.b) ∧ ∀ x ∈ l, s.a ≤ x ∧ x ≤ s.c
  | 0, _, _, _, _, e => by simp [hunt] at e
  | n + 1, s, u, l, h, e => by
    simp only [hunt] at e
    split_ifs at e with c
    · simp only [Option.map_eq_some_iff] at e
      obtain ⟨⟨u', l'⟩, e1, e2⟩ := e
      cases e2
      obtain ⟨p1, p2⟩ := nextPoint_in h0 h1 h.ab h.bc
      obtain ⟨t1, t2, t3⟩ := tighten_brk h p1 p2
      obtain ⟨q1, q2, q3, q4, q5⟩ := hunt_brk h0 h1 t1 e1
      refine ⟨q1, t2.trans q2, q3.trans t3, q4, fun x hx => ?_⟩
      rcases List.mem_cons.1 hx with rfl | hx
      · exact ⟨p1, p2⟩
      · exact ⟨t2.trans (q5 x hx).1, (q5 x hx).2.trans t3⟩
    · cases e; exact ⟨h, le_rfl, le_rfl, not_lt.1 c, fun x hx => by simp at hx⟩

/-- **C133**, the minimum: if the first loop has found a bracket, that is three places in order of which the middle one has the
smallest error, then the place returned lies in it, as does every place looked at, and is bracketed within the tolerance by two
places of no smaller error.  (Missing: brackets out of order; `C133_falling_wrong` shows that the first loop produces them, and
that the claim fails.) -/
theorem C133_minimum_partial (f : (Nat → K) → K) (gc tol : K) (h0 : 0 ≤ gc) (h1 : gc ≤ 1) (n : Nat) (P D : Nat → K) (r : Found K)
    (h : brent f gc tol n P D = some r) (hab : r.tri.a ≤ r.tri.b) (hbc : r.tri.b ≤ r.tri.c) (hA : r.tri.B ≤ r.tri.A)
    (hC : r.tri.B ≤ r.tri.C) :
    r.tri.a ≤ r.b ∧ r.b ≤ r.tri.c ∧ (∀ x ∈ r.looked, r.tri.a ≤ x ∧ x ≤ r.tri.c) ∧
      ∃ a c, r.tri.a ≤ a ∧ a ≤ r.b ∧ r.b ≤ c ∧ c ≤ r.tri.c ∧ c - a ≤ tol * (1 + r.b) ∧
        f r.P ≤ f (fun i => P i + a * r.D i) ∧ f r.P ≤ f (fun i => P i + c * r.D i) := by
  obtain ⟨e1, e2, e3, e4, e5⟩ := brent_eq h
  obtain ⟨g1, g2, g3⟩ := open3_good f (1 / (1 - gc)) P D
  rw [← e3] at g1
  obtain ⟨q1, -⟩ := bracket_good g1 e1
  have hs : Brk (along f P r.D) (arrange3 r.tri) ∧ (arrange3 r.tri).a = r.tri.a ∧ (arrange3 r.tri).c = r.tri.c := by
    unfold arrange3
    split_ifs <;>
    exact ⟨⟨hab, hbc, q1.B, by dsimp only; rw [← q1.A]; exact hA, by dsimp only; rw [← q1.C]; exact hC⟩, rfl, rfl⟩
  obtain ⟨hs, ea, ec⟩ := hs
  obtain ⟨w1, w2, w3, w4, w5⟩ := hunt_brk h0 h1 hs e2
  rw [ea] at w2 w5; rw [ec] at w3 w5
  have hP : f r.P = r.last.B := by rw [w1.B, ← e4, e5]; rfl
  rw [e4, hP]
  exact ⟨w2.trans w1.ab, w1.bc.trans w3, w5, r.last.a, r.last.c, w2, w1.ab, w1.bc, w3, w4, w1.ga, w1.gc⟩

/-! ## What the code gets wrong -/

/-- **C133** fails in the first loop: the turning point is taken on the wrong side of the middle place.  For an error that is a
parabola with its minimum at `m`, and any three different places, it is at `2 b - m`. -/
theorem C133_turn_wrong (k m e a b c : K) (hk : k ≠ 0) (hab : a ≠ b) (hbc : b ≠ c) (hac : a ≠ c) :
    turn ⟨a, b, c, k * (a - m) ^ 2 + e, k * (b - m) ^ 2 + e, k * (c - m) ^ 2 + e⟩ = 2 * b - m := by
  have d1 : b - a ≠ 0 := sub_ne_zero.2 (Ne.symm hab)
  have d2 : b - c ≠ 0 := sub_ne_zero.2 hbc
  have d3 : a - c ≠ 0 := sub_ne_zero.2 hac
  have hr : (b - a) * (k * (b - m) ^ 2 + e - (k * (c - m) ^ 2 + e)) = k * (b - a) * (b - c) * (b + c - 2 * m) := by ring
  have hq : (b - c) * (k * (b - m) ^ 2 + e - (k * (a - m) ^ 2 + e)) = k * (b - a) * (b - c) * (b + a - 2 * m) := by ring
  have dif : k * (b - a) * (b - c) * (b + a - 2 * m) - k * (b - a) * (b - c) * (b + c - 2 * m) = k * (b - a) * (b - c) * (a - c) := by
    ring
  have nz : k * (b - a) * (b - c) * (a - c) ≠ 0 := mul_ne_zero (mul_ne_zero (mul_ne_zero hk d1) d2) d3
  dsimp only [turn]
  rw [hr, hq, if_pos (fun q => nz (by rw [← dif, q, sub_self])), dif]
  field_simp
  ring

/-- A convex error that falls along the direction is followed for ever. -/
theorem falling_bracket {g : K → K} {gr : K} (hgr : 0 < gr) (dec : ∀ x y, x < y → g y < g x)
    (conv : ∀ x y z, x < y → y < z → (g y - g z) * (y - x) < (g x - g y) * (z - y)) :
    ∀ (n : Nat) (t : Tri K), Good g t → t.a < t.b → t.b < t.c → bracket g gr n t = none
  | 0, _, _, _, _ => rfl
  | n + 1, t, h, hab, hbc => by
    simp only [bracket]
    have dA : t.B < t.A := by rw [h.A, h.B]; exact dec _ _ hab
    have dC : t.C < t.B := by rw [h.C, h.B]; exact dec _ _ hbc
    rw [if_pos ⟨dA.le, dC.le⟩]
    have cv : (t.B - t.C) * (t.b - t.a) < (t.A - t.B) * (t.c - t.b) := by
      rw [h.A, h.B, h.C]; exact conv _ _ _ hab hbc
    have ht : turn t < t.b := by
      dsimp only [turn]
      have hq : (t.b - t.a) * (t.B - t.C) < (t.b - t.c) * (t.B - t.A) := by linarith
      rw [if_pos hq.ne]
      have p1 : 0 < (t.b - t.a) * (t.B - t.C) := mul_pos (by linarith) (by linarith)
      have p2 : 0 < (t.b - t.c) * (t.B - t.A) := p1.trans hq
      have : 0 < ((t.b - t.a) * ((t.b - t.a) * (t.B - t.C)) - (t.b - t.c) * ((t.b - t.c) * (t.B - t.A))) /
          (2 * ((t.b - t.c) * (t.B - t.A) - (t.b - t.a) * (t.B - t.C))) := by
        apply div_pos
        · have := mul_pos (show 0 < t.b - t.a by linarith) p1
          have := mul_pos (show 0 < t.c - t.b by linarith) p2
          linarith
        · linarith
      linarith
    have e : widen g gr t = ⟨t.b, t.c, t.c + (t.c - t.b) * gr, t.B, t.C, g (t.c + (t.c - t.b) * gr)⟩ := by
      dsimp only [widen]
      rw [if_neg (fun q => absurd q.1 (not_lt.2 ht.le)), if_neg (not_lt.2 (ht.le.trans hbc.le))]
    rw [e]
    have := mul_pos (show 0 < t.c - t.b by linarith) hgr
    exact falling_bracket hgr dec conv n _ ⟨h.B, h.C, rfl⟩ hbc (by dsimp only; linarith)

/-- **C133** fails where the error falls towards a limit: if it is convex and falls along the direction, as when stiffer layers
always fit better, the first loop never ends. -/
theorem C133_never_ends (f : (Nat → K) → K) (gc tol : K) (h1 : gc < 1) (P D : Nat → K)
    (dec : ∀ x y, x < y → along f P D y < along f P D x)
    (conv : ∀ x y z, x < y → y < z → (along f P D y - along f P D z) * (y - x) < (along f P D x - along f P D y) * (z - y))
    (n : Nat) : brent f gc tol n P D = none := by
  have hgr : 0 < 1 / (1 - gc) := one_div_pos.2 (by linarith)
  have ho : open3 f (1 / (1 - gc)) P D = (D, ⟨-(1 / 20), 0, -(-(1 / 20)) * (1 / (1 - gc)), along f P D (-(1 / 20)), along f P D 0,
      along f P D (-(-(1 / 20)) * (1 / (1 - gc)))⟩) := by
    dsimp only [open3]
    rw [if_neg (not_lt.2 (dec _ _ (by norm_num)).le)]
  have hb := falling_bracket hgr dec conv n _ (ho ▸ (open3_good f (1 / (1 - gc)) P D).1) (by dsimp only; norm_num)
    (by dsimp only; rw [neg_neg]; positivity)
  simp only [brent, ho]
  dsimp only at hb
  rw [hb]
  rfl

/-- **C133** fails where the error falls ever faster: the first loop then takes a place on the near side for the far end of the
bracket, and the search ends where the error is still falling.  For every error that is `1 - t - 12 t²` near the start. -/
theorem C133_falling_wrong (f : (Nat → K) → K) (gc tol : K) (h0 : 0 < gc) (h1 : gc < 1 / 2) (ht : 0 ≤ tol) (P D : Nat → K)
    (hf : ∀ t, -(1 / 20) ≤ t → t ≤ 1 / 10 → along f P D t = 1 - t - 12 * t ^ 2) (n : Nat) :
    ∃ r, brent f gc tol (n + 2) P D = some r ∧ r.D = D ∧ r.b < 1 / 10 ∧
      ∀ t, r.b < t → t ≤ 1 / 10 → along f P D t < f r.P := by
  set gr := 1 / (1 - gc) with hgr
  have hpos : 0 < 1 - gc := by linarith
  have hgc : gr * (1 - gc) = 1 := by rw [hgr]; field_simp
  have g1 : 1 < gr := by rw [hgr, lt_div_iff₀ hpos]; linarith
  have g2 : gr < 2 := by rw [hgr, div_lt_iff₀ hpos]; linarith
  set c := 1 / 20 * gr with hc
  have c1 : 1 / 20 < c := by rw [hc]; linarith
  have c2 : c < 1 / 10 := by rw [hc]; linarith
  have v0 : along f P D 0 = 1 := by rw [hf 0 (by norm_num) (by norm_num)]; norm_num
  have va : along f P D (-(1 / 20)) = 102 / 100 := by rw [hf _ (by norm_num) (by norm_num)]; norm_num
  have vc : along f P D c = 1 - c - 12 * c ^ 2 := hf c (by linarith) c2.le
  have vx : along f P D (1 / 24) = 1 - 1 / 24 - 12 * (1 / 24) ^ 2 := hf _ (by norm_num) (by norm_num)
  have ho : open3 f gr P D = (D, ⟨-(1 / 20), 0, c, 102 / 100, 1, 1 - c - 12 * c ^ 2⟩) := by
    dsimp only [open3]
    rw [va, v0, if_neg (by norm_num), show -(-(1 / 20)) * gr = c by rw [hc]; ring, vc]
  have htn : turn (⟨-(1 / 20), 0, c, 102 / 100, 1, 1 - c - 12 * c ^ 2⟩ : Tri K) = 1 / 24 := by
    have := C133_turn_wrong (-12 : K) (-(1 / 24)) (1 + 12 * (1 / 24) ^ 2) (-(1 / 20)) 0 c (by norm_num) (by norm_num)
      (by linarith : (0 : K) < c).ne (by linarith : -(1 / 20 : K) < c).ne
    rw [show (2 : K) * 0 - -(1 / 24) = 1 / 24 by norm_num] at this
    rw [← this]
    congr 2 <;> ring
  have lt1 : 1 - c - 12 * c ^ 2 < 1 - 1 / 24 - 12 * (1 / 24 : K) ^ 2 := by nlinarith
  have hb : bracket (along f P D) gr (n + 2) ⟨-(1 / 20), 0, c, 102 / 100, 1, 1 - c - 12 * c ^ 2⟩ =
      some ⟨0, c, 1 / 24, 1, 1 - c - 12 * c ^ 2, 1 - 1 / 24 - 12 * (1 / 24) ^ 2⟩ := by
    simp only [bracket]
    rw [if_pos ⟨by norm_num, by nlinarith⟩]
    have w : widen (along f P D) gr ⟨-(1 / 20), 0, c, 102 / 100, 1, 1 - c - 12 * c ^ 2⟩ =
        ⟨0, c, 1 / 24, 1, 1 - c - 12 * c ^ 2, 1 - 1 / 24 - 12 * (1 / 24) ^ 2⟩ := by
      dsimp only [widen]
      rw [htn, vx, if_pos ⟨by norm_num, by linarith⟩, if_neg (not_lt.2 lt1.le), if_neg (by norm_num)]
    rw [w]
    rw [if_neg (fun q => absurd q.2 (not_le.2 lt1))]
  have ha : arrange3 (⟨0, c, 1 / 24, 1, 1 - c - 12 * c ^ 2, 1 - 1 / 24 - 12 * (1 / 24) ^ 2⟩ : Tri K) =
      ⟨0, c, 1 / 24, 1 / 24, 0, 1 - c - 12 * c ^ 2, 1 - 1 / 24 - 12 * (1 / 24) ^ 2, 1⟩ := by
    unfold arrange3
    rw [if_pos (by norm_num)]
  set s : Ref K := ⟨0, c, 1 / 24, 1 / 24, 0, 1 - c - 12 * c ^ 2, 1 - 1 / 24 - 12 * (1 / 24) ^ 2, 1⟩ with hs
  have hx : nextPoint gc s = 1 / 20 := by
    have nz : c * (c - 1 / 24) ≠ 0 := mul_ne_zero (by linarith : (0 : K) < c).ne' (by linarith : (0 : K) < c - 1 / 24).ne'
    have hr : (s.b - s.z) * (s.B - s.Y) = -12 * (c * (c - 1 / 24)) * (c + 1 / 8) := by rw [hs]; ring
    have hq : (s.b - s.y) * (s.B - s.Z) = -12 * (c * (c - 1 / 24)) * (c + 1 / 12) := by rw [hs]; ring
    have dif : -12 * (c * (c - 1 / 24)) * (c + 1 / 8) - -12 * (c * (c - 1 / 24)) * (c + 1 / 12) = -(1 / 2) * (c * (c - 1 / 24)) := by ring
    have hv : (if (s.b - s.z) * (s.B - s.Y) ≠ (s.b - s.y) * (s.B - s.Z) then s.b - ((s.b - s.z) * ((s.b - s.z) * (s.B - s.Y)) -
        (s.b - s.y) * ((s.b - s.y) * (s.B - s.Z))) / (2 * ((s.b - s.z) * (s.B - s.Y) - (s.b - s.y) * (s.B - s.Z))) else 0) =
        -(1 / 24) := by
      rw [hr, hq, if_pos (fun q => by
        have := sub_eq_zero.2 q
        rw [dif] at this
        exact mul_ne_zero (by norm_num) nz this), dif, hs]
      dsimp only
      rw [show c - (((c - 0) * (-12 * (c * (c - 1 / 24)) * (c + 1 / 8)) - (c - 1 / 24) * (-12 * (c * (c - 1 / 24)) * (c + 1 / 12))) /
        (2 * (-(1 / 2) * (c * (c - 1 / 24))))) = c - (12 * (c * (c + 1 / 8) - (c - 1 / 24) * (c + 1 / 12))) * ((c * (c - 1 / 24)) / (c * (c - 1 / 24))) by
          field_simp
          ring, div_self nz]
      ring
    dsimp only [nextPoint]
    rw [hv, if_pos (Or.inr (Or.inl (by rw [hs]; dsimp only; linarith))), hs]
    dsimp only
    rw [if_pos (by linarith)]
    calc c + gc * (0 - c) = 1 / 20 * (gr * (1 - gc)) := by rw [hc]; ring
      _ = 1 / 20 := by rw [hgc, mul_one]
  have hh : ∃ u l, hunt (along f P D) gc tol (n + 2) s = some (u, l) ∧ u.b = c := by
    simp only [hunt]
    split_ifs with q q'
    · exfalso
      rw [hx] at q'
      have v20 : along f P D (1 / 20) = 92 / 100 := by rw [hf _ (by norm_num) (by norm_num)]; norm_num
      have big : ¬along f P D (1 / 20) ≤ s.B := by rw [v20, hs]; dsimp only; nlinarith
      have ea : (tighten (along f P D) s (1 / 20)).a = 1 / 20 ∧ (tighten (along f P D) s (1 / 20)).c = 1 / 24 ∧
          (tighten (along f P D) s (1 / 20)).b = c := by
        dsimp only [tighten]
        rw [if_neg big]
        simp only [if_pos (show 1 / 20 < s.b from c1)]
        split_ifs <;> exact ⟨rfl, rfl, rfl⟩
      rw [ea.1, ea.2.1, ea.2.2] at q'
      have := mul_nonneg ht (show 0 ≤ 1 + c by linarith)
      linarith
    · refine ⟨_, _, rfl, ?_⟩
      rw [hx]
      dsimp only [tighten]
      split_ifs with b1 <;> first | rfl | skip
      all_goals
        exfalso
        rw [hf _ (by norm_num) (by norm_num), hs] at b1
        dsimp only at b1
        nlinarith
    · exact ⟨_, _, rfl, rfl⟩
  obtain ⟨u, l, eu, hu⟩ := hh
  refine ⟨_, by simp only [brent, ← hgr, ho, hb, Option.bind_some, ha, eu, Option.map_some]; rfl, rfl, ?_, ?_⟩
  · dsimp only; rw [hu]; exact c2
  · intro t t1 t2
    dsimp only at t1 ⊢
    rw [hu] at t1 ⊢
    rw [show f (fun i => P i + c * D i) = along f P D c from rfl, vc, hf t (by linarith) t2]
    nlinarith

end Order

/-! ## The conjugate gradients -/

theorem cgLoop_le {f : (Nat → K) → K} {gc tol : K} {n : Nat} {grad : (Nat → K) → Nat → K} {stop : K → K → K → K → Bool} {nl : Nat} :
    ∀ {k : Nat} {s u : Cg K}, cgLoop f gc tol n grad stop nl k s = some u → f u.W ≤ f s.W
  | 0, s, u, e => by cases e; exact le_rfl
  | k + 1, s, u, e => by
    simp only [cgLoop, Option.bind_eq_some_iff] at e
    obtain ⟨t, e1, e2⟩ := e
    have ht : f t.W ≤ f s.W := by
      split_ifs at e1 with c
      · simp only [Option.map_eq_some_iff] at e1
        obtain ⟨r, hr, rfl⟩ := e1
        exact (C133_no_worse f gc tol n s.W s.D r hr).1
      · cases e1; exact le_rfl
    split at e2
    · cases e2; exact ht
    · exact (cgLoop_le e2).trans ht

/-- **C133**, the conjugate gradients: for every error function, whatever the gradients and the test for the end, the last point is
not worse than the start; the new logarithms are that point brought between one and nine, and so not worse either if it lies
there. -/
theorem C133_conjgrad (f : (Nat → K) → K) (gc tol : K) (n : Nat) (grad : (Nat → K) → Nat → K) (stop : K → K → K → K → Bool) (big : K)
    (nl maxsteps : Nat) (hf : ∀ x y : Nat → K, (∀ i < nl, x i = y i) → f x = f y) (P Q : Nat → K) (len : K) (s : Cg K)
    (h : conjgrad f gc tol n grad stop big nl maxsteps P = some (Q, len, s)) :
    f s.W ≤ f P ∧ (∀ i < nl, Q i = min (max 1 (s.W i)) 9) ∧ ((∀ i < nl, 1 ≤ s.W i ∧ s.W i ≤ 9) → f Q ≤ f P) := by
  simp only [conjgrad, Option.map_eq_some_iff, Prod.mk.injEq] at h
  obtain ⟨t, e, e1, -, rfl⟩ := h
  have hw : f t.W ≤ f P := cgLoop_le e
  have hq : ∀ i < nl, Q i = min (max 1 (t.W i)) 9 := fun i hi => by rw [← e1]; simp only [if_pos hi]
  refine ⟨hw, hq, fun hin => ?_⟩
  rw [hf Q t.W fun i hi => by rw [hq i hi, max_eq_right (hin i hi).1, min_eq_left (hin i hi).2]]
  exact hw

/-! ## Cases -/

/-- A search that finds the minimum of `(x - 1/50)²` in order. -/
example : (brent (fun x : Nat → ℚ => (x 0 - 1 / 50) ^ 2) (2 / 5) (1 / 10) 9 (fun _ => 0) (fun _ => 1)).map
    (fun r => decide (r.tri.a ≤ r.tri.b ∧ r.tri.b ≤ r.tri.c ∧ r.tri.B ≤ r.tri.A ∧ r.tri.B ≤ r.tri.C ∧ r.b ≠ 0)) = some true := by
  decide +kernel

/-- Two rounds of the conjugate gradients on `x²`. -/
example : (conjgrad (fun x : Nat → ℚ => (x 0 - 5) ^ 2) (2 / 5) (1 / 10) 30 (fun x _ => -2 * (x 0 - 5)) (fun _ _ d _ => decide (d < 1 / 100))
    1000 1 2 (fun _ => 4)).map (fun r => decide (4 < r.1 0 ∧ r.1 0 < 6)) = some true := by
  decide +kernel

/-- An error that falls and is convex. -/
example (n : Nat) : brent (fun x : Nat → ℝ => Real.exp (-x 0)) (2 / 5) (1 / 10) n (fun _ => 0) (fun _ => 1) = none := by
  refine C133_never_ends _ _ _ (by norm_num) _ _ (fun x y h => ?_) (fun x y z h1 h2 => ?_) n
  · simp only [along, mul_one, zero_add]
    exact Real.exp_lt_exp.2 (by linarith)
  · simp only [along, mul_one, zero_add]
    have := strictConvexOn_exp.slope_strict_mono_adjacent (Set.mem_univ (-z)) (Set.mem_univ (-x)) (show -z < -y by linarith)
      (show -y < -x by linarith)
    rw [div_lt_div_iff₀ (by linarith) (by linarith)] at this
    linarith

/-- An error that falls ever faster. -/
example : ∃ r, brent (fun x : Nat → ℚ => 1 - x 0 - 12 * x 0 ^ 2) (2 / 5) (1 / 1000000) 2 (fun _ => 0) (fun _ => 1) = some r ∧ r.b < 1 / 10 := by
  obtain ⟨r, h1, -, h2, -⟩ := C133_falling_wrong (fun x : Nat → ℚ => 1 - x 0 - 12 * x 0 ^ 2) (2 / 5) (1 / 1000000) (by norm_num)
    (by norm_num) (by norm_num) (fun _ => 0) (fun _ => 1) (fun t _ _ => by simp [along]) 0
  exact ⟨r, h1, h2⟩

end OP.Pave.LineSearch
