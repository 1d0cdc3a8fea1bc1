import Verif.Lin.SvdDiag
import Verif.Lin.PropsQl
/-!
# Rotations of two-sided decompositions
-/
namespace OP.Lin
open Finset
variable {K : Type} [Field K]

/-- Two numbers of a vector are turned. -/
def rotP (a b : Nat) (S C : K) (v : Nat → K) (x : Nat) : K := if x = b then v b * C - v a * S else if x = a then v b * S + v a * C else v x

theorem rotP_fst {a b : Nat} (h : a ≠ b) (S C : K) (v : Nat → K) : rotP a b S C v a = v b * S + v a * C := by
  unfold rotP; rw [if_neg h, if_pos rfl]
theorem rotP_snd (a b : Nat) (S C : K) (v : Nat → K) : rotP a b S C v b = v b * C - v a * S := if_pos rfl
theorem rotP_other {a b x : Nat} (h1 : x ≠ a) (h2 : x ≠ b) (S C : K) (v : Nat → K) : rotP a b S C v x = v x := by
  unfold rotP; rw [if_neg h2, if_neg h1]

theorem sum_pair {n a b : Nat} (ha : a < n) (hb : b < n) (hab : a ≠ b) (f : Nat → K) :
    ∑ x ∈ range n, f x = f a + f b + ∑ x ∈ ((range n).erase a).erase b, f x := by
  rw [← add_sum_erase (range n) f (mem_range.2 ha), ← add_sum_erase ((range n).erase a) f (mem_erase.2 ⟨hab.symm, mem_range.2 hb⟩), add_assoc]

theorem vdot_rotP {n a b : Nat} (ha : a < n) (hb : b < n) (hab : a ≠ b) {S C : K} (h : C * C + S * S = 1) (u v : Nat → K) :
    vdot n (rotP a b S C u) (rotP a b S C v) = vdot n u v := by
  unfold vdot
  rw [sum_pair ha hb hab, sum_pair ha hb hab (fun x => u x * v x)]
  have : ∀ x ∈ ((range n).erase a).erase b, rotP a b S C u x * rotP a b S C v x = u x * v x := fun x hx => by
    rw [mem_erase, mem_erase] at hx
    rw [rotP_other hx.2.1 hx.1, rotP_other hx.2.1 hx.1]
  rw [sum_congr rfl this, rotP_fst hab, rotP_fst hab, rotP_snd, rotP_snd]
  congr 1
  linear_combination (u a * v a + u b * v b) * h

theorem rotP_back {a b : Nat} (hab : a ≠ b) {S C : K} (h : C * C + S * S = 1) (v : Nat → K) : rotP a b S C (rotP a b (-S) C v) = v := by
  funext x
  by_cases hb : x = b
  · rw [hb, rotP_snd, rotP_snd, rotP_fst hab]; linear_combination v b * h
  · by_cases ha : x = a
    · rw [ha, rotP_fst hab, rotP_snd, rotP_fst hab]; linear_combination v a * h
    · rw [rotP_other ha hb, rotP_other ha hb]

/-- `xᵀ B y` -/
def bil (n : Nat) (B : Nat → Nat → K) (p w : Nat → K) : K := vdot n p fun a => vdot n (B a) w

/-- `Uᵀ x` for a matrix of `m` rows and `n` columns -/
def trv (m n : Nat) (U x : Nat → K) (a : Nat) : K := ∑ r ∈ range m, U (r * n + a) * x r

theorem bil_rotC {n a b : Nat} (ha : a < n) (hb : b < n) (hab : a ≠ b) {S C : K} (h : C * C + S * S = 1) (B : Nat → Nat → K) (p w : Nat → K) :
    bil n (fun r => rotP a b S C (B r)) p (rotP a b S C w) = bil n B p w := by
  unfold bil
  congr 1
  funext r
  exact vdot_rotP ha hb hab h _ _

theorem bil_rotR {n a b : Nat} (ha : a < n) (hb : b < n) (hab : a ≠ b) {S C : K} (h : C * C + S * S = 1) (B : Nat → Nat → K) (p w : Nat → K) :
    bil n (fun r c => rotP a b S C (fun r => B r c) r) (rotP a b S C p) w = bil n B p w := by
  unfold bil
  rw [← vdot_rotP ha hb hab h p]
  congr 1
  funext r
  unfold vdot
  by_cases h1 : r = b
  · subst h1
    simp only [rotP_snd, sub_mul, sum_sub_distrib, sum_mul]
    congr 1 <;> exact sum_congr rfl fun _ _ => by ring
  · by_cases h2 : r = a
    · subst h2
      simp only [rotP_fst hab, add_mul, sum_add_distrib, sum_mul]
      congr 1 <;> exact sum_congr rfl fun _ _ => by ring
    · simp only [rotP_other h2 h1]

theorem rotCols_spec {rows n a b : Nat} (ha : a < n) (hb : b < n) (hab : a ≠ b) (S C : K) (A : Nat → K) :
    (∀ r < rows, ∀ x < n, rotCols rows n a b S C A (r * n + x) = rotP a b S C (fun x => A (r * n + x)) x) ∧
    ∀ p, rows * n ≤ p → rotCols rows n a b S C A p = A p := by
  have h := loop_rule (f := fun k A =>
      let g := A (k * n + a)
      let A := set A (k * n + a) (A (k * n + b) * S + g * C)
      set A (k * n + b) (A (k * n + b) * C - g * S))
    (fun l B => ∀ r, ∀ x < n, B (r * n + x) = if r < l then rotP a b S C (fun x => A (r * n + x)) x else A (r * n + x))
    (Nat.zero_le rows) (s := A) (fun r x _ => by rw [if_neg (by omega)]) (by
      intro l B _ hl hB r x hx
      dsimp only
      have e1 : B (l * n + a) = A (l * n + a) := by rw [hB l a ha, if_neg (by omega)]
      have e2 : B (l * n + b) = A (l * n + b) := by rw [hB l b hb, if_neg (by omega)]
      by_cases hr : r = l
      · subst hr
        rw [if_pos (by omega)]
        by_cases hxb : x = b
        · rw [hxb, set_same, rotP_snd, set_ne _ _ (by omega), e1, e2]
        · rw [set_ne _ _ (by omega)]
          by_cases hxa : x = a
          · rw [hxa, set_same, rotP_fst hab, e1, e2]
          · rw [set_ne _ _ (by omega), rotP_other hxa hxb, hB r x hx, if_neg (by omega)]
      · rw [set_ne _ _ (fun e => hr ((addr_inj hx hb).1 e).1), set_ne _ _ (fun e => hr ((addr_inj hx ha).1 e).1), hB r x hx]
        by_cases h8 : r < l
        · rw [if_pos h8, if_pos (by omega)]
        · rw [if_neg h8, if_neg (by omega)])
  refine ⟨fun r hr x hx => (h r x hx).trans (if_pos hr), fun p hp => ?_⟩
  have hn : 0 < n := by omega
  have := h (p / n) (p % n) (Nat.mod_lt _ hn)
  rw [if_neg (by rw [not_lt]; exact (Nat.le_div_iff_mul_le hn).2 hp), Nat.div_add_mod' p n] at this
  exact this

/-- The columns are orthonormal. -/
def Iso (m n : Nat) (U : Nat → K) : Prop := ∀ c d, vdot m (app n U c) (app n U d) = vdot n c d

theorem rotCols_app {rows n a b : Nat} (ha : a < n) (hb : b < n) (hab : a ≠ b) {S C : K} (h : C * C + S * S = 1) (A c : Nat → K) {r : Nat} (hr : r < rows) :
    app n (rotCols rows n a b S C A) c r = app n A (rotP a b (-S) C c) r := by
  have e : app n (rotCols rows n a b S C A) c r = vdot n (rotP a b S C fun x => A (r * n + x)) c :=
    sum_congr rfl fun x hx => by rw [(rotCols_spec ha hb hab S C A).1 r hr x (mem_range.1 hx)]
  rw [e]
  nth_rw 1 [← rotP_back hab h c]
  exact vdot_rotP ha hb hab h _ _

theorem Iso.rot {m n a b : Nat} (ha : a < n) (hb : b < n) (hab : a ≠ b) {S C : K} (h : C * C + S * S = 1) {U : Nat → K} (hU : Iso m n U) :
    Iso m n (rotCols m n a b S C U) := by
  intro c d
  have : ∀ c, ∀ r ∈ range m, app n (rotCols m n a b S C U) c r = app n U (rotP a b (-S) C c) r := fun c r hr =>
    rotCols_app ha hb hab h U c (mem_range.1 hr)
  have e : vdot m (app n (rotCols m n a b S C U) c) (app n (rotCols m n a b S C U) d) = vdot m (app n U (rotP a b (-S) C c)) (app n U (rotP a b (-S) C d)) :=
    sum_congr rfl fun r hr => by rw [this c r hr, this d r hr]
  rw [e, hU]
  exact vdot_rotP ha hb hab (by rw [neg_mul_neg]; exact h) c d

theorem trv_rot {m n a b : Nat} (ha : a < n) (hb : b < n) (hab : a ≠ b) (S C : K) (U x : Nat → K) {y : Nat} (hy : y < n) :
    trv m n (rotCols m n a b S C U) x y = rotP a b S C (trv m n U x) y := by
  unfold trv
  rw [sum_congr rfl fun r hr => by rw [(rotCols_spec ha hb hab S C U).1 r (mem_range.1 hr) y hy]]
  by_cases h1 : y = b
  · subst h1
    simp only [rotP_snd, sub_mul, sum_sub_distrib, sum_mul]
    congr 1 <;> exact sum_congr rfl fun _ _ => by ring
  · by_cases h2 : y = a
    · subst h2
      simp only [rotP_fst hab, add_mul, sum_add_distrib, sum_mul]
      congr 1 <;> exact sum_congr rfl fun _ _ => by ring
    · simp only [rotP_other h2 h1]

theorem bil_congr {n : Nat} {B B' : Nat → Nat → K} {p p' w w' : Nat → K} (hB : ∀ a < n, ∀ b < n, B a b = B' a b) (hp : ∀ a < n, p a = p' a)
    (hw : ∀ b < n, w b = w' b) : bil n B p w = bil n B' p' w' := by
  unfold bil vdot
  refine sum_congr rfl fun a ha => ?_
  rw [hp a (mem_range.1 ha)]
  congr 1
  exact sum_congr rfl fun b hb => by rw [hB a (mem_range.1 ha) b (mem_range.1 hb), hw b (mem_range.1 hb)]

variable [LinearOrder K] [IsStrictOrderedRing K]

theorem Iso.bessel {m n : Nat} {U : Nat → K} (hU : Iso m n U) (x : Nat → K) : vdot n (trv m n U x) (trv m n U x) ≤ vdot m x x := by
  obtain ⟨p, hp⟩ : ∃ p, p = trv m n U x := ⟨_, rfl⟩
  rw [← hp]
  have h1 : vdot m x (app n U p) = vdot n p p := by
    unfold vdot app
    rw [hp]
    unfold trv
    simp only [mul_sum, sum_mul]
    rw [sum_comm]
    refine sum_congr rfl fun a _ => ?_
    rw [← sum_comm]
    refine sum_congr rfl fun r _ => sum_congr rfl fun s _ => ?_
    ring
  have h0 : 0 ≤ ∑ r ∈ range m, (x r - app n U p r) * (x r - app n U p r) := sum_nonneg fun r _ => mul_self_nonneg _
  have h2 : ∑ r ∈ range m, (x r - app n U p r) * (x r - app n U p r) = vdot m x x - 2 * vdot m x (app n U p) + vdot m (app n U p) (app n U p) := by
    unfold vdot
    rw [mul_sum, ← sum_sub_distrib, ← sum_add_distrib]
    exact sum_congr rfl fun r _ => by ring
  rw [h2, h1, hU] at h0
  linarith

/-- `U B Vᵀ` with orthonormal columns, and how far it is from the form `M`. -/
structure Fac (m n : Nat) (M : (Nat → K) → (Nat → K) → K) (B : Nat → Nat → K) (U V : Nat → K) (ε : K) : Prop where
  u : Iso m n U
  v : Iso n n V
  e : ∀ x y, |M x y - bil n B (trv m n U x) (trv n n V y)| ≤ ε * ((vdot m x x + vdot n y y) / 2)

variable {m n : Nat} {M : (Nat → K) → (Nat → K) → K} {B B' : Nat → Nat → K} {U V : Nat → K} {ε δ : K}

omit [IsStrictOrderedRing K] in
theorem Fac.congr (h : Fac m n M B U V ε) (hB : ∀ a < n, ∀ b < n, B a b = B' a b) : Fac m n M B' U V ε :=
  ⟨h.u, h.v, fun x y => by rw [← bil_congr hB (fun _ _ => rfl) (fun _ _ => rfl)]; exact h.e x y⟩

omit [IsStrictOrderedRing K] in
theorem Fac.rotV (h : Fac m n M B U V ε) {a b : Nat} (ha : a < n) (hb : b < n) (hab : a ≠ b) {S C : K} (hc : C * C + S * S = 1) :
    Fac m n M (fun r => rotP a b S C (B r)) U (rotCols n n a b S C V) ε :=
  ⟨h.u, h.v.rot ha hb hab hc, fun x y => by
    rw [bil_congr (fun _ _ _ _ => rfl) (fun _ _ => rfl) (fun y hy => trv_rot ha hb hab S C V _ hy), bil_rotC ha hb hab hc]; exact h.e x y⟩

omit [IsStrictOrderedRing K] in
theorem Fac.rotU (h : Fac m n M B U V ε) {a b : Nat} (ha : a < n) (hb : b < n) (hab : a ≠ b) {S C : K} (hc : C * C + S * S = 1) :
    Fac m n M (fun r c => rotP a b S C (fun r => B r c) r) (rotCols m n a b S C U) V ε :=
  ⟨h.u.rot ha hb hab hc, h.v, fun x y => by
    rw [bil_congr (fun _ _ _ _ => rfl) (fun y hy => trv_rot ha hb hab S C U _ hy) (fun _ _ => rfl), bil_rotR ha hb hab hc]; exact h.e x y⟩

theorem le_vdot {n a : Nat} (ha : a < n) (p : Nat → K) : p a * p a ≤ vdot n p p :=
  single_le_sum (f := fun k => p k * p k) (fun k _ => mul_self_nonneg (p k)) (mem_range.2 ha)

/-- One number is changed a little. -/
theorem Fac.drop (h : Fac m n M B U V ε) {a0 b0 : Nat} (ha : a0 < n) (hb : b0 < n) (hB : ∀ a < n, ∀ b < n, ¬(a = a0 ∧ b = b0) → B a b = B' a b)
    (hd : |B a0 b0 - B' a0 b0| ≤ δ) : Fac m n M B' U V (ε + δ) := by
  refine ⟨h.u, h.v, fun x y => ?_⟩
  obtain ⟨p, hp⟩ : ∃ p, p = trv m n U x := ⟨_, rfl⟩
  obtain ⟨w, hw⟩ : ∃ w, w = trv n n V y := ⟨_, rfl⟩
  have h1 := h.u.bessel x
  have h2 := h.v.bessel y
  have h3 := h.e x y
  rw [← hp] at h1 h3 ⊢
  rw [← hw] at h2 h3 ⊢
  have e : bil n B p w - bil n B' p w = p a0 * (B a0 b0 - B' a0 b0) * w b0 := by
    unfold bil vdot
    rw [← sum_sub_distrib, sum_eq_single a0]
    · rw [← mul_sub, ← sum_sub_distrib, sum_eq_single b0]
      · ring
      · intro b hb' hne
        rw [hB a0 ha b (mem_range.1 hb') fun q => hne q.2, sub_self]
      · intro q; exact absurd (mem_range.2 hb) q
    · intro a ha' hne
      rw [← mul_sub, ← sum_sub_distrib, sum_eq_zero, mul_zero]
      intro b hb'
      rw [hB a (mem_range.1 ha') b (mem_range.1 hb') fun q => hne q.1, sub_self]
    · intro q; exact absurd (mem_range.2 ha) q
  have hδ : 0 ≤ δ := (abs_nonneg _).trans hd
  have b1 := le_vdot ha p
  have b2 := le_vdot hb w
  have b3 : |p a0 * (B a0 b0 - B' a0 b0) * w b0| ≤ δ * ((vdot m x x + vdot n y y) / 2) := by
    rw [show p a0 * (B a0 b0 - B' a0 b0) * w b0 = (B a0 b0 - B' a0 b0) * (p a0 * w b0) by ring, abs_mul]
    have b4 : |p a0 * w b0| ≤ (vdot m x x + vdot n y y) / 2 := by
      rw [abs_le]
      constructor
      · nlinarith [mul_self_nonneg (p a0 + w b0)]
      · nlinarith [mul_self_nonneg (p a0 - w b0)]
    exact mul_le_mul hd b4 (abs_nonneg _) hδ
  have : M x y - bil n B' p w = (M x y - bil n B p w) + (p a0 * (B a0 b0 - B' a0 b0) * w b0) := by rw [← e]; ring
  rw [this, add_mul]
  exact (abs_add_le _ _).trans (add_le_add h3 b3)

end OP.Lin
