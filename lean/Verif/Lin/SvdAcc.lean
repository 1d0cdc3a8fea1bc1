import Verif.Lin.SvdDiag
import Verif.Lin.PropsSvdRed
/-!
# Singular values: the accumulation of the transformations (src/linalg.cpp:722-758)

The loop for the right-hand transformations begins by reading `rv1[n]`, which is outside. Here the value that is found there is an argument, so that what the rest of the routine does
can be stated for any such value.
-/
namespace OP.Lin
open Finset Matrix
variable {K : Type} [Field K] [LinearOrder K]

/-- One round of the accumulation of the right-hand transformations (lines 725-737), once `v` has been read; `i` is that of the code. -/
def svdRightAt (n i : Nat) (A : Nat → K) (v : K) (V : Nat → K) : Nat → K :=
  let V := if v ≠ 0 then
      let V := loop i n (fun j V => set V (j * n + (i - 1)) (A ((i - 1) * n + j) / A ((i - 1) * n + i) / v)) V
      loop i n (fun j V =>
        let S := loop i n (fun k S => S + A ((i - 1) * n + k) * V (k * n + j)) 0
        loop i n (fun k V => set V (k * n + j) (V (k * n + j) + S * V (k * n + (i - 1)))) V) V
    else V
  let V := loop i n (fun j V => set (set V (j * n + (i - 1)) 0) ((i - 1) * n + j) 0) V
  set V ((i - 1) * n + (i - 1)) 1

/-- It is the round of the model that checks the read. -/
theorem svdRight_at (n i : Nat) (A rv1 V : Nat → K) : svdRight n i A rv1 V = (readIn n rv1 i).bind fun v => .ok (svdRightAt n i A v V) := rfl

/-- The loop (line 724), with `q` rounds left; `rv` gives the values read, also the one outside. -/
def svdRightsAt (n : Nat) (A rv : Nat → K) : Nat → (Nat → K) → Nat → K
  | 0, V => V
  | q + 1, V => svdRightsAt n A rv q (svdRightAt n (q + 1) A (rv (q + 1)) V)

/-- One round of the accumulation of the left-hand transformations (lines 740-757); `i` is that of the code. -/
def svdLeft (m n i : Nat) (W A : Nat → K) : Nat → K :=
  let A := loop i n (fun j A => set A ((i - 1) * n + j) 0) A
  let A := if W (i - 1) ≠ 0 then
      let A := loop i n (fun j A =>
        let S := loop i m (fun k S => S + A (k * n + (i - 1)) * A (k * n + j)) 0
        let f := S / A ((i - 1) * n + (i - 1)) / W (i - 1)
        loop (i - 1) m (fun k A => set A (k * n + j) (A (k * n + j) + f * A (k * n + (i - 1)))) A) A
      loop (i - 1) m (fun j A => set A (j * n + (i - 1)) (A (j * n + (i - 1)) / W (i - 1))) A
    else loop (i - 1) m (fun j A => set A (j * n + (i - 1)) 0) A
  set A ((i - 1) * n + (i - 1)) (A ((i - 1) * n + (i - 1)) + 1)

/-- The loop (line 739), with `q` rounds left. -/
def svdLefts (m n : Nat) (W : Nat → K) : Nat → (Nat → K) → Nat → K
  | 0, A => A
  | q + 1, A => svdLefts m n W q (svdLeft m n (q + 1) W A)

/-- All of `decmp_svd` (src/linalg.cpp:662-831) for a matrix with rows and columns, if `out` is what is found at `rv1[n]`; `g` is what `new` gives. -/
def svdWhole (rt : K → K) (neg : K → K → Bool) (m n : Nat) (A W V g : Nat → K) (out : K) : Res (Dg K) :=
  let t := loop 0 n (fun i t => svdReduce rt m n i t) ⟨A, W, g, 0, 0, 0⟩
  let V := svdRightsAt n t.A (fun i => if i < n then t.rv1 i else out) n V
  let U := svdLefts m n t.W (min m n) t.A
  svdDiag rt neg t.anorm m n n ⟨U, V, t.W, t.rv1, true⟩

/-! ## The reflections that the reduction leaves -/

def leftP (m n : Nat) (A W : Nat → K) : Nat → Matrix (Fin m) (Fin m) K
  | 0 => 1
  | i + 1 => colQ m n i A W * leftP m n A W i

def rightQ (n : Nat) (A rv : Nat → K) : Nat → Matrix (Fin n) (Fin n) K
  | 0 => 1
  | i + 1 => rightQ n A rv i * rowQ n i A (rv (i + 1))

omit [LinearOrder K] in
theorem hh_congr {m lo : Nat} {u u' : Nat → K} {H H' : K} (hu : ∀ k, lo ≤ k → k < m → u' k = u k) (hH : H' = H) : hh m lo u' H' = hh m lo u H :=
  hh_scale one_ne_zero (fun k a b => by rw [hu k a b, one_mul]) (by rw [hH]; ring)

theorem leftP_congr {m n : Nat} {A A' W W' : Nat → K} : ∀ i, i ≤ m → (∀ c < i, W' c = W c ∧ ∀ k, c ≤ k → k < m → A' (k * n + c) = A (k * n + c)) → leftP m n A' W' i = leftP m n A W i
  | 0, _, _ => rfl
  | i + 1, hi, h => by
    rw [leftP, leftP, leftP_congr i (by omega) fun c hc => h c (by omega)]
    obtain ⟨h1, h2⟩ := h i (by omega)
    unfold colQ
    rw [h1]
    split
    · rfl
    · rw [hh_congr h2 (by rw [h2 i le_rfl (by omega)])]

theorem rightQ_congr {n : Nat} {A A' rv rv' : Nat → K} : ∀ i, (∀ r < i, (r + 1 < n → rv' (r + 1) = rv (r + 1)) ∧ (n ≤ r + 1 → rv' (r + 1) = 0 ∧ rv (r + 1) = 0) ∧ ∀ k, r < k → k < n → A' (r * n + k) = A (r * n + k)) →
    rightQ n A' rv' i = rightQ n A rv i
  | 0, _ => rfl
  | i + 1, h => by
    rw [rightQ, rightQ, rightQ_congr i fun c hc => h c (by omega)]
    obtain ⟨h1, h2, h3⟩ := h i (by omega)
    congr 1
    unfold rowQ
    by_cases hn : i + 1 < n
    · rw [h1 hn]
      split
      · rfl
      · rw [hh_congr (fun k a b => h3 k (by omega) b) (by rw [h3 (i + 1) (by omega) hn])]
    · rw [(h2 (by omega)).1, (h2 (by omega)).2, if_pos rfl, if_pos rfl]

variable [IsStrictOrderedRing K]

omit [IsStrictOrderedRing K] in
theorem svdCol_frame (rt : K → K) {m n i : Nat} (hn : i < n) (t : Svd K) : ∀ r, ∀ c < n, r < i ∨ c < i → (svdCol rt m n i t).A (r * n + c) = t.A (r * n + c) := by
  intro r c hc h
  by_cases h0 : loop i m (fun k v => v + |t.A (k * n + i)|) 0 = 0
  · rw [svdCol_zero rt t h0]
  · have hm : i < m := by
      by_contra hm
      exact h0 (loop_nil (by omega) _)
    refine (svdCol_refl rt hm hn t h0).1.rest _ fun k j a b c' d e => ?_
    have := (addr_inj hc d).1 e
    omega

omit [IsStrictOrderedRing K] in
theorem svdRow_frame (rt : K → K) {m n i : Nat} (t : Svd K) : ∀ r, ∀ c < n, r < i ∨ c < i + 1 → (svdRow rt m n i t).A (r * n + c) = t.A (r * n + c) := by
  intro r c hc h
  by_cases h0 : (if i < m then loop (i + 1) n (fun k v => v + |t.A (i * n + k)|) 0 else 0) = 0
  · rw [svdRow_zero rt t h0]
  · have hm : i < m := by
      by_contra hm
      exact h0 (if_neg hm)
    rw [if_pos hm] at h0
    have hn : i + 1 < n := by
      by_contra hn
      exact h0 (loop_nil (by omega) _)
    refine (svdRow_refl rt hm hn t h0).1.rest _ fun k j a b c' d e => ?_
    have := (addr_inj hc b).1 e
    omega

/-- The reduction, with the reflections as they are left in the arrays. -/
theorem reduced {rt : K → K} (hrt : IsRoot0 rt) {m n : Nat} (hnm : n ≤ m) (A W g : Nat → K) (hW : ∀ c < n, W c = 0) (t : Svd K)
    (ht : t = loop 0 n (fun i t => svdReduce rt m n i t) ⟨A, W, g, 0, 0, 0⟩) :
    (0 < n → t.rv1 0 = 0) ∧ (0 ≤ t.anorm ∧ (t.anorm = 0 ∨ ∃ c < n, t.anorm = |t.W c| + |t.rv1 c|)) ∧ (∀ c < n, t.W c ≠ 0 → t.A (c * n + c) ≠ 0) ∧ leftP m n t.A t.W n * (leftP m n t.A t.W n)ᵀ = 1 ∧
    rightQ n t.A (fun i => if i < n then t.rv1 i else 0) n * (rightQ n t.A (fun i => if i < n then t.rv1 i else 0) n)ᵀ = 1 ∧
    leftP m n t.A t.W n * rowMajor m n A * rightQ n t.A (fun i => if i < n then t.rv1 i else 0) n = twoDiag m n t.W t.rv1 := by
  have h := loop_rule (f := fun i t => svdReduce rt m n i t) (fun i t => (∀ c, i ≤ c → c < n → t.W c = 0) ∧ (i = 0 → t.scale = 0) ∧ (0 < i → t.rv1 0 = 0) ∧ (0 ≤ t.anorm ∧ (t.anorm = 0 ∨ ∃ c < i, t.anorm = |t.W c| + |t.rv1 c|)) ∧
      (i = n → 0 < n → t.scale = 0) ∧ (∀ c < i, t.W c ≠ 0 → t.A (c * n + c) ≠ 0) ∧
      leftP m n t.A t.W i * (leftP m n t.A t.W i)ᵀ = 1 ∧
      rightQ n t.A (set t.rv1 i (t.scale * t.G)) i * (rightQ n t.A (set t.rv1 i (t.scale * t.G)) i)ᵀ = 1 ∧
      leftP m n t.A t.W i * rowMajor m n A * rightQ n t.A (set t.rv1 i (t.scale * t.G)) i = matOf m n (redAt n i t.A t.W (set t.rv1 i (t.scale * t.G))))
    (Nat.zero_le n) (s := ⟨A, W, g, 0, 0, 0⟩)
    ⟨fun c _ h => hW c h, fun _ => rfl, fun h => by omega, ⟨le_rfl, Or.inl rfl⟩, fun h => by omega, fun c h => by omega, by simp [leftP], by simp [rightQ], by
      rw [leftP, rightQ, Matrix.one_mul, Matrix.mul_one]
      ext r c
      simp only [rowMajor, matOf, redAt, of_apply, Nat.not_lt_zero, if_false]⟩ (by
      rintro i t - hi ⟨h1, hs0, hr0, ha, -, hz, hP, hQ, h2⟩
      unfold svdReduce
      dsimp only
      obtain ⟨t0, ht0⟩ : ∃ t0 : Svd K, t0 = { t with rv1 := set t.rv1 i (t.scale * t.G) } := ⟨_, rfl⟩
      rw [← ht0]
      have e1 : t0.A = t.A := by rw [ht0]
      have e2 : t0.W = t.W := by rw [ht0]
      have e3 : t0.rv1 = set t.rv1 i (t.scale * t.G) := by rw [ht0]
      have e4 : t0.rv1 0 = 0 := by
        rw [e3]
        by_cases h0 : i = 0
        · rw [h0, set_same, hs0 h0, zero_mul]
        · rw [set_ne _ _ (by omega)]; exact hr0 (by omega)
      have e5 : (svdRow rt m n i (svdCol rt m n i t0)).anorm = t.anorm := by
        have a1 : ∀ t : Svd K, (svdRow rt m n i t).anorm = t.anorm := fun t => by
          obtain ⟨sc, hsc⟩ : ∃ sc, sc = (if i < m then loop (i + 1) n (fun k v => v + |t.A (i * n + k)|) 0 else 0) := ⟨_, rfl⟩
          unfold svdRow; dsimp only; rw [← hsc]; split <;> rfl
        have a2 : ∀ t : Svd K, (svdCol rt m n i t).anorm = t.anorm := fun t => by unfold svdCol; dsimp only; split <;> rfl
        rw [a1, a2, ht0]
      rw [← e1, ← e2, ← e3] at h2
      rw [← e1, ← e2] at hP
      rw [← e1, ← e3] at hQ
      obtain ⟨⟨P', ⟨hP', eP⟩, hz', h3⟩, h4, h5⟩ := col_mid hrt (m := m) hi t0 (by rw [e2]; exact h1 i le_rfl hi)
      obtain ⟨⟨Q', ⟨hQ', eQ⟩, h6⟩, h7, h8⟩ := row_red hrt (m := m) (n := n) (i := i) (svdCol rt m n i t0)
      obtain ⟨t1, f1⟩ : ∃ t1, t1 = svdCol rt m n i t0 := ⟨_, rfl⟩
      have fc := svdCol_frame rt (m := m) hi t0
      have fr := svdRow_frame rt (m := m) (n := n) (i := i) (svdCol rt m n i t0)
      have hlast : i + 1 = n → (svdRow rt m n i (svdCol rt m n i t0)).scale = 0 := fun hl => by
        have : (if i < m then loop (i + 1) n (fun k v => v + |(svdCol rt m n i t0).A (i * n + k)|) 0 else 0) = 0 := by
          rw [loop_nil (by omega)]; simp
        rw [svdRow_zero rt _ this]
      rw [← f1] at hz' h3 h4 h5 h6 h7 h8 fc fr eP eQ e5 hlast ⊢
      obtain ⟨t2, f2⟩ : ∃ t2, t2 = svdRow rt m n i t1 := ⟨_, rfl⟩
      rw [← f2] at h6 h7 h8 fr eQ e5 hlast ⊢
      have eL : leftP m n t2.A t2.W (i + 1) = P' * leftP m n t0.A t0.W i := by
        rw [leftP, eP]
        congr 1
        · unfold colQ
          rw [h7]
          split
          · rfl
          · exact hh_congr (fun k _ _ => fr k i hi (by omega)) (by rw [fr i i hi (by omega)])
        · exact leftP_congr i (by omega) fun c hc => ⟨by rw [h7, h5 c (by omega)], fun k _ _ => by rw [fr k c (by omega) (by omega), fc k c (by omega) (by omega)]⟩
      have eR : rightQ n t2.A (set t2.rv1 (i + 1) (t2.scale * t2.G)) (i + 1) = rightQ n t0.A t0.rv1 i * Q' := by
        rw [rightQ, set_same, eQ]
        congr 1
        exact rightQ_congr i fun r hr => ⟨fun _ => by rw [set_ne _ _ (by omega), h8 (r + 1) (by omega), h4], fun h => by omega, fun k _ hk => by
          rw [fr r k hk (by omega), fc r k hk (by omega)]⟩
      refine ⟨fun c a b => by rw [h7, h5 c (by omega), e2]; exact h1 c (by omega) b, fun h => by omega, fun _ => by rw [h8 0 (by omega), h4]; exact e4, ?_, fun h _ => hlast h, fun c hc => ?_, ?_, ?_, ?_⟩
      · have : 0 ≤ |t2.W i| + |t2.rv1 i| := by positivity
        rw [e5]
        split
        · exact ⟨this, Or.inr ⟨i, by omega, rfl⟩⟩
        · refine ⟨ha.1, ha.2.imp id ?_⟩
          rintro ⟨c, hc, e⟩
          refine ⟨c, by omega, ?_⟩
          rw [h7, h5 c (by omega), e2, h8 c (by omega), h4, e3, set_ne _ _ (by omega)]
          exact e
      · rw [h7, fr c c (by omega) (by omega)]
        by_cases hci : c = i
        · rw [hci]; exact hz'
        · rw [h5 c hci, fc c c (by omega) (by omega), e1, e2]
          exact hz c (by omega)
      · rw [eL, transpose_mul, Matrix.mul_assoc, ← Matrix.mul_assoc (leftP m n t0.A t0.W i), hP, Matrix.one_mul, hP']
      · rw [eR, transpose_mul, Matrix.mul_assoc, ← Matrix.mul_assoc Q', hQ', Matrix.one_mul, hQ]
      · rw [eL, eR, ← h6, h4, ← h3, ← h2]
        simp only [Matrix.mul_assoc])
  rw [← ht] at h
  obtain ⟨-, -, hr0, ha, hsc, hz, hP, hQ, h2⟩ := h
  have eR : rightQ n t.A (set t.rv1 n (t.scale * t.G)) n = rightQ n t.A (fun i => if i < n then t.rv1 i else 0) n :=
    rightQ_congr n fun r hr => ⟨fun h => by rw [set_ne _ _ (by omega), if_pos h], fun h => by
      have hrn : r + 1 = n := by omega
      rw [hrn, set_same, hsc rfl (by omega), zero_mul, if_neg (by omega)]
      exact ⟨rfl, rfl⟩, fun _ _ _ => rfl⟩
  rw [eR] at hQ h2
  refine ⟨hr0, ha, hz, hP, hQ, h2.trans ?_⟩
  ext r c
  simp only [twoDiag, matOf, redAt, of_apply]
  by_cases h1 : r.1 < n
  · rw [if_pos h1, set_ne _ _ (by have := c.2; omega)]
  · rw [if_neg h1, if_pos c.2, if_neg (by have := c.2; omega), if_neg (by have := c.2; omega)]

end OP.Lin
