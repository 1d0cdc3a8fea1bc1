import Verif.Num.Rng
import Mathlib.Tactic.Linarith
import Mathlib.Tactic.NormNum
import Mathlib.Tactic.Positivity
/-!
# C34: the random number generator stays in range
-/
namespace OP.Num

/-- Where a requested number must lie. -/
def InRange : Draw → ℝ → Prop
  | .c1o2, x => 1 ≤ x ∧ x < 2
  | .c0o1, x => 0 ≤ x ∧ x < 1
  | .o0c1, x => 0 < x ∧ x ≤ 1
  | .o0o1, x => 0 < x ∧ x < 1
  | .normal, x => |x| ≤ Real.sqrt (104 * Real.log 2)

/-- A word with the sign and exponent of a number in [1,2). -/
def Hi (w : Word) : Prop := w >>> 52 = 0x3FF#64

structure RInv (g : Rng) : Prop where
  hi : ∀ j, j < 2 * dsfmtN → Hi (g.st j)
  idx : g.idx ≤ 2 * dsfmtN
  ni : g.ni = 1 ∨ g.ni = 0
  n : g.ni = 0 → ∀ i, ∃ x, g.n i = some x ∧ |x| ≤ Real.sqrt (104 * Real.log 2)

theorem Hi.or_one {w : Word} (h : Hi w) : Hi (w ||| 1#64) := by
  unfold Hi at *
  rw [BitVec.ushiftRight_or_distrib, h]; rfl

theorem hi_mix {v t m : Word} (hm : m >>> 52 = 0#64) (h : Hi t) : Hi ((v >>> 12) ^^^ (v &&& m) ^^^ t) := by
  unfold Hi at *
  rw [BitVec.ushiftRight_xor_distrib, BitVec.ushiftRight_xor_distrib, BitVec.ushiftRight_and_distrib, hm, h, ← BitVec.shiftRight_add]
  rw [BitVec.ushiftRight_eq_zero (by decide)]
  simp

theorem hi_seed (seed : BitVec 32) {j : Nat} (h : j < 2 * dsfmtN) : Hi (seedState seed j) := by
  unfold seedState Hi
  rw [if_pos h]
  rw [BitVec.ushiftRight_or_distrib, BitVec.ushiftRight_and_distrib]
  rw [show (0x000FFFFFFFFFFFFF#64 >>> 52) = 0#64 by decide, show (0x3FF0000000000000#64 >>> 52) = 0x3FF#64 by decide]
  simp

theorem decode_hi {w : Word} (h : Hi w) : decode w = some (1 + ((w.toNat % 2 ^ 52 : Nat) : ℚ) / 2 ^ 52) := by
  have e : w.toNat / 2 ^ 52 = 1023 := by
    have := congrArg BitVec.toNat h
    rw [BitVec.toNat_ushiftRight, Nat.shiftRight_eq_div_pow] at this
    exact this
  have e2 : w.toNat / 2 ^ 63 = 0 := by
    rw [show (2 : Nat) ^ 63 = 2 ^ 52 * 2 ^ 11 by norm_num, ← Nat.div_div_eq_div_mul, e]; norm_num
  unfold decode
  rw [e, e2]
  norm_num

theorem num_hi {w : Word} (h : Hi w) : num w = .ok (1 + ((w.toNat % 2 ^ 52 : Nat) : ℚ) / 2 ^ 52) := by
  unfold num; rw [decode_hi h]

theorem frac_lt (w : Word) : ((w.toNat % 2 ^ 52 : Nat) : ℚ) / 2 ^ 52 ≤ 1 - 1 / 2 ^ 52 ∧ 0 ≤ ((w.toNat % 2 ^ 52 : Nat) : ℚ) / 2 ^ 52 := by
  have h : w.toNat % 2 ^ 52 + 1 ≤ 2 ^ 52 := Nat.mod_lt _ (by norm_num)
  have h' : ((w.toNat % 2 ^ 52 : Nat) : ℚ) + 1 ≤ 2 ^ 52 := by exact_mod_cast h
  constructor
  · rw [div_le_iff₀ (by norm_num), sub_mul, one_div, inv_mul_cancel₀ (by norm_num)]
    linarith
  · positivity

theorem rd_ok {st : Nat → Word} {j : Nat} (h : j < 2 * (dsfmtN + 1)) : rd st j = .ok (st j) := if_pos h
theorem wr_ok {st : Nat → Word} {j : Nat} {w : Word} (h : j < 2 * (dsfmtN + 1)) : wr st j w = .ok (fun i => if i = j then w else st i) := if_pos h

theorem regenBody_ok {st : Nat → Word} {i : Nat} (hi : i < dsfmtN) (h : ∀ j, j < 2 * dsfmtN → Hi (st j)) :
    ∃ st', regenBody st i = .ok st' ∧ ∀ j, j < 2 * dsfmtN → Hi (st' j) := by
  have hm : (i + 117) % dsfmtN < dsfmtN := Nat.mod_lt _ (by decide)
  unfold regenBody
  rw [rd_ok (by omega), rd_ok (by omega), rd_ok (by omega), rd_ok (by omega), rd_ok (by omega), rd_ok (by omega)]
  simp only [Res.ok_bind]
  rw [wr_ok (by omega)]; simp only [Res.ok_bind]
  rw [wr_ok (by omega)]; simp only [Res.ok_bind]
  rw [wr_ok (by omega)]; simp only [Res.ok_bind]
  rw [wr_ok (by omega)]
  refine ⟨_, rfl, fun j hj => ?_⟩
  beta_reduce
  split
  · exact hi_mix (by decide) (h _ (by omega))
  · split
    · exact hi_mix (by decide) (h _ (by omega))
    · rw [if_neg (by omega), if_neg (by omega)]; exact h j hj

theorem regenLoop_ok : ∀ (m i : Nat) (st : Nat → Word), i + m ≤ dsfmtN → (∀ j, j < 2 * dsfmtN → Hi (st j)) →
    ∃ st', regenLoop m i st = .ok st' ∧ ∀ j, j < 2 * dsfmtN → Hi (st' j)
  | 0, _, st, _, h => ⟨st, rfl, h⟩
  | m + 1, i, st, hm, h => by
    obtain ⟨st1, e1, h1⟩ := regenBody_ok (i := i) (by omega) h
    obtain ⟨st2, e2, h2⟩ := regenLoop_ok m (i + 1) st1 (by omega) h1
    exact ⟨st2, by simp only [regenLoop, e1, Res.ok_bind, e2], h2⟩

theorem draw_ok {g : Rng} (h : RInv g) : ∃ w g', g.draw = .ok (w, g') ∧ Hi w ∧ RInv g' ∧ g'.ni = g.ni := by
  unfold Rng.draw
  have hN : 0 < dsfmtN := by decide
  split
  · obtain ⟨st, e, hs⟩ := regenLoop_ok dsfmtN 0 g.st (by omega) h.hi
    unfold regen
    simp only [e, Res.ok_bind]
    rw [rd_ok (by omega)]
    exact ⟨_, _, rfl, hs 0 (by omega), ⟨hs, by simp only; omega, h.ni, h.n⟩, rfl⟩
  · rename_i hc
    simp only [Res.ok_bind]
    rw [rd_ok (by omega)]
    exact ⟨_, _, rfl, h.hi _ (by omega), ⟨h.hi, by simp only; omega, h.ni, h.n⟩, rfl⟩

theorem c1o2_ok {g : Rng} (h : RInv g) : ∃ (x : ℚ) (g' : Rng), g.c1o2 = .ok (x, g') ∧ 1 ≤ x ∧ x ≤ 2 - 1 / 2 ^ 52 ∧ RInv g' ∧ g'.ni = g.ni := by
  obtain ⟨w, g', e, hw, hg, hn⟩ := draw_ok h
  unfold Rng.c1o2
  have := frac_lt w
  simp only [e, Res.ok_bind, num_hi hw]
  exact ⟨_, _, rfl, by linarith [this.2], by linarith [this.1], hg, hn⟩

theorem o0c1_ok {g : Rng} (h : RInv g) : ∃ (x : ℚ) (g' : Rng), g.o0c1 = .ok (x, g') ∧ 1 / 2 ^ 52 ≤ x ∧ x ≤ 1 ∧ RInv g' ∧ g'.ni = g.ni := by
  obtain ⟨w, g', e, h1, h2, hg, hn⟩ := c1o2_ok h
  unfold Rng.o0c1
  simp only [e, Res.ok_bind]
  exact ⟨_, _, rfl, by linarith, by linarith, hg, hn⟩

theorem o0o1_ok {g : Rng} (h : RInv g) : ∃ (x : ℚ) (g' : Rng), g.o0o1 = .ok (x, g') ∧ 0 < x ∧ x < 1 ∧ RInv g' := by
  obtain ⟨w, g', e, hw, hg, -⟩ := draw_ok h
  unfold Rng.o0o1
  have := frac_lt (w ||| 1#64)
  simp only [e, Res.ok_bind, num_hi hw.or_one]
  refine ⟨_, _, rfl, ?_, by linarith [this.1], hg⟩
  have odd : (w ||| 1#64).toNat % 2 ^ 52 % 2 = 1 := by
    rw [Nat.mod_mod_of_dvd _ (by norm_num), BitVec.toNat_or]
    have : (w.toNat ||| 1) % 2 = 1 := by
      rw [Nat.or_mod_two_eq_one]; right; rfl
    simpa using this
  have pos : 0 < (w ||| 1#64).toNat % 2 ^ 52 := by omega
  have : (0 : ℚ) < (((w ||| 1#64).toNat % 2 ^ 52 : Nat) : ℚ) / 2 ^ 52 := by
    apply div_pos
    · exact_mod_cast pos
    · norm_num
  linarith

theorem normal_bound {u t : ℝ} (h1 : 1 / 2 ^ 52 ≤ u) (ht : |t| ≤ 1) :
    |Real.sqrt (-2 * Real.log u) * t| ≤ Real.sqrt (104 * Real.log 2) := by
  rw [abs_mul, abs_of_nonneg (Real.sqrt_nonneg _)]
  have hl : -Real.log u ≤ 52 * Real.log 2 := by
    have := Real.log_le_log (by norm_num) h1
    rw [one_div, Real.log_inv, Real.log_pow] at this
    push_cast at this
    linarith
  have hs : Real.sqrt (-2 * Real.log u) ≤ Real.sqrt (104 * Real.log 2) := Real.sqrt_le_sqrt (by linarith)
  calc _ ≤ Real.sqrt (-2 * Real.log u) * 1 := mul_le_mul_of_nonneg_left ht (Real.sqrt_nonneg _)
    _ ≤ _ := by rw [mul_one]; exact hs

theorem stdnormal_ok {g : Rng} (h : RInv g) : ∃ (x : ℝ) (g' : Rng), g.stdnormal = .ok (x, g') ∧ |x| ≤ Real.sqrt (104 * Real.log 2) ∧ RInv g' := by
  unfold Rng.stdnormal
  rcases h.ni with hn | hn
  · rw [if_pos hn]
    obtain ⟨x1, g1, e1, l1, -, i1, n1⟩ := o0c1_ok h
    obtain ⟨x2, g2, e2, -, -, i2, n2⟩ := o0c1_ok i1
    simp only [e1, e2, Res.ok_bind]
    have l1' : (1 : ℝ) / 2 ^ 52 ≤ (x1 : ℝ) := by
      have : ((1 / 2 ^ 52 : ℚ) : ℝ) ≤ (x1 : ℝ) := by exact_mod_cast l1
      simpa using this
    refine ⟨_, _, rfl, normal_bound l1' (Real.abs_sin_le_one _), ⟨i2.hi, i2.idx, .inr rfl, fun _ i => ?_⟩⟩
    simp only
    split
    · exact ⟨_, rfl, normal_bound l1' (Real.abs_sin_le_one _)⟩
    · exact ⟨_, rfl, normal_bound l1' (Real.abs_cos_le_one _)⟩
  · rw [if_neg (by omega)]
    obtain ⟨x, e, hb⟩ := h.n hn 1
    simp only [Res.ok_bind, e]
    exact ⟨x, _, rfl, hb, ⟨h.hi, h.idx, .inl rfl, fun h0 => by simp at h0⟩⟩

theorem step_ok {g : Rng} (h : RInv g) (d : Draw) : ∃ x g', g.step d = .ok (x, g') ∧ InRange d x ∧ RInv g' := by
  have hp : (0 : ℚ) < 1 / 2 ^ 52 := by norm_num
  cases d with
  | c1o2 =>
    obtain ⟨x, g', e, h1, h2, i, -⟩ := c1o2_ok h
    simp only [Rng.step, e, Res.ok_bind]
    exact ⟨_, _, rfl, ⟨by exact_mod_cast h1, by exact_mod_cast (by linarith : x < 2)⟩, i⟩
  | c0o1 =>
    obtain ⟨x, g', e, h1, h2, i, -⟩ := c1o2_ok h
    simp only [Rng.step, Rng.c0o1, e, Res.ok_bind]
    exact ⟨_, _, rfl, ⟨by exact_mod_cast (by linarith : 0 ≤ x - 1), by exact_mod_cast (by linarith : x - 1 < 1)⟩, i⟩
  | o0c1 =>
    obtain ⟨x, g', e, h1, h2, i, -⟩ := o0c1_ok h
    simp only [Rng.step, e, Res.ok_bind]
    exact ⟨_, _, rfl, ⟨by exact_mod_cast (by linarith : 0 < x), by exact_mod_cast h2⟩, i⟩
  | o0o1 =>
    obtain ⟨x, g', e, h1, h2, i⟩ := o0o1_ok h
    simp only [Rng.step, e, Res.ok_bind]
    exact ⟨_, _, rfl, ⟨by exact_mod_cast h1, by exact_mod_cast h2⟩, i⟩
  | normal =>
    obtain ⟨x, g', e, h1, i⟩ := stdnormal_ok h
    simp only [Rng.step, e]
    exact ⟨_, _, rfl, h1, i⟩

theorem new_inv (seed : BitVec 32) : RInv (Rng.new seed) := by
  refine ⟨fun j hj => ?_, Nat.le_refl _, .inl rfl, fun h => by simp [Rng.new] at h⟩
  unfold Rng.new
  simp only
  split
  · beta_reduce; rw [if_neg (by omega)]; exact hi_seed seed hj
  · exact hi_seed seed hj

/-- **C34**.  From every seed, and for every sequence of requests, each request is answered without leaving the state array, without
reading anything not initialised, and with a number in the interval asked for; the normal deviates are at most √(104 ln 2) ≈ 8.49 in
size. -/
theorem C34_rng (seed : BitVec 32) (ds : List Draw) :
    ∃ xs g, (Rng.new seed).run ds = .ok (xs, g) ∧ List.Forall₂ InRange ds xs ∧ g.idx ≤ 2 * dsfmtN := by
  have all : ∀ (ds : List Draw) (g : Rng), RInv g → ∃ xs g', g.run ds = .ok (xs, g') ∧ List.Forall₂ InRange ds xs ∧ RInv g' := by
    intro ds
    induction ds with
    | nil => intro g h; exact ⟨[], g, rfl, .nil, h⟩
    | cons d ds ih =>
      intro g h
      obtain ⟨x, g1, e1, r1, i1⟩ := step_ok h d
      obtain ⟨xs, g2, e2, r2, i2⟩ := ih g1 i1
      exact ⟨x :: xs, g2, by simp only [Rng.run, e1, Res.ok_bind, e2], .cons r1 r2, i2⟩
  obtain ⟨xs, g, e, r, i⟩ := all ds _ (new_inv seed)
  exact ⟨xs, g, e, r, i.idx⟩

/-- **C34**, the period certificate: whatever the seed, the parity check on the last two words of the state holds once the generator is
made. -/
theorem C34_period_certificate (seed : BitVec 32) :
    inner ((Rng.new seed).st (2 * dsfmtN)) ((Rng.new seed).st (2 * dsfmtN + 1)) = 1#64 := by
  have lin : ∀ (x : Word) (k : Nat), 1 ≤ k → k < 64 → (x ^^^ 1#64) ^^^ ((x ^^^ 1#64) >>> k) = (x ^^^ (x >>> k)) ^^^ 1#64 := by
    intro x k hk hk'
    have : (1#64) >>> k = 0#64 := by
      apply BitVec.eq_of_toNat_eq
      rw [BitVec.toNat_ushiftRight, Nat.shiftRight_eq_div_pow]
      have : 2 ^ 1 ≤ 2 ^ k := Nat.pow_le_pow_right (by norm_num) hk
      simp
      omega
    rw [BitVec.ushiftRight_xor_distrib, this, BitVec.xor_zero, BitVec.xor_assoc, BitVec.xor_comm 1#64, ← BitVec.xor_assoc]
  have flip : ∀ u0 u1 : Word, inner u0 (u1 ^^^ 1#64) = inner u0 u1 ^^^ 1#64 := by
    intro u0 u1
    unfold inner
    have e : ((u1 ^^^ 1#64) ^^^ 0x3b8d12ac548a7c7a#64) &&& 1#64 = ((u1 ^^^ 0x3b8d12ac548a7c7a#64) &&& 1#64) ^^^ 1#64 := by
      rw [BitVec.xor_assoc, BitVec.xor_comm 1#64, ← BitVec.xor_assoc]
      ext i hi
      simp
      by_cases h : i = 0
      · subst h; simp
      · simp [BitVec.getElem_one, h]
    simp only [e]
    rw [← BitVec.xor_assoc]
    simp only [lin _ _ (by norm_num : 1 ≤ 32) (by norm_num), lin _ _ (by norm_num : 1 ≤ 16) (by norm_num), lin _ _ (by norm_num : 1 ≤ 8) (by norm_num),
      lin _ _ (by norm_num : 1 ≤ 4) (by norm_num), lin _ _ (by norm_num : 1 ≤ 2) (by norm_num), lin _ _ (by norm_num : 1 ≤ 1) (by norm_num)]
    ext i hi
    by_cases h : i = 0
    · subst h; simp
    · simp [BitVec.getElem_one, h]
  have bit : ∀ x : Word, x &&& 1#64 ≠ 1#64 → x &&& 1#64 = 0#64 := by
    intro x h
    apply BitVec.eq_of_toNat_eq
    have h2 : (x &&& 1#64).toNat ≠ 1 := fun e => h (BitVec.eq_of_toNat_eq (by rw [e]; rfl))
    rw [BitVec.toNat_and] at h2 ⊢
    have : x.toNat &&& (1#64).toNat = x.toNat % 2 := by
      show x.toNat &&& 1 = _
      exact Nat.and_one_is_mod _
    rw [this] at h2 ⊢
    simp; omega
  unfold Rng.new
  simp only
  split
  · rename_i hc
    beta_reduce
    rw [if_neg (by omega), if_pos rfl, flip]
    rw [show inner (seedState seed (2 * dsfmtN)) (seedState seed (2 * dsfmtN + 1)) = 0#64 from bit _ hc]
    rfl
  · rename_i hc
    simpa using hc

end OP.Num
