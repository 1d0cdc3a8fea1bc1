import Verif.Num.PropsRng
import Mathlib.Dynamics.PeriodicPts.Lemmas
/-!
# C34: the states of the random number generator are never confused
-/
namespace OP.Num

/-- Exchange of the halves of a word. -/
theorem rot_rot (x : Word) : (((x >>> 32) ^^^ (x <<< 32)) >>> 32) ^^^ (((x >>> 32) ^^^ (x <<< 32)) <<< 32) = x := by
  apply BitVec.eq_of_getLsbD_eq
  intro i hi
  simp only [BitVec.getLsbD_xor, BitVec.getLsbD_ushiftRight, BitVec.getLsbD_shiftLeft]
  by_cases h : i < 32
  · have e : ¬32 + i < 32 := by omega
    have e' : x.getLsbD (32 + (32 + i)) = false := BitVec.getLsbD_of_ge _ _ (by omega)
    simp [h, e', show 32 + i < 64 by omega]
  · have e : i - 32 < 32 := by omega
    have e2 : x.getLsbD (32 + (32 + i)) = false := BitVec.getLsbD_of_ge _ _ (by omega)
    simp [h, hi, e, e2, show ¬32 + i < 64 by omega, show 32 + (i - 32) = i by omega]

theorem rot_inj {a b : Word} (h : (a >>> 32) ^^^ (a <<< 32) = (b >>> 32) ^^^ (b <<< 32)) : a = b := by
  rw [← rot_rot a, ← rot_rot b, h]

theorem mix_inj {c d x x' : Word} (h : c ^^^ (x >>> 32) ^^^ (x <<< 32) ^^^ d = c ^^^ (x' >>> 32) ^^^ (x' <<< 32) ^^^ d) :
    x = x' := by
  apply rot_inj
  have := (BitVec.xor_left_inj d).1 h
  rw [BitVec.xor_assoc, BitVec.xor_assoc] at this
  exact (BitVec.xor_right_inj c).1 this

/-- What one round leaves in the array. -/
theorem body_eq {st : Nat → Word} {i : Nat} (hi : i < 191) : ∃ st', regenBody st i = .ok st' ∧
    st' 382 = (st (2 * i) <<< 19) ^^^ (st 383 >>> 32) ^^^ (st 383 <<< 32) ^^^ st (2 * ((i + 117) % 191)) ∧
    st' 383 = (st (2 * i + 1) <<< 19) ^^^ (st 382 >>> 32) ^^^ (st 382 <<< 32) ^^^ st (2 * ((i + 117) % 191) + 1) ∧
    st' (2 * i) = (st' 382 >>> 12) ^^^ (st' 382 &&& 0x000ffafffffffb3f#64) ^^^ st (2 * i) ∧
    st' (2 * i + 1) = (st' 383 >>> 12) ^^^ (st' 383 &&& 0x000ffdfffc90fffd#64) ^^^ st (2 * i + 1) ∧
    ∀ j, j ≠ 382 → j ≠ 383 → j ≠ 2 * i → j ≠ 2 * i + 1 → st' j = st j := by
  have hN : dsfmtN = 191 := by decide
  have hm : (i + 117) % 191 < 191 := Nat.mod_lt _ (by decide)
  unfold regenBody
  rw [hN]
  rw [rd_ok (by omega), rd_ok (by omega), rd_ok (by omega), rd_ok (by omega), rd_ok (by omega), rd_ok (by omega)]
  simp only [Res.ok_bind]
  rw [wr_ok (by omega)]; simp only [Res.ok_bind]
  rw [wr_ok (by omega)]; simp only [Res.ok_bind]
  rw [wr_ok (by omega)]; simp only [Res.ok_bind]
  rw [wr_ok (by omega)]
  refine ⟨_, rfl, ?_, ?_, ?_, ?_, ?_⟩
  · beta_reduce
    rw [if_neg (by omega), if_neg (by omega), if_neg (by omega), if_pos (by omega)]
  · beta_reduce
    rw [if_neg (by omega), if_neg (by omega), if_pos (by omega)]
  · beta_reduce
    rw [if_neg (by omega), if_pos rfl, if_neg (by omega), if_neg (by omega), if_neg (by omega), if_pos (by omega)]
  · beta_reduce
    rw [if_pos rfl, if_neg (by omega), if_neg (by omega), if_pos (by omega)]
  · intro j h1 h2 h3 h4
    beta_reduce
    rw [if_neg (by omega), if_neg (by omega), if_neg (by omega), if_neg (by omega)]

theorem body_inj {s t s' t' : Nat → Word} {i : Nat} (hi : i < 191) (hs : regenBody s i = .ok s') (ht : regenBody t i = .ok t')
    (h : ∀ j < 384, s' j = t' j) : ∀ j < 384, s j = t j := by
  obtain ⟨a, ea, a0, a1, a2, a3, a4⟩ := body_eq (st := s) hi
  obtain ⟨b, eb, b0, b1, b2, b3, b4⟩ := body_eq (st := t) hi
  rw [ea] at hs; cases hs
  rw [eb] at ht; cases ht
  have hm : (i + 117) % 191 < 191 := Nat.mod_lt _ (by decide)
  have hne : (i + 117) % 191 ≠ i := by omega
  have k0 : s (2 * i) = t (2 * i) := by
    have := h (2 * i) (by omega)
    rw [a2, b2, h 382 (by omega)] at this
    exact (BitVec.xor_right_inj _).1 this
  have k1 : s (2 * i + 1) = t (2 * i + 1) := by
    have := h (2 * i + 1) (by omega)
    rw [a3, b3, h 383 (by omega)] at this
    exact (BitVec.xor_right_inj _).1 this
  have rest : ∀ j < 382, s j = t j := by
    intro j hj
    by_cases e : j = 2 * i
    · rw [e]; exact k0
    by_cases e' : j = 2 * i + 1
    · rw [e']; exact k1
    rw [← a4 j (by omega) (by omega) e e', ← b4 j (by omega) (by omega) e e']
    exact h j (by omega)
  have l1 : s 383 = t 383 := by
    have := h 382 (by omega)
    rw [a0, b0, k0, rest (2 * ((i + 117) % 191)) (by omega)] at this
    exact mix_inj this
  have l0 : s 382 = t 382 := by
    have := h 383 (by omega)
    rw [a1, b1, k1, rest (2 * ((i + 117) % 191) + 1) (by omega)] at this
    exact mix_inj this
  intro j hj
  by_cases e : j < 382
  · exact rest j e
  · rcases (show j = 382 ∨ j = 383 by omega) with rfl | rfl
    · exact l0
    · exact l1

theorem loop_inj : ∀ (m i : Nat) (s t s' t' : Nat → Word), i + m ≤ 191 → regenLoop m i s = .ok s' → regenLoop m i t = .ok t' →
    (∀ j < 384, s' j = t' j) → ∀ j < 384, s j = t j
  | 0, _, s, t, s', t', _, hs, ht, h => by
    cases hs; cases ht; exact h
  | m + 1, i, s, t, s', t', hm, hs, ht, h => by
    simp only [regenLoop] at hs ht
    obtain ⟨a, ea, hs⟩ := Res.bind_eq_ok.1 hs
    obtain ⟨b, eb, ht⟩ := Res.bind_eq_ok.1 ht
    exact body_inj (by omega) ea eb (loop_inj m (i + 1) a b s' t' (by omega) hs ht h)

/-- **C34**, nothing is lost: the recursion that makes the next block of numbers leads from different states (of 384 words) to
different states. -/
theorem C34_reversible (s t s' t' : Nat → Word) (hs : regen s = .ok s') (ht : regen t = .ok t') (h : ∀ j < 384, s' j = t' j) :
    ∀ j < 384, s j = t j :=
  loop_inj 191 0 s t s' t' (by omega) (by simpa [regen, show dsfmtN = 191 by decide] using hs)
    (by simpa [regen, show dsfmtN = 191 by decide] using ht) h

theorem loop_total : ∀ (m i : Nat) (s : Nat → Word), i + m ≤ 191 → ∃ s', regenLoop m i s = .ok s'
  | 0, _, s, _ => ⟨s, rfl⟩
  | m + 1, i, s, hm => by
    obtain ⟨a, ea, -⟩ := body_eq (st := s) (i := i) (by omega)
    obtain ⟨b, eb⟩ := loop_total m (i + 1) a (by omega)
    exact ⟨b, by simp only [regenLoop, ea, Res.ok_bind, eb]⟩

theorem regen_total (s : Nat → Word) : ∃ s', regen s = .ok s' := by
  have := loop_total 191 0 s (by omega)
  simpa [regen, show dsfmtN = 191 by decide] using this

theorem body_local {s t s' t' : Nat → Word} {i : Nat} (hi : i < 191) (hs : regenBody s i = .ok s') (ht : regenBody t i = .ok t')
    (h : ∀ j < 384, s j = t j) : ∀ j < 384, s' j = t' j := by
  obtain ⟨a, ea, a0, a1, a2, a3, a4⟩ := body_eq (st := s) hi
  obtain ⟨b, eb, b0, b1, b2, b3, b4⟩ := body_eq (st := t) hi
  rw [ea] at hs; cases hs
  rw [eb] at ht; cases ht
  have hm : (i + 117) % 191 < 191 := Nat.mod_lt _ (by decide)
  have k0 : s' 382 = t' 382 := by
    rw [a0, b0, h _ (show 2 * i < 384 by omega), h 383 (by omega), h _ (show 2 * ((i + 117) % 191) < 384 by omega)]
  have k1 : s' 383 = t' 383 := by
    rw [a1, b1, h _ (show 2 * i + 1 < 384 by omega), h 382 (by omega), h _ (show 2 * ((i + 117) % 191) + 1 < 384 by omega)]
  intro j hj
  by_cases e : j = 2 * i
  · rw [e, a2, b2, k0, h _ (by omega)]
  by_cases e' : j = 2 * i + 1
  · rw [e', a3, b3, k1, h _ (by omega)]
  by_cases e2 : j = 382
  · rw [e2, k0]
  by_cases e3 : j = 383
  · rw [e3, k1]
  rw [a4 j e2 e3 e e', b4 j e2 e3 e e', h j hj]

theorem loop_local : ∀ (m i : Nat) (s t s' t' : Nat → Word), i + m ≤ 191 → regenLoop m i s = .ok s' → regenLoop m i t = .ok t' →
    (∀ j < 384, s j = t j) → ∀ j < 384, s' j = t' j
  | 0, _, s, t, s', t', _, hs, ht, h => by
    cases hs; cases ht; exact h
  | m + 1, i, s, t, s', t', hm, hs, ht, h => by
    simp only [regenLoop] at hs ht
    obtain ⟨a, ea, hs⟩ := Res.bind_eq_ok.1 hs
    obtain ⟨b, eb, ht⟩ := Res.bind_eq_ok.1 ht
    exact loop_local m (i + 1) a b s' t' (by omega) hs ht (body_local (by omega) ea eb h)

/-- `n` blocks of numbers one after the other. -/
def blocks : Nat → (Nat → Word) → Res (Nat → Word)
  | 0, st => .ok st
  | n + 1, st => regen st >>= blocks n

/-- **C34**, the numbers come round: from whatever state, after some number of blocks the generator is in that state again, so
that the sequence of numbers has no part that is never repeated. -/
theorem C34_returns (s : Nat → Word) : ∃ p > 0, ∃ s', blocks p s = .ok s' ∧ ∀ j < 384, s' j = s j := by
  let ext : (Fin 384 → Word) → Nat → Word := fun f j => if h : j < 384 then f ⟨j, h⟩ else 0
  let F : (Fin 384 → Word) → Fin 384 → Word := fun f j => (regen_total (ext f)).choose j
  have hF : ∀ f, regen (ext f) = .ok (regen_total (ext f)).choose := fun f => (regen_total (ext f)).choose_spec
  have inj : Function.Injective F := by
    intro f g h
    have := C34_reversible _ _ _ _ (hF f) (hF g) (fun j hj => congrFun h ⟨j, hj⟩)
    funext j
    have := this j j.2
    simpa [ext] using this
  have many : ∀ (n : Nat) (f : Fin 384 → Word) (s : Nat → Word), (∀ j : Fin 384, s j = f j) →
      ∃ s', blocks n s = .ok s' ∧ ∀ j : Fin 384, s' j = F^[n] f j := by
    intro n
    induction n with
    | zero => intro f s h; exact ⟨s, rfl, h⟩
    | succ n ih =>
      intro f s h
      obtain ⟨t, et⟩ := regen_total s
      have loc := loop_local 191 0 s (ext f) t _ (by omega) (by simpa [regen, show dsfmtN = 191 by decide] using et)
        (by simpa [regen, show dsfmtN = 191 by decide] using hF f) (fun j hj => by
          rw [h ⟨j, hj⟩]; simp [ext, hj])
      obtain ⟨u, eu, hu⟩ := ih (F f) t (fun j => loc j j.2)
      exact ⟨u, by simp only [blocks, et, Res.ok_bind, eu], fun j => by rw [hu j, Function.iterate_succ_apply]⟩
  haveI : Finite Word := Finite.of_injective BitVec.toFin (fun a b h => BitVec.eq_of_toFin_eq h)
  obtain ⟨p, hp, e⟩ := Function.Injective.mem_periodicPts inj (fun j => s j)
  obtain ⟨s', es, hs⟩ := many p (fun j => s j) s (fun _ => rfl)
  refine ⟨p, hp, s', es, fun j hj => ?_⟩
  rw [hs ⟨j, hj⟩]
  exact congrFun e ⟨j, hj⟩

/-! ## Different seeds -/

/-- Two generators that stand at the same place of different states. -/
structure Apart (g h : Rng) : Prop where
  idx : g.idx = h.idx
  ni : g.ni = h.ni
  st : ∃ j < 384, g.st j ≠ h.st j

theorem Apart.draw {g h g' h' : Rng} (k : Apart g h) {w v : Word} (hg : g.draw = .ok (w, g')) (hh : h.draw = .ok (v, h')) :
    Apart g' h' := by
  unfold Rng.draw at hg hh
  obtain ⟨g1, e1, hg⟩ := Res.bind_eq_ok.1 hg
  obtain ⟨w', e2, hg⟩ := Res.bind_eq_ok.1 hg
  cases hg
  obtain ⟨h1, f1, hh⟩ := Res.bind_eq_ok.1 hh
  obtain ⟨v', f2, hh⟩ := Res.bind_eq_ok.1 hh
  cases hh
  rw [← k.idx] at f1
  split_ifs at e1 f1 with c
  · obtain ⟨s, es, e1⟩ := Res.bind_eq_ok.1 e1
    obtain ⟨t, et, f1⟩ := Res.bind_eq_ok.1 f1
    cases e1; cases f1
    refine ⟨rfl, k.ni, ?_⟩
    by_contra q
    push Not at q
    obtain ⟨j, hj, hne⟩ := k.st
    exact hne (C34_reversible _ _ _ _ es et q j hj)
  · cases e1; cases f1
    exact ⟨by rw [k.idx], k.ni, k.st⟩

theorem Apart.c1o2 {g h g' h' : Rng} (k : Apart g h) {w v : ℚ} (hg : g.c1o2 = .ok (w, g')) (hh : h.c1o2 = .ok (v, h')) :
    Apart g' h' := by
  unfold Rng.c1o2 at hg hh
  obtain ⟨⟨a, g1⟩, e1, hg⟩ := Res.bind_eq_ok.1 hg
  obtain ⟨d, -, hg⟩ := Res.bind_eq_ok.1 hg
  cases hg
  obtain ⟨⟨b, h1⟩, f1, hh⟩ := Res.bind_eq_ok.1 hh
  obtain ⟨d', -, hh⟩ := Res.bind_eq_ok.1 hh
  cases hh
  exact k.draw e1 f1

theorem Apart.o0c1 {g h g' h' : Rng} (k : Apart g h) {w v : ℚ} (hg : g.o0c1 = .ok (w, g')) (hh : h.o0c1 = .ok (v, h')) :
    Apart g' h' := by
  unfold Rng.o0c1 at hg hh
  obtain ⟨⟨a, g1⟩, e1, hg⟩ := Res.bind_eq_ok.1 hg
  cases hg
  obtain ⟨⟨b, h1⟩, f1, hh⟩ := Res.bind_eq_ok.1 hh
  cases hh
  exact k.c1o2 e1 f1

theorem Apart.step {g h g' h' : Rng} (k : Apart g h) (d : Draw) {w v : ℝ} (hg : g.step d = .ok (w, g')) (hh : h.step d = .ok (v, h')) :
    Apart g' h' := by
  cases d with
  | c1o2 =>
    obtain ⟨⟨a, g1⟩, e1, hg⟩ := Res.bind_eq_ok.1 hg
    cases hg
    obtain ⟨⟨b, h1⟩, f1, hh⟩ := Res.bind_eq_ok.1 hh
    cases hh
    exact k.c1o2 e1 f1
  | c0o1 =>
    simp only [Rng.step, Rng.c0o1] at hg hh
    obtain ⟨⟨a, g1⟩, e1, hg⟩ := Res.bind_eq_ok.1 hg
    cases hg
    obtain ⟨⟨a', g2⟩, e2, e1⟩ := Res.bind_eq_ok.1 e1
    cases e1
    obtain ⟨⟨b, h1⟩, f1, hh⟩ := Res.bind_eq_ok.1 hh
    cases hh
    obtain ⟨⟨b', h2⟩, f2, f1⟩ := Res.bind_eq_ok.1 f1
    cases f1
    exact k.c1o2 e2 f2
  | o0c1 =>
    obtain ⟨⟨a, g1⟩, e1, hg⟩ := Res.bind_eq_ok.1 hg
    cases hg
    obtain ⟨⟨b, h1⟩, f1, hh⟩ := Res.bind_eq_ok.1 hh
    cases hh
    exact k.o0c1 e1 f1
  | o0o1 =>
    simp only [Rng.step, Rng.o0o1] at hg hh
    obtain ⟨⟨a, g1⟩, e1, hg⟩ := Res.bind_eq_ok.1 hg
    cases hg
    obtain ⟨⟨a', g2⟩, e2, e1⟩ := Res.bind_eq_ok.1 e1
    obtain ⟨_, -, e1⟩ := Res.bind_eq_ok.1 e1
    cases e1
    obtain ⟨⟨b, h1⟩, f1, hh⟩ := Res.bind_eq_ok.1 hh
    cases hh
    obtain ⟨⟨b', h2⟩, f2, f1⟩ := Res.bind_eq_ok.1 f1
    obtain ⟨_, -, f1⟩ := Res.bind_eq_ok.1 f1
    cases f1
    exact k.draw e2 f2
  | normal =>
    simp only [Rng.step, Rng.stdnormal] at hg hh
    obtain ⟨g1, e1, hg⟩ := Res.bind_eq_ok.1 hg
    obtain ⟨h1, f1, hh⟩ := Res.bind_eq_ok.1 hh
    have key : Apart g1 h1 := by
      rw [← k.ni] at f1
      split_ifs at e1 f1 with c
      · obtain ⟨⟨a, g2⟩, e2, e1⟩ := Res.bind_eq_ok.1 e1
        obtain ⟨⟨b, g3⟩, e3, e1⟩ := Res.bind_eq_ok.1 e1
        cases e1
        obtain ⟨⟨a', h2⟩, f2, f1⟩ := Res.bind_eq_ok.1 f1
        obtain ⟨⟨b', h3⟩, f3, f1⟩ := Res.bind_eq_ok.1 f1
        cases f1
        have := (k.o0c1 e2 f2).o0c1 e3 f3
        exact ⟨this.idx, rfl, this.st⟩
      · cases e1; cases f1
        exact ⟨k.idx, rfl, k.st⟩
    split at hg
    · cases hg
      split at hh
      · cases hh; exact key
      · cases hh
    · cases hg

theorem Apart.run {ds : List Draw} : ∀ {g h g' h' : Rng} {xs ys : List ℝ}, Apart g h → g.run ds = .ok (xs, g') →
    h.run ds = .ok (ys, h') → Apart g' h' := by
  induction ds with
  | nil => intro g h g' h' xs ys k hg hh; cases hg; cases hh; exact k
  | cons d ds ih =>
    intro g h g' h' xs ys k hg hh
    obtain ⟨⟨x, g1⟩, e1, hg⟩ := Res.bind_eq_ok.1 hg
    obtain ⟨⟨_, g2⟩, e2, hg⟩ := Res.bind_eq_ok.1 hg
    cases hg
    obtain ⟨⟨y, h1⟩, f1, hh⟩ := Res.bind_eq_ok.1 hh
    obtain ⟨⟨_, h2⟩, f2, hh⟩ := Res.bind_eq_ok.1 hh
    cases hh
    exact ih (k.step d e1 f1) e2 f2

theorem new_word (seed : BitVec 32) : ((Rng.new seed).st 0).truncate 32 = seed := by
  have e : (Rng.new seed).st 0 = seedState seed 0 := by
    unfold Rng.new
    dsimp only
    split
    · beta_reduce; rw [if_neg (by decide)]
    · rfl
  rw [e, seedState, if_pos (by decide)]
  apply BitVec.eq_of_getLsbD_eq
  intro i hi
  simp only [seedWord]
  have m1 : (0x000FFFFFFFFFFFFF#64).getLsbD i = true := by
    have : ∀ i < 32, (0x000FFFFFFFFFFFFF#64).getLsbD i = true := by decide
    exact this i hi
  have m2 : (0x3FF0000000000000#64).getLsbD i = false := by
    have : ∀ i < 32, (0x3FF0000000000000#64).getLsbD i = false := by decide
    exact this i hi
  simp only [BitVec.truncate_eq_setWidth, BitVec.getLsbD_setWidth, BitVec.getLsbD_or, BitVec.getLsbD_and,
    BitVec.getLsbD_shiftLeft, m1, m2, hi, show i < 64 by omega]
  simp [hi]

/-- **C34**, different seeds: two generators made from different seeds, and asked for the same numbers, never come to the same
state, whatever is asked. -/
theorem C34_seeds (a b : BitVec 32) (hab : a ≠ b) (ds : List Draw) :
    ∃ xs g ys h, (Rng.new a).run ds = .ok (xs, g) ∧ (Rng.new b).run ds = .ok (ys, h) ∧ g.idx = h.idx ∧
      ∃ j < 384, g.st j ≠ h.st j := by
  obtain ⟨xs, g, eg, -⟩ := C34_rng a ds
  obtain ⟨ys, h, eh, -⟩ := C34_rng b ds
  have k : Apart (Rng.new a) (Rng.new b) := ⟨rfl, rfl, 0, by omega, fun q => hab (by
    rw [← new_word a, ← new_word b, q])⟩
  have r := k.run eg eh
  exact ⟨xs, g, ys, h, eg, eh, r.idx, r.st⟩

example : (12345#32 : BitVec 32) ≠ 1#32 := by decide

end OP.Num
