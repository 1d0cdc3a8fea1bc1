import Verif.Table.AxisLemmas
/-!
# Lemmas on `table`: whole objects, and a table with its axes
-/
namespace OP.Table
open OP.SetFam (bufsize)
open OP.SetFam.SSet (le_bufsize bufsize_block_pos)

variable {V : Type}

/-- What a cell holds. -/
def Tab.cell (t : Tab V) (ps : List Nat) : Option (Option V) := t.buf[mkIndex t.sizes 0 ps]?

/-- The storage is large enough, and for class types every cell is an object. -/
structure Fits (pod : Bool) (t : Tab V) : Prop where
  blk : 0 < t.blk
  room : t.sizes.prod ≤ t.buf.length
  live : pod = false → Live t.buf 0 t.sizes.prod

theorem Tab.length_eq (t : Tab V) : t.length = t.sizes.prod := by
  rw [Tab.length, lengthTo, List.take_length]

theorem realloc_get (b : Buf V) (n j : Nat) (h1 : j < n) (h2 : j < b.length) : (b.realloc n)[j]? = b[j]? := by
  rw [Buf.realloc, List.getElem?_append_left (by simp; omega), List.getElem?_take, if_pos h1]

theorem allocate_ok (pod : Bool) (t : Tab V) (hb : 0 < t.blk) :
    ∃ t', t.allocate pod t.length = .ok t' ∧ t'.sizes = t.sizes ∧ 0 < t'.blk ∧ t.sizes.prod ≤ t'.buf.length ∧
      ∀ j, j < t.sizes.prod → j < t.buf.length → t'.buf[j]? = t.buf[j]? := by
  have h1 := le_bufsize t.length t.blk hb
  have h2 := bufsize_block_pos t.length t.blk hb
  rw [← t.length_eq]
  rw [Tab.allocate]
  simp only
  by_cases hc : (bufsize t.length t.blk).1 = t.buf.length
  · rw [if_pos hc]
    exact ⟨_, rfl, rfl, h2, by simp only; omega, fun _ _ _ => rfl⟩
  rw [if_neg hc]
  by_cases h0 : (bufsize t.length t.blk).1 = 0
  · rw [if_pos h0]
    have hl : t.length = 0 := by omega
    have hl' : Tab.length ({ t with blk := (bufsize t.length t.blk).2 } : Tab V) = 0 := hl
    rw [hl']
    obtain ⟨b, e, -⟩ := destroyCells_get pod 0 t.buf 0 (fun _ j _ h => by omega)
    rw [e]
    exact ⟨_, rfl, rfl, h2, by simp only; omega, fun j h => by omega⟩
  · rw [if_neg h0]
    refine ⟨_, rfl, rfl, h2, ?_, ?_⟩
    · simp only [Buf.realloc_length]; exact h1
    · intro j h3 h4
      exact realloc_get _ _ _ (by omega) h4

theorem prod_split (lo hi : List Nat) (n : Nat) : (lo ++ n :: hi).prod = hi.prod * n * lo.prod := by
  simp [List.prod_append]; ring

/-- Liveness from the cells. -/
theorem live_of_cells {t : Tab V} (h : ∀ ps, InRange t.sizes ps → ∃ v, t.cell ps = some (some v)) :
    Live t.buf 0 t.sizes.prod := by
  intro j _ hj
  obtain ⟨ps, h1, h2⟩ := horner_surj t.sizes.reverse j (by rw [List.prod_reverse]; omega)
  obtain ⟨v, hv⟩ := h ps h1
  refine ⟨v, ?_⟩
  rw [Tab.cell, mkIndex_horner _ _ _ (by simpa using h1.length_eq), h2] at hv
  exact hv

theorem cell_live {pod : Bool} {t : Tab V} (h : Fits pod t) (hp : pod = false) {ps : List Nat} (hps : InRange t.sizes ps) :
    ∃ v, t.cell ps = some (some v) :=
  h.live hp _ (Nat.zero_le _) (by have := mkIndex_lt hps; omega)

theorem take_split (lo hi : List Nat) (n : Nat) : lengthTo (lo ++ n :: hi) lo.length = lo.prod := by
  simp [lengthTo]

theorem drop_split (lo hi : List Nat) (n : Nat) : step (lo ++ n :: hi) lo.length = hi.prod := by
  rw [step, List.drop_append, List.drop_of_length_le (by omega)]; simp

theorem add_ok (pod : Bool) (d0 : V) {t : Tab V} {lo hi : List Nat} {n p : Nat} (hs : t.sizes = lo ++ n :: hi)
    (hp : p ≤ n) (hf : Fits pod t) :
    ∃ t', t.add pod d0 lo.length p = .ok t' ∧ t'.sizes = lo ++ (n + 1) :: hi ∧ Fits pod t' ∧
      ∀ xs x ys, InRange hi xs → x ≤ n → InRange lo ys →
        (x < p → t'.cell (xs ++ x :: ys) = t.cell (xs ++ x :: ys)) ∧
        (p < x → t'.cell (xs ++ x :: ys) = t.cell (xs ++ (x - 1) :: ys)) ∧
        (x = p → pod = false → t'.cell (xs ++ x :: ys) = some (some d0)) := by
  have hsz : (t.sizes.set lo.length (n + 1)) = lo ++ (n + 1) :: hi := by
    rw [hs, List.set_append_right _ _ (Nat.le_refl _)]; simp
  have hgd : t.sizes.getD lo.length 0 = n := by rw [hs]; simp
  obtain ⟨t1, e1, s1, b1, r1, g1⟩ := allocate_ok pod ({ t with sizes := lo ++ (n + 1) :: hi } : Tab V) hf.blk
  simp only at s1 r1 g1
  have hroom := hf.room
  rw [hs, prod_split] at hroom
  have hle : hi.prod * n * lo.prod ≤ hi.prod * (n + 1) * lo.prod :=
    Nat.mul_le_mul_right _ (Nat.mul_le_mul_left _ (by omega))
  rw [prod_split] at r1 g1
  obtain ⟨b', e2, l2, c1, -, -⟩ := addLoop_ok pod d0 lo.prod hi.prod n p hp hi.prod t1.buf (Nat.le_refl _) r1
  have key : ∀ xs x ys, InRange hi xs → x ≤ n → InRange lo ys →
        (x < p → Tab.cell { t1 with buf := b' } (xs ++ x :: ys) = t.cell (xs ++ x :: ys)) ∧
        (p < x → Tab.cell { t1 with buf := b' } (xs ++ x :: ys) = t.cell (xs ++ (x - 1) :: ys)) ∧
        (x = p → pod = false → Tab.cell { t1 with buf := b' } (xs ++ x :: ys) = some (some d0)) := by
    intro xs x ys hxs hx hys
    have lx : xs.length = hi.length := by simpa using hxs.length_eq
    have ly : ys.length = lo.length := by simpa using hys.length_eq
    have ha := mkIndex_lt hxs
    have ho := mkIndex_lt hys
    have old : ∀ x', x' < n → (mkIndex hi 0 xs * n + x') * lo.prod + mkIndex lo 0 ys < hi.prod * n * lo.prod := by
      intro x' hx'
      have := mkIndex_lt (InRange.join hxs hx' hys)
      rw [mkIndex_split _ _ _ _ _ _ lx ly, prod_split] at this
      exact this
    obtain ⟨d1, d2, d3⟩ := c1 _ x _ ha hx ho
    simp only [Tab.cell, s1]
    rw [hs]
    simp only [mkIndex_split _ _ _ _ _ _ lx ly]
    refine ⟨fun h => ?_, fun h => ?_, fun h hpod => d1 h hpod⟩
    · have := old x (by omega)
      rw [d2 h, g1 _ (by omega) (by omega)]
    · have := old (x - 1) (by omega)
      rw [d3 h, g1 _ (by omega) (by omega)]
  refine ⟨{ t1 with buf := b' }, ?_, s1, ⟨b1, ?_, ?_⟩, key⟩
  · simp only [Tab.add, hs, take_split, drop_split]
    have hsz' : (lo ++ n :: hi).set lo.length ((lo ++ n :: hi).getD lo.length 0 + 1) = lo ++ (n + 1) :: hi := by
      rw [← hs, hgd, hsz]
    rw [hsz', e1]
    have hgd' : (lo ++ n :: hi).getD lo.length 0 = n := by rw [← hs]; exact hgd
    simp only [Res.ok_bind, hgd', e2]
  · simp only [s1, l2]; rw [prod_split]; exact r1
  · intro hpod
    apply live_of_cells
    intro ps hps
    simp only [s1] at hps
    obtain ⟨xs, x, ys, rfl, hxs, hx, hys, lx, ly⟩ := hps.split
    obtain ⟨d1, d2, d3⟩ := key xs x ys hxs (by omega) hys
    rcases Nat.lt_trichotomy x p with h | h | h
    · rw [d1 h]
      exact cell_live hf hpod (by rw [hs]; exact InRange.join hxs (by omega) hys)
    · exact ⟨d0, d3 h hpod⟩
    · rw [d2 h]
      exact cell_live hf hpod (by rw [hs]; exact InRange.join hxs (by omega) hys)

theorem remove_ok (pod : Bool) {t : Tab V} {lo hi : List Nat} {n p : Nat} (hs : t.sizes = lo ++ (n + 1) :: hi)
    (hp : p ≤ n) (hf : Fits pod t) :
    ∃ t', t.remove pod lo.length p = .ok t' ∧ t'.sizes = lo ++ n :: hi ∧ Fits pod t' ∧
      ∀ xs x ys, InRange hi xs → x < n → InRange lo ys →
        (x < p → t'.cell (xs ++ x :: ys) = t.cell (xs ++ x :: ys)) ∧
        (p ≤ x → t'.cell (xs ++ x :: ys) = t.cell (xs ++ (x + 1) :: ys)) := by
  have hroom := hf.room
  rw [hs, prod_split] at hroom
  have hle : hi.prod * n * lo.prod ≤ hi.prod * (n + 1) * lo.prod :=
    Nat.mul_le_mul_right _ (Nat.mul_le_mul_left _ (by omega))
  have hlive : ∀ a, a < hi.prod → pod = false → Live t.buf ((a * (n + 1) + p) * lo.prod) lo.prod := by
    intro a ha hpod j h1 h2
    refine hf.live hpod j (Nat.zero_le _) ?_
    rw [hs, prod_split]
    have h3 : (a * (n + 1) + p + 1) * lo.prod ≤ hi.prod * (n + 1) * lo.prod := by
      apply Nat.mul_le_mul_right
      have : (a + 1) * (n + 1) ≤ hi.prod * (n + 1) := Nat.mul_le_mul_right _ ha
      rw [Nat.succ_mul] at this
      omega
    rw [Nat.succ_mul] at h3
    omega
  obtain ⟨b', e2, l2, c1, c2⟩ := removeLoop_ok pod lo.prod hi.prod n p hp hi.prod 0 t.buf (by omega) hroom
    (fun h0 hpod => by have := hlive 0 (by omega) hpod; simpa using this) (fun a _ ha hpod => hlive a ha hpod)
  have hgd : (lo ++ (n + 1) :: hi).getD lo.length 0 = n + 1 := by simp
  have hu : usub (n + 1) 1 = n := by rw [usub, if_pos (by omega)]; omega
  have hsz : ((lo ++ (n + 1) :: hi).set lo.length n) = lo ++ n :: hi := by
    rw [List.set_append_right _ _ (Nat.le_refl _)]; simp
  obtain ⟨t1, e1, s1, b1, r1, g1⟩ := allocate_ok pod ({ t with sizes := lo ++ n :: hi, buf := b' } : Tab V) hf.blk
  simp only at s1 r1 g1
  have key : ∀ xs x ys, InRange hi xs → x < n → InRange lo ys →
        (x < p → t1.cell (xs ++ x :: ys) = t.cell (xs ++ x :: ys)) ∧
        (p ≤ x → t1.cell (xs ++ x :: ys) = t.cell (xs ++ (x + 1) :: ys)) := by
    intro xs x ys hxs hx hys
    have lx : xs.length = hi.length := by simpa using hxs.length_eq
    have ly : ys.length = lo.length := by simpa using hys.length_eq
    have ha := mkIndex_lt hxs
    have ho := mkIndex_lt hys
    have hnew := mkIndex_lt (InRange.join hxs hx hys)
    have hnew' := hnew
    rw [prod_split, mkIndex_split _ _ _ _ _ _ lx ly] at hnew'
    simp only [Tab.cell, s1]
    have hnew2 : mkIndex (lo ++ n :: hi) 0 (xs ++ x :: ys) < b'.length := by
      rw [prod_split] at hnew; rw [l2]; omega
    rw [hs, g1 _ hnew hnew2]
    simp only [mkIndex_split _ _ _ _ _ _ lx ly]
    obtain ⟨d1, d2⟩ := c2 _ x _ (Nat.zero_le _) ha hx ho
    refine ⟨fun h => ?_, fun h => d2 h⟩
    rcases Nat.eq_zero_or_pos (mkIndex hi 0 xs) with h0 | h0
    · rw [h0]
      simp only [Nat.zero_mul, Nat.zero_add]
      exact c1 x _ ho (by omega)
    · exact d1 h h0
  refine ⟨t1, ?_, s1, ⟨b1, by rw [s1]; exact r1, ?_⟩, key⟩
  · simp only [Tab.remove, hs, take_split, drop_split, hgd, e2, Res.ok_bind, hu, hsz]
    exact e1
  · intro hpod
    apply live_of_cells
    intro ps hps
    rw [s1] at hps
    obtain ⟨xs, x, ys, rfl, hxs, hx, hys, lx, ly⟩ := hps.split
    obtain ⟨d1, d2⟩ := key xs x ys hxs hx hys
    rcases Nat.lt_or_ge x p with h | h
    · rw [d1 h]
      exact cell_live hf hpod (by rw [hs]; exact InRange.join hxs (by omega) hys)
    · rw [d2 h]
      exact cell_live hf hpod (by rw [hs]; exact InRange.join hxs (by omega) hys)

end OP.Table
