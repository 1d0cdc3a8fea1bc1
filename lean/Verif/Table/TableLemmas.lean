import Verif.Table.Table
import Verif.SetFam.SSet
import Mathlib.Data.List.Forall2
import Mathlib.Data.List.GetD
import Mathlib.Tactic.Ring
import Mathlib.Tactic.Linarith
/-!
# Lemmas on `table`
-/
namespace OP.Table
open OP.SetFam (bufsize)
open OP.SetFam.SSet (le_bufsize bufsize_block_pos)

variable {V : Type}

/-! ## Storage -/

theorem memmove_get {b : Buf V} {dst src n : Nat} (h1 : dst + n ≤ b.length) (h2 : src + n ≤ b.length) :
    ∃ b', b.memmove dst src n = .ok b' ∧ b'.length = b.length ∧
      ∀ j, b'[j]? = if dst ≤ j ∧ j < dst + n then b[src + (j - dst)]? else b[j]? := by
  refine ⟨_, by rw [Buf.memmove, if_pos ⟨h1, h2⟩], by simp; omega, ?_⟩
  intro j
  by_cases hj : j < dst
  · rw [if_neg (by omega), List.append_assoc, List.getElem?_append_left (by simp; omega), List.getElem?_take, if_pos hj]
  · by_cases hj2 : j < dst + n
    · rw [if_pos ⟨by omega, hj2⟩, List.getElem?_append_left (by simp; omega),
        List.getElem?_append_right (by simp; omega)]
      simp only [List.length_take, List.getElem?_take, List.getElem?_drop]
      have : min dst b.length = dst := by omega
      rw [this, if_pos (by omega)]
    · rw [if_neg (by omega), List.getElem?_append_right (by simp; omega)]
      simp only [List.length_append, List.length_take, List.length_drop, List.getElem?_drop]
      congr 1
      omega

/-- Slices of `bs` cells. -/
theorem smove {b : Buf V} {bs t u n : Nat} (h1 : (t + n) * bs ≤ b.length) (h2 : (u + n) * bs ≤ b.length) :
    ∃ b', b.memmove (t * bs) (u * bs) (n * bs) = .ok b' ∧ b'.length = b.length ∧
      ∀ s o, o < bs → b'[s * bs + o]? =
        if t ≤ s ∧ s < t + n then b[(u + (s - t)) * bs + o]? else b[s * bs + o]? := by
  obtain ⟨b', e, hl, hg⟩ := memmove_get (b := b) (dst := t * bs) (src := u * bs) (n := n * bs)
    (by rw [← Nat.add_mul]; exact h1) (by rw [← Nat.add_mul]; exact h2)
  refine ⟨b', e, hl, ?_⟩
  intro s o ho
  rw [hg]
  by_cases hs : t ≤ s
  · obtain ⟨c, rfl⟩ : ∃ c, s = t + c := ⟨s - t, by omega⟩
    by_cases hc : c < n
    · have hcn : c * bs + bs ≤ n * bs := by rw [← Nat.succ_mul]; exact Nat.mul_le_mul_right _ hc
      have htc : (t + c) * bs = t * bs + c * bs := Nat.add_mul _ _ _
      have huc : (u + c) * bs = u * bs + c * bs := Nat.add_mul _ _ _
      rw [if_pos (by omega), if_pos ⟨hs, by omega⟩]
      congr 1
      have : t + c - t = c := by omega
      rw [this]
      omega
    · rw [if_neg ?_, if_neg (by omega)]
      have : n * bs ≤ c * bs := Nat.mul_le_mul_right _ (by omega)
      rw [Nat.add_mul]; omega
  · rw [if_neg ?_, if_neg (by omega)]
    have : s * bs + bs ≤ t * bs := by rw [← Nat.succ_mul]; exact Nat.mul_le_mul_right _ (by omega)
    omega

theorem initCells_get (pod : Bool) (d0 : V) : ∀ (n : Nat) (b : Buf V) (i : Nat), i + n ≤ b.length →
    ∃ b', initCells pod d0 b i n = .ok b' ∧ b'.length = b.length ∧
      ∀ j, b'[j]? = if pod = false ∧ i ≤ j ∧ j < i + n then some (some d0) else b[j]? := by
  intro n
  induction n with
  | zero => intro b i _; exact ⟨b, rfl, rfl, fun j => by rw [if_neg (by omega)]⟩
  | succ n ih =>
    intro b i h
    cases pod with
    | true =>
      obtain ⟨b', e, hl, hg⟩ := ih b (i + 1) (by omega)
      refine ⟨b', ?_, hl, ?_⟩
      · simpa [initCells] using e
      · intro j; rw [hg]; simp
    | false =>
      obtain ⟨b', e, hl, hg⟩ := ih (b.set i (some d0)) (i + 1) (by simp; omega)
      refine ⟨b', ?_, by simpa using hl, ?_⟩
      · simp only [initCells, Buf.write, if_pos (show i < b.length by omega)]; simpa using e
      · intro j
        rw [hg]
        by_cases hj : j = i
        · subst hj
          rw [if_neg (by omega), if_pos ⟨rfl, Nat.le_refl _, by omega⟩, List.getElem?_set_self (by omega)]
        · rw [List.getElem?_set_ne (by omega)]
          by_cases hc : i + 1 ≤ j ∧ j < i + 1 + n
          · rw [if_pos (by simp; omega), if_pos (by simp; omega)]
          · rw [if_neg (by omega), if_neg (by omega)]

/-- Cells `i .. i+n` hold objects. -/
def Live (b : Buf V) (i n : Nat) : Prop := ∀ j, i ≤ j → j < i + n → ∃ v, b[j]? = some (some v)

theorem destroyCells_get (pod : Bool) : ∀ (n : Nat) (b : Buf V) (i : Nat), (pod = false → Live b i n) →
    ∃ b', destroyCells pod b i n = .ok b' ∧ b'.length = b.length ∧ ∀ j, ¬ (i ≤ j ∧ j < i + n) → b'[j]? = b[j]? := by
  cases pod with
  | true => intro n b i _; exact ⟨b, rfl, rfl, fun _ _ => rfl⟩
  | false =>
    intro n
    simp only [destroyCells, Bool.false_eq_true, if_false]
    induction n with
    | zero => intro b i _; exact ⟨b, rfl, rfl, fun _ _ => rfl⟩
    | succ n ih =>
      intro b i h
      obtain ⟨v, hv⟩ := h trivial i (Nat.le_refl _) (by omega)
      obtain ⟨b', e, hl, hg⟩ := ih (b.set i none) (i + 1) (fun _ j h1 h2 => by
        obtain ⟨w, hw⟩ := h trivial j (by omega) (by omega)
        exact ⟨w, by rw [List.getElem?_set_ne (by omega)]; exact hw⟩)
      refine ⟨b', ?_, by simpa using hl, ?_⟩
      · simp only [Buf.destroyRange, Buf.destroy, hv]; simpa using e
      · intro j hj
        rw [hg j (by omega), List.getElem?_set_ne (by omega)]

/-! ## `add` -/

theorem addLoop_ok (pod : Bool) (d0 : V) (bs ss os p : Nat) (hp : p ≤ os) : ∀ (i : Nat) (b : Buf V), i ≤ ss →
    ss * (os + 1) * bs ≤ b.length →
    ∃ b', addLoop pod d0 bs ss os p i b = .ok b' ∧ b'.length = b.length ∧
      (∀ a q o, a < i → q ≤ os → o < bs →
        (q = p → pod = false → b'[(a * (os + 1) + q) * bs + o]? = some (some d0)) ∧
        (q < p → b'[(a * (os + 1) + q) * bs + o]? = b[(a * os + q) * bs + o]?) ∧
        (p < q → b'[(a * (os + 1) + q) * bs + o]? = b[(a * os + (q - 1)) * bs + o]?)) ∧
      (i < ss → ∀ q o, q < p → o < bs → b'[(i * (os + 1) + q) * bs + o]? = b[(i * os + q) * bs + o]?) ∧
      (i < ss → ∀ s o, o < bs → i * (os + 1) + p ≤ s → b'[s * bs + o]? = b[s * bs + o]?) := by
  intro i
  induction i with
  | zero => intro b _ _; exact ⟨b, rfl, rfl, by simp, by simp, by simp⟩
  | succ i ih =>
    intro b hi hb
    -- the slices moved
    obtain ⟨ln, hln⟩ : ∃ ln, ln = if i + 1 = ss then usub os p else os := ⟨_, rfl⟩
    have hln' : (i + 1 = ss ∧ ln = os - p) ∨ (i + 1 < ss ∧ ln = os) := by
      by_cases h : i + 1 = ss
      · rw [if_pos h, usub, if_pos hp] at hln; exact .inl ⟨h, hln⟩
      · rw [if_neg h] at hln; exact .inr ⟨by omega, hln⟩
    have hio : i * (os + 1) = i * os + i := by ring
    have hio' : (i + 1) * (os + 1) = i * os + i + os + 1 := by ring
    have hss : i + 1 < ss → (i + 2) * (os + 1) ≤ ss * (os + 1) := fun h => Nat.mul_le_mul_right _ h
    have hss1 : (i + 1) * (os + 1) ≤ ss * (os + 1) := Nat.mul_le_mul_right _ hi
    have hio2 : (i + 2) * (os + 1) = i * os + i + 2 * os + 2 := by ring
    have hbound : ∀ x, x ≤ ss * (os + 1) → x * bs ≤ b.length := fun x hx =>
      Nat.le_trans (Nat.mul_le_mul_right _ hx) hb
    obtain ⟨b1, e1, l1, g1⟩ := smove (b := b) (bs := bs) (t := i * (os + 1) + p + 1) (u := i * os + p) (n := ln)
      (hbound _ (by omega)) (hbound _ (by omega))
    have hnb : (i * (os + 1) + p + 1) * bs - bs = (i * (os + 1) + p) * bs := by
      rw [Nat.succ_mul]; omega
    have hfit : (i * (os + 1) + p) * bs + bs ≤ b1.length := by
      rw [← Nat.succ_mul, l1]; exact hbound _ (by simp only [Nat.succ_eq_add_one]; omega)
    obtain ⟨b2, e2, l2, g2⟩ := initCells_get pod d0 bs b1 ((i * (os + 1) + p) * bs) hfit
    have g2' : ∀ s o, o < bs → s ≠ i * (os + 1) + p → b2[s * bs + o]? = b1[s * bs + o]? := by
      intro s o ho hs
      rw [g2, if_neg]
      rintro ⟨-, h1, h2⟩
      rcases Nat.lt_or_gt_of_ne hs with h | h
      · have : s * bs + bs ≤ (i * (os + 1) + p) * bs := by rw [← Nat.succ_mul]; exact Nat.mul_le_mul_right _ h
        omega
      · have : (i * (os + 1) + p) * bs + bs ≤ s * bs := by rw [← Nat.succ_mul]; exact Nat.mul_le_mul_right _ h
        omega
    obtain ⟨b', e3, l3, c1, c2, c3⟩ := ih b2 (by omega) (by rw [l2, l1]; exact hb)
    refine ⟨b', ?_, by rw [l3, l2, l1], ?_, ?_, ?_⟩
    · simp only [addLoop, ← hln, e1, Res.ok_bind, hnb, e2, e3]
    · -- cells of blocks up to `i`
      intro a q o ha hq ho
      rcases Nat.lt_or_ge a i with hai | hai
      · obtain ⟨d1, d2, d3⟩ := c1 a q o hai hq ho
        have hlt : a * os + os ≤ i * os := by rw [← Nat.succ_mul]; exact Nat.mul_le_mul_right _ hai
        refine ⟨d1, fun h => ?_, fun h => ?_⟩
        · rw [d2 h, g2' _ _ ho (by omega), g1 _ _ ho, if_neg (by omega)]
        · rw [d3 h, g2' _ _ ho (by omega), g1 _ _ ho, if_neg (by omega)]
      · have : a = i := by omega
        subst this
        refine ⟨fun h hpod => ?_, fun h => ?_, fun h => ?_⟩
        · subst h
          rw [c3 (by omega) _ _ ho (Nat.le_refl _), g2, if_pos ⟨hpod, by omega, by omega⟩]
        · rw [c2 (by omega) q o h ho, g2' _ _ ho (by omega), g1 _ _ ho, if_neg (by omega)]
        · rw [c3 (by omega) _ _ ho (by omega), g2' _ _ ho (by omega), g1 _ _ ho, if_pos (by omega)]
          congr 3
          omega
    · intro hlt q o hq ho
      rw [c3 (by omega) _ _ ho (by omega), g2' _ _ ho (by omega), g1 _ _ ho, if_pos (by omega)]
      congr 3
      have : (i + 1) * os = i * os + os := by ring
      omega
    · intro hlt s o ho hs
      rw [c3 (by omega) _ _ ho (by omega), g2' _ _ ho (by omega), g1 _ _ ho, if_neg (by omega)]

/-! ## `remove` -/

theorem removeLoop_ok (pod : Bool) (bs ss m p : Nat) (hp : p ≤ m) : ∀ (n i : Nat) (b : Buf V), n + i = ss →
    ss * (m + 1) * bs ≤ b.length →
    (n ≠ 0 → pod = false → Live b ((i * m + p) * bs) bs) →
    (∀ a, i < a → a < ss → pod = false → Live b ((a * (m + 1) + p) * bs) bs) →
    ∃ b', removeLoop pod bs ss (m + 1) p n i b = .ok b' ∧ b'.length = b.length ∧
      (∀ s o, o < bs → s < i * m + p → b'[s * bs + o]? = b[s * bs + o]?) ∧
      (∀ a q o, i ≤ a → a < ss → q < m → o < bs →
        (q < p → i < a → b'[(a * m + q) * bs + o]? = b[(a * (m + 1) + q) * bs + o]?) ∧
        (p ≤ q → b'[(a * m + q) * bs + o]? = b[(a * (m + 1) + (q + 1)) * bs + o]?)) := by
  intro n
  induction n with
  | zero => intro i b hi _ _ _; exact ⟨b, rfl, rfl, fun _ _ _ _ => rfl, fun a q o h1 h2 => by omega⟩
  | succ n ih =>
    intro i b hi hb hl1 hl2
    obtain ⟨ln, hln⟩ : ∃ ln, ln = if i = ss - 1 then usub (usub (m + 1) p) 1 else m + 1 := ⟨_, rfl⟩
    have hln' : (n = 0 ∧ i + 1 = ss ∧ ln = m - p) ∨ (n ≠ 0 ∧ i + 1 < ss ∧ ln = m + 1) := by
      by_cases h : i = ss - 1
      · rw [if_pos h] at hln
        have : usub (usub (m + 1) p) 1 = m - p := by
          rw [usub, usub, if_pos (show p ≤ m + 1 by omega), if_pos (by omega)]; omega
        exact .inl ⟨by omega, by omega, by omega⟩
      · rw [if_neg h] at hln; exact .inr ⟨by omega, by omega, hln⟩
    have hu : usub (m + 1) 1 = m := by rw [usub, if_pos (by omega)]; omega
    have hbound : ∀ x, x ≤ ss * (m + 1) → x * bs ≤ b.length := fun x hx =>
      Nat.le_trans (Nat.mul_le_mul_right _ hx) hb
    have e1' : i * (m + 1) = i * m + i := by ring
    have e2' : (i + 1) * (m + 1) = i * m + i + m + 1 := by ring
    have e3' : (i + 2) * (m + 1) = i * m + i + 2 * m + 2 := by ring
    have e4' : (i + 1) * m = i * m + m := by ring
    have hss : i + 1 < ss → (i + 2) * (m + 1) ≤ ss * (m + 1) := fun h => Nat.mul_le_mul_right _ h
    have hss1 : (i + 1) * (m + 1) ≤ ss * (m + 1) := Nat.mul_le_mul_right _ (by omega)
    obtain ⟨b0, e0, l0, g0⟩ := destroyCells_get pod bs b ((i * m + p) * bs) (hl1 (by omega))
    have g0' : ∀ s o, o < bs → s ≠ i * m + p → b0[s * bs + o]? = b[s * bs + o]? := by
      intro s o ho hs
      apply g0
      rintro ⟨h1, h2⟩
      rcases Nat.lt_or_gt_of_ne hs with h | h
      · have : s * bs + bs ≤ (i * m + p) * bs := by rw [← Nat.succ_mul]; exact Nat.mul_le_mul_right _ h
        omega
      · have : (i * m + p) * bs + bs ≤ s * bs := by rw [← Nat.succ_mul]; exact Nat.mul_le_mul_right _ h
        omega
    obtain ⟨b1, e1, l1, g1⟩ := smove (b := b0) (bs := bs) (t := i * m + p) (u := i * (m + 1) + p + 1) (n := ln)
      (by rw [l0]; exact hbound _ (by omega)) (by rw [l0]; exact hbound _ (by omega))
    have above : ∀ s o, o < bs → i * m + p + ln ≤ s → i * m + p < s → b1[s * bs + o]? = b[s * bs + o]? := by
      intro s o ho hs hs'
      rw [g1 _ _ ho, if_neg (by omega), g0' _ _ ho (by omega)]
    obtain ⟨b', e3, l3, c1, c2⟩ := ih (i + 1) b1 (by omega) (by rw [l1, l0]; exact hb)
      (by
        intro hn hpod j h1 h2
        obtain ⟨o, rfl⟩ : ∃ o, j = ((i + 1) * m + p) * bs + o := ⟨j - ((i + 1) * m + p) * bs, by omega⟩
        have ho : o < bs := by omega
        rw [g1 _ _ ho, if_pos (by omega), g0' _ _ ho (by omega)]
        have := hl2 (i + 1) (by omega) (by omega) hpod (((i + 1) * (m + 1) + p) * bs + o) (by omega) (by omega)
        have he : i * (m + 1) + p + 1 + ((i + 1) * m + p - (i * m + p)) = (i + 1) * (m + 1) + p := by omega
        rw [he]; exact this)
      (by
        intro a ha1 ha2 hpod j h1 h2
        have hge : (i + 2) * (m + 1) ≤ a * (m + 1) := Nat.mul_le_mul_right _ ha1
        obtain ⟨o, rfl⟩ : ∃ o, j = (a * (m + 1) + p) * bs + o := ⟨j - (a * (m + 1) + p) * bs, by omega⟩
        have ho : o < bs := by omega
        rw [above _ _ ho (by omega) (by omega)]
        exact hl2 a (by omega) ha2 hpod _ (by omega) (by omega))
    refine ⟨b', ?_, by rw [l3, l1, l0], ?_, ?_⟩
    · simp only [removeLoop, ← hln, hu, e0, Res.ok_bind, e1, e3]
    · intro s o ho hs
      rw [c1 s o ho (by omega), g1 _ _ ho, if_neg (by omega), g0' _ _ ho (by omega)]
    · intro a q o ha1 ha2 hq ho
      rcases Nat.lt_or_ge i a with hai | hai
      · have hge : (i + 1) * (m + 1) ≤ a * (m + 1) := Nat.mul_le_mul_right _ hai
        obtain ⟨d1, d2⟩ := c2 a q o hai ha2 hq ho
        refine ⟨fun h _ => ?_, fun h => ?_⟩
        · rcases Nat.lt_or_ge (i + 1) a with hai2 | hai2
          · have hge : (i + 2) * (m + 1) ≤ a * (m + 1) := Nat.mul_le_mul_right _ hai2
            rw [d1 h hai2, above _ _ ho (by omega) (by omega)]
          · have : a = i + 1 := by omega
            subst this
            rw [c1 _ o ho (by omega), g1 _ _ ho, if_pos (by omega), g0' _ _ ho (by omega)]
            congr 3
            omega
        · rw [d2 h, above _ _ ho (by omega) (by omega)]
      · have : a = i := by omega
        subst this
        refine ⟨fun _ h => by omega, fun h => ?_⟩
        rw [c1 _ o ho (by omega), g1 _ _ ho, if_pos (by omega), g0' _ _ ho (by omega)]
        congr 3
        omega

/-! ## Addresses -/

/-- Horner evaluation. -/
def horner : Nat → List Nat → List Nat → Nat
  | p, n :: ns, i :: is => horner (p * n + i) ns is
  | p, _, _ => p

theorem mkIndex_append (s' e : List Nat) (ps : List Nat) : ∀ p, ps.length ≤ s'.length →
    mkIndex (s' ++ e) p ps = mkIndex s' p ps := by
  induction ps with
  | nil => intro p _; rfl
  | cons i is ih =>
    intro p h
    simp only [List.length_cons] at h
    rw [mkIndex, mkIndex, ih _ (by omega), List.getD_append _ _ _ _ (by omega)]

theorem mkIndex_horner (ps : List Nat) : ∀ (sizes : List Nat) (p : Nat), ps.length = sizes.length →
    mkIndex sizes p ps = horner p sizes.reverse ps := by
  induction ps with
  | nil => intro sizes p h; cases sizes <;> simp_all [mkIndex, horner]
  | cons i is ih =>
    intro sizes p h
    obtain ⟨s', n, rfl⟩ : ∃ s' n, sizes = s' ++ [n] := by
      rcases List.eq_nil_or_concat sizes with rfl | ⟨s', n, rfl⟩
      · simp at h
      · exact ⟨s', n, by simp⟩
    simp only [List.length_cons, List.length_append, List.length_nil] at h
    have hl : is.length = s'.length := by omega
    rw [mkIndex, mkIndex_append _ _ _ _ (by omega), ih _ _ hl]
    simp [horner, hl]

theorem horner_add (ns : List Nat) : ∀ (is : List Nat) (p : Nat), is.length = ns.length →
    horner p ns is = p * ns.prod + horner 0 ns is := by
  induction ns with
  | nil => intro is p h; simp [horner]
  | cons n ns ih =>
    intro is p h
    cases is with
    | nil => simp at h
    | cons i is =>
      simp only [List.length_cons, Nat.add_right_cancel_iff] at h
      rw [horner, horner, ih is _ h, ih is (0 * n + i) h, List.prod_cons]
      ring

theorem horner_append (A : List Nat) : ∀ (B xs ys : List Nat) (p : Nat), xs.length = A.length →
    horner p (A ++ B) (xs ++ ys) = horner (horner p A xs) B ys := by
  induction A with
  | nil => intro B xs ys p h; simp at h; subst h; simp [horner]
  | cons n A ih =>
    intro B xs ys p h
    cases xs with
    | nil => simp at h
    | cons x xs =>
      simp only [List.length_cons, Nat.add_right_cancel_iff] at h
      simp only [List.cons_append, horner]
      exact ih B xs ys _ h

/-- `ps` lies within the extents. -/
def InRange (sizes ps : List Nat) : Prop := List.Forall₂ (· < ·) ps sizes.reverse

theorem horner_lt (ns is : List Nat) (h : List.Forall₂ (· < ·) is ns) : horner 0 ns is < ns.prod := by
  induction h with
  | nil => simp [horner]
  | cons hi ht ih =>
    rename_i i n is ns
    rw [horner, horner_add _ _ _ ht.length_eq, List.prod_cons]
    have : (0 * n + i + 1) * ns.prod ≤ n * ns.prod := Nat.mul_le_mul_right _ (by omega)
    rw [Nat.add_mul, Nat.one_mul] at this
    omega

theorem horner_inj (ns : List Nat) : ∀ is js : List Nat, List.Forall₂ (· < ·) is ns → List.Forall₂ (· < ·) js ns →
    horner 0 ns is = horner 0 ns js → is = js := by
  induction ns with
  | nil => intro is js h1 h2 _; cases h1; cases h2; rfl
  | cons n ns ih =>
    intro is js h1 h2 he
    cases h1 with
    | cons hi hti =>
      cases h2 with
      | cons hj htj =>
        rename_i i is j js
        rw [horner, horner, horner_add _ _ _ hti.length_eq, horner_add _ _ _ htj.length_eq] at he
        have l1 := horner_lt _ _ hti
        have l2 := horner_lt _ _ htj
        simp only [Nat.zero_mul, Nat.zero_add] at he
        have hij : i = j := by
          rcases Nat.lt_trichotomy i j with h | h | h
          · have : (i + 1) * ns.prod ≤ j * ns.prod := Nat.mul_le_mul_right _ h
            rw [Nat.add_mul, Nat.one_mul] at this; omega
          · exact h
          · have : (j + 1) * ns.prod ≤ i * ns.prod := Nat.mul_le_mul_right _ h
            rw [Nat.add_mul, Nat.one_mul] at this; omega
        subst hij
        rw [ih is js hti htj (by omega)]

theorem horner_surj (ns : List Nat) : ∀ c, c < ns.prod → ∃ is, List.Forall₂ (· < ·) is ns ∧ horner 0 ns is = c := by
  induction ns with
  | nil => intro c h; exact ⟨[], .nil, by simp at h; simp [horner, h]⟩
  | cons n ns ih =>
    intro c h
    rw [List.prod_cons] at h
    have hpos : 0 < ns.prod := by
      rcases Nat.eq_zero_or_pos ns.prod with h0 | h0
      · rw [h0] at h; simp at h
      · exact h0
    obtain ⟨is, h1, h2⟩ := ih (c % ns.prod) (Nat.mod_lt _ hpos)
    refine ⟨c / ns.prod :: is, .cons (Nat.div_lt_of_lt_mul (by rw [Nat.mul_comm]; exact h)) h1, ?_⟩
    rw [horner, horner_add _ _ _ h1.length_eq, h2]
    simp only [Nat.zero_mul, Nat.zero_add]
    rw [Nat.mul_comm]
    exact Nat.div_add_mod c ns.prod

theorem lengthTo_all (sizes : List Nat) : lengthTo sizes sizes.length = sizes.reverse.prod := by
  rw [lengthTo, List.take_length, List.prod_reverse]

/-- The address of a cell seen from axis `lo.length`. -/
theorem mkIndex_split (lo hi : List Nat) (n : Nat) (xs ys : List Nat) (x : Nat) (h1 : xs.length = hi.length)
    (h2 : ys.length = lo.length) :
    mkIndex (lo ++ n :: hi) 0 (xs ++ x :: ys) = (mkIndex hi 0 xs * n + x) * lo.prod + mkIndex lo 0 ys := by
  rw [mkIndex_horner _ _ _ (by simp [h1, h2]; omega), mkIndex_horner _ _ _ h1, mkIndex_horner _ _ _ h2]
  rw [List.reverse_append, List.reverse_cons, List.append_assoc, horner_append _ _ _ _ _ (by simp [h1])]
  simp only [List.singleton_append, horner]
  rw [horner_add _ _ _ (by simp [h2]), List.prod_reverse]

theorem mkIndex_lt {sizes ps : List Nat} (h : InRange sizes ps) : mkIndex sizes 0 ps < sizes.prod := by
  have := horner_lt _ _ h
  rw [List.prod_reverse] at this
  rwa [mkIndex_horner _ _ _ (by simpa using h.length_eq)]

theorem forall2_split {α β : Type} {R : α → β → Prop} (A B : List β) : ∀ l, List.Forall₂ R l (A ++ B) →
    ∃ l1 l2, l = l1 ++ l2 ∧ List.Forall₂ R l1 A ∧ List.Forall₂ R l2 B := by
  induction A with
  | nil => intro l h; exact ⟨[], l, rfl, .nil, h⟩
  | cons a A ih =>
    intro l h
    cases h with
    | cons h1 h2 =>
      obtain ⟨l1, l2, rfl, h3, h4⟩ := ih _ h2
      exact ⟨_ :: l1, l2, rfl, .cons h1 h3, h4⟩

theorem forall2_join {α β : Type} {R : α → β → Prop} {l1 l2 : List α} {A B : List β} (h1 : List.Forall₂ R l1 A)
    (h2 : List.Forall₂ R l2 B) : List.Forall₂ R (l1 ++ l2) (A ++ B) := by
  induction h1 with
  | nil => exact h2
  | cons h _ ih => exact .cons h ih

/-- A tuple seen from axis `lo.length`. -/
theorem InRange.split {lo hi : List Nat} {n : Nat} {ps : List Nat} (h : InRange (lo ++ n :: hi) ps) :
    ∃ xs x ys, ps = xs ++ x :: ys ∧ InRange hi xs ∧ x < n ∧ InRange lo ys ∧ xs.length = hi.length ∧
      ys.length = lo.length := by
  rw [InRange, List.reverse_append, List.reverse_cons, List.append_assoc, List.singleton_append] at h
  obtain ⟨xs, r, rfl, h1, h2⟩ := forall2_split _ _ _ h
  cases h2 with
  | cons hx hr =>
    rename_i x ys
    exact ⟨xs, x, ys, rfl, h1, hx, hr, by simpa using h1.length_eq, by simpa using hr.length_eq⟩

theorem InRange.join {lo hi : List Nat} {n : Nat} {xs ys : List Nat} {x : Nat} (h1 : InRange hi xs) (h2 : x < n)
    (h3 : InRange lo ys) : InRange (lo ++ n :: hi) (xs ++ x :: ys) := by
  rw [InRange, List.reverse_append, List.reverse_cons, List.append_assoc, List.singleton_append]
  exact forall2_join h1 (.cons h2 h3)

end OP.Table
