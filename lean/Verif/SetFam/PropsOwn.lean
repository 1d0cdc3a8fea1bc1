import Verif.SetFam.Own
import Verif.SetFam.PropsSSet
import Mathlib.Data.List.GetD
/-!
# C114: elements of a set as arguments of the same set
-/
namespace OP.SetFam.SSet
variable {α : Type u}

/-! ## The buffer is always the one that the length asks for -/

/-- The buffer has the size that `bufsize` gives for the length. -/
def Tight (st : SSet α) : Prop := bufsize st.size st.block = (st.buf.length, st.block)

theorem growBlock_again (s b : Nat) : growBlock s (growBlock s b) = growBlock s b := by
  fun_induction growBlock s b with
  | case1 b h ih => exact ih
  | case2 b h => rw [growBlock, dif_neg h]

theorem bufsize_again (s b : Nat) : bufsize s (bufsize s b).2 = bufsize s b := by
  simp only [bufsize, growBlock_again]

theorem Tight.init (b : Nat) : Tight (SSet.init b : SSet α) := by
  unfold Tight SSet.init
  simp only [bufsize]
  rw [growBlock, dif_neg (by omega)]
  simp [roundUp]

theorem allocate_tight {st st' : SSet α} {s : Nat} (h : st.allocate s = .ok st') :
    bufsize s st'.block = (st'.buf.length, st'.block) := by
  unfold allocate at h
  simp only at h
  split at h
  · rename_i hc
    injection h with h
    subst h
    simp only
    rw [bufsize_again]
    exact Prod.ext hc rfl
  · split at h
    · rename_i h0
      subst h0
      have e : st'.buf = [] ∧ st'.block = (bufsize 0 st.block).2 := by
        unfold deallocate at h
        rw [Res.bind_eq_ok] at h
        obtain ⟨_, _, h⟩ := h
        injection h with h; subst h; exact ⟨rfl, rfl⟩
      rw [e.1, e.2, bufsize_again]
      refine Prod.ext ?_ rfl
      simp [bufsize, roundUp]
    · injection h with h
      subst h
      simp only [Buf.realloc_length]
      rw [bufsize_again]

theorem deallocate_fields {st st' : SSet α} (h : st.deallocate = .ok st') :
    st'.buf = [] ∧ st'.size = 0 ∧ st'.block = st.block := by
  unfold deallocate at h
  rw [Res.bind_eq_ok] at h
  obtain ⟨_, _, h⟩ := h
  injection h with h; subst h; exact ⟨rfl, rfl, rfl⟩

theorem allocate_size {st st' : SSet α} {s : Nat} (h : st.allocate s = .ok st') (hs : s ≠ 0 ∨ st.size = 0) :
    st'.size = st.size := by
  unfold allocate at h
  simp only at h
  split at h
  · injection h with h; subst h; rfl
  · split at h
    · have := (deallocate_fields h).2.1
      omega
    · injection h with h; subst h; rfl

theorem memmove_length {b b' : Buf α} {i j n : Nat} (h : b.memmove i j n = .ok b') : b'.length = b.length := by
  unfold Buf.memmove at h
  split at h
  · injection h with h
    subst h
    simp only [List.length_append, List.length_take, List.length_drop]
    omega
  · cases h

theorem add_tight {d : α} {st st' : SSet α} {p : Nat} {vs : List α} (h : st.add d p vs = .ok st') : Tight st' := by
  unfold add at h
  simp only at h
  split at h
  · cases h
  · rename_i h0
    split at h
    · simp only [Res.bind_eq_ok] at h
      obtain ⟨s1, h1, b1, h2, b2, h3, h4⟩ := h
      injection h4 with h4
      subst h4
      have := allocate_tight h1
      unfold Tight
      simp only [Buf.construct_length h3, Buf.construct_length h2]
      exact this
    · simp only [Res.bind_eq_ok] at h
      obtain ⟨s1, h1, b1, h2, b2, h3, h4⟩ := h
      injection h4 with h4
      subst h4
      have := allocate_tight h1
      unfold Tight
      simp only [Buf.construct_length h3, memmove_length h2]
      rw [allocate_size h1 (by omega)]
      exact this

theorem remove_tight {st st' : SSet α} {p s : Nat} (h : st.remove p s = .ok st') : Tight st' := by
  unfold remove at h
  split at h
  · cases h
  · split at h
    · cases h
    · simp only [Res.bind_eq_ok] at h
      obtain ⟨b1, h1, b2, h2, h3⟩ := h
      unfold Tight
      rw [allocate_size h3 (by simp only; omega)]
      exact allocate_tight h3

theorem copy_tight {st st1 st2 st' : SSet α} {n : Nat} {vs : List α} (hn : vs.length = n) (h1 : st.deallocate = .ok st1)
    (h2 : st1.allocate n = .ok st2) (h3 : st2.copy vs = .ok st') : Tight st' := by
  unfold copy at h3
  rw [Res.bind_eq_ok] at h3
  obtain ⟨b, hb, h3⟩ := h3
  injection h3 with h3
  subst h3
  have e := allocate_size h2 (Or.inr (deallocate_fields h1).2.1)
  have := allocate_tight h2
  unfold Tight
  simp only [Buf.construct_length hb]
  rw [e, (deallocate_fields h1).2.1, Nat.zero_add, hn]
  exact this

theorem step_tight {d : α} {st st' : SSet α} (op : Op α) (h : st.step d op = .ok st') : Tight st' := by
  cases op with
  | add p vs => exact add_tight h
  | append v => exact add_tight (p := st.size) (vs := [v]) h
  | remove p s => exact remove_tight h
  | removeLast =>
    simp only [step, removeLast] at h
    split at h <;> exact remove_tight h
  | resize n =>
    simp only [step, resize, Res.bind_eq_ok] at h
    obtain ⟨_, h1, _, h2, h3⟩ := h
    exact copy_tight (List.length_replicate ..) h1 h2 h3
  | assign vs =>
    simp only [step, assign, Res.bind_eq_ok] at h
    obtain ⟨_, h1, _, h2, h3⟩ := h
    exact copy_tight rfl h1 h2 h3
  | empty =>
    simp only [step, empty] at h
    obtain ⟨h1, h2, h3⟩ := deallocate_fields h
    unfold Tight
    rw [h1, h2, h3]
    simp only [bufsize]
    rw [growBlock, dif_neg (by omega)]
    simp [roundUp]

/-- **C114** After every history of calls the buffer is the one that the length asks for. -/
theorem C114_buffer (d : α) (ops : List (Op α)) : ∀ {st st' : SSet α} {bs : List Bool}, Tight st →
    st.run d ops = .ok (st', bs) → Tight st' := by
  induction ops with
  | nil =>
    intro st st' bs h hr
    simp only [run, Res.ok.injEq, Prod.mk.injEq] at hr
    rw [← hr.1]
    exact h
  | cons op ops ih =>
    intro st st' bs h hr
    unfold run at hr
    cases hs : st.step d op with
    | ok s1 =>
      rw [hs] at hr
      simp only [Res.bind_eq_ok] at hr
      obtain ⟨⟨r, rs⟩, h1, h2⟩ := hr
      simp only [Res.ok.injEq, Prod.mk.injEq] at h2
      rw [← h2.1]
      exact ih (step_tight op hs) h1
    | throw =>
      rw [hs] at hr
      simp only [Res.bind_eq_ok] at hr
      obtain ⟨⟨r, rs⟩, h1, h2⟩ := hr
      simp only [Res.ok.injEq, Prod.mk.injEq] at h2
      rw [← h2.1]
      exact ih h h1
    | ub =>
      rw [hs] at hr
      cases hr

/-- With a tight buffer, nothing is moved exactly as long as there is room. -/
theorem room {st : SSet α} (ht : Tight st) (hb : 0 < st.block) {s : Nat} (h : st.size ≤ s) :
    ((bufsize s st.block).1 = st.buf.length ↔ s ≤ st.buf.length) := by
  have hlen : roundUp st.size (growBlock st.size st.block) = st.buf.length := congrArg Prod.fst ht
  have hblk : growBlock st.size st.block = st.block := congrArg Prod.snd ht
  rw [hblk] at hlen
  constructor
  · intro e
    rw [← e]
    exact le_bufsize s _ hb
  · intro hs
    have h8 : st.size ≤ 8 * st.block := by
      have := growBlock_enough st.size st.block hb
      rwa [hblk] at this
    have up : ∀ n k, 0 < k → n ≤ k * st.block → st.block * (k - 1) < n → roundUp n st.block = st.block * k := by
      intro n k hk h1 h2
      unfold roundUp
      congr 1
      have hd := Nat.div_add_mod n st.block
      have hm := Nat.mod_lt n hb
      by_cases h0 : n % st.block = 0
      · rw [if_pos h0, Nat.add_zero]
        rw [h0, Nat.add_zero] at hd
        have a : n / st.block ≤ k := Nat.le_of_mul_le_mul_left (by rw [hd, Nat.mul_comm]; omega) hb
        have b : k - 1 < n / st.block := Nat.lt_of_mul_lt_mul_left (a := st.block) (by rw [hd]; exact h2)
        omega
      · rw [if_neg h0]
        have a : n / st.block < k := by
          refine Nat.lt_of_mul_lt_mul_left (a := st.block) ?_
          rw [Nat.mul_comm st.block k]
          omega
        have b : k - 1 < n / st.block + 1 := by
          refine Nat.lt_of_mul_lt_mul_left (a := st.block) ?_
          rw [Nat.mul_add, Nat.mul_one]
          omega
        omega
    by_cases hz : st.size = 0
    · have : st.buf.length = 0 := by
        rw [← hlen, hz]
        simp [roundUp]
      have hs0 : s = 0 := by omega
      subst hs0
      rw [this]
      simp [bufsize, roundUp]
    · obtain ⟨k, hk0, hk1, hk2⟩ : ∃ k, 0 < k ∧ st.size ≤ k * st.block ∧ st.block * (k - 1) < st.size := by
        refine ⟨(st.size - 1) / st.block + 1, Nat.succ_pos _, ?_, ?_⟩
        · have := Nat.div_add_mod (st.size - 1) st.block
          have := Nat.mod_lt (st.size - 1) hb
          rw [Nat.add_mul, Nat.one_mul, Nat.mul_comm]
          omega
        · have := Nat.div_mul_le_self (st.size - 1) st.block
          rw [Nat.add_sub_cancel, Nat.mul_comm]
          omega
      have hk := up st.size k hk0 hk1 hk2
      rw [hlen] at hk
      have hk8 : k ≤ 8 := by
        have : st.block * (k - 1) < st.block * 8 := by omega
        have := Nat.lt_of_mul_lt_mul_left this
        omega
      have hs' : s ≤ st.block * k := by omega
      have g : growBlock s st.block = st.block := by
        rw [growBlock, dif_neg]
        have : st.block * k ≤ st.block * 8 := Nat.mul_le_mul_left _ hk8
        omega
      simp only [bufsize]
      rw [g, up s k hk0 (by rw [Nat.mul_comm]; exact hs') (by omega), hk]

/-! ## Copies within the buffer -/

theorem allocateHeld_room {st : SSet α} {l : List α} (h : Rep st l) (ht : Tight st) {s : Nat} (hs : l.length ≤ s) :
    (s ≤ st.buf.length → ∃ st', st.allocateHeld s = .ok st' ∧ Rep st' l ∧ st'.buf = st.buf) ∧
      (¬ s ≤ st.buf.length → st.allocateHeld s = .ub) := by
  have hr := room ht h.block_pos (s := s) (by rw [h.size_eq]; exact hs)
  unfold allocateHeld
  constructor
  · intro hle
    rw [if_pos (hr.2 hle)]
    unfold allocate
    simp only
    rw [if_pos (hr.2 hle)]
    exact ⟨_, rfl, ⟨bufsize_block_pos s st.block h.block_pos, h.size_eq, h.buf_eq⟩, rfl⟩
  · intro hle
    rw [if_neg (fun e => hle (hr.1 e))]

/-- What the copies leave in the cells: those before and after are kept, and each new one holds what its source held when
its turn came. -/
theorem copyOwn_cells {b : Buf α} {p q s : Nat} (f : Nat → α) (hb : p + s ≤ b.length)
    (hf : ∀ i < s, (if p ≤ q + i ∧ q + i < p + i then some (some (f (q + i - p))) else b[q + i]?) = some (some (f i))) :
    ∃ b', copyOwn b p q s = .ok b' ∧ b'.length = b.length ∧
      ∀ k, b'[k]? = if p ≤ k ∧ k < p + s then some (some (f (k - p))) else b[k]? := by
  induction s with
  | zero =>
    refine ⟨b, rfl, rfl, fun k => ?_⟩
    rw [if_neg (by omega)]
  | succ s ih =>
    obtain ⟨b', h1, h2, h3⟩ := ih (by omega) (fun i hi => hf i (by omega))
    have hr : b'[q + s]? = some (some (f s)) := by
      rw [h3, hf s (by omega)]
    unfold copyOwn
    rw [h1]
    simp only [Res.ok_bind]
    unfold Buf.read Buf.write
    rw [hr]
    simp only [Res.ok_bind]
    rw [if_pos (by omega)]
    refine ⟨_, rfl, by simp [h2], fun k => ?_⟩
    rw [List.getElem?_set]
    by_cases hk : p + s = k
    · subst hk
      rw [if_pos rfl, if_pos (by omega), if_pos (by omega), Nat.add_sub_cancel_left]
    · rw [if_neg hk, h3]
      by_cases hk' : p ≤ k ∧ k < p + s
      · rw [if_pos hk', if_pos (by omega)]
      · rw [if_neg hk', if_neg (by omega)]

theorem memmove_cells {b : Buf α} {p s n : Nat} (h : p + s + n ≤ b.length) :
    ∃ b', b.memmove (p + s) p n = .ok b' ∧ b'.length = b.length ∧
      ∀ k, b'[k]? = if p + s ≤ k ∧ k < p + s + n then b[k - s]? else b[k]? := by
  have hm : b.memmove (p + s) p n = .ok (b.take (p + s) ++ (b.drop p).take n ++ b.drop (p + s + n)) := by
    unfold Buf.memmove
    rw [if_pos (by omega)]
  refine ⟨_, hm, memmove_length hm, fun k => ?_⟩
  rw [List.append_assoc]
  by_cases h1 : k < p + s
  · rw [if_neg (by omega), List.getElem?_append_left (by simp; omega), List.getElem?_take, if_pos h1]
  · rw [List.getElem?_append_right (by simp; omega)]
    have e : (b.take (p + s)).length = p + s := by simp; omega
    rw [e]
    by_cases h2 : k < p + s + n
    · rw [if_pos (by omega), List.getElem?_append_left (by simp; omega), List.getElem?_take, if_pos (by omega),
        List.getElem?_drop]
      congr 1
      omega
    · rw [if_neg (by omega), List.getElem?_append_right (by simp; omega), List.getElem?_drop]
      congr 1
      simp
      omega

/-- All calls at once: with room, the new elements are given by the cells after the move. -/
theorem addOwn_cells (d : α) {st : SSet α} {l : List α} (h : Rep st l) (ht : Tight st) {p q s : Nat} (hp : p ≤ l.length)
    (hs : s ≠ 0) (f : Nat → α) (hr : l.length + s ≤ st.buf.length)
    (hf : ∀ i < s, (if p ≤ q + i ∧ q + i < p + i then some (f (q + i - p))
      else if p + s ≤ q + i then l[q + i - s]? else l[q + i]?) = some (f i)) :
    ∃ st', st.addOwn d p q s = .ok st' ∧ Rep st' (l.take p ++ (List.range s).map f ++ l.drop p) := by
  obtain ⟨st', h1, h2, h3⟩ := (allocateHeld_room h ht (show l.length ≤ l.length + s by omega)).1 hr
  obtain ⟨junk, hj⟩ := h.buf_eq
  have hlive : ∀ k < l.length, st.buf[k]? = l[k]?.map some := by
    intro k hk
    rw [hj, List.getElem?_append_left (by simpa using hk), List.getElem?_map]
  have finish : ∀ b : Buf α, b.length = st.buf.length →
      (∀ k, b[k]? = if p + s ≤ k ∧ k < l.length + s then st.buf[k - s]? else st.buf[k]?) →
      ∃ b', copyOwn b p q s = .ok b' ∧ ∃ junk, b' = (l.take p ++ (List.range s).map f ++ l.drop p).map some ++ junk := by
    intro b hb hc
    obtain ⟨b', e1, e2, e3⟩ := copyOwn_cells (b := b) (p := p) (q := q) (s := s) f (by omega) (by
      intro i hi
      have := hf i hi
      by_cases hc1 : p ≤ q + i ∧ q + i < p + i
      · rw [if_pos hc1] at this ⊢
        rw [Option.some.inj this]
      · rw [if_neg hc1] at this ⊢
        rw [hc]
        by_cases hc2 : p + s ≤ q + i
        · rw [if_pos hc2] at this
          have hlt := (List.getElem?_eq_some_iff.1 this).1
          rw [if_pos (by omega), hlive _ hlt, this]
          rfl
        · rw [if_neg hc2] at this
          have hlt := (List.getElem?_eq_some_iff.1 this).1
          rw [if_neg (by omega), hlive _ hlt, this]
          rfl)
    refine ⟨b', e1, b'.drop (l.length + s), ?_⟩
    apply List.ext_getElem?
    intro k
    rw [e3]
    have hlen : ((l.take p ++ (List.range s).map f ++ l.drop p).map some).length = l.length + s := by
      simp
      omega
    by_cases hk : k < l.length + s
    · rw [List.getElem?_append_left (by omega), List.getElem?_map, List.append_assoc]
      by_cases hk1 : k < p
      · rw [if_neg (by omega), List.getElem?_append_left (by simp; omega), List.getElem?_take, if_pos hk1, hc,
          if_neg (by omega), hlive k (by omega)]
      · rw [List.getElem?_append_right (by simp; omega)]
        have e : (l.take p).length = p := by simp; omega
        rw [e]
        by_cases hk2 : k < p + s
        · rw [if_pos (by omega), List.getElem?_append_left (by simp; omega), List.getElem?_map,
            List.getElem?_range (by omega)]
          rfl
        · rw [if_neg (by omega), List.getElem?_append_right (by simp; omega), List.getElem?_drop, hc, if_pos (by omega),
            hlive _ (by omega)]
          congr 2
          simp
          omega
    · rw [List.getElem?_append_right (by omega), hlen, List.getElem?_drop, if_neg (by omega)]
      rw [show l.length + s + (k - (l.length + s)) = k by omega, e3, if_neg (by omega)]
  unfold addOwn
  rw [if_neg hs]
  have hsz := h.size_eq
  by_cases hpe : p ≥ st.size
  · rw [if_pos hpe]
    have hpl : p = l.length := by omega
    subst hpl
    rw [h1]
    simp only [Res.ok_bind]
    rw [show l.length - 1 - st'.size = 0 by rw [h2.size_eq]; omega]
    simp only [List.replicate_zero, Buf.construct, Res.ok_bind]
    obtain ⟨b', e1, junk', e2⟩ := finish st'.buf (by rw [h3]) (by
      intro k
      rw [if_neg (by omega), h3])
    rw [e1]
    exact ⟨_, rfl, ⟨h2.block_pos, by simp, ⟨junk', e2⟩⟩⟩
  · rw [if_neg hpe]
    rw [hsz, h1]
    simp only [Res.ok_bind]
    obtain ⟨b, m1, m2, m3⟩ := memmove_cells (b := st'.buf) (p := p) (s := s) (n := st'.size - p) (by
      rw [h2.size_eq, h3]; omega)
    rw [m1]
    simp only [Res.ok_bind]
    obtain ⟨b', e1, junk', e2⟩ := finish b (by rw [m2, h3]) (by
      intro k
      rw [m3, h3, h2.size_eq, show p + s + (l.length - p) = l.length + s by omega])
    rw [e1]
    refine ⟨_, rfl, ⟨h2.block_pos, ?_, ⟨junk', e2⟩⟩⟩
    simp only [List.length_append, List.length_take, List.length_map, List.length_range, List.length_drop]
    rw [h2.size_eq]
    omega

/-! ## The calls -/

/-- **C114** `x.add(x[q])` with room in the buffer adds the element. -/
theorem C114_element_partial (d : α) {st : SSet α} {l : List α} (h : Rep st l) (ht : Tight st) {q : Nat} (hq : q < l.length)
    (hr : l.length < st.buf.length) : ∃ st', st.addElement d q = .ok st' ∧ Rep st' (l ++ [l[q]]) := by
  obtain ⟨st', h1, h2⟩ := addOwn_cells d h ht (p := l.length) (q := q) (s := 1) (Nat.le_refl _) (by omega) (fun _ => l[q])
    (by omega) (by
      intro i hi
      obtain rfl : i = 0 := by omega
      rw [if_neg (by omega), if_neg (by omega), Nat.add_zero, List.getElem?_eq_getElem hq])
  refine ⟨st', ?_, ?_⟩
  · unfold addElement
    rw [h.size_eq]
    exact h1
  · simpa using h2

/-- **C114** With a full buffer every call, of an element or of the whole set, at any place, reads memory that has been
freed. -/
theorem C114_full_wrong (d : α) {st : SSet α} {l : List α} (h : Rep st l) (ht : Tight st) (hf : l.length = st.buf.length)
    {p : Nat} (hp : p ≤ l.length) {q s : Nat} (hs : s ≠ 0) : st.addOwn d p q s = .ub := by
  have := (allocateHeld_room h ht (show l.length ≤ l.length + s by omega)).2 (by omega)
  unfold addOwn
  rw [if_neg hs]
  have hsz := h.size_eq
  by_cases hpe : p ≥ st.size
  · rw [if_pos hpe, show p = l.length by omega, this]
    rfl
  · rw [if_neg hpe, hsz, this]
    rfl

/-- **C114** `x.add(p,x[q])` with room inserts the element if it is not after the place; if it is, the one before it. -/
theorem C114_insert (d : α) {st : SSet α} {l : List α} (h : Rep st l) (ht : Tight st) {p q : Nat} (hp : p ≤ l.length)
    (hq : q < l.length) (hr : l.length < st.buf.length) :
    ∃ st', st.insertElement d p q = .ok st' ∧
      Rep st' (l.take p ++ [l[if q ≤ p then q else q - 1]'(by split <;> omega)] ++ l.drop p) := by
  obtain ⟨st', h1, h2⟩ := addOwn_cells d h ht (p := p) (q := q) (s := 1) hp (by omega)
    (fun _ => l[if q ≤ p then q else q - 1]'(by split <;> omega)) (by omega) (by
      intro i hi
      obtain rfl : i = 0 := by omega
      rw [if_neg (by omega)]
      simp only [Nat.add_zero]
      by_cases hqp : q ≤ p
      · rw [if_neg (by omega), List.getElem?_eq_getElem hq]
        simp [hqp]
      · rw [if_pos (by omega), List.getElem?_eq_getElem (by omega)]
        simp [hqp])
  exact ⟨st', h1, by simpa using h2⟩

/-- **C114** So the insertion of an element after the place is wrong, unless it equals the one before it. -/
theorem C114_insert_wrong (d : α) {st : SSet α} {l : List α} (h : Rep st l) (ht : Tight st) {p q : Nat} (hpq : p < q)
    (hq : q < l.length) (hr : l.length < st.buf.length) (hne : l[q] ≠ l[q - 1]) :
    ∃ st' l', st.insertElement d p q = .ok st' ∧ Rep st' l' ∧ l' ≠ l.take p ++ [l[q]] ++ l.drop p := by
  obtain ⟨st', h1, h2⟩ := C114_insert d h ht (p := p) (by omega) hq hr
  refine ⟨st', _, h1, h2, ?_⟩
  intro e
  simp only [List.append_assoc, List.append_cancel_left_eq, List.cons_append, List.nil_append, List.cons.injEq] at e
  have e := e.1
  simp only [if_neg (show ¬ q ≤ p by omega)] at e
  exact hne e.symm

/-- **C114** `x.add(x)` with room for both copies adds the set after itself; an empty set is rejected. -/
theorem C114_self_partial (d : α) {st : SSet α} {l : List α} (h : Rep st l) (ht : Tight st)
    (hr : 2 * l.length ≤ st.buf.length) :
    (l ≠ [] → ∃ st', st.addSelf d = .ok st' ∧ Rep st' (l ++ l)) ∧ (l = [] → st.addSelf d = .throw) := by
  constructor
  · intro hl
    have h0 : l.length ≠ 0 := by simpa using hl
    obtain ⟨a, -⟩ := List.exists_mem_of_ne_nil l hl
    obtain ⟨st', h1, h2⟩ := addOwn_cells d h ht (p := l.length) (q := 0) (s := l.length) (Nat.le_refl _) h0
      (fun i => l.getD i a) (by omega) (by
        intro i hi
        rw [if_neg (by omega), if_neg (by omega), Nat.zero_add, List.getElem?_eq_getElem hi, List.getD_eq_getElem _ _ hi])
    refine ⟨st', ?_, ?_⟩
    · unfold addSelf
      rw [h.size_eq]
      exact h1
    · have e : (List.range l.length).map (fun i => l.getD i a) = l := by
        apply List.ext_getElem (by simp)
        intro i _ hi
        simp only [List.getElem_map, List.getElem_range]
        exact List.getD_eq_getElem _ _ hi
      rw [e] at h2
      simpa using h2
  · rintro rfl
    unfold addSelf addOwn
    rw [if_pos (show st.size = 0 from h.size_eq)]

/-- **C114** `x.add(p,x)` with room: what is inserted at a place within the set repeats the elements before the place. -/
theorem C114_self_insert (d : α) {st : SSet α} {l : List α} (h : Rep st l) (ht : Tight st) {p : Nat} (h0 : 0 < p)
    (hp : p ≤ l.length) (hr : 2 * l.length ≤ st.buf.length) :
    ∃ st', st.insertSelf d p = .ok st' ∧ Rep st' (l.take p ++
      (List.range l.length).map (fun i => l[i % p]'(by have := Nat.mod_lt i h0; omega)) ++ l.drop p) := by
  have := addOwn_cells d h ht (p := p) (q := 0) (s := l.length) hp (by omega)
      (fun i => l[i % p]'(by have := Nat.mod_lt i h0; omega)) (by omega) (by
        intro i hi
        rw [Nat.zero_add]
        by_cases hi' : p ≤ i
        · rw [if_pos (by omega)]
          congr 2
          rw [← Nat.mod_eq_sub_mod hi']
        · rw [if_neg (by omega), if_neg (by omega), List.getElem?_eq_getElem hi]
          congr 2
          rw [Nat.mod_eq_of_lt (by omega)])
  unfold insertSelf
  rw [h.size_eq]
  exact this

/-- **C114** So inserting a set of different elements into itself is wrong at every place but the ends. -/
theorem C114_self_insert_wrong (d : α) {st : SSet α} {l : List α} (h : Rep st l) (ht : Tight st) (hn : l.Nodup) {p : Nat}
    (h0 : 0 < p) (hp : p < l.length) (hr : 2 * l.length ≤ st.buf.length) :
    ∃ st' l', st.insertSelf d p = .ok st' ∧ Rep st' l' ∧ l' ≠ l.take p ++ l ++ l.drop p := by
  obtain ⟨st', h1, h2⟩ := C114_self_insert d h ht h0 (by omega) hr
  refine ⟨st', _, h1, h2, ?_⟩
  intro e
  rw [List.append_assoc, List.append_assoc] at e
  have e := List.append_cancel_right (List.append_cancel_left e)
  have e' := congrArg (fun x : List α => x[p]?) e
  simp only [List.getElem?_map, List.getElem?_range hp, Option.map_some, List.getElem?_eq_getElem hp, Nat.mod_self,
    Option.some.injEq] at e'
  exact (List.pairwise_iff_getElem.1 hn) 0 p (by omega) hp h0 e'

/-- **C114** `x = x` empties every set. -/
theorem C114_assign_wrong {st : SSet α} {l : List α} (h : Rep st l) :
    ∃ st', st.assignOwn = .ok st' ∧ Rep st' [] := by
  unfold assignOwn
  rw [deallocate_rep h]
  simp only [Res.ok_bind]
  have hr : Rep ({ st with size := 0, buf := [] } : SSet α) [] := ⟨h.block_pos, rfl, ⟨[], rfl⟩⟩
  obtain ⟨st', h1, h2, -⟩ := allocate_rep hr 0 (by simp)
  rw [h1]
  simp only [Res.ok_bind]
  have h0 : st'.size = 0 := h2.size_eq
  rw [h0]
  simp only [copyOwn, Res.ok_bind]
  exact ⟨_, rfl, ⟨h2.block_pos, rfl, h2.buf_eq⟩⟩

/-- Three elements in a buffer of four: inserting the last one at the front inserts the second. -/
example : Rep (⟨4, 3, [some 1, some 2, some 3, none]⟩ : SSet Nat) [1, 2, 3] ∧
    Tight (⟨4, 3, [some 1, some 2, some 3, none]⟩ : SSet Nat) := by
  refine ⟨⟨by decide, rfl, ⟨[none], rfl⟩⟩, ?_⟩
  unfold Tight bufsize
  rw [growBlock, dif_neg (by simp)]
  rfl

end OP.SetFam.SSet
