import Verif.Links.OwnedLemmas
/-!
# The operations of the owned list on chains
-/
namespace OP.Links

theorem mem_ne {L : List Nat} {e a : Nat} (he : e ∉ L) (ha : a ∈ L) : a ≠ e := by rintro rfl; exact he ha

/-- Creating an element at the end. -/
theorem create_end {s : L2} {L : List Nat} {e : Nat} (h : s.Rep L) (he : e ∉ L) :
    ∃ s', s.create e none none = .ok s' ∧ s'.Rep (L ++ [e])  ∧ ∀ j, j ≠ e → s.nod j = none → s'.nod j = none := by
  have hl := h.last_eq
  have hf := h.first_eq
  rcases snoc_cases L with rfl | ⟨A, a, rfl⟩
  · refine ⟨{ (s.put e (some (none, none))) with first := some e, last := some e }, ?_, ?_, fun j h1 hj => by
      have hj2 : ∀ i, s.nod i ≠ none → j ≠ i := by rintro i hi rfl; exact hi hj
      simp [L2.put, h1, hj]⟩
    · simp at hl hf
      simp [L2.create, L2.ctorD, L2.get, L2.setPrev, L2.put, hl, hf]
      funext j
      by_cases h2 : j = e <;> simp [h2]
    · refine rep_insert (A := []) (B := []) h he ?_ ?_ ?_ ?_ ?_ ?_ <;> simp [L2.put]
      intro j hj hj'; exact absurd hj' hj
  · have hn := L2.Rep.node (A := A) (B := []) h
    have hae : a ≠ e := mem_ne he (by simp)
    simp at hl
    refine ⟨{ ((s.put e (some (some a, none))).put a (some (A.getLast?, some e))) with last := some e }, ?_, ?_, fun j h1 hj => by
      have hj2 : ∀ i, s.nod i ≠ none → j ≠ i := by rintro i hi rfl; exact hi hj
      simp [L2.put, h1, hj, hj2 a (by simp [hn])]⟩
    · simp [L2.create, L2.ctorD, L2.get, L2.setPrev, L2.setNext, L2.put, hl, hn, hae, hae.symm]
      funext j
      by_cases h1 : j = a <;> by_cases h2 : j = e <;> simp [h1, h2]
    · have h' : s.Rep ((A ++ [a]) ++ []) := by simpa using h
      refine rep_insert (B := []) h' (by simpa using he) ?_ ?_ ?_ ?_ ?_ ?_
      · simp
      · simp
      · simp [L2.put, hae.symm]
      · rintro A' b hb v hv
        obtain ⟨-, hb⟩ := List.append_inj' hb rfl
        cases hb
        rw [hn] at hv; cases hv; simp [L2.put]
      · simp
      · intro j h1 h2 _
        simp at h2
        simp [L2.put, h1, Ne.symm h2]

theorem rep_get {s : L2} {A B : List Nat} {e : Nat} (h : s.Rep (A ++ e :: B)) : s.get e = .ok (A.getLast?, B.head?) := get_ok2 h.node

/-- Creating an element before `b`; the named predecessor must be the right one or null. -/
theorem create_before {s : L2} {A B : List Nat} {b e : Nat} {p : Option Nat} (h : s.Rep (A ++ b :: B)) (he : e ∉ A ++ b :: B)
    (hp : p = none ∨ p = A.getLast?) :
    ∃ s', s.create e p (some b) = .ok s' ∧ s'.Rep (A ++ e :: b :: B)  ∧ ∀ j, j ≠ e → s.nod j = none → s'.nod j = none := by
  have hf := h.first_eq
  have hn := h.node
  have hbe : b ≠ e := mem_ne he (by simp)
  rcases snoc_cases A with rfl | ⟨A, a, rfl⟩
  · have hp : p = none := by simpa using hp
    subst hp
    simp at hf hn
    refine ⟨{ ((s.put e (some (none, some b))).put b (some (some e, B.head?))) with first := some e }, ?_, ?_, fun j h1 hj => by
      have hj2 : ∀ i, s.nod i ≠ none → j ≠ i := by rintro i hi rfl; exact hi hj
      simp [L2.put, h1, hj, hj2 b (by simp [hn])]⟩
    · simp [L2.create, L2.ctorD, L2.get, L2.setPrev, L2.put, hf, hn, hbe, hbe.symm]
    · refine rep_insert (A := []) h he ?_ ?_ ?_ ?_ ?_ ?_
      · simp
      · simp
      · simp [L2.put, hbe.symm]
      · simp
      · rintro c B' hb v hv
        cases hb
        rw [hn] at hv; cases hv; simp [L2.put]
      · intro j h1 _ h2
        simp at h2
        simp [L2.put, h1, Ne.symm h2]
  · have h' : s.Rep (A ++ a :: (b :: B)) := by simpa using h
    have hna := h'.node
    simp at hna hn
    have hae : a ≠ e := mem_ne he (by simp)
    have hab : a ≠ b := by
      rintro rfl
      have := h.nodup
      simp [List.nodup_append] at this
    have hpp : p = none ∨ p = some a := by simpa using hp
    refine ⟨((s.put e (some (some a, some b))).put a (some (A.getLast?, some e))).put b (some (some e, B.head?)), ?_, ?_, fun j h1 hj => by
      have hj2 : ∀ i, s.nod i ≠ none → j ≠ i := by rintro i hi rfl; exact hi hj
      simp [L2.put, h1, hj, hj2 a (by simp [hna]), hj2 b (by simp [hn])]⟩
    · have hth : ¬ (p ≠ none ∧ p ≠ some a) := by rcases hpp with rfl | rfl <;> simp
      simp only [L2.create, L2.ctorD, L2.get, L2.setPrev, L2.setNext, L2.put, hn, hna, hbe, hae, if_neg hth, hbe.symm, hae.symm, hab,
        hab.symm, if_true, if_false, Res.ok_bind]
      simp [hbe.symm, hae.symm]
      funext j
      by_cases h1 : j = a <;> by_cases h2 : j = e <;> by_cases h3 : j = b <;> simp [h1, h2, h3]
    · refine rep_insert h he ?_ ?_ ?_ ?_ ?_ ?_
      · simp
      · simp
      · simp [L2.put, hbe.symm, hae.symm]
      · rintro A' c hb v hv
        obtain ⟨-, hb⟩ := List.append_inj' hb rfl
        cases hb
        rw [hna] at hv; cases hv; simp [L2.put, hab]
      · rintro c B' hb v hv
        cases hb
        rw [hn] at hv; cases hv; simp [L2.put]
      · intro j h1 h2 h3
        simp at h2 h3
        simp [L2.put, h1, Ne.symm h2, Ne.symm h3]

/-- A wrong predecessor is rejected. -/
theorem create_mismatch {s : L2} {A B : List Nat} {b e y : Nat} (h : s.Rep (A ++ b :: B)) (he : e ∉ A ++ b :: B)
    (hp : A.getLast? ≠ some y) : s.create e (some y) (some b) = .throw := by
  have hn := h.node
  have hbe : b ≠ e := mem_ne he (by simp)
  cases hl : A.getLast? with
  | none => rw [hl] at hn; simp [L2.create, L2.ctorD, L2.get, L2.put, hn, hbe]
  | some a =>
    rw [hl] at hn hp
    have : ¬ y = a := fun h => hp (by rw [h])
    simp [L2.create, L2.ctorD, L2.get, L2.put, hn, hbe, this]

/-- Creating an element after `a`. -/
theorem create_after {s : L2} {A B : List Nat} {a e : Nat} (h : s.Rep (A ++ a :: B)) (he : e ∉ A ++ a :: B) :
    ∃ s', s.create e (some a) none = .ok s' ∧ s'.Rep (A ++ a :: e :: B)  ∧ ∀ j, j ≠ e → s.nod j = none → s'.nod j = none := by
  have hl := h.last_eq
  have hn := h.node
  have hae : a ≠ e := mem_ne he (by simp)
  have h' : s.Rep ((A ++ [a]) ++ B) := by simpa using h
  have he' : e ∉ (A ++ [a]) ++ B := by simpa using he
  have hfin : ∀ s' : L2, s'.Rep ((A ++ [a]) ++ e :: B) → s'.Rep (A ++ a :: e :: B) := by intro s' h; simpa using h
  cases B with
  | nil =>
    simp at hl hn
    refine ⟨{ ((s.put e (some (some a, none))).put a (some (A.getLast?, some e))) with last := some e }, ?_, hfin _ ?_, fun j h1 hj => by
      have hj2 : ∀ i, s.nod i ≠ none → j ≠ i := by rintro i hi rfl; exact hi hj
      simp [L2.put, h1, hj, hj2 a (by simp [hn])]⟩
    · simp [L2.create, L2.ctorD, L2.get, L2.setNext, L2.put, hl, hn, hae, hae.symm]
    · refine rep_insert h' he' ?_ ?_ ?_ ?_ ?_ ?_
      · simp
      · simp
      · simp [L2.put, hae.symm]
      · rintro A' b hb v hv
        obtain ⟨-, hb⟩ := List.append_inj' hb rfl
        cases hb
        rw [hn] at hv; cases hv; simp [L2.put]
      · simp
      · intro j h1 h2 _
        simp at h2
        simp [L2.put, h1, Ne.symm h2]
  | cons b B =>
    have h2 : s.Rep ((A ++ [a]) ++ b :: B) := by simpa using h
    have hnb := h2.node
    simp at hn hnb
    have hbe : b ≠ e := mem_ne he (by simp)
    have hab : a ≠ b := by
      rintro rfl
      have := h.nodup
      simp [List.nodup_append] at this
    refine ⟨((s.put e (some (some a, some b))).put b (some (some e, B.head?))).put a (some (A.getLast?, some e)), ?_, hfin _ ?_, fun j h1 hj => by
      have hj2 : ∀ i, s.nod i ≠ none → j ≠ i := by rintro i hi rfl; exact hi hj
      simp [L2.put, h1, hj, hj2 a (by simp [hn]), hj2 b (by simp [hnb])]⟩
    · simp only [L2.create, L2.ctorD, L2.get, L2.setPrev, L2.setNext, L2.put, hn, hnb, hbe, hae, hbe.symm, hae.symm, hab,
        hab.symm, if_true, if_false, Res.ok_bind]
      simp [hbe.symm, hae.symm, hab, hab.symm]
      funext j
      by_cases h1 : j = a <;> by_cases h2 : j = e <;> by_cases h3 : j = b <;> simp [h1, h2, h3]
    · refine rep_insert h' he' ?_ ?_ ?_ ?_ ?_ ?_
      · simp
      · simp
      · simp [L2.put, hbe.symm, hae.symm]
      · rintro A' c hb v hv
        obtain ⟨-, hb⟩ := List.append_inj' hb rfl
        cases hb
        rw [hn] at hv; cases hv; simp [L2.put]
      · rintro c B' hb v hv
        cases hb
        rw [hnb] at hv; cases hv; simp [L2.put, hab.symm]
      · intro j h1 h2 h3
        simp at h2 h3
        simp [L2.put, h1, Ne.symm h2, Ne.symm h3]

theorem destroy_ok {s : L2} {A B : List Nat} {e : Nat} (h : s.Rep (A ++ e :: B)) :
    ∃ s', s.destroy e = .ok s' ∧ s'.Rep (A ++ B) ∧ s'.nod e = none ∧ ∀ j, s.nod j = none → s'.nod j = none := by
  have hn := h.node
  have hnd := h.nodup
  have hd := hnd
  rw [List.perm_middle.nodup_iff, List.nodup_cons] at hd
  rcases snoc_cases A with rfl | ⟨A, a, rfl⟩
  · cases B with
    | nil =>
      simp at hn
      refine ⟨{ (s.put e none) with first := none, last := none }, ?_, ?_, by simp [L2.put], fun j hj => by
      have hj2 : ∀ i, s.nod i ≠ none → j ≠ i := by rintro i hi rfl; exact hi hj
      by_cases h1 : j = e
      · simp [L2.put, h1]
      · simp [L2.put, h1, hj]⟩
      · simp [L2.destroy, L2.dtorD, L2.get, L2.put, hn]
      · refine rep_erase h ?_ ?_ ?_ ?_ ?_ <;> simp [L2.put]
        intro j h1 h2; exact absurd h2 h1
    | cons b B =>
      simp at hn
      have hnb := L2.Rep.node (A := [e]) (B := B) (e := b) h
      simp at hnb
      have hbe : b ≠ e := mem_ne hd.1 (by simp)
      refine ⟨{ ((s.put b (some (none, B.head?))).put e none) with first := some b }, ?_, ?_, by simp [L2.put], fun j hj => by
      have hj2 : ∀ i, s.nod i ≠ none → j ≠ i := by rintro i hi rfl; exact hi hj
      by_cases h1 : j = e
      · simp [L2.put, h1]
      · simp [L2.put, h1, hj, hj2 b (by simp [hnb])]⟩
      · simp [L2.destroy, L2.dtorD, L2.get, L2.setPrev, L2.put, hn, hnb, hbe]
      · refine rep_erase h ?_ ?_ ?_ ?_ ?_
        · simp
        · simp
        · simp
        · rintro c B' hb v hv
          cases hb
          rw [hnb] at hv; cases hv; simp [L2.put, hbe]
        · intro j h1 _ h3
          simp at h3
          simp [L2.put, h1, Ne.symm h3]
  · have h2 : s.Rep (A ++ a :: e :: B) := by simpa using h
    have hna := h2.node
    have hae : a ≠ e := mem_ne hd.1 (by simp)
    cases B with
    | nil =>
      simp at hn hna
      refine ⟨{ ((s.put a (some (A.getLast?, none))).put e none) with last := some a }, ?_, ?_, by simp [L2.put], fun j hj => by
      have hj2 : ∀ i, s.nod i ≠ none → j ≠ i := by rintro i hi rfl; exact hi hj
      by_cases h1 : j = e
      · simp [L2.put, h1]
      · simp [L2.put, h1, hj, hj2 a (by simp [hna])]⟩
      · simp [L2.destroy, L2.dtorD, L2.get, L2.setNext, L2.put, hn, hna, hae]
      · refine rep_erase h ?_ ?_ ?_ ?_ ?_
        · simp
        · simp
        · rintro A' c hb v hv
          obtain ⟨-, hb⟩ := List.append_inj' hb rfl
          cases hb
          rw [hna] at hv; cases hv; simp [L2.put, hae]
        · simp
        · intro j h1 h2 _
          simp at h2
          simp [L2.put, h1, Ne.symm h2]
    | cons b B =>
      have h3 : s.Rep ((A ++ [a] ++ [e]) ++ b :: B) := by simpa using h
      have hnb := h3.node
      simp at hn hna hnb
      have hbe : b ≠ e := mem_ne hd.1 (by simp)
      have hab : a ≠ b := by
        rintro rfl
        have := hd.2
        simp [List.nodup_append] at this
      refine ⟨((s.put a (some (A.getLast?, some b))).put b (some (some a, B.head?))).put e none, ?_, ?_, by simp [L2.put], fun j hj => by
      have hj2 : ∀ i, s.nod i ≠ none → j ≠ i := by rintro i hi rfl; exact hi hj
      by_cases h1 : j = e
      · simp [L2.put, h1]
      · simp [L2.put, h1, hj, hj2 a (by simp [hna]), hj2 b (by simp [hnb])]⟩
      · simp [L2.destroy, L2.dtorD, L2.get, L2.setNext, L2.setPrev, L2.put, hn, hna, hnb, hae, hbe, hab, hab.symm]
      · refine rep_erase h ?_ ?_ ?_ ?_ ?_
        · simp
        · simp
        · rintro A' c hb v hv
          obtain ⟨-, hb⟩ := List.append_inj' hb rfl
          cases hb
          rw [hna] at hv; cases hv; simp [L2.put, hae, hab]
        · rintro c B' hb v hv
          cases hb
          rw [hnb] at hv; cases hv; simp [L2.put, hbe]
        · intro j h1 h2 h3
          simp at h2 h3
          simp [L2.put, h1, Ne.symm h2, Ne.symm h3]

theorem empty_ok {L : List Nat} : ∀ {s : L2} {f : Nat}, s.Rep L → L.length < f →
    ∃ s', L2.empty f s = .ok (some s') ∧ s'.Rep [] ∧ (∀ e ∈ L, s'.nod e = none) ∧ ∀ j, s.nod j = none → s'.nod j = none := by
  induction L with
  | nil =>
    intro s f h hf
    obtain ⟨f, rfl⟩ := Nat.exists_eq_add_of_lt hf
    have := h.first_eq
    simp at this
    exact ⟨s, by simp [L2.empty, this], h, by simp, fun _ h => h⟩
  | cons a L ih =>
    intro s f h hf
    obtain ⟨f, rfl⟩ : ∃ f', f = f' + 1 := ⟨f - 1, by omega⟩
    have := h.first_eq
    simp at this hf
    obtain ⟨s1, h1, h2, h3, h4⟩ := destroy_ok (A := []) h
    obtain ⟨s2, k1, k2, k3, k4⟩ := ih (f := f) h2 hf
    refine ⟨s2, by simp [L2.empty, this, h1, k1], k2, ?_, fun j hj => k4 j (h4 j hj)⟩
    intro e he
    rcases List.mem_cons.1 he with rfl | he
    · exact k4 _ h3
    · exact k3 e he

theorem fwd_ok {s : L2} : ∀ {L A : List Nat} {f : Nat}, s.Rep (A ++ L) → L.length ≤ f → L2.fwd s f L.head? = .ok (some L)
  | [], _, f, _, _ => by cases f <;> simp [L2.fwd]
  | a :: L, A, 0, _, hf => by simp at hf
  | a :: L, A, f + 1, h, hf => by
    have := fwd_ok (s := s) (L := L) (A := A ++ [a]) (f := f) (by simpa using h) (by simpa using hf)
    simp [L2.fwd, rep_get h, this]

theorem bwd_ok {s : L2} : ∀ {n : Nat} {L A : List Nat} {f : Nat}, L.length = n → s.Rep (L ++ A) → L.length ≤ f →
    L2.bwd s f L.getLast? = .ok (some L.reverse) := by
  intro n
  induction n with
  | zero =>
    intro L A f hn _ _
    rw [List.length_eq_zero_iff] at hn; subst hn
    cases f <;> simp [L2.bwd]
  | succ n ih =>
    intro L A f hn h hf
    rcases snoc_cases L with rfl | ⟨L, a, rfl⟩
    · simp at hn
    · simp at hn hf
      obtain ⟨f, rfl⟩ : ∃ f', f = f' + 1 := ⟨f - 1, by omega⟩
      have h' : s.Rep (L ++ a :: A) := by simpa using h
      have := ih (L := L) (A := a :: A) (f := f) hn h' (by omega)
      simp [L2.bwd, rep_get h', this]

theorem position_ok {s : L2} : ∀ {L A B : List Nat} {e f c : Nat}, s.Rep (A ++ L ++ e :: B) → L.length < f →
    L2.position s e f (L ++ e :: B).head? c = .ok (some (c + L.length))
  | [], A, B, e, f, c, h, hf => by
    obtain ⟨f, rfl⟩ : ∃ f', f = f' + 1 := ⟨f - 1, by simp at hf; omega⟩
    simp [L2.position]
  | a :: L, A, B, e, f, c, h, hf => by
    obtain ⟨f, rfl⟩ : ∃ f', f = f' + 1 := ⟨f - 1, by simp at hf; omega⟩
    have hae : a ≠ e := by
      rintro rfl
      have := h.nodup
      simp [List.nodup_append] at this
    have h' : s.Rep (A ++ a :: (L ++ e :: B)) := by simpa using h
    have := position_ok (s := s) (L := L) (A := A ++ [a]) (B := B) (e := e) (f := f) (c := c + 1) (by simpa using h)
      (by simpa using hf)
    rw [show c + (a :: L).length = c + 1 + L.length by simp; omega, ← this]
    simp [L2.position, hae, rep_get h']

theorem layerLoop_ok {s : L2} : ∀ {l : Nat} {A B : List Nat} {a : Nat}, s.Rep (A ++ a :: B) →
    ∃ C b D, a :: B = C ++ b :: D ∧ C.length = min l B.length ∧ layerLoop s l a = .ok b
  | 0, A, B, a, h => ⟨[], a, B, rfl, by simp, rfl⟩
  | l + 1, A, [], a, h => ⟨[], a, [], rfl, by simp, by simp [layerLoop, rep_get h]⟩
  | l + 1, A, b :: B, a, h => by
    obtain ⟨C, d, D, h1, h2, h3⟩ := layerLoop_ok (s := s) (l := l) (A := A ++ [a]) (B := B) (a := b) (by simpa using h)
    exact ⟨a :: C, d, D, by simp [h1], by simp [h2], by simp [layerLoop, rep_get h, h3]⟩

theorem removeWalk_ok {s : L2} : ∀ {l : Nat} {A B : List Nat}, s.Rep (A ++ B) → removeWalk s l B.head? = .ok B[l]?
  | 0, A, B, h => by simp [removeWalk, List.head?_eq_getElem?]
  | l + 1, A, [], h => by simp [removeWalk]
  | l + 1, A, b :: B, h => by
    have := removeWalk_ok (s := s) (l := l) (A := A ++ [b]) (B := B) (by simpa using h)
    simp [removeWalk, rep_get h, this]

end OP.Links
