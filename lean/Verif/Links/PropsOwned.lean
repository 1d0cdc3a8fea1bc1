import Verif.Links.OwnedOps
import Mathlib.Algebra.BigOperators.Group.List.Basic
import Mathlib.Algebra.Field.Basic
import Mathlib.Algebra.Field.Rat
/-!
# Properties C24, C54 and C66: owned lists and the layers of a pavement
-/
namespace OP.Links

/-! ## Specification -/

/-- What a program can do to an owned list.  In `clear f` the loop is given `f` rounds. -/
inductive OOp where
  | atEnd (e : Nat)
  | before (e b : Nat)
  | after (e a : Nat)
  | between (e a b : Nat)
  | destroy (e : Nat)
  | clear (f : Nat)
  | addAt (e p : Nat)
  | removeAt (l : Nat)

/-- New elements are new, and the other elements named are in the list. -/
def OOp.Valid (L : List Nat) : OOp → Prop
  | atEnd e => e ∉ L
  | before e b => e ∉ L ∧ b ∈ L
  | after e a => e ∉ L ∧ a ∈ L
  | between e a b => e ∉ L ∧ a ∈ L ∧ b ∈ L
  | destroy e => e ∈ L
  | clear f => L.length < f
  | addAt e _ => e ∉ L
  | removeAt _ => True

/-- The sequence afterwards, and whether the operation was accepted. -/
def OOp.spec (L : List Nat) : OOp → List Nat × Bool
  | atEnd e => (L ++ [e], true)
  | before e b => (L.insertIdx (L.idxOf b) e, true)
  | after e a => (L.insertIdx (L.idxOf a + 1) e, true)
  | between e a b => if L.idxOf b = L.idxOf a + 1 then (L.insertIdx (L.idxOf b) e, true) else (L, false)
  | destroy e => (L.erase e, true)
  | clear _ => ([], true)
  | addAt e p => (L.insertIdx (min p (L.length - 1)) e, true)
  | removeAt l => (L.eraseIdx l, true)

/-- A history that respects the preconditions. -/
def OValid : List Nat → List OOp → Prop
  | _, [] => True
  | L, o :: os => o.Valid L ∧ OValid (o.spec L).1 os

/-- The sequence and the outcomes after a history. -/
def ospec : List Nat → List OOp → List Nat × List Bool
  | L, [] => (L, [])
  | L, o :: os => ((ospec (o.spec L).1 os).1, (o.spec L).2 :: (ospec (o.spec L).1 os).2)

/-! ## The program -/

/-- A rejected construction leaves the list as it was (include/list.h:198-199, 202-203 throw before any
existing element has been written). -/
def kept (s : L2) : Res L2 → Res (L2 × Bool)
  | .ok s' => .ok (s', true)
  | .throw => .ok (s, false)
  | .ub => .ub

/-- One operation of a program. -/
def OOp.run (s : L2) : OOp → Res (L2 × Bool)
  | atEnd e => kept s (s.create e none none)
  | before e b => kept s (s.create e none (some b))
  | after e a => kept s (s.create e (some a) none)
  | between e a b => kept s (s.create e (some a) (some b))
  | destroy e => kept s (s.destroy e)
  | clear f => match L2.empty f s with
    | .ok (some s') => .ok (s', true)
    | _ => .ub
  | addAt e p => kept s (s.addlayer e (some p))
  | removeAt l => kept s (s.removelayer l)

/-- A whole program. -/
def orun : L2 → List OOp → Res (L2 × List Bool)
  | s, [] => .ok (s, [])
  | s, o :: os => o.run s >>= fun r => orun r.1 os >>= fun q => .ok (q.1, r.2 :: q.2)

/-! ## Proofs -/

theorem insertIdx_len (A B : List Nat) (e : Nat) : (A ++ B).insertIdx A.length e = A ++ e :: B := by
  induction A with
  | nil => simp
  | cons a A ih => simp [ih]

theorem split_of_mem {L : List Nat} {b : Nat} (h : b ∈ L) :
    ∃ A B, L = A ++ b :: B ∧ L.idxOf b = A.length ∧ b ∉ A := by
  induction L with
  | nil => simp at h
  | cons a L ih =>
    by_cases hab : a = b
    · exact ⟨[], L, by simp [hab], by simp [hab], by simp⟩
    · obtain ⟨A, B, h1, h2, h3⟩ := ih (by simpa [Ne.symm hab] using h)
      refine ⟨a :: A, B, by simp [h1], ?_, by simp [h3, Ne.symm hab]⟩
      rw [List.idxOf_cons_ne _ hab, h2]; simp

theorem idxOf_split {A B : List Nat} {b : Nat} (h : b ∉ A) : (A ++ b :: B).idxOf b = A.length := by
  rw [List.idxOf_append_of_notMem h]; simp

/-- Only the elements of the sequence are alive. -/
def Exact (s : L2) (L : List Nat) : Prop := s.Rep L ∧ ∀ e, e ∉ L → s.nod e = none

theorem create_exact {s : L2} {A B : List Nat} {e : Nat} {s' : L2} (h : Exact s (A ++ B)) (h' : s'.Rep (A ++ e :: B))
    (hk : ∀ j, j ≠ e → s.nod j = none → s'.nod j = none) : Exact s' (A ++ e :: B) := by
  refine ⟨h', fun j hj => hk j ?_ (h.2 j ?_)⟩
  · rintro rfl; simp at hj
  · simp at hj ⊢; tauto

theorem kept_ok {s s' : L2} {r : Res L2} (h : r = .ok s') : kept s r = .ok (s', true) := by rw [h]; rfl

theorem oop_ok {s : L2} {L : List Nat} (h : Exact s L) {o : OOp} (hv : o.Valid L) :
    ∃ s', o.run s = .ok (s', (o.spec L).2) ∧ Exact s' (o.spec L).1 := by
  cases o with
  | atEnd e =>
    obtain ⟨s', h1, h2, h3⟩ := create_end h.1 hv
    exact ⟨s', kept_ok h1, create_exact (B := []) (by simpa using h) h2 h3⟩
  | before e b =>
    obtain ⟨he, hb⟩ := hv
    obtain ⟨A, B, rfl, hi, hA⟩ := split_of_mem hb
    obtain ⟨s', h1, h2, h3⟩ := create_before (p := none) h.1 he (.inl rfl)
    refine ⟨s', kept_ok h1, ?_⟩
    simp only [OOp.spec, hi, insertIdx_len]
    exact create_exact h h2 h3
  | after e a =>
    obtain ⟨he, hb⟩ := hv
    obtain ⟨A, B, rfl, hi, hA⟩ := split_of_mem hb
    obtain ⟨s', h1, h2, h3⟩ := create_after h.1 he
    refine ⟨s', kept_ok h1, ?_⟩
    have hins : (A ++ a :: B).insertIdx (A.length + 1) e = A ++ a :: e :: B := by
      have := insertIdx_len (A ++ [a]) B e
      simpa using this
    simp only [OOp.spec, hi, hins]
    have := create_exact (A := A ++ [a]) (B := B) (e := e) (by simpa using h) (by simpa using h2) h3
    simpa using this
  | between e a b =>
    obtain ⟨he, ha, hb⟩ := hv
    obtain ⟨A, B, rfl, hi, hA⟩ := split_of_mem hb
    by_cases hl : A.getLast? = some a
    · have hia : (A ++ b :: B).idxOf a + 1 = A.length := by
        rcases snoc_cases A with rfl | ⟨A', a', rfl⟩
        · simp at hl
        · simp at hl; subst hl
          have : a' ∉ A' := by
            intro hm
            have := h.1.nodup
            simp [List.nodup_append] at this
            exact this.2.2 a' hm |>.1 rfl
          rw [show A' ++ [a'] ++ b :: B = A' ++ a' :: (b :: B) by simp, idxOf_split this]; simp
      obtain ⟨s', h1, h2, h3⟩ := create_before (p := some a) h.1 he (.inr hl.symm)
      refine ⟨s', ?_, ?_⟩
      · simp only [OOp.spec, hi, hia, if_true]; exact kept_ok h1
      · simp only [OOp.spec, hi, hia, if_true, insertIdx_len]
        exact create_exact h h2 h3
    · have hia : ¬ A.length = (A ++ b :: B).idxOf a + 1 := by
        intro hlen
        obtain ⟨C, D, hC, hi2, hC2⟩ := split_of_mem ha
        rw [hi2] at hlen
        obtain ⟨A', a', rfl⟩ : ∃ A' a', A = A' ++ [a'] := by
          rcases snoc_cases A with rfl | h
          · simp at hlen
          · exact h
        simp only [List.length_append, List.length_singleton, Nat.add_right_cancel_iff] at hlen
        rw [show A' ++ [a'] ++ b :: B = A' ++ a' :: (b :: B) by simp] at hC
        obtain ⟨-, hC⟩ := List.append_inj hC hlen
        cases hC
        simp at hl
      refine ⟨s, ?_, ?_⟩
      · simp only [OOp.spec, hi, if_neg hia, OOp.run, create_mismatch h.1 he hl, kept]
      · simp only [OOp.spec, hi, if_neg hia]; exact h
  | destroy e =>
    obtain ⟨A, B, rfl, hi, hA⟩ := split_of_mem (show e ∈ L from hv)
    obtain ⟨s', h1, h2, h3, h4⟩ := destroy_ok h.1
    refine ⟨s', kept_ok h1, ?_⟩
    have : (A ++ e :: B).erase e = A ++ B := by rw [List.erase_append_right _ hA]; simp
    simp only [OOp.spec, this]
    refine ⟨h2, fun j hj => ?_⟩
    by_cases hje : j = e
    · rw [hje]; exact h3
    · exact h4 j (h.2 j (by simp at hj ⊢; tauto))
  | clear f =>
    obtain ⟨s', h1, h2, h3, h4⟩ := empty_ok h.1 hv
    refine ⟨s', by simp [OOp.run, h1, OOp.spec], h2, fun j _ => ?_⟩
    by_cases hj : j ∈ L
    · exact h3 j hj
    · exact h4 j (h.2 j hj)
  | addAt e p =>
    have hf := h.1.first_eq
    cases L with
    | nil =>
      simp at hf
      have hl := h.1.last_eq
      simp at hl
      obtain ⟨s', h1, h2, h3⟩ := create_end h.1 hv
      refine ⟨s', kept_ok (by simp only [L2.addlayer, hf, hl]; exact h1), ?_⟩
      have := create_exact (A := []) (B := []) h h2 h3
      simpa [OOp.spec] using this
    | cons a L =>
      simp at hf
      obtain ⟨C, b, D, hC, hlen, hlp⟩ := layerLoop_ok (l := p) (A := []) h.1
      rw [hC] at h hv
      obtain ⟨s', h1, h2, h3⟩ := create_before (p := none) h.1 hv (.inl rfl)
      refine ⟨s', kept_ok (by simp only [L2.addlayer, hf, hlp, Res.ok_bind]; exact h1), ?_⟩
      have : (C ++ b :: D).insertIdx (min p ((a :: L).length - 1)) e = C ++ e :: b :: D := by
        rw [show min p ((a :: L).length - 1) = C.length by simp [hlen], insertIdx_len]
      simp only [OOp.spec, hC] at this ⊢
      rw [this]
      exact create_exact h h2 h3
  | removeAt l =>
    have hf := h.1.first_eq
    have hw := removeWalk_ok (l := l) (A := []) (B := L) h.1
    rw [← hf] at hw
    by_cases hlt : l < L.length
    · have hsp : L = L.take l ++ L[l] :: L.drop (l + 1) := by simp
      have he : L.eraseIdx l = L.take l ++ L.drop (l + 1) := List.eraseIdx_eq_take_drop_succ ..
      have h' := h
      rw [hsp] at h'
      obtain ⟨s', h1, h2, h3, h4⟩ := destroy_ok h'.1
      rw [List.getElem?_eq_getElem hlt] at hw
      refine ⟨s', kept_ok (by simp only [L2.removelayer, hw, Res.ok_bind]; exact h1), ?_⟩
      simp only [OOp.spec, he]
      refine ⟨h2, fun j hj => ?_⟩
      by_cases hje : j = L[l]
      · rw [hje]; exact h3
      · refine h4 j (h'.2 j ?_)
        rw [List.mem_append, List.mem_cons]; rw [List.mem_append] at hj; tauto
    · rw [List.getElem?_eq_none (by omega)] at hw
      refine ⟨s, by simp only [OOp.run, L2.removelayer, hw, Res.ok_bind, kept, OOp.spec], ?_⟩
      simp only [OOp.spec]
      rw [List.eraseIdx_of_length_le (by omega)]
      exact h

theorem orun_ok : ∀ {os : List OOp} {s : L2} {L : List Nat}, Exact s L → OValid L os →
    ∃ s', orun s os = .ok (s', (ospec L os).2) ∧ Exact s' (ospec L os).1
  | [], s, L, h, _ => ⟨s, rfl, h⟩
  | o :: os, s, L, h, hv => by
    obtain ⟨s1, h1, h2⟩ := oop_ok h hv.1
    obtain ⟨s2, h3, h4⟩ := orun_ok h2 hv.2
    exact ⟨s2, by simp [orun, h1, h3, ospec], h4⟩

theorem init_exact : Exact L2.init [] := ⟨⟨⟨rfl, rfl⟩, List.nodup_nil⟩, fun _ _ => rfl⟩

/-- **C24.**  After any history of creations (at the end, before or after an element, between two, or as the
`p`-th layer) and destructions, the owned list is the sequence the history describes: walking forward gives
it, walking backward gives its reverse, `first` and `last` are its ends, exactly its elements are alive, the
`k`-th layer is its `k`-th element, and `position` of that element is `k`.  Only the creation between two
elements that are not neighbours is rejected, and it changes nothing. -/
theorem C24_owned_list (os : List OOp) (hv : OValid [] os) :
    ∃ s, orun L2.init os = .ok (s, (ospec [] os).2) ∧
      let L := (ospec [] os).1
      L.Nodup ∧ s.first = L.head? ∧ s.last = L.getLast? ∧ (∀ e, s.nod e ≠ none ↔ e ∈ L) ∧
      (∀ f, L.length ≤ f → L2.fwd s f s.first = .ok (some L) ∧ L2.bwd s f s.last = .ok (some L.reverse)) ∧
      ∀ k (hk : k < L.length), s.layer k = .ok L[k] ∧ ∀ f, L.length ≤ f → L2.position s L[k] f s.first 0 = .ok (some k) := by
  obtain ⟨s, h1, h2, h3⟩ := orun_ok init_exact hv
  refine ⟨s, h1, h2.nodup, h2.first_eq, h2.last_eq, fun e => ⟨fun hn => ?_, fun hm => ?_⟩, fun f hf => ⟨?_, ?_⟩, fun k hk => ?_⟩
  · by_contra hc; exact hn (h3 e hc)
  · obtain ⟨A, B, hAB, -⟩ := split_of_mem hm
    rw [hAB] at h2
    rw [h2.node]; simp
  · rw [h2.first_eq]; exact fwd_ok (A := []) h2 hf
  · rw [h2.last_eq]; exact bwd_ok (A := []) rfl (by simpa using h2) hf
  · generalize hL : (ospec [] os).1 = L at *
    have hsp : L = L.take k ++ L[k] :: L.drop (k + 1) := by simp
    refine ⟨?_, fun f hf => ?_⟩
    · cases L with
      | nil => simp at hk
      | cons a L =>
        have hf1 := h2.first_eq
        simp at hf1 hk
        obtain ⟨C, b, D, hC, hlen, hlp⟩ := layerLoop_ok (l := k) (A := []) h2
        rw [L2.layer, hf1]
        simp only [hlp, hC]
        have : C.length = k := by omega
        simp [← this]
    · have h2' := h2
      rw [hsp] at h2'
      have := position_ok (s := s) (L := L.take k) (A := []) (c := 0) (f := f) h2' (by rw [List.length_take]; omega)
      rw [← hsp] at this
      rw [h2.first_eq, this]
      simp; omega

/-- A history with every kind of operation, one of them rejected. -/
example : OValid [] [.atEnd 1, .before 2 1, .after 3 2, .between 4 2 1, .between 4 3 1, .destroy 3, .addAt 5 7, .removeAt 0] ∧
    ospec [] [.atEnd 1, .before 2 1, .after 3 2, .between 4 2 1, .between 4 3 1, .destroy 3, .addAt 5 7, .removeAt 0] =
      ([4, 5, 1], [true, true, true, false, true, true, true, true]) := by
  refine ⟨?_, by decide⟩
  simp [OValid, OOp.Valid, OOp.spec, List.idxOf, List.findIdx, List.findIdx.go]

/-! ## Layers -/

section Layers
variable {K : Type} [Field K] [DecidableEq K]

mutual
/-- `LElayer::top` (src/pavement.h:170-172); `none` if the recursion has not ended. -/
def ltop (s : L2) (th : Nat → K) : Nat → Nat → Res (Option K)
  | 0, _ => .ok none
  | f + 1, e => s.get e >>= fun v => match v.1 with
    | none => .ok (some 0)
    | some p => lbottom s th f p
/-- `LElayer::bottom` (src/pavement.h:167-169). -/
def lbottom (s : L2) (th : Nat → K) : Nat → Nat → Res (Option K)
  | 0, _ => .ok none
  | f + 1, e => if th e = 0 then .ok (some 0) else ltop s th f e >>= fun t => .ok (t.map (· + th e))
end

theorem ltop_ok {s : L2} {th : Nat → K} : ∀ {n : Nat} {A B : List Nat} {e f : Nat}, A.length = n → s.Rep (A ++ e :: B) → 2 * A.length < f →
    (∀ a ∈ A, th a ≠ 0) → ltop s th f e = .ok (some (A.map th).sum) := by
  intro n
  induction n with
  | zero =>
    intro A B e f hn h hf _
    rw [List.length_eq_zero_iff] at hn; subst hn
    obtain ⟨f, rfl⟩ : ∃ f', f = f' + 1 := ⟨f - 1, by omega⟩
    simp [ltop, rep_get h]
  | succ n ih =>
    intro A B e f hn h hf hz
    rcases snoc_cases A with rfl | ⟨A, a, rfl⟩
    · simp at hn
    · simp at hn hf
      obtain ⟨f, rfl⟩ : ∃ f', f = f' + 2 := ⟨f - 2, by omega⟩
      have h' : s.Rep (A ++ a :: e :: B) := by simpa using h
      have := ih (f := f) hn h' (by omega) (fun x hx => hz x (by simp [hx]))
      have ha : th a ≠ 0 := hz a (by simp)
      simp [ltop, rep_get h, lbottom, ha, this]

/-- **C54** (partial: insertion at a position past the last layer, and layers of zero thickness above another,
are not as stated; see below).  After any history of layer edits, inserting at position `p` within the layers puts
the new layer before the `p`-th and keeps the order of the others, on an empty pavement any position
appends, removing the `l`-th layer removes exactly it and a position outside changes nothing; and the top of
the `k`-th layer is the sum of the thicknesses of the layers above, its bottom adds its own. -/
theorem C54_layers_partial (os : List OOp) (hv : OValid [] os) :
    ∃ s, orun L2.init os = .ok (s, (ospec [] os).2) ∧
      let L := (ospec [] os).1
      (∀ e p, e ∉ L → p < L.length ∨ L = [] → ∃ s', s.addlayer e (some p) = .ok s' ∧
        ∀ f, L.length < f → L2.fwd s' f s'.first = .ok (some (L.take p ++ e :: L.drop p))) ∧
      (∀ e, e ∉ L → ∃ s', s.addlayer e none = .ok s' ∧ ∀ f, L.length < f → L2.fwd s' f s'.first = .ok (some (L ++ [e]))) ∧
      (∀ l, ∃ s', s.removelayer l = .ok s' ∧ ∀ f, L.length ≤ f → L2.fwd s' f s'.first = .ok (some (L.take l ++ L.drop (l + 1)))) ∧
      (∀ (th : Nat → K) k (hk : k < L.length), (∀ a ∈ L.take k, th a ≠ 0) → ∀ f, 2 * L.length < f →
        ltop s th f L[k] = .ok (some ((L.take k).map th).sum) ∧
        (th L[k] ≠ 0 → lbottom s th f L[k] = .ok (some ((L.take (k + 1)).map th).sum))) := by
  obtain ⟨s, h1, h2⟩ := orun_ok init_exact hv
  refine ⟨s, h1, ?_⟩
  generalize (ospec [] os).1 = L at *
  refine ⟨fun e p he hp => ?_, fun e he => ?_, fun l => ?_, fun th k hk hz f hf => ?_⟩
  · obtain ⟨s', k1, k2⟩ := oop_ok (o := .addAt e p) h2 he
    have k1' : s.addlayer e (some p) = .ok s' := by
      simp only [OOp.run, OOp.spec] at k1
      revert k1
      cases s.addlayer e (some p) <;> simp [kept]
    have hsp : (OOp.spec L (.addAt e p)).1 = L.take p ++ e :: L.drop p := by
      rcases hp with hp | rfl
      · have := insertIdx_len (L.take p) (L.drop p) e
        rw [List.take_append_drop] at this
        rw [← this]
        simp only [OOp.spec, List.length_take]
        congr 1; omega
      · simp [OOp.spec]
    rw [hsp] at k2
    refine ⟨s', k1', fun f hf => ?_⟩
    rw [k2.1.first_eq]
    exact fwd_ok (A := []) k2.1 (by simp; omega)
  · have hl := h2.1.last_eq
    obtain ⟨s', k1, k2, -⟩ : ∃ s', s.create e s.last none = .ok s' ∧ s'.Rep (L ++ [e]) ∧ True := by
      rcases snoc_cases L with rfl | ⟨A, a, rfl⟩
      · simp at hl
        obtain ⟨s', h1, h3, -⟩ := create_end h2.1 he
        exact ⟨s', by rw [hl]; exact h1, h3, trivial⟩
      · simp at hl
        obtain ⟨s', h1, h3, -⟩ := create_after h2.1 he
        exact ⟨s', by rw [hl]; exact h1, by simpa using h3, trivial⟩
    refine ⟨s', by simpa [L2.addlayer] using k1, fun f hf => ?_⟩
    rw [k2.first_eq]
    exact fwd_ok (A := []) k2 (by simp; omega)
  · obtain ⟨s', k1, k2⟩ := oop_ok (o := .removeAt l) h2 trivial
    have k1' : s.removelayer l = .ok s' := by
      simp only [OOp.run, OOp.spec] at k1
      revert k1
      cases s.removelayer l <;> simp [kept]
    simp only [OOp.spec] at k2
    rw [List.eraseIdx_eq_take_drop_succ] at k2
    refine ⟨s', k1', fun f hf => ?_⟩
    rw [k2.1.first_eq]
    exact fwd_ok (A := []) k2.1 (by simp; omega)
  · have hsp : L = L.take k ++ L[k] :: L.drop (k + 1) := by simp
    have h2' := h2.1
    rw [hsp] at h2'
    have hlen : (L.take k).length = k := by rw [List.length_take]; omega
    refine ⟨ltop_ok rfl h2' (by omega) hz, fun hk0 => ?_⟩
    obtain ⟨f, rfl⟩ : ∃ f', f = f' + 1 := ⟨f - 1, by omega⟩
    simp only [lbottom, if_neg hk0, ltop_ok (f := f) rfl h2' (by omega) hz, Res.ok_bind, Option.map_some]
    rw [List.take_add_one, List.getElem?_eq_getElem hk]
    simp only [Option.toList_some, List.map_append, List.sum_append, List.map_cons, List.map_nil, List.sum_cons, List.sum_nil,
      add_zero]

/-- A position past the end puts the new layer before the last one, for every non-empty pavement. -/
theorem C54_past_end_wrong (os : List OOp) (hv : OValid [] os) (hne : (ospec [] os).1 ≠ []) :
    ∃ s, orun L2.init os = .ok (s, (ospec [] os).2) ∧
      ∀ e p, e ∉ (ospec [] os).1 → (ospec [] os).1.length ≤ p → ∃ s', s.addlayer e (some p) = .ok s' ∧
        ∃ A a, (ospec [] os).1 = A ++ [a] ∧ ∀ f, A.length + 2 ≤ f → L2.fwd s' f s'.first = .ok (some (A ++ [e, a])) := by
  obtain ⟨s, h1, h2⟩ := orun_ok init_exact hv
  refine ⟨s, h1, ?_⟩
  generalize (ospec [] os).1 = L at *
  intro e p he hp
  obtain ⟨s', k1, k2⟩ := oop_ok (o := .addAt e p) h2 he
  have k1' : s.addlayer e (some p) = .ok s' := by
    simp only [OOp.run, OOp.spec] at k1
    revert k1
    cases s.addlayer e (some p) <;> simp [kept]
  rcases snoc_cases L with rfl | ⟨A, a, rfl⟩
  · exact absurd rfl hne
  · have hsp : (OOp.spec (A ++ [a]) (.addAt e p)).1 = A ++ [e, a] := by
      have := insertIdx_len A [a] e
      rw [← this]
      simp only [OOp.spec, List.length_append, List.length_singleton] at hp ⊢
      congr 1; omega
    rw [hsp] at k2
    refine ⟨s', k1', A, a, rfl, fun f hf => ?_⟩
    rw [k2.1.first_eq]
    exact fwd_ok (A := []) k2.1 (by simp; omega)

/-- Below a layer of zero thickness the depths start again at zero. -/
theorem C54_zero_layer_wrong (os : List OOp) (hv : OValid [] os) (th : Nat → K) :
    ∃ s, orun L2.init os = .ok (s, (ospec [] os).2) ∧
      ∀ A a b B, (ospec [] os).1 = A ++ a :: b :: B → th a = 0 → ∀ f, 2 ≤ f → ltop s th f b = .ok (some 0) := by
  obtain ⟨s, h1, h2⟩ := orun_ok init_exact hv
  refine ⟨s, h1, ?_⟩
  generalize (ospec [] os).1 = L at *
  rintro A a b B rfl hz f hf
  obtain ⟨f, rfl⟩ : ∃ f', f = f' + 2 := ⟨f - 2, by omega⟩
  have h' : s.Rep ((A ++ [a]) ++ b :: B) := by simpa using h2.1
  simp [ltop, rep_get h', lbottom, hz]

/-- Three layers 10, 20 and infinite (0) thick: insertion in the middle, past the end, and the tops. -/
example : (orun L2.init [.atEnd 1, .atEnd 2, .atEnd 3] >>= fun r =>
      ltop r.1 (fun i => if i = 3 then (0 : ℚ) else 10 * i) 9 3) = .ok (some 30) ∧
    (orun L2.init [.atEnd 1, .atEnd 2, .atEnd 3, .addAt 4 1, .addAt 5 9] >>= fun r => L2.fwd r.1 9 r.1.first) =
      .ok (some [1, 4, 2, 5, 3]) := by decide +kernel

end Layers

/-! ## Plain doubly linked lists -/

/-- **C66.**  Destroying (or emptying) a list of plain doubly linked elements is undefined for every non-empty
list: only owned elements tell the list that they are gone. -/
theorem C66_plain_empty_dangles {s : L2} {a : Nat} {L : List Nat} (h : s.Rep (a :: L)) (f : Nat) (hf : 2 ≤ f) :
    L2.emptyD f s = .ub := by
  obtain ⟨f, rfl⟩ : ∃ f', f = f' + 2 := ⟨f - 2, by omega⟩
  have h' : s.Rep ([] ++ a :: L) := h
  have hn := h'.node
  have hfi := h.first_eq
  simp at hn hfi
  cases L with
  | nil => simp [L2.emptyD, hfi, L2.dtorD, L2.get, hn, L2.put]
  | cons b L =>
    have hnb := L2.Rep.node (A := [a]) (B := L) (e := b) h
    have hba : b ≠ a := by
      rintro rfl
      have := h.nodup
      simp at this
    simp at hn hnb
    simp [L2.emptyD, hfi, L2.dtorD, L2.get, L2.setPrev, hn, hnb, L2.put, hba]

/-- An empty list may be emptied again: nothing happens. -/
theorem C66_plain_empty_none_partial {s : L2} (h : s.Rep []) (f : Nat) : L2.emptyD (f + 1) s = .ok (some s) := by
  have hfi := h.first_eq
  simp at hfi
  simp [L2.emptyD, hfi]

/-- Elements inserted in a plain list one by one, at either end, do form a list. -/
theorem C66_plain_insert_partial {s : L2} {L : List Nat} {e : Nat} (h : s.Rep L) (he : e ∉ L) :
    (∃ s', (s.fresh e).insert e = .ok s' ∧ s'.Rep (L ++ [e])) ∧ (∃ s', (s.fresh e).push e = .ok s' ∧ s'.Rep (e :: L)) := by
  have hl := h.last_eq
  have hf := h.first_eq
  constructor
  · rcases snoc_cases L with rfl | ⟨A, a, rfl⟩
    · simp at hl hf
      refine ⟨{ (s.put e (some (none, none))) with first := some e, last := some e }, ?_, ?_⟩
      · simp [L2.insert, L2.fresh, L2.get, L2.setPrev, L2.put, hl, hf]
        funext j
        by_cases h2 : j = e <;> simp [h2]
      · refine rep_insert (A := []) (B := []) h he ?_ ?_ ?_ ?_ ?_ ?_ <;> simp [L2.put]
        intro j hj hj'; exact absurd hj' hj
    · have hn := L2.Rep.node (A := A) (B := []) h
      have hae : a ≠ e := mem_ne he (by simp)
      simp at hl
      refine ⟨{ ((s.put e (some (some a, none))).put a (some (A.getLast?, some e))) with last := some e }, ?_, ?_⟩
      · simp [L2.insert, L2.fresh, L2.get, L2.setPrev, L2.setNext, L2.put, hl, hn, hae, hae.symm]
        funext j
        by_cases h1 : j = a <;> by_cases h2 : j = e <;> simp [h1, h2]
      · have h' : s.Rep ((A ++ [a]) ++ []) := by simpa using h
        refine rep_insert (B := []) h' (by simpa using he) ?_ ?_ ?_ ?_ ?_ ?_
        · simp
        · simp
        · simp [L2.put, hae.symm]
        · rintro A' b hb v hv
          obtain ⟨-, hb⟩ := List.append_inj' hb rfl
          cases hb
          rw [hn] at hv; cases hv; simp [L2.put]
        · simp
        · intro j h1 h2 _
          simp at h2
          simp [L2.put, h1, Ne.symm h2]
  · cases L with
    | nil =>
      simp at hl hf
      refine ⟨{ (s.put e (some (none, none))) with first := some e, last := some e }, ?_, ?_⟩
      · simp [L2.push, L2.insert, L2.fresh, L2.get, L2.setPrev, L2.setNext, L2.put, hl, hf]
        funext j
        by_cases h2 : j = e <;> simp [h2]
      · refine rep_insert (A := []) (B := []) h he ?_ ?_ ?_ ?_ ?_ ?_ <;> simp [L2.put]
        intro j hj hj'; exact absurd hj' hj
    | cons b B =>
      have hn := L2.Rep.node (A := []) (B := B) h
      have hbe : b ≠ e := mem_ne he (by simp)
      simp at hf hn
      refine ⟨{ ((s.put e (some (none, some b))).put b (some (some e, B.head?))) with first := some e }, ?_, ?_⟩
      · simp [L2.push, L2.insert, L2.fresh, L2.get, L2.setPrev, L2.setNext, L2.put, hf, hn, hbe, hbe.symm]
        funext j
        by_cases h1 : j = b <;> by_cases h2 : j = e <;> simp [h1, h2]
      · refine rep_insert (A := []) h he ?_ ?_ ?_ ?_ ?_ ?_
        · simp
        · simp
        · simp [L2.put, hbe.symm]
        · simp
        · rintro c B' hb v hv
          cases hb
          rw [hn] at hv; cases hv; simp [L2.put]
        · intro j h1 _ h2
          simp at h2
          simp [L2.put, h1, Ne.symm h2]

/-- Three elements, then the destructor. -/
example : ((L2.init.fresh 1).insert 1 >>= fun s => (s.fresh 2).insert 2 >>= fun s => (s.fresh 3).push 3 >>= fun s =>
      L2.fwd s 5 s.first) = .ok (some [3, 1, 2]) ∧
    (((L2.init.fresh 1).insert 1 >>= fun s => (s.fresh 2).insert 2 >>= fun s => L2.emptyD 5 s >>= fun r => .ok r.isSome) = .ub) := by
  decide +kernel

end OP.Links
