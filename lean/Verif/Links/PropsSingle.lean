import Verif.Links.Single
import Mathlib.Data.List.Nodup
/-!
# Property C23: singly linked lists
-/
namespace OP.Links

theorem rd_next {s : L1} {i : Nat} {p : Option Nat} (h : s.nxt i = some p) : s.rd (.next i) = .ok p := by
  simp [L1.rd, h]

theorem wr_next {s : L1} {i : Nat} {p v : Option Nat} (h : s.nxt i = some p) :
    s.wr v (.next i) = .ok { s with nxt := s.nxt.set i v } := by
  simp [L1.wr, h]

/-- Insertion before an element that is not the first. -/
theorem insertLoop_before {s : L1} {e x y : Nat} {B : List Nat} (he : s.nxt e = some (some x)) :
    ∀ (M : List Nat) (f : Nat) (t l : Loc) (p : Option Nat), s.rd t = .ok p → Seg s.nxt p (M ++ y :: x :: B) none →
      x ∉ M ++ [y] → M.length + 2 ≤ f →
      insertLoop s e f t l = .ok (some { s with nxt := s.nxt.set y (some e) }) := by
  intro M
  induction M with
  | nil =>
    intro f t l p ht hs hx hf
    obtain ⟨f, rfl⟩ : ∃ g, f = g + 2 := ⟨f - 2, by simp at hf; omega⟩
    obtain ⟨rfl, r, h1, rfl, q, h2, -⟩ := hs
    have hne : ¬ x = y := by simpa using hx
    rw [insertLoop, ht]
    simp only [Res.ok_bind, rd_next he]
    rw [if_neg (by simp [hne]), insertLoop, rd_next h1]
    simp only [Res.ok_bind, rd_next he]
    rw [if_pos (by simp), ht]
    simp only [Res.ok_bind]
    rw [wr_next h1]; rfl
  | cons m M ih =>
    intro f t l p ht hs hx hf
    obtain ⟨f, rfl⟩ : ∃ g, f = g + 1 := ⟨f - 1, by simp at hf; omega⟩
    obtain ⟨rfl, r, h1, h2⟩ := hs
    have hne : ¬ x = m := by simp at hx; tauto
    rw [insertLoop, ht]
    simp only [Res.ok_bind, rd_next he]
    rw [if_neg (by simp [hne])]
    exact ih f (.next m) t r (rd_next h1) h2 (by simp at hx ⊢; tauto) (by simp at hf; omega)

/-- Insertion at the end. -/
theorem insertLoop_end {s : L1} {e : Nat} (he : s.nxt e = some none) :
    ∀ (M : List Nat) (f : Nat) (t l : Loc) (p : Option Nat), s.rd t = .ok p → Seg s.nxt p M none → M.length + 1 ≤ f →
      ∃ t', insertLoop s e f t l = (s.wr (some e) t' >>= fun s => .ok (some s)) ∧
        ((M = [] ∧ t' = t) ∨ ∃ A a, M = A ++ [a] ∧ t' = .next a) := by
  intro M
  induction M with
  | nil =>
    intro f t l p ht hs hf
    obtain ⟨f, rfl⟩ : ∃ g, f = g + 1 := ⟨f - 1, by simp at hf; omega⟩
    cases hs
    exact ⟨t, by rw [insertLoop, ht]; rfl, .inl ⟨rfl, rfl⟩⟩
  | cons m M ih =>
    intro f t l p ht hs hf
    obtain ⟨f, rfl⟩ : ∃ g, f = g + 1 := ⟨f - 1, by simp at hf; omega⟩
    obtain ⟨rfl, r, h1, h2⟩ := hs
    obtain ⟨t', g1, g2⟩ := ih f (.next m) t r (rd_next h1) h2 (by simp at hf; omega)
    refine ⟨t', ?_, ?_⟩
    · rw [insertLoop, ht]
      simp only [Res.ok_bind, rd_next he]
      simpa using g1
    · rcases g2 with ⟨rfl, rfl⟩ | ⟨A, a, rfl, rfl⟩
      · exact .inr ⟨[], m, rfl, rfl⟩
      · exact .inr ⟨m :: A, a, rfl, rfl⟩

/-- Removal of an element that is not the first. -/
theorem removeLoop_later {s : L1} {e y : Nat} {B : List Nat} {n : Option Nat} (he : s.nxt e = some n) :
    ∀ (M : List Nat) (f : Nat) (t l : Loc) (p : Option Nat), s.rd t = .ok p → Seg s.nxt p (M ++ y :: e :: B) none →
      e ∉ M ++ [y] → M.length + 2 ≤ f →
      ∃ t', removeLoop s (some e) f t l = (s.wr n t' >>= fun s => s.wr none (.next e) >>= fun s => .ok (some (s, some e))) ∧
        ((M = [] ∧ t' = t) ∨ ∃ A a, M = A ++ [a] ∧ t' = .next a) := by
  intro M
  induction M with
  | nil =>
    intro f t l p ht hs hx hf
    obtain ⟨f, rfl⟩ : ∃ g, f = g + 2 := ⟨f - 2, by simp at hf; omega⟩
    obtain ⟨rfl, r, h1, rfl, q, h2, -⟩ := hs
    have hne : ¬ y = e := fun h => hx (by simp [h])
    refine ⟨t, ?_, .inl ⟨rfl, rfl⟩⟩
    rw [removeLoop, ht]
    simp only [Res.ok_bind]
    rw [if_neg hne, removeLoop, rd_next h1]
    simp only [Res.ok_bind, rd_next he, if_true]
  | cons m M ih =>
    intro f t l p ht hs hx hf
    obtain ⟨f, rfl⟩ : ∃ g, f = g + 1 := ⟨f - 1, by simp at hf; omega⟩
    obtain ⟨rfl, r, h1, h2⟩ := hs
    have hne : ¬ m = e := fun h => hx (by simp [h])
    obtain ⟨t', g1, g2⟩ := ih f (.next m) t r (rd_next h1) h2 (by simp at hx ⊢; tauto) (by simp at hf; omega)
    refine ⟨t', ?_, ?_⟩
    · rw [removeLoop, ht]
      simp only [Res.ok_bind]
      rw [if_neg hne, g1]
    · rcases g2 with ⟨rfl, rfl⟩ | ⟨A, a, rfl, rfl⟩
      · exact .inr ⟨[], m, rfl, rfl⟩
      · exact .inr ⟨m :: A, a, rfl, rfl⟩

theorem length_ok {h : Heap} : ∀ (L : List Nat) (f : Nat) (p : Option Nat) (n : Nat), Seg h p L none → L.length ≤ f →
    lengthLoop h f p n = .ok (some (n + L.length)) := by
  intro L
  induction L with
  | nil => intro f p n hs _; cases hs; cases f <;> rfl
  | cons a L ih =>
    intro f p n hs hf
    obtain ⟨f, rfl⟩ : ∃ g, f = g + 1 := ⟨f - 1, by simp at hf; omega⟩
    obtain ⟨rfl, r, h1, h2⟩ := hs
    rw [lengthLoop, h1]
    simp only
    rw [ih f r (n + 1) h2 (by simp at hf; omega), List.length_cons]
    congr 2; omega

/-! ## The part that holds -/

/-- The calls of a user; `new e n` of C++ (an element with its `next`) is part of the call. -/
inductive Op where
  | append (e : Nat)
  | before (e x : Nat)
  | push (e : Nat)
  | pop
  | remove (e : Nat)

/-- A call on the model. -/
def step (f : Nat) (s : L1) : Op → Res (Option L1)
  | .append e => (s.create e none).insert f e
  | .before e x => (s.create e (some x)).insert f e
  | .push e => (s.create e none).push f e
  | .pop => s.pop >>= fun r => .ok (some r.1)
  | .remove e => s.remove f (some e) >>= fun r => .ok (r.map Prod.fst)

/-- A history. -/
def run (f : Nat) (s : L1) : List Op → Res (Option L1)
  | [] => .ok (some s)
  | op :: ops => step f s op >>= fun r => match r with
    | none => .ok none
    | some s => run f s ops

/-- What a call should do to the sequence. -/
def specStep (L : List Nat) : Op → List Nat
  | .append e => L ++ [e]
  | .before e x => L.takeWhile (· ≠ x) ++ e :: L.dropWhile (· ≠ x)
  | .push e => e :: L
  | .pop => L.tail
  | .remove e => L.erase e

/-- A legal call: new elements are new, named elements are in the list. -/
def Legal (L : List Nat) : Op → Prop
  | .append e => e ∉ L
  | .before e x => e ∉ L ∧ x ∈ L
  | .push e => e ∉ L
  | .pop => L ≠ []
  | .remove e => e ∈ L

/-- The legal calls for which the code is right: no insertion before the first element, and no removal of a later
one. -/
def Good (L : List Nat) : Op → Prop
  | .before e x => e ∉ L ∧ x ∈ L ∧ L.head? ≠ some x
  | .remove e => L.head? = some e
  | op => Legal L op

/-- Every call is good when it is made. -/
def GoodHist (L : List Nat) : List Op → Prop
  | [] => True
  | op :: ops => Good L op ∧ GoodHist (specStep L op) ops

/-- The sequence after a history. -/
def spec (L : List Nat) : List Op → List Nat
  | [] => L
  | op :: ops => spec (specStep L op) ops

theorem create_rep {s : L1} {L : List Nat} (h : s.Rep L) {e : Nat} (he : e ∉ L) (n : Option Nat) :
    (s.create e n).Rep L ∧ (s.create e n).nxt e = some n :=
  ⟨⟨h.1.set he, h.2⟩, by simp [L1.create, Heap.set]⟩

theorem step_ok {s : L1} {L : List Nat} (h : s.Rep L) (op : Op) (hg : Good L op) (f : Nat) (hf : L.length + 2 ≤ f) :
    ∃ s', step f s op = .ok (some s') ∧ s'.Rep (specStep L op) := by
  cases op with
  | append e =>
    have he : e ∉ L := hg
    obtain ⟨⟨h1, h2⟩, h3⟩ := create_rep h he none
    obtain ⟨t', g1, g2⟩ := insertLoop_end h3 L f .head .head _ rfl h1 (by omega)
    rcases g2 with ⟨rfl, rfl⟩ | ⟨A, a, rfl, rfl⟩
    · exact ⟨{ s.create e none with head := some e }, by simp [step, L1.insert, g1, L1.wr], ⟨⟨rfl, none, h3, rfl⟩, by simp [specStep]⟩⟩
    · obtain ⟨m, k1, rfl, r, k2, rfl⟩ := Seg.append.1 h1
      refine ⟨{ s.create e none with nxt := (s.create e none).nxt.set a (some e) }, ?_, ?_, ?_⟩
      · rw [step, L1.insert, g1, wr_next k2]; rfl
      · have hea : e ≠ a := fun hh => he (by simp [hh])
        have haA : a ∉ A := by
          have := h2; rw [List.nodup_append] at this
          intro ha; exact this.2.2 a ha a (by simp) rfl
        show Seg _ _ (A ++ [a] ++ [e]) none
        refine Seg.append.2 ⟨some e, Seg.append.2 ⟨some a, k1.set haA, rfl, some e, by simp [Heap.set], rfl⟩, rfl, none, ?_, rfl⟩
        simp [Heap.set, hea, h3]
      · show (A ++ [a] ++ [e]).Nodup
        rw [List.nodup_append]
        exact ⟨h2, by simp, by intro x hx y hy; rw [List.mem_singleton] at hy; subst hy; exact fun hh => he (hh ▸ hx)⟩
  | before e x =>
    obtain ⟨he, hx, hh⟩ := hg
    obtain ⟨⟨h1, h2⟩, h3⟩ := create_rep h he (some x)
    obtain ⟨A, B, rfl⟩ := List.append_of_mem hx
    have hxA : x ∉ A := by
      rw [List.nodup_append] at h2
      intro ha; exact h2.2.2 x ha x (by simp) rfl
    have hA : A ≠ [] := by rintro rfl; simp at hh
    obtain ⟨M, y, rfl⟩ : ∃ M y, A = M ++ [y] := ⟨A.dropLast, A.getLast hA, (List.dropLast_append_getLast hA).symm⟩
    have hsp : specStep (M ++ [y] ++ x :: B) (.before e x) = M ++ [y] ++ e :: x :: B := by
      have e1 : (M ++ [y] ++ x :: B).takeWhile (· ≠ x) = M ++ [y] := by
        rw [List.takeWhile_append_of_pos]
        · simp
        · intro a ha; simp only [ne_eq, decide_eq_true_eq]; rintro rfl; exact hxA ha
      have e2 : (M ++ [y] ++ x :: B).dropWhile (· ≠ x) = x :: B := by
        rw [List.dropWhile_append_of_pos]
        · simp
        · intro a ha; simp only [ne_eq, decide_eq_true_eq]; rintro rfl; exact hxA ha
      rw [specStep, e1, e2]
    have hform : M ++ [y] ++ x :: B = M ++ y :: x :: B := by simp
    have g := insertLoop_before (B := B) (y := y) h3 M f .head .head _ rfl (by rw [hform] at h1; exact h1) hxA (by simp at hf; omega)
    refine ⟨_, g, ?_⟩
    rw [hsp]
    obtain ⟨m, k1, k2⟩ := Seg.append.1 h1
    obtain ⟨m', k3, rfl, r, k4, rfl⟩ := Seg.append.1 k1
    have hy : y ∉ M ∧ y ∉ x :: B := by
      rw [hform, List.perm_middle.nodup_iff, List.nodup_cons, List.mem_append, not_or] at h2
      exact h2.1
    have hey : e ≠ y := fun hh => he (by simp [hh])
    have hkx : r = some x := k2.1
    subst hkx
    refine ⟨Seg.append.2 ⟨some e, Seg.append.2 ⟨some y, k3.set hy.1, rfl, some e, by simp [Heap.set], rfl⟩, rfl, some x, ?_, k2.set hy.2⟩, ?_⟩
    · simp [Heap.set, hey, h3]
    · rw [List.perm_middle.nodup_iff, List.nodup_cons]
      exact ⟨he, h2⟩
  | push e =>
    have he : e ∉ L := hg
    obtain ⟨⟨h1, h2⟩, h3⟩ := create_rep h he none
    refine ⟨⟨some e, (s.create e none).nxt.set e (s.create e none).head⟩, ?_, ⟨rfl, _, by simp [Heap.set], h1.set he⟩, ?_⟩
    · obtain ⟨f, rfl⟩ : ∃ g, f = g + 1 := ⟨f - 1, by omega⟩
      simp [step, L1.push, pushLoop, rd_next h3, wr_next h3]
    · simpa [specStep] using ⟨he, h2⟩
  | pop =>
    have hne : L ≠ [] := hg
    obtain ⟨a, L, rfl⟩ := List.exists_cons_of_ne_nil hne
    obtain ⟨⟨k1, r, k2, k3⟩, h2⟩ := h
    rw [List.nodup_cons] at h2
    refine ⟨⟨r, s.nxt.set a none⟩, ?_, k3.set h2.1, h2.2⟩
    have hw : (⟨r, s.nxt⟩ : L1).wr none (.next a) = .ok ⟨r, s.nxt.set a none⟩ := wr_next (s := ⟨r, s.nxt⟩) k2
    simp [step, L1.pop, k1, rd_next k2, hw]
  | remove e =>
    have hh : L.head? = some e := hg
    obtain ⟨a, L, rfl⟩ : ∃ a L', L = a :: L' := by cases L <;> simp at hh ⊢
    simp only [List.head?_cons, Option.some.injEq] at hh
    subst hh
    obtain ⟨⟨k1, r, k2, k3⟩, h2⟩ := h
    rw [List.nodup_cons] at h2
    refine ⟨⟨r, s.nxt.set a none⟩, ?_, ?_, ?_⟩
    · obtain ⟨f, rfl⟩ : ∃ g, f = g + 1 := ⟨f - 1, by omega⟩
      have hw : (⟨r, s.nxt⟩ : L1).wr none (.next a) = .ok ⟨r, s.nxt.set a none⟩ := wr_next (s := ⟨r, s.nxt⟩) k2
      have hrd : s.rd .head = .ok (some a) := by rw [← k1]; rfl
      have hwh : s.wr r .head = .ok ⟨r, s.nxt⟩ := rfl
      simp [step, L1.remove, removeLoop, hrd, rd_next k2, hwh, hw]
    · simpa [specStep] using k3.set h2.1
    · simpa [specStep] using h2.2

theorem specStep_length (L : List Nat) (op : Op) : (specStep L op).length ≤ L.length + 1 := by
  cases op with
  | append e => simp [specStep]
  | before e x =>
    have := congrArg List.length (List.takeWhile_append_dropWhile (p := fun y => decide (y ≠ x)) (l := L))
    simp only [List.length_append] at this
    simp only [specStep, List.length_append, List.length_cons]; omega
  | push e => simp [specStep]
  | pop => simp [specStep]; omega
  | remove e =>
    have := List.length_erase_le (l := L) (a := e)
    simp only [specStep]; omega

theorem run_ok (ops : List Op) : ∀ {s : L1} {L : List Nat}, s.Rep L → GoodHist L ops → ∀ f, L.length + ops.length + 2 ≤ f →
    ∃ s', run f s ops = .ok (some s') ∧ s'.Rep (spec L ops) := by
  induction ops with
  | nil => intro s L h _ f _; exact ⟨s, rfl, h⟩
  | cons op ops ih =>
    intro s L h hg f hf
    simp only [List.length_cons] at hf
    obtain ⟨s1, h1, h2⟩ := step_ok h op hg.1 f (by omega)
    obtain ⟨s2, g1, g2⟩ := ih h2 hg.2 f (by have := specStep_length L op; omega)
    exact ⟨s2, by rw [run, h1]; exact g1, g2⟩

/-- A new list (include/list.h:98-100). -/
def L1.init : L1 := ⟨none, fun _ => none⟩

/-- C23, the part that holds: in any history of appending, inserting before an element other than the first,
pushing, popping a non-empty list and removing the first element, every call returns without touching a
dead object, the chain is exactly the expected sequence and `length` counts it.
(Missing: insertion before the first element, `C23_insert_first_wrong`, and removal of a later one,
`C23_remove_wrong`.) -/
theorem C23_list_single_partial (ops : List Op) (hg : GoodHist [] ops) (f : Nat) (hf : ops.length + 2 ≤ f) :
    ∃ s, run f L1.init ops = .ok (some s) ∧ s.Rep (spec [] ops) ∧
      ∀ g, (spec [] ops).length ≤ g → s.length g = .ok (some (spec [] ops).length) := by
  obtain ⟨s, h1, h2⟩ := run_ok ops (s := L1.init) (L := []) ⟨rfl, List.nodup_nil⟩ hg f (by simpa using hf)
  exact ⟨s, h1, h2, fun g hg => by rw [L1.length, length_ok _ g _ 0 h2.1 hg, Nat.zero_add]⟩

/-- A history with every kind of call. -/
example : GoodHist [] [.append 1, .append 2, .before 3 2, .push 4, .pop, .remove 1] ∧
    spec [] [.append 1, .append 2, .before 3 2, .push 4, .pop, .remove 1] = [3, 2] := by
  simp [GoodHist, Good, Legal, specStep, spec]

/-! ## The parts that fail -/

/-- C23 is false for insertion before the first element: whatever the list, the call succeeds, but the chain
becomes a cycle of the new and the first element, so that `length` (and every other walk) never returns. -/
theorem C23_insert_first_wrong (s : L1) (x : Nat) (L : List Nat) (h : s.Rep (x :: L)) (e : Nat) (he : e ∉ x :: L)
    (f : Nat) (hf : 0 < f) :
    ∃ s', step f s (.before e x) = .ok (some s') ∧ ∀ g, s'.length g = .ok none := by
  obtain ⟨⟨h1, h2⟩, h3⟩ := create_rep h he (some x)
  obtain ⟨hh, r, k2, k3⟩ := h1
  obtain ⟨f, rfl⟩ : ∃ g, f = g + 1 := ⟨f - 1, by omega⟩
  have hrd : (s.create e (some x)).rd .head = .ok (some x) := by rw [← hh]; rfl
  have hex : e ≠ x := fun hh => he (by simp [hh])
  refine ⟨{ s.create e (some x) with nxt := (s.create e (some x)).nxt.set x (some e) }, ?_, ?_⟩
  · simp [step, L1.insert, insertLoop, hrd, rd_next h3, wr_next k2]
  · have key : ∀ g n, lengthLoop ((s.create e (some x)).nxt.set x (some e)) g (some x) n = .ok none ∧
        lengthLoop ((s.create e (some x)).nxt.set x (some e)) g (some e) n = .ok none := by
      intro g
      induction g with
      | zero => intro n; exact ⟨rfl, rfl⟩
      | succ g ih =>
        intro n
        constructor
        · rw [lengthLoop]; simp [Heap.set, ih]
        · rw [lengthLoop]
          have : (s.create e (some x)).nxt.set x (some e) e = some (some x) := by simp [Heap.set, hex, h3]
          rw [this]; exact (ih _).1
    intro g
    have := (key g 0).1
    rw [L1.length]
    have e1 : ({ s.create e (some x) with nxt := (s.create e (some x)).nxt.set x (some e) } : L1).head = some x := hh
    rw [e1]; exact this

/-- A list with one element. -/
example : (⟨some 1, fun i => if i = 1 then some none else none⟩ : L1).Rep [1] := ⟨⟨rfl, none, rfl, rfl⟩, by simp⟩

/-- C23 is false for the removal of any element but the first: the element before it is lost too. -/
theorem C23_remove_wrong (s : L1) (M B : List Nat) (y e : Nat) (h : s.Rep (M ++ y :: e :: B))
    (f : Nat) (hf : M.length + 2 ≤ f) :
    ∃ s', s.remove f (some e) = .ok (some (s', some e)) ∧ s'.Rep (M ++ B) := by
  obtain ⟨h1, h2⟩ := h
  have hn : (M ++ B).Nodup := h2.sublist ((List.append_sublist_append_left M).2 (by simp))
  have hform : M ++ y :: e :: B = M ++ [y] ++ e :: B := by simp
  have he : e ∉ M ++ [y] ∧ e ∉ B := by
    rw [hform, List.perm_middle.nodup_iff, List.nodup_cons, List.mem_append, not_or] at h2
    exact h2.1
  obtain ⟨m, k1, k2⟩ := Seg.append.1 h1
  obtain ⟨rfl, r, k3, rfl, q, k4, k5⟩ := k2
  obtain ⟨t', g1, g2⟩ := removeLoop_later k4 M f .head .head _ rfl h1 he.1 hf
  have hhe : e ∉ M := fun hh => he.1 (by simp [hh])
  rcases g2 with ⟨rfl, rfl⟩ | ⟨A, a, rfl, rfl⟩
  · refine ⟨⟨q, s.nxt.set e none⟩, ?_, ?_, hn⟩
    · rw [L1.remove, g1]
      have hw : (⟨q, s.nxt⟩ : L1).wr none (.next e) = .ok ⟨q, s.nxt.set e none⟩ := wr_next (s := ⟨q, s.nxt⟩) k4
      have hwh : s.wr q .head = .ok ⟨q, s.nxt⟩ := rfl
      simp [hwh, hw]
    · exact k5.set he.2
  · obtain ⟨m, j1, rfl, r, j2, rfl⟩ := Seg.append.1 k1
    have hae : e ≠ a := fun hh => hhe (by simp [hh])
    have ha : a ∉ A ∧ a ∉ B := by
      have : A ++ [a] ++ B = A ++ a :: B := by simp
      rw [this, List.perm_middle.nodup_iff, List.nodup_cons, List.mem_append, not_or] at hn
      exact hn.1
    refine ⟨⟨s.head, (s.nxt.set a q).set e none⟩, ?_, ?_, hn⟩
    · rw [L1.remove, g1, wr_next j2]
      have hw : (⟨s.head, s.nxt.set a q⟩ : L1).wr none (.next e) = .ok ⟨s.head, (s.nxt.set a q).set e none⟩ :=
        wr_next (s := ⟨s.head, s.nxt.set a q⟩) (p := q) (by simp [Heap.set, hae, k4])
      simp [hw]
    · refine Seg.append.2 ⟨q, Seg.append.2 ⟨some a, (j1.set ha.1).set fun hh => hhe (by simp [hh]), rfl, q, ?_, rfl⟩, (k5.set ha.2).set he.2⟩
      simp [Heap.set, Ne.symm hae]

/-- The second of two elements. -/
example : (⟨some 1, fun i => if i = 1 then some (some 2) else if i = 2 then some none else none⟩ : L1).Rep ([] ++ 1 :: 2 :: []) :=
  ⟨⟨rfl, some 2, rfl, rfl, none, rfl, rfl⟩, by simp⟩

end OP.Links
