import Verif.Basic
import Mathlib.Data.List.Basic
/-!
# Pointers in variant functors (include/variant.h:92-147, 340-478, 531-595)

A `vunctor` whose type is a pointer type keeps the pointer in `wrap_type`, which deletes it.  The model has the objects a
program allocates, and the variables with the pointer each holds.  Functions, chains, types and marks are those of
`Vunctor.lean` and left out.  The pointer type is the first type of the class, so that copying finds `t` zero.
-/
namespace OP.Var.Owner

/-- Objects (`true` until deleted), and variables: destroyed, or holding a pointer. -/
structure St where
  objs : List Bool
  vars : List (Option (Option Nat))
deriving DecidableEq

/-- `delete p`: undefined if the object is gone. -/
def del (s : St) : Option Nat → Res St
  | none => .ok s
  | some p => if s.objs[p]? = some true then .ok { s with objs := s.objs.set p false } else .ub

/-- The pointer in a live variable. -/
def held (s : St) (v : Nat) : Res (Option Nat) :=
  match s.vars[v]? with
  | some (some p) => .ok p
  | _ => .ub

/-- Calls.  `alloc` is a `new` in the program. -/
inductive Cmd
  | alloc
  | make (p : Option Nat)
  | copy (v : Nat)
  | move (v : Nat)
  | assign (v w : Nat)
  | moveAssign (v w : Nat)
  | set (v : Nat) (p : Option Nat)
  | get (v : Nat)
  | destroy (v : Nat)
deriving DecidableEq

/-- Deleting what `v` holds, and then holding `p`: `wrap_type::set` (include/variant.h:105-110) and `move` (:117-124), which
sets to null the temporary it is given (:436) and not the variable moved from. -/
def put (s : St) (v : Nat) (p : Option Nat) : Res St :=
  held s v >>= fun old => del s old >>= fun s => .ok { s with vars := s.vars.set v (some p) }

/-- One call: construction from a pointer (include/variant.h:538-541, 361-365), copy (:531-533, 354-357, 425-432), move
(:534-536, 358-361, 433-440), assignment (:551-562), assignment of a pointer (:564-580, 397-404), `get` (:383-389), which
returns the pointer, and the destructor (:547-549, 450-456, 131-134). -/
def step (s : St) : Cmd → Res (Option Nat × St)
  | .alloc => .ok (some s.objs.length, { s with objs := s.objs ++ [true] })
  | .make p => .ok (none, { s with vars := s.vars ++ [some p] })
  | .copy v => held s v >>= fun p => .ok (none, { s with vars := s.vars ++ [some p] })
  | .move v => held s v >>= fun p => .ok (none, { s with vars := s.vars ++ [some p] })
  | .assign v w => held s w >>= fun p => put s v p >>= fun s => .ok (none, s)
  | .moveAssign v w => held s w >>= fun p => put s v p >>= fun s => .ok (none, s)
  | .set v p => put s v p >>= fun s => .ok (none, s)
  | .get v => held s v >>= fun p => .ok (p, s)
  | .destroy v => held s v >>= fun p => del s p >>= fun s => .ok (none, { s with vars := s.vars.set v none })

/-! ## Specification -/

/-- Live variable `v` holds the pointer to object `p`. -/
def Holds (s : St) (v p : Nat) : Prop := s.vars[v]? = some (some (some p))
/-- Object `p` was not deleted. -/
def Alive (s : St) (p : Nat) : Prop := s.objs[p]? = some true
/-- Variable `v` is live. -/
def Live (s : St) (v : Nat) : Prop := ∃ p, s.vars[v]? = some (some p)

/-- The program gives a variable only null or a pointer to an object that no variable holds, and does not copy or move
variables. -/
def Single (s : St) : Cmd → Prop
  | .alloc => True
  | .make p => ∀ q, p = some q → Alive s q ∧ ∀ u, ¬ Holds s u q
  | .set v p => Live s v ∧ ∀ q, p = some q → Alive s q ∧ ∀ u, ¬ Holds s u q
  | .get v => Live s v
  | .destroy v => Live s v
  | _ => False

/-- The states of programs that are `Single` throughout. -/
inductive Reached : St → Prop
  | start : Reached ⟨[], []⟩
  | step {s s' : St} {c : Cmd} {o : Option Nat} (h : Reached s) (hc : Single s c) (hs : step s c = .ok (o, s')) : Reached s'

/-- The pointers a call makes a variable give up. -/
def GivesUp (s : St) : Cmd → Nat → Prop
  | .set v _, p => Holds s v p
  | .destroy v, p => Holds s v p
  | _, _ => False

/-! ## Proofs -/

theorem held_ok {s : St} {v : Nat} {p : Option Nat} : held s v = .ok p ↔ s.vars[v]? = some (some p) := by
  unfold held; split <;> simp_all

theorem held_ub {s : St} {v : Nat} (h : ¬ Live s v) : held s v = .ub := by
  unfold held; split
  · rename_i p hp; exact absurd ⟨p, hp⟩ h
  · rfl

/-- Held objects are alive and held once. -/
def Good (s : St) : Prop :=
  (∀ v p, Holds s v p → Alive s p) ∧ ∀ v w p, Holds s v p → Holds s w p → v = w

theorem lt_of_some {α : Type} {l : List α} {i : Nat} {a : α} (h : l[i]? = some a) : i < l.length :=
  (List.getElem?_eq_some_iff.1 h).1

theorem del_ok {s : St} {v : Nat} (h : Good s) {p : Option Nat} (hv : s.vars[v]? = some (some p)) :
    ∃ s', del s p = .ok s' ∧ s'.vars = s.vars ∧ s'.objs.length = s.objs.length ∧
      ∀ q, Alive s' q ↔ Alive s q ∧ ¬ Holds s v q := by
  cases p with
  | none =>
    refine ⟨s, rfl, rfl, rfl, fun q => ⟨fun h => ⟨h, fun hq => ?_⟩, And.left⟩⟩
    unfold Holds at hq; rw [hv] at hq; cases hq
  | some p =>
    have hp : s.objs[p]? = some true := h.1 v p hv
    refine ⟨_, if_pos hp, rfl, by simp, fun q => ?_⟩
    have : Holds s v q ↔ q = p := by
      unfold Holds; rw [hv]; simp [eq_comm]
    rw [this]
    unfold Alive
    by_cases e : q = p
    · subst e
      simp [List.getElem?_set_self (lt_of_some hp)]
    · simp [List.getElem?_set_ne (Ne.symm e), e]

/-- One call keeps the invariant, and what it deletes is what its variable gives up. -/
theorem step_good {s : St} (h : Good s) {c : Cmd} (hc : Single s c) : ∃ o s', step s c = .ok (o, s') ∧ Good s' ∧
    (∀ p, p < s.objs.length → (Alive s' p ↔ Alive s p ∧ ¬ GivesUp s c p)) := by
  cases c with
  | alloc =>
    have e : ∀ p, p < s.objs.length → (s.objs ++ [true])[p]? = s.objs[p]? := fun p hp => List.getElem?_append_left hp
    refine ⟨_, _, rfl, ⟨fun v p hv => ?_, h.2⟩, fun p hp => ?_⟩
    · have hp := h.1 v p hv
      exact (e p (lt_of_some hp)).trans hp
    · unfold Alive; dsimp only; rw [e p hp]; simp [GivesUp]
  | make p =>
    have e : ∀ v q, Holds { s with vars := s.vars ++ [some p] } v q → Holds s v q ∨ (v = s.vars.length ∧ p = some q) := by
      intro v q hv
      unfold Holds at hv
      dsimp only at hv
      by_cases hl : v < s.vars.length
      · rw [List.getElem?_append_left hl] at hv; exact .inl hv
      · have := lt_of_some hv
        simp at this
        have : v = s.vars.length := by omega
        subst this
        simp at hv
        exact .inr ⟨rfl, hv⟩
    refine ⟨_, _, rfl, ⟨fun v q hv => ?_, fun v w q hv hw => ?_⟩, fun q hq => ?_⟩
    · rcases e v q hv with h' | ⟨_, h'⟩
      · exact h.1 v q h'
      · exact (hc q h').1
    · rcases e v q hv with h' | ⟨h1, h'⟩ <;> rcases e w q hw with h2 | ⟨h2, h3⟩
      · exact h.2 v w q h' h2
      · exact absurd h' ((hc q h3).2 v)
      · exact absurd h2 ((hc q h').2 w)
      · rw [h1, h2]
    · unfold Alive; simp [GivesUp]
  | set v p =>
    obtain ⟨⟨old, hv⟩, hp⟩ := hc
    obtain ⟨s1, h1, h2, h3, h4⟩ := del_ok h hv
    refine ⟨none, { s1 with vars := s1.vars.set v (some p) }, ?_, ⟨fun u q hu => ?_, fun u w q hu hw => ?_⟩, fun q _ => h4 q⟩
    · simp only [step, put, held_ok.2 hv, h1, Res.ok_bind]
    · unfold Holds at hu
      dsimp only at hu
      rw [h2] at hu
      by_cases e : u = v
      · subst e
        rw [List.getElem?_set_self (lt_of_some hv)] at hu
        cases hu
        exact (h4 q).2 ⟨(hp q rfl).1, (hp q rfl).2 u⟩
      · rw [List.getElem?_set_ne (Ne.symm e)] at hu
        exact (h4 q).2 ⟨h.1 u q hu, fun hv' => e (h.2 u v q hu hv')⟩
    · unfold Holds at hu hw
      dsimp only at hu hw
      rw [h2] at hu hw
      by_cases e : u = v <;> by_cases e' : w = v
      · rw [e, e']
      · subst e
        rw [List.getElem?_set_self (lt_of_some hv)] at hu
        rw [List.getElem?_set_ne (Ne.symm e')] at hw
        cases hu
        exact absurd hw ((hp q rfl).2 w)
      · subst e'
        rw [List.getElem?_set_self (lt_of_some hv)] at hw
        rw [List.getElem?_set_ne (Ne.symm e)] at hu
        cases hw
        exact absurd hu ((hp q rfl).2 u)
      · rw [List.getElem?_set_ne (Ne.symm e)] at hu
        rw [List.getElem?_set_ne (Ne.symm e')] at hw
        exact h.2 u w q hu hw
  | get v =>
    obtain ⟨p, hv⟩ := hc
    refine ⟨p, s, by simp only [step, held_ok.2 hv, Res.ok_bind], h, fun q _ => by simp [GivesUp]⟩
  | destroy v =>
    obtain ⟨old, hv⟩ := hc
    obtain ⟨s1, h1, h2, h3, h4⟩ := del_ok h hv
    have e : ∀ u q, Holds { s1 with vars := s1.vars.set v none } u q → u ≠ v ∧ Holds s u q := by
      intro u q hu
      unfold Holds at hu
      dsimp only at hu
      rw [h2] at hu
      by_cases e : u = v
      · subst e
        rw [List.getElem?_set_self (lt_of_some hv)] at hu
        cases hu
      · rw [List.getElem?_set_ne (Ne.symm e)] at hu
        exact ⟨e, hu⟩
    refine ⟨none, { s1 with vars := s1.vars.set v none }, ?_, ⟨fun u q hu => ?_, fun u w q hu hw =>
      h.2 u w q (e u q hu).2 (e w q hw).2⟩, fun q _ => h4 q⟩
    · simp only [step, held_ok.2 hv, h1, Res.ok_bind]
    · exact (h4 q).2 ⟨h.1 u q (e u q hu).2, fun hv' => (e u q hu).1 (h.2 u v q (e u q hu).2 hv')⟩
  | copy v => exact hc.elim
  | move v => exact hc.elim
  | assign v w => exact hc.elim
  | moveAssign v w => exact hc.elim

theorem Reached.good {s : St} (h : Reached s) : Good s := by
  induction h with
  | start => exact ⟨fun v p h => by simp [Holds] at h, fun v w p h => by simp [Holds] at h⟩
  | step _ hc hs ih =>
    obtain ⟨o', s'', e, hg, _⟩ := step_good ih hc
    rw [hs] at e; cases e; exact hg

/-- C84: in a program that gives each pointer to one variable and neither copies nor moves variables, every call is
defined, a pointer in a live variable is to an object that was not deleted and that no other variable holds, and a call
deletes exactly the objects its variable gives up.
Partial: copies and moves are left out, see `C84_copy_wrong` and the next. -/
theorem C84_owned_partial {s : St} (h : Reached s) :
    (∀ v p, Holds s v p → Alive s p ∧ ∀ w, Holds s w p → w = v) ∧
      ∀ c, Single s c → ∃ o s', step s c = .ok (o, s') ∧
        ∀ p, p < s.objs.length → (Alive s' p ↔ Alive s p ∧ ¬ GivesUp s c p) := by
  refine ⟨fun v p hv => ⟨h.good.1 v p hv, fun w hw => h.good.2 w v p hw hv⟩, fun c hc => ?_⟩
  obtain ⟨o, s', e, _, h'⟩ := step_good h.good hc
  exact ⟨o, s', e, h'⟩

/-- Two variables with the same pointer cannot both be destroyed, in either order. -/
theorem twice {s s' : St} {v w p : Nat} {o : Option Nat} (hv : Holds s v p) (hw : Holds s w p) (hne : v ≠ w)
    (h : step s (.destroy v) = .ok (o, s')) : step s' (.destroy w) = .ub := by
  simp only [step, held_ok.2 hv, Res.ok_bind, del] at h
  split_ifs at h with hp
  · rw [Res.ok_bind] at h
    cases h
    have e : (s.vars.set v none)[w]? = some (some (some p)) := by rw [List.getElem?_set_ne hne]; exact hw
    have e' : held { objs := s.objs.set p false, vars := s.vars.set v none } w = .ok (some p) := held_ok.2 e
    simp only [step]
    rw [e', Res.ok_bind]
    simp only [del]
    rw [if_neg, Res.ub_bind]
    simp [List.getElem?_set_self (lt_of_some hp)]
  · cases h

/-- C84 does not hold: a copy of a variable holds the same pointer, and destroying both deletes the object twice. -/
theorem C84_copy_wrong {s s' s'' : St} {v p : Nat} {o o' : Option Nat} (hv : Holds s v p)
    (h : step s (.copy v) = .ok (o, s')) (h' : step s' (.destroy s.vars.length) = .ok (o', s'')) :
    step s'' (.destroy v) = .ub := by
  simp only [step, held_ok.2 hv, Res.ok_bind] at h
  cases h
  have hl := lt_of_some hv
  refine twice (v := s.vars.length) (p := p) ?_ ?_ (by omega) h'
  · unfold Holds; simp
  · unfold Holds; dsimp only; rw [List.getElem?_append_left hl]; exact hv

/-- C84 does not hold: the same for a variable that was moved from. -/
theorem C84_move_wrong {s s' s'' : St} {v p : Nat} {o o' : Option Nat} (hv : Holds s v p)
    (h : step s (.move v) = .ok (o, s')) (h' : step s' (.destroy s.vars.length) = .ok (o', s'')) :
    step s'' (.destroy v) = .ub := by
  simp only [step, held_ok.2 hv, Res.ok_bind] at h
  cases h
  have hl := lt_of_some hv
  refine twice (v := s.vars.length) (p := p) ?_ ?_ (by omega) h'
  · unfold Holds; simp
  · unfold Holds; dsimp only; rw [List.getElem?_append_left hl]; exact hv

/-- C84 does not hold: the same for assignment, by copy or by move. -/
theorem C84_assign_wrong {s s' s'' : St} {v w p : Nat} {o o' : Option Nat} (hw : Holds s w p) (hne : v ≠ w)
    (h : step s (.assign v w) = .ok (o, s') ∨ step s (.moveAssign v w) = .ok (o, s'))
    (h' : step s' (.destroy v) = .ok (o', s'')) : step s'' (.destroy w) = .ub := by
  have key : ∃ s1, put s v (some p) = .ok s1 ∧ s1 = s' := by
    rcases h with h | h <;>
    · simp only [step, held_ok.2 hw, Res.ok_bind] at h
      obtain ⟨s1, h1, h2⟩ := Res.bind_eq_ok.1 h
      cases h2; exact ⟨_, h1, rfl⟩
  obtain ⟨s1, h1, rfl⟩ := key
  obtain ⟨old, h2, h3⟩ := Res.bind_eq_ok.1 h1
  obtain ⟨s2, h4, h5⟩ := Res.bind_eq_ok.1 h3
  rw [held_ok] at h2
  have hvars : s2.vars = s.vars := by
    cases old with
    | none => cases h4; rfl
    | some q =>
      simp only [del] at h4
      split_ifs at h4
      cases h4; rfl
  cases h5
  refine twice (p := p) ?_ ?_ hne h'
  · unfold Holds; dsimp only; rw [hvars, List.getElem?_set_self (lt_of_some h2)]
  · unfold Holds; dsimp only; rw [hvars, List.getElem?_set_ne hne]; exact hw

/-- C84 does not hold: giving a variable the pointer it holds, or assigning it to itself, deletes the object and keeps the
pointer, so that destroying the variable deletes it again. -/
theorem C84_again_wrong {s s' : St} {v p : Nat} {o : Option Nat} {c : Cmd} (hv : Holds s v p)
    (hc : c = .set v (some p) ∨ c = .assign v v ∨ c = .moveAssign v v) (h : step s c = .ok (o, s')) :
    Holds s' v p ∧ ¬ Alive s' p ∧ step s' (.destroy v) = .ub := by
  have key : put s v (some p) = .ok s' := by
    rcases hc with rfl | rfl | rfl
    · obtain ⟨s1, h1, h2⟩ := Res.bind_eq_ok.1 h
      cases h2; exact h1
    · simp only [step, held_ok.2 hv, Res.ok_bind] at h
      obtain ⟨s1, h1, h2⟩ := Res.bind_eq_ok.1 h
      cases h2; exact h1
    · simp only [step, held_ok.2 hv, Res.ok_bind] at h
      obtain ⟨s1, h1, h2⟩ := Res.bind_eq_ok.1 h
      cases h2; exact h1
  simp only [put, held_ok.2 hv, Res.ok_bind, del] at key
  split_ifs at key with hp
  · rw [Res.ok_bind] at key
    cases key
    have e : (s.vars.set v (some (some p)))[v]? = some (some (some p)) := List.getElem?_set_self (lt_of_some hv)
    have e' : ¬ (s.objs.set p false)[p]? = some true := by simp [List.getElem?_set_self (lt_of_some hp)]
    refine ⟨e, e', ?_⟩
    have e2 : held { objs := s.objs.set p false, vars := s.vars.set v (some (some p)) } v = .ok (some p) := held_ok.2 e
    simp only [step]
    rw [e2, Res.ok_bind]
    simp only [del]
    rw [if_neg e']; rfl
  · cases key

/-! ## Examples -/

/-- A history of calls. -/
def run (s : St) : List Cmd → Res St
  | [] => .ok s
  | c :: cs => step s c >>= fun r => run r.2 cs

/-- Two objects, one replaced and one destroyed with its variable. -/
example : run ⟨[], []⟩ [.alloc, .alloc, .make (some 0), .set 0 (some 1), .destroy 0] = .ok ⟨[false, false], [none]⟩ := by
  decide +kernel
/-- The hypotheses of `C84_owned_partial`, with a variable that holds an object. -/
example : Reached ⟨[true], [some (some 0)]⟩ :=
  .step (c := .make (some 0)) (.step (c := .alloc) .start trivial rfl)
    (fun q hq => by cases hq; exact ⟨rfl, fun u hu => by simp [Holds] at hu⟩) rfl
/-- Copying and destroying both. -/
example : run ⟨[], []⟩ [.alloc, .make (some 0), .copy 0, .destroy 1, .destroy 0] = .ub := by decide +kernel
/-- The hypotheses of `C84_copy_wrong` and `C84_move_wrong`. -/
example : ∃ s' s'' : St, Holds ⟨[true], [some (some 0)]⟩ 0 0 ∧ step ⟨[true], [some (some 0)]⟩ (.copy 0) = .ok (none, s') ∧
    step s' (.destroy 1) = .ok (none, s'') := ⟨_, _, rfl, rfl, rfl⟩

end OP.Var.Owner
