import Verif.Libop.Handles
import Verif.Tree.PropsAvl
/-!
# Property C53: handles of the C interface
-/
namespace OP.Libop
open OP.Tree

variable {σ α : Type}

/-! ## Specification -/

/-- What a call should do to the map from live handles to objects, and what the caller should see.  A new handle is
the first number not in use. -/
inductive SpecStep (first : Int) : (Int → Option σ) → Call σ α → Out α → (Int → Option σ) → Prop
  | create (m : Int → Option σ) (h : Int) (x : σ) (hn : m h = none) (hf : first ≤ h)
      (hl : ∀ j, first ≤ j → j < h → m j ≠ none) :
      SpecStep first m (.create x) (.handle h) (Function.update m h (some x))
  | use (m : Int → Option σ) (h : Int) (s : σ) (f : σ → σ × α) (hs : m h = some s) :
      SpecStep first m (.use h f) (.done (f s).2) (Function.update m h (some (f s).1))
  | useInvalid (m : Int → Option σ) (h : Int) (f : σ → σ × α) (hn : m h = none) :
      SpecStep first m (.use h f) .invalid m
  | reset (m : Int → Option σ) (h : Int) (s : σ) (hs : m h = some s) :
      SpecStep first m (.reset h) .gone (Function.update m h none)
  | resetInvalid (m : Int → Option σ) (h : Int) (hn : m h = none) :
      SpecStep first m (.reset h) .invalid m

/-- A history from the map `m`. -/
inductive SpecRun (first : Int) : (Int → Option σ) → List (Call σ α) → List (Out α) → (Int → Option σ) → Prop
  | nil (m : Int → Option σ) : SpecRun first m [] [] m
  | cons {m m' m'' : Int → Option σ} {c : Call σ α} {cs : List (Call σ α)} {o : Out α} {os : List (Out α)}
      (h1 : SpecStep first m c o m') (h2 : SpecRun first m' cs os m'') : SpecRun first m (c :: cs) (o :: os) m''

/-- Live handles and live objects belong together one to one, and each handle has its own object: nothing is lost,
shared or destroyed early. -/
def Owns (p : Proc σ) (m : Int → Option σ) : Prop :=
  ∃ a : Int → Option Nat,
    (∀ h, p.pointer h = .ok (a h)) ∧
    (∀ h i, a h = some i → ∃ s, m h = some s ∧ p.heap[i]? = some (some s)) ∧
    (∀ h, a h = none → m h = none) ∧
    (∀ i s, p.heap[i]? = some (some s) → ∃! h, a h = some i)

/-- The call destroys a handle below another live one. -/
def Below (m : Int → Option σ) : Call σ α → Prop
  | .reset h => m h ≠ none ∧ ∃ j, h < j ∧ m j ≠ none
  | _ => False

/-! ## Helpers -/

/-- The relation kept by the calls. -/
structure Rel (p : Proc σ) (m : Int → Option σ) : Prop where
  ex : ∃ (t : T (Avl.D Int Nat)) (a : Int → Option Nat), Avl.SRep p.tab t ∧ Avl.Holds t a ∧
    (∀ h i, a h = some i → ∃ s, m h = some s ∧ p.heap[i]? = some (some s)) ∧
    (∀ h, a h = none → m h = none) ∧
    (∀ i s, p.heap[i]? = some (some s) → ∃! h, a h = some i)

theorem pointer_eq {p : Proc σ} {t : T (Avl.D Int Nat)} {a : Int → Option Nat} (ht : Avl.SRep p.tab t)
    (ha : Avl.Holds t a) (h : Int) : p.pointer h = .ok (a h) := by
  have A := Avl.answers ht ha
  simp only [Proc.pointer, A.has, Res.ok_bind]
  have := A.lookup h
  cases hh : a h with
  | none => simp
  | some i => rw [hh] at this; simp [this]

theorem Rel.owns {p : Proc σ} {m : Int → Option σ} (r : Rel p m) : Owns p m := by
  obtain ⟨t, a, h1, h2, h3, h4, h5⟩ := r.ex
  exact ⟨a, pointer_eq h1 h2, h3, h4, h5⟩

theorem rel_init : Rel (Proc.init : Proc σ) (fun _ => none) :=
  ⟨.nil, fun _ => none, Avl.SRep.init, Avl.holds_nil, by simp, by simp, by simp [Proc.init]⟩

theorem freeToken_ok {s : Avl.S Int Nat} {a : Int → Option Nat} (A : Avl.Answers s a) (first : Int) :
    ∃ h, freeToken s (Avl.length s + 1) first = .ok h ∧ a h = none ∧ first ≤ h ∧
      ∀ j, first ≤ j → j < h → a j ≠ none := by
  obtain ⟨ks, hnd, hks, hlen⟩ := A.count
  -- after `n` handles in use, `n` of the keys are spent
  have key : ∀ (f n : Nat), (∀ j, first ≤ j → j < first + n → a j ≠ none) → ks.length + 1 ≤ f + n → n ≤ ks.length →
      ∃ h, freeToken s f (first + n) = .ok h ∧ a h = none ∧ first ≤ h ∧ ∀ j, first ≤ j → j < h → a j ≠ none := by
    intro f
    induction f with
    | zero => intro n _ h1 h2; omega
    | succ f ih =>
      intro n hn h1 h2
      rw [freeToken, A.has]
      simp only [Res.ok_bind]
      cases hh : a (first + n) with
      | none => exact ⟨first + n, by simp, hh, by omega, hn⟩
      | some i =>
        simp only [Option.isSome_some, if_true]
        have hn' : ∀ j, first ≤ j → j < first + (n + 1 : Nat) → a j ≠ none := by
          intro j hj1 hj2
          by_cases he : j = first + n
          · rw [he, hh]; simp
          · exact hn j hj1 (by push_cast at hj2; omega)
        have hle : n + 1 ≤ ks.length := by
          have hsub : ((List.range (n + 1)).map fun i : Nat => first + (i : Int)) ⊆ ks := by
            intro j hj
            simp only [List.mem_map, List.mem_range] at hj
            obtain ⟨i, hi, rfl⟩ := hj
            rw [hks, Option.isSome_iff_ne_none]
            exact hn' _ (by omega) (by push_cast; omega)
          have hnd' : ((List.range (n + 1)).map fun i : Nat => first + (i : Int)).Nodup := by
            apply List.Nodup.map _ List.nodup_range
            intro i j hij
            simpa using hij
          have := (List.subperm_of_subset hnd' hsub).length_le
          simpa using this
        have := ih (n + 1) hn' (by omega) hle
        have e : first + (n : Int) + 1 = first + (n + 1 : Nat) := by push_cast; ring
        rw [e]; exact this
  have := key (Avl.length s + 1) 0 (by intro j h1 h2; simp at h2; omega) (by omega) (by omega)
  simpa using this

theorem step_ok (mg : Bool) (first : Int) {p : Proc σ} {m : Int → Option σ} (r : Rel p m) (c : Call σ α)
    (hc : mg = true ∨ ¬ Below m c) :
    ∃ p' o m', step mg first p c = .ok (p', o) ∧ SpecStep first m c o m' ∧ Rel p' m' := by
  obtain ⟨t, a, h1, h2, h3, h4, h5⟩ := r.ex
  have hm : ∀ h, m h = none → a h = none := by
    intro h hh
    cases ha : a h with
    | none => rfl
    | some i => obtain ⟨s, hs, _⟩ := h3 h i ha; rw [hs] at hh; cases hh
  cases c with
  | create x =>
    obtain ⟨h, e1, e2, e3, e4⟩ := freeToken_ok (Avl.answers h1 h2) first
    have hadd : ∃ s' t', Avl.add mg p.tab h p.heap.length = .ok s' ∧ Avl.SRep s' t' ∧
        Avl.Holds t' (Function.update a h (some p.heap.length)) := by
      obtain ⟨s', t', q, g1, g2, g3⟩ := Avl.add_ok mg h1 h p.heap.length
      exact ⟨s', t', g1, g2, Avl.holds_ins h2 h1.sorted g3⟩
    obtain ⟨s', t', g1, g2, g3⟩ := hadd
    refine ⟨⟨s', p.heap ++ [some x]⟩, .handle h, _, by simp [step, Proc.create, e1, g1],
      .create m h x (h4 h e2) e3 ?_, ⟨t', _, g2, g3, ?_, ?_, ?_⟩⟩
    · intro j j1 j2 hj; exact e4 j j1 j2 (hm j hj)
    · intro k i hk
      by_cases hkh : k = h
      · subst hkh
        simp only [Function.update_self, Option.some.injEq] at hk ⊢
        exact ⟨x, rfl, by subst hk; simp⟩
      · rw [Function.update_of_ne hkh] at hk ⊢
        obtain ⟨s, s1, s2⟩ := h3 k i hk
        refine ⟨s, s1, ?_⟩
        have : i < p.heap.length := (List.getElem?_eq_some_iff.1 s2).1
        rw [List.getElem?_append_left this]; exact s2
    · intro k hk
      by_cases hkh : k = h
      · subst hkh; simp at hk
      · rw [Function.update_of_ne hkh] at hk ⊢; exact h4 k hk
    · intro i s hi
      by_cases hil : i < p.heap.length
      · rw [List.getElem?_append_left hil] at hi
        obtain ⟨k, k1, k2⟩ := h5 i s hi
        have hkh : k ≠ h := by rintro rfl; rw [e2] at k1; cases k1
        refine ⟨k, by simpa [Function.update_of_ne hkh] using k1, ?_⟩
        intro y hy
        by_cases hyh : y = h
        · subst hyh; simp only [Function.update_self, Option.some.injEq] at hy; omega
        · simp only [Function.update_of_ne hyh] at hy; exact k2 y hy
      · have hlt := (List.getElem?_eq_some_iff.1 hi).1
        have hie : i = p.heap.length := by simp at hlt; omega
        refine ⟨h, by simp [hie], ?_⟩
        intro y hy
        by_cases hyh : y = h
        · exact hyh
        · simp only [Function.update_of_ne hyh] at hy
          obtain ⟨s', s1, s2⟩ := h3 y i hy
          have := (List.getElem?_eq_some_iff.1 s2).1
          omega
  | use h f =>
    cases ha : a h with
    | none =>
      exact ⟨p, .invalid, m, by simp [step, Proc.call, pointer_eq h1 h2, ha], .useInvalid m h f (h4 h ha), r⟩
    | some i =>
      obtain ⟨s, s1, s2⟩ := h3 h i ha
      have hil := (List.getElem?_eq_some_iff.1 s2).1
      refine ⟨{ p with heap := p.heap.set i (some (f s).1) }, .done (f s).2, _, ?_, .use m h s f s1,
        ⟨t, a, h1, h2, ?_, ?_, ?_⟩⟩
      · simp only [step, Proc.call, pointer_eq h1 h2, ha, Buf.read, Res.ok_bind, s2, Buf.write, if_pos hil]
      · intro k j hk
        by_cases hkh : k = h
        · subst hkh
          rw [ha] at hk; cases hk
          exact ⟨(f s).1, by simp, by simp [hil]⟩
        · obtain ⟨s', s1', s2'⟩ := h3 k j hk
          have hij : i ≠ j := by
            rintro rfl
            obtain ⟨w, w1, w2⟩ := h5 i s s2
            exact hkh ((w2 k hk).trans (w2 h ha).symm)
          exact ⟨s', by rw [Function.update_of_ne hkh]; exact s1', by rw [List.getElem?_set_ne hij]; exact s2'⟩
      · intro k hk
        have hkh : k ≠ h := by rintro rfl; rw [ha] at hk; cases hk
        rw [Function.update_of_ne hkh]; exact h4 k hk
      · intro j s' hj
        by_cases hij : i = j
        · subst hij; exact h5 i s s2
        · rw [List.getElem?_set_ne hij] at hj; exact h5 j s' hj
  | reset h =>
    cases ha : a h with
    | none =>
      exact ⟨p, .invalid, m, by simp [step, Proc.reset, pointer_eq h1 h2, ha], .resetInvalid m h (h4 h ha), r⟩
    | some i =>
      obtain ⟨s, s1, s2⟩ := h3 h i ha
      have hil := (List.getElem?_eq_some_iff.1 s2).1
      have hrem : ∃ s' t', Avl.remove mg p.tab (.ext h) = .ok s' ∧ Avl.SRep s' t' ∧
          Avl.Holds t' (Function.update a h none) := by
        cases mg with
        | true =>
          obtain ⟨s', t', g1, g2, g3⟩ := Avl.step_merged h1 h2 (.remove h)
          exact ⟨s', t', g1, g2, g3⟩
        | false =>
          obtain ⟨s', t', g, g1, g2, g3, g4⟩ := Avl.step_separate h1 h2 (.remove h)
          cases g4 with
          | right => exact ⟨s', t', g1, g2, g3⟩
          | swap k k2 v v2 _ w2 hlt _ =>
            exfalso
            rcases hc with hc | hc
            · cases hc
            · refine hc ⟨by rw [s1]; simp, k2, hlt, ?_⟩
              obtain ⟨s'', q1, _⟩ := h3 k2 v2 w2
              rw [q1]; simp
      obtain ⟨s', t', g1, g2, g3⟩ := hrem
      refine ⟨⟨s', p.heap.set i none⟩, .gone, _, ?_, .reset m h s s1, ⟨t', _, g2, g3, ?_, ?_, ?_⟩⟩
      · simp [step, Proc.reset, pointer_eq h1 h2, ha, Buf.destroy, s2, g1]
      · intro k j hk
        have hkh : k ≠ h := by rintro rfl; simp at hk
        rw [Function.update_of_ne hkh] at hk ⊢
        obtain ⟨s', s1', s2'⟩ := h3 k j hk
        have hij : i ≠ j := by
          rintro rfl
          obtain ⟨w, w1, w2⟩ := h5 i s s2
          exact hkh ((w2 k hk).trans (w2 h ha).symm)
        exact ⟨s', s1', by rw [List.getElem?_set_ne hij]; exact s2'⟩
      · intro k hk
        by_cases hkh : k = h
        · subst hkh; simp
        · rw [Function.update_of_ne hkh] at hk ⊢; exact h4 k hk
      · intro j s' hj
        have hij : i ≠ j := by
          rintro rfl; simp [hil] at hj
        rw [List.getElem?_set_ne hij] at hj
        obtain ⟨k, k1, k2⟩ := h5 j s' hj
        have hkh : k ≠ h := by rintro rfl; rw [ha] at k1; cases k1; exact hij rfl
        refine ⟨k, by simpa [Function.update_of_ne hkh] using k1, ?_⟩
        intro y hy
        have hyh : y ≠ h := by rintro rfl; simp at hy
        simp only [Function.update_of_ne hyh] at hy
        exact k2 y hy

theorem run_ok (mg : Bool) (first : Int) (cs : List (Call σ α)) : ∀ {p : Proc σ} {m : Int → Option σ}, Rel p m →
    (∃ p' os m', run mg first p cs = .ok (p', os) ∧ SpecRun first m cs os m' ∧ Rel p' m') ∨
    (mg = false ∧ ∃ pre c post os m', cs = pre ++ c :: post ∧ SpecRun first m pre os m' ∧ Below m' c) := by
  induction cs with
  | nil => intro p m r; exact .inl ⟨p, [], m, rfl, .nil m, r⟩
  | cons c cs ih =>
    intro p m r
    by_cases hc : mg = true ∨ ¬ Below m c
    · obtain ⟨p1, o, m1, e1, e2, e3⟩ := step_ok mg first r c hc
      rcases ih e3 with ⟨p', os, m', f1, f2, f3⟩ | ⟨hmg, pre, c', post, os, m', f1, f2, f3⟩
      · exact .inl ⟨p', o :: os, m', by simp [run, e1, f1], .cons e2 f2, f3⟩
      · exact .inr ⟨hmg, c :: pre, c', post, o :: os, m', by simp [f1], .cons e2 f2, f3⟩
    · simp only [not_or, Bool.not_eq_true, not_not] at hc
      exact .inr ⟨hc.1, [], c, cs, [], m, rfl, .nil m, hc.2⟩

/-! ## C53 -/

/-- C53, the part that holds of the code: every history of creating, using and destroying objects answers as the map of
live handles does, and handles and objects stay one to one, unless the history destroys a handle while a larger one is
live.  (Missing: such histories; `C53_reset_wrong` shows that they fail.) -/
theorem C53_handles_partial (first : Int) (cs : List (Call σ α)) :
    (∃ p os m, run false first Proc.init cs = .ok (p, os) ∧ SpecRun first (fun _ => none) cs os m ∧ Owns p m) ∨
    ∃ pre h post os m, cs = pre ++ .reset h :: post ∧ SpecRun first (fun _ => none) pre os m ∧
      m h ≠ none ∧ ∃ j, h < j ∧ m j ≠ none := by
  rcases run_ok false first cs rel_init with ⟨p, os, m, h1, h2, h3⟩ | ⟨_, pre, c, post, os, m, h1, h2, h3⟩
  · exact .inl ⟨p, os, m, h1, h2, h3.owns⟩
  · cases c with
    | reset h => exact .inr ⟨pre, h, post, os, m, h1, h2, h3.1, h3.2⟩
    | create x => cases h3
    | use h f => cases h3

/-- Two objects, each changed through its own handle, destroyed in the reverse order, and one made again. -/
example : (run false 1 Proc.init ([.create 10, .create 20, .use 1 fun n => (n + 1, n), .use 2 fun n => (n + 1, n),
    .reset 2, .use 2 fun n => (n, n), .use 1 fun n => (n, n), .create 30, .use 2 fun n => (n, n), .reset 2, .reset 1,
    .reset 1] : List (Call Nat Nat)) >>= fun r => .ok r.2)
    = .ok [.handle 1, .handle 2, .done 10, .done 20, .gone, .invalid, .done 11, .handle 2, .done 30, .gone, .gone,
      .invalid] := by decide +kernel

/-- A new handle differs from every live one in every history that runs at all, whatever was destroyed before: the
table has no entry for it. -/
theorem C53_create_fresh_partial (mg : Bool) (first : Int) (p p' : Proc σ) (x : σ) (h : Int)
    (hc : p.create mg first x = .ok (p', h)) : p.pointer h = .ok none ∧ first ≤ h := by
  have key : ∀ (f : Nat) (k : Int), freeToken p.tab f k = .ok h → Avl.haskey p.tab h = .ok false ∧ k ≤ h := by
    intro f
    induction f with
    | zero => intro k hk; cases hk
    | succ f ih =>
      intro k hk
      rw [freeToken] at hk
      cases hb : Avl.haskey p.tab k with
      | throw => rw [hb] at hk; cases hk
      | ub => rw [hb] at hk; cases hk
      | ok b =>
        rw [hb] at hk
        cases b with
        | true => have := ih (k + 1) (by simpa using hk); exact ⟨this.1, by omega⟩
        | false =>
          have e : k = h := by simpa using hk
          subst e; exact ⟨hb, le_refl _⟩
  rw [Proc.create, Res.bind_eq_ok] at hc
  obtain ⟨k, h1, h2⟩ := hc
  rw [Res.bind_eq_ok] at h2
  obtain ⟨t, _, h3⟩ := h2
  simp only [Res.ok.injEq, Prod.mk.injEq] at h3
  obtain ⟨-, rfl⟩ := h3
  obtain ⟨g1, g2⟩ := key _ _ h1
  exact ⟨by simp [Proc.pointer, g1], g2⟩

example : ∃ p : Proc Nat, Proc.create false 1 Proc.init 5 = .ok (p, 1) := ⟨_, rfl⟩

/-- C53 is false of the code.  Make two objects and destroy the first: the call reports success, but handle 1 stays
valid and now leads to the second object, and handle 2 leads to the destroyed one: using it or destroying it is
undefined. -/
theorem C53_reset_wrong (x y : σ) (f : σ → σ × α) :
    ∃ p, run false 1 Proc.init [.create x, .create y, .reset 1] =
        .ok (p, [.handle 1, .handle 2, (.gone : Out α)]) ∧
      step false 1 p (.use 1 f) = .ok ({ p with heap := [none, some (f y).1] }, .done (f y).2) ∧
      step false 1 p (.use 2 f) = .ub ∧
      step (α := α) false 1 p (.reset 2) = .ub := by
  refine ⟨⟨⟨[⟨⟨1, 1, 2, 2⟩, none, some 1⟩, ⟨⟨2, 0, 1, 1⟩, none, none⟩], some 0⟩, [none, some y]⟩, ?_, ?_, ?_, ?_⟩
  · rfl
  · rfl
  · rfl
  · rfl

/-- C53 would hold of a table whose elements carry their keys along when they are exchanged: every history answers as
the map of live handles does, and handles and objects stay one to one. -/
theorem C53_moving_keys (first : Int) (cs : List (Call σ α)) :
    ∃ p os m, run true first Proc.init cs = .ok (p, os) ∧ SpecRun first (fun _ => none) cs os m ∧ Owns p m := by
  rcases run_ok true first cs rel_init with ⟨p, os, m, h1, h2, h3⟩ | ⟨h, _⟩
  · exact ⟨p, os, m, h1, h2, h3.owns⟩
  · cases h

example : (run true 1 Proc.init ([.create 10, .create 20, .reset 1, .use 1 fun n => (n, n), .use 2 fun n => (n, n),
    .create 30] : List (Call Nat Nat)) >>= fun r => .ok r.2)
    = .ok [.handle 1, .handle 2, .gone, .invalid, .done 20, .handle 1] := by decide +kernel

/-! ## The heat flow handles -/

theorem thickOk_pos (h : List ℚ) (f i : Nat) (hlen : i + f ≤ h.length)
    (hpos : ∀ j d, i ≤ j → j < i + f → h[j]? = some d → 0 < d) : thickOk h f i = .ok true := by
  induction f generalizing i with
  | zero => rfl
  | succ f ih =>
    have hi : h[i]? = some h[i] := List.getElem?_eq_getElem (by omega)
    have hp := hpos i _ (le_refl _) (by omega) hi
    rw [thickOk, hi]
    simp only [if_neg (not_le.2 hp)]
    exact ih (i + 1) (by omega) fun j d h1 h2 => hpos j d (by omega) (by omega)

theorem thickOk_ub (h : List ℚ) (f i : Nat) (hlen : h.length < i + f)
    (hpos : ∀ j d, i ≤ j → h[j]? = some d → 0 < d) : i ≤ h.length → thickOk h f i = .ub := by
  induction f generalizing i with
  | zero => intro h1; omega
  | succ f ih =>
    intro hi
    rw [thickOk]
    by_cases he : i = h.length
    · rw [List.getElem?_eq_none (by omega)]
    · have hi' : h[i]? = some h[i] := List.getElem?_eq_getElem (by omega)
      have hp := hpos i _ (le_refl _) hi'
      rw [hi']
      simp only [if_neg (not_le.2 hp)]
      exact ih (i + 1) (by omega) (fun j d h1 h2 => hpos j d (by omega) h2) (by omega)

/-- **C53** fails for the heat flow handles: from a new process, the first `OP_HT_Init` whose arguments are accepted
returns 0, which is also what every refused call returns; so the caller cannot tell the handle from an error. -/
theorem C53_ht_zero (mg : Bool) (nl : Nat) (h : List ℚ) (nn nw : Nat) (x : σ) (hw : nw = 1 ∨ nw = 2 ∨ nw = 4)
    (hn : nw + 1 ≤ nn) (hm : (nn - 1) % nw = 0) (hl : 1 ≤ nl) (hl2 : nl < 4294967296) (hlen : nl ≤ h.length)
    (hpos : ∀ j d, j + 1 < nl → h[j]? = some d → 0 < d) :
    (∃ p, (Proc.init : Proc σ).htInit mg nl h nn nw x = .ok (p, 0) ∧
      Owns p (Function.update (fun _ => none) 0 (some x))) ∧
    (Proc.init : Proc σ).htInit mg nl h nn 3 x = .ok (Proc.init, 0) := by
  constructor
  · have ht : thickOk h ((nl + 4294967295) % 4294967296) 0 = .ok true := by
      have : (nl + 4294967295) % 4294967296 = nl - 1 := by omega
      rw [this]
      exact thickOk_pos h _ 0 (by omega) fun j d _ h2 h3 => hpos j d (by omega) h3
    obtain ⟨p', o, m', e1, e2, e3⟩ := step_ok (α := Unit) mg 0 (rel_init (σ := σ)) (.create x) (.inr (by simp [Below]))
    cases e2 with
    | create hh x hn2 hf hlo =>
      have h0 : hh = 0 := by
        by_contra hne
        exact hlo 0 (le_refl _) (by omega) rfl
      subst h0
      refine ⟨p', ?_, e3.owns⟩
      simp only [step] at e1
      obtain ⟨r, r1, r2⟩ := Res.bind_eq_ok.1 e1
      obtain ⟨q, k⟩ := r
      simp only [Res.ok.injEq, Prod.mk.injEq, Out.handle.injEq] at r2
      obtain ⟨rfl, rfl⟩ := r2
      rw [Proc.htInit, if_neg (not_not.2 hw), if_neg (by omega), ht]
      simp only [Res.ok_bind, if_true]
      exact r1
  · rw [Proc.htInit, if_pos (by decide)]

example : ∃ h : List ℚ, 2 ≤ h.length ∧ ∀ j d, j + 1 < 2 → h[j]? = some d → 0 < d :=
  ⟨[1, 0], by decide, by
    intro j d h1 h2
    have : j = 0 := by omega
    subst this
    simp at h2; rw [← h2]; norm_num⟩

/-- **C53** fails without layers: the check of the thicknesses runs past the end of the array. -/
theorem C53_ht_no_layers (mg : Bool) (p : Proc σ) (h : List ℚ) (nn nw : Nat) (x : σ) (hw : nw = 1 ∨ nw = 2 ∨ nw = 4)
    (hn : nw + 1 ≤ nn) (hm : (nn - 1) % nw = 0) (hlen : h.length < 4294967295) (hpos : ∀ d ∈ h, 0 < d) :
    p.htInit mg 0 h nn nw x = .ub := by
  rw [Proc.htInit, if_neg (not_not.2 hw), if_neg (by omega),
    thickOk_ub h _ 0 (by omega) (fun j d _ hj => hpos d (List.mem_of_getElem? hj)) (by omega)]
  rfl

end OP.Libop
