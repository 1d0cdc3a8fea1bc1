import Verif.Var.Valid
import Verif.Var.Props
/-!
# C119: validators
-/
namespace OP.Var.Valid

variable {Ty Val : Type}

/-- Validator `v` is live, has type `T`, and its function is `g`, which takes a `U`. -/
def Has (s : VSt Ty Val) (v : Nat) (T U : Ty) (g : Nat) : Prop := s.vs[v]? = some (some ⟨T, some (U, g)⟩)

theorem vlook_ok {s : VSt Ty Val} {v : Nat} {x : Vdr Ty} : vlook s v = .ok x ↔ s.vs[v]? = some (some x) := by
  unfold vlook; split <;> simp_all

theorem Has.look {s : VSt Ty Val} {v : Nat} {T U : Ty} {g : Nat} (h : Has s v T U g) : vlook s v = .ok ⟨T, some (U, g)⟩ :=
  vlook_ok.2 h

section
variable [DecidableEq Ty] {c : Cls Ty Val} {pred : Nat → Val → Bool} {world : Nat → Val}

/-- **C119** A new validator has the first type its function can be given. -/
theorem C119_new {s : VSt Ty Val} {U T : Ty} {g : Nat} (h : First (c.castable U) T c.slots) :
    ∃ s', vstep c pred world s (.new U g) = .ok (.done, s') ∧ Has s' s.vs.length T U g ∧ s'.vars = s.vars ∧
      ∀ u < s.vs.length, s'.vs[u]? = s.vs[u]? := by
  obtain ⟨pre, post, h1, h2, h3⟩ := h
  have : c.slots.find? (c.castable U) = some T := by
    rw [h1, List.find?_append, List.find?_eq_none.2 (fun x hx => by simp [h3 x hx]), Option.none_or, List.find?_cons_of_pos h2]
  refine ⟨{ s with vs := s.vs ++ [some ⟨T, some (U, g)⟩] }, by simp only [vstep, this], by simp [Has], rfl, fun u hu => ?_⟩
  rw [List.getElem?_append_left hu]

/-- **C119** A value is valid when the function says so of the value, converted to the type of the validator; a value for which
another type comes first is rejected, and nothing changes. -/
theorem C119_check {s : VSt Ty Val} {v : Nat} {T U : Ty} {g : Nat} (hv : Has s v T U g) (U' : Ty) (u : Val) :
    (First (fun T => c.castable T U') T c.slots →
      vstep c pred world s (.check v U' u) = .ok (.valid (pred g (c.conv T U (c.conv U' T u))), s)) ∧
    (¬ First (fun T => c.castable T U') T c.slots → vstep c pred world s (.check v U' u) = .ok (.threw, s)) := by
  constructor
  · intro h
    simp [vstep, hv.look, (dispatch_iff _ _ _).2 h, call]
  · intro h
    rw [← dispatch_iff] at h
    simp [vstep, hv.look, h]

/-- **C119** A variable of another type is rejected.  One of the same type, when that is the first that gives it, is valid when
the function says so of the value it stands for, and is marked as read. -/
theorem C119_variable {s : VSt Ty Val} {v w : Nat} {T T' U : Ty} {g : Nat} (hv : Has s v T U g) (hw : HasType s.vars w T') :
    (T ≠ T' → vstep c pred world s (.checkVar v w) = .ok (.threw, s)) ∧
    (T = T' → First (c.castable T) T c.slots → ∀ a, Stands c world s.vars w a →
      ∃ s', vstep c pred world s (.checkVar v w) = .ok (.valid (pred g (c.conv T U (c.conv T T a))), s') ∧ s'.vs = s.vs ∧
        Marks s.vars w s'.vars) := by
  obtain ⟨y, hy, rfl⟩ := hw
  constructor
  · intro h
    simp [vstep, hv.look, look_ok.2 hy, h]
  · rintro rfl hf a ha
    rcases eval_cases c world s.vars w with ⟨b, s', hb, hm, he⟩ | ⟨h, -⟩
    · have : b = a := hb.unique ha
      subst this
      exact ⟨{ s with vars := s' }, by simp [vstep, hv.look, look_ok.2 hy, (dispatch_iff _ _ _).2 hf, he, call], rfl, hm⟩
    · exact absurd ha (h a)

/-- **C119** If a type derived from that of the validator comes before it in the class, no variable is ever validated, even
one of the same type. -/
theorem C119_shadowed_wrong {s : VSt Ty Val} {v w : Nat} {T T' T0 U : Ty} {g : Nat} (hv : Has s v T U g) (hw : HasType s.vars w T')
    {pre post : List Ty} (hc : c.slots = pre ++ T0 :: post) (hpre : T ∉ pre) (hne : T0 ≠ T) (h0 : c.castable T T0 = true) :
    vstep c pred world s (.checkVar v w) = .ok (.threw, s) := by
  obtain ⟨y, hy, rfl⟩ := hw
  by_cases h : T = y.k
  · subst h
    have hd : dispatch (c.castable y.k) y.k c.slots = false := by
      rw [hc]
      clear hc
      induction pre with
      | nil => simp [dispatch, h0, hne.symm]
      | cons P pre ih =>
        simp only [List.mem_cons, not_or] at hpre
        simp only [List.cons_append, dispatch]
        by_cases hP : c.castable y.k P = true
        · rw [if_pos hP]; simp [hpre.1]
        · rw [if_neg hP]; exact ih hpre.2
    simp [vstep, hv.look, look_ok.2 hy, hd]
  · simp [vstep, hv.look, look_ok.2 hy, h]

/-- **C119** A validator can be neither copied nor moved. -/
theorem C119_copy_wrong (s : VSt Ty Val) (v : Nat) :
    vstep c pred world s (.copy v) = .ub ∧ vstep c pred world s (.move v) = .ub := by
  have : ∀ r : Res (Vdr Ty), (∀ (h : r = .throw), False) → (r >>= fun _ => (.ub : Res (VOut × VSt Ty Val))) = .ub := by
    intro r h
    cases r with
    | ok x => rfl
    | throw => exact absurd rfl h
    | ub => rfl
  have hl : ∀ h : vlook s v = .throw, False := by
    intro h
    unfold vlook at h
    split at h <;> cases h
  exact ⟨this _ hl, this _ hl⟩

/-- **C119** Assignment takes the function, if the types are the same, and is rejected without effect if not; no other
validator and no variable changes. -/
theorem C119_assign {s : VSt Ty Val} {v w : Nat} {T T' U U' : Ty} {g g' : Nat} (hv : Has s v T U g) (hw : Has s w T' U' g') :
    (T ≠ T' → vstep c pred world s (.assign v w) = .ok (.threw, s) ∧ vstep c pred world s (.moveAssign v w) = .ok (.threw, s)) ∧
    (T = T' → (∃ s', vstep c pred world s (.assign v w) = .ok (.done, s') ∧ Has s' v T U' g' ∧ s'.vars = s.vars ∧
        ∀ u, u ≠ v → s'.vs[u]? = s.vs[u]?) ∧
      (∃ s', vstep c pred world s (.moveAssign v w) = .ok (.done, s') ∧ Has s' v T U' g' ∧ s'.vars = s.vars ∧
        ∀ u, u ≠ v → u ≠ w → s'.vs[u]? = s.vs[u]?)) := by
  have hlt := (List.getElem?_eq_some_iff.1 hv).1
  constructor
  · intro h
    constructor <;> simp [vstep, hv.look, hw.look, h]
  · rintro rfl
    constructor
    · refine ⟨{ s with vs := s.vs.set v (some ⟨T, some (U', g')⟩) }, by simp [vstep, hv.look, hw.look], ?_, rfl, fun u hu => ?_⟩
      · unfold Has
        rw [List.getElem?_set_self hlt]
      · rw [List.getElem?_set_ne (Ne.symm hu)]
    · by_cases e : v = w
      · subst e
        have e' := hv.symm.trans hw
        simp only [Option.some.injEq, Vdr.mk.injEq, Prod.mk.injEq, true_and] at e'
        obtain ⟨rfl, rfl⟩ := e'
        exact ⟨s, by simp [vstep, hv.look], hv, rfl, fun u _ _ => rfl⟩
      · refine ⟨{ s with vs := (s.vs.set v (some ⟨T, some (U', g')⟩)).set w (some ⟨T, none⟩) },
          by simp [vstep, hv.look, hw.look, e], ?_, rfl, fun u hu hu' => ?_⟩
        · unfold Has
          rw [List.getElem?_set_ne (Ne.symm e), List.getElem?_set_self hlt]
        · rw [List.getElem?_set_ne (Ne.symm hu'), List.getElem?_set_ne (Ne.symm hu)]

/-- **C119** After it was moved from to another, a validator finds nothing valid or invalid: it throws. -/
theorem C119_moved {s s' : VSt Ty Val} {v w : Nat} {T U U' : Ty} {g g' : Nat} (hv : Has s v T U g) (hw : Has s w T U' g')
    (hne : v ≠ w) (h : vstep c pred world s (.moveAssign v w) = .ok (.done, s')) (V : Ty) (u : Val) :
    vstep c pred world s' (.check w V u) = .ok (.threw, s') := by
  have hlt := (List.getElem?_eq_some_iff.1 hw).1
  have e : vstep c pred world s (.moveAssign v w) =
      .ok (.done, { s with vs := (s.vs.set v (some ⟨T, some (U', g')⟩)).set w (some ⟨T, none⟩) }) := by
    simp [vstep, hv.look, hw.look, hne]
  rw [e] at h
  cases h
  have hl : vlook { s with vs := (s.vs.set v (some ⟨T, some (U', g')⟩)).set w (some ⟨T, none⟩) } w = .ok ⟨T, none⟩ := by
    rw [vlook_ok]
    rw [List.getElem?_set_self (by rw [List.length_set]; exact hlt)]
  simp only [vstep, hl, Res.ok_bind]
  by_cases hd : dispatch (fun T => c.castable T V) T c.slots = true
  · rw [if_pos hd]; rfl
  · rw [if_neg hd]

end

/-- Validators for numbers, of values and of variables. -/
example : (vrun exCls (fun g x => decide (g = x)) (fun g => g) ⟨[], [some ⟨.double, 5, none, false, false, false⟩,
    some ⟨.int, 20, none, false, false, false⟩]⟩ [.new .double 5, .new .int 30, .new .double 6, .checkVar 0 0, .checkVar 0 1,
      .checkVar 1 1, .check 1 .int 37, .check 0 .double 6, .check 0 .int 5, .assign 0 2, .check 0 .double 6, .assign 0 1]).bind
        (fun r => .ok r.1) = .ok [.done, .done, .done, .valid true, .threw, .valid false, .valid true, .valid false, .threw,
          .done, .valid true, .threw] := by decide +kernel

/-- In `<int,double,derived,base>` a variable of type `base` cannot be validated. -/
example : (vrun exCls (fun _ _ => true) (fun g => g) ⟨[some ⟨.base, some (.base, 0)⟩], [some ⟨.base, 5, none, false, false, false⟩]⟩
    [.checkVar 0 0]).bind (fun r => .ok r.1) = .ok [.threw] := by decide +kernel

end OP.Var.Valid
