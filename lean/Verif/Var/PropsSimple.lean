import Verif.Var.Simple
import Verif.Var.Props
/-!
# C118: simple variants, realization and fixation
-/
namespace OP.Var.Simple

variable {Ty Val : Type}

/-- Variable `v` is live, has type `T` and holds `a`. -/
def Has (s : SSt Ty Val) (v : Nat) (T : Ty) (a : Val) : Prop := s[v]? = some (some ⟨T, a⟩)

/-- The variables a call reads or writes. -/
def SCmd.vars : SCmd Ty Val → List Nat
  | .new _ _ => []
  | .copy v => [v]
  | .move v => [v]
  | .assign v w => [v, w]
  | .moveAssign v w => [v, w]
  | .setT v _ _ => [v]
  | .get v _ => [v]
  | .type v => [v]
  | .destroy v => [v]

/-- The variable a call may change. -/
def SCmd.target : SCmd Ty Val → Option Nat
  | .assign v _ => some v
  | .moveAssign v _ => some v
  | .setT v _ _ => some v
  | .destroy v => some v
  | _ => none

theorem slook_ok {s : SSt Ty Val} {v : Nat} {x : SVar Ty Val} : slook s v = .ok x ↔ s[v]? = some (some x) := by
  unfold slook; split <;> simp_all

theorem Has.look {s : SSt Ty Val} {v : Nat} {T : Ty} {a : Val} (h : Has s v T a) : slook s v = .ok ⟨T, a⟩ := slook_ok.2 h

section
variable [DecidableEq Ty] {c : Cls Ty Val} {plain : Ty → Bool}

/-- Everything a call may not touch is as it was. -/
theorem sstep_keeps {s s' : SSt Ty Val} {d : SCmd Ty Val} {o : Out Ty Val} (h : sstep c plain s d = .ok (o, s')) {u : Nat}
    (hu : u < s.length) (hd : d.target ≠ some u) : s'[u]? = s[u]? := by
  cases d with
  | new U v =>
    simp only [sstep] at h
    split at h <;> cases h
    · rw [List.getElem?_append_left hu]
    · rfl
  | copy v =>
    obtain ⟨x, -, h2⟩ := Res.bind_eq_ok.1 h
    obtain ⟨a, -, h4⟩ := Res.bind_eq_ok.1 h2
    cases h4
    rw [List.getElem?_append_left hu]
  | move v =>
    obtain ⟨x, -, h2⟩ := Res.bind_eq_ok.1 h
    obtain ⟨a, -, h4⟩ := Res.bind_eq_ok.1 h2
    cases h4
    rw [List.getElem?_append_left hu]
  | assign v w =>
    obtain ⟨x, -, h2⟩ := Res.bind_eq_ok.1 h
    obtain ⟨y, -, h4⟩ := Res.bind_eq_ok.1 h2
    have hv : v ≠ u := fun e => hd (by simp [SCmd.target, e])
    split at h4 <;> cases h4
    · rfl
    · rw [List.getElem?_set_ne hv]
  | moveAssign v w =>
    obtain ⟨x, -, h2⟩ := Res.bind_eq_ok.1 h
    obtain ⟨y, -, h4⟩ := Res.bind_eq_ok.1 h2
    have hv : v ≠ u := fun e => hd (by simp [SCmd.target, e])
    split at h4 <;> cases h4
    · rfl
    · rw [List.getElem?_set_ne hv]
  | setT v U a =>
    obtain ⟨x, -, h2⟩ := Res.bind_eq_ok.1 h
    have hv : v ≠ u := fun e => hd (by simp [SCmd.target, e])
    split at h2 <;> cases h2
    · rw [List.getElem?_set_ne hv]
    · rfl
  | get v U =>
    obtain ⟨x, -, h2⟩ := Res.bind_eq_ok.1 h
    split at h2 <;> cases h2 <;> rfl
  | type v =>
    obtain ⟨x, -, h2⟩ := Res.bind_eq_ok.1 h
    cases h2
    rfl
  | destroy v =>
    obtain ⟨x, -, h2⟩ := Res.bind_eq_ok.1 h
    have hv : v ≠ u := fun e => hd (by simp [SCmd.target, e])
    cases h2
    rw [List.getElem?_set_ne hv]

/-- **C118** A call changes no other variable: in particular not the one it copies, moves or assigns from. -/
theorem C118_others {s s' : SSt Ty Val} {d : SCmd Ty Val} {o : Out Ty Val} (h : sstep c plain s d = .ok (o, s')) {u : Nat} {T : Ty}
    {a : Val} (hu : Has s u T a) (hd : d.target ≠ some u) : Has s' u T a := by
  have hlt := (List.getElem?_eq_some_iff.1 hu).1
  unfold Has
  rw [sstep_keeps h hlt hd]
  exact hu

/-- **C118** A variable keeps its type until it is destroyed. -/
theorem C118_type {s s' : SSt Ty Val} {d : SCmd Ty Val} {o : Out Ty Val} (h : sstep c plain s d = .ok (o, s')) {u : Nat} {T : Ty}
    {a : Val} (hu : Has s u T a) : (∃ b, Has s' u T b) ∨ d = .destroy u := by
  have hlt := (List.getElem?_eq_some_iff.1 hu).1
  by_cases hd : d.target = some u
  · cases d with
    | assign v w =>
      cases hd
      obtain ⟨x, h1, h2⟩ := Res.bind_eq_ok.1 h
      rw [hu.look] at h1; cases h1
      obtain ⟨y, -, h4⟩ := Res.bind_eq_ok.1 h2
      split at h4 <;> cases h4
      · exact .inl ⟨a, hu⟩
      · exact .inl ⟨y.t, by unfold Has; rw [List.getElem?_set_self hlt]⟩
    | moveAssign v w =>
      cases hd
      obtain ⟨x, h1, h2⟩ := Res.bind_eq_ok.1 h
      rw [hu.look] at h1; cases h1
      obtain ⟨y, -, h4⟩ := Res.bind_eq_ok.1 h2
      split at h4 <;> cases h4
      · exact .inl ⟨a, hu⟩
      · exact .inl ⟨y.t, by unfold Has; rw [List.getElem?_set_self hlt]⟩
    | setT v U b =>
      cases hd
      obtain ⟨x, h1, h2⟩ := Res.bind_eq_ok.1 h
      rw [hu.look] at h1; cases h1
      dsimp only at h2
      split at h2 <;> cases h2
      · exact .inl ⟨c.conv U T b, by unfold Has; rw [List.getElem?_set_self hlt]⟩
      · exact .inl ⟨a, hu⟩
    | destroy v => cases hd; exact .inr rfl
    | _ => cases hd
  · exact .inl ⟨a, C118_others h hu hd⟩

/-- **C118** Copies and moves of a plain type make a variable of the same type with the same value. -/
theorem C118_copy {s : SSt Ty Val} {v : Nat} {T : Ty} {a : Val} (hv : Has s v T a) (hp : plain T = true) :
    sstep c plain s (.copy v) = .ok (.done, s ++ [some ⟨T, a⟩]) ∧ sstep c plain s (.move v) = .ok (.done, s ++ [some ⟨T, a⟩]) := by
  constructor <;> simp [sstep, hv.look, putRaw, hp]

/-- **C118** Copying or moving a variable whose type is a class is undefined. -/
theorem C118_copy_wrong {s : SSt Ty Val} {v : Nat} {T : Ty} {a : Val} (hv : Has s v T a) (hp : plain T = false) :
    sstep c plain s (.copy v) = .ub ∧ sstep c plain s (.move v) = .ub := by
  constructor <;> simp [sstep, hv.look, putRaw, hp]

/-- **C118** Assignment gives the value if the types are the same, and is rejected without effect if not. -/
theorem C118_assign {s : SSt Ty Val} {v w : Nat} {T T' : Ty} {a b : Val} (hv : Has s v T a) (hw : Has s w T' b) :
    (T = T' → ∃ s', sstep c plain s (.assign v w) = .ok (.done, s') ∧ sstep c plain s (.moveAssign v w) = .ok (.done, s') ∧ Has s' v T b) ∧
    (T ≠ T' → sstep c plain s (.assign v w) = .ok (.threw, s) ∧ sstep c plain s (.moveAssign v w) = .ok (.threw, s)) := by
  have hlt := (List.getElem?_eq_some_iff.1 hv).1
  constructor
  · rintro rfl
    refine ⟨s.set v (some ⟨T, b⟩), by simp [sstep, hv.look, hw.look], by simp [sstep, hv.look, hw.look], ?_⟩
    unfold Has
    rw [List.getElem?_set_self hlt]
  · intro h
    constructor <;> simp [sstep, hv.look, hw.look, h]

/-- **C118** A value is stored converted to the type of the variable, when that is the first that takes it, and rejected
without effect if not. -/
theorem C118_set {s : SSt Ty Val} {v : Nat} {U T : Ty} {a u : Val} (hv : Has s v T a) :
    (First (c.setable U) T c.slots → ∃ s', sstep c plain s (.setT v U u) = .ok (.done, s') ∧ Has s' v T (c.conv U T u)) ∧
    (¬ First (c.setable U) T c.slots → sstep c plain s (.setT v U u) = .ok (.threw, s)) := by
  have hlt := (List.getElem?_eq_some_iff.1 hv).1
  constructor
  · intro h
    refine ⟨s.set v (some ⟨T, c.conv U T u⟩), by simp [sstep, hv.look, (dispatch_iff _ _ _).2 h], ?_⟩
    unfold Has
    rw [List.getElem?_set_self hlt]
  · intro h
    rw [← dispatch_iff] at h
    simp [sstep, hv.look, h]

/-- **C118** Reading gives the value, converted, when the type of the variable is the first that gives it, and is rejected if
not. -/
theorem C118_get {s : SSt Ty Val} {v : Nat} {U T : Ty} {a : Val} (hv : Has s v T a) :
    (First (c.castable U) T c.slots → sstep c plain s (.get v U) = .ok (.val (c.conv T U a), s)) ∧
    (¬ First (c.castable U) T c.slots → sstep c plain s (.get v U) = .ok (.threw, s)) ∧
    sstep c plain s (.type v) = .ok (.type T, s) := by
  refine ⟨fun h => ?_, fun h => ?_, ?_⟩
  · simp [sstep, hv.look, (dispatch_iff _ _ _).2 h]
  · rw [← dispatch_iff] at h
    simp [sstep, hv.look, h]
  · simp [sstep, hv.look]

/-- **C118** A new variable has the first type that takes the value. -/
theorem C118_new {s : SSt Ty Val} {U : Ty} {u : Val} :
    (∀ T, First (c.setable U) T c.slots → sstep c plain s (.new U u) = .ok (.done, s ++ [some ⟨T, c.conv U T u⟩])) ∧
    ((∀ T ∈ c.slots, c.setable U T = false) → sstep c plain s (.new U u) = .ok (.threw, s)) := by
  constructor
  · rintro T ⟨pre, post, h1, h2, h3⟩
    have : place c U = some T := by
      unfold place
      rw [h1, List.find?_append, List.find?_eq_none.2 (fun x hx => by simp [h3 x hx]), Option.none_or,
        List.find?_cons_of_pos h2]
    simp only [sstep, this]
  · intro h
    have : place c U = none := List.find?_eq_none.2 fun x hx => by simp [h x hx]
    simp only [sstep, this]

/-- **C118** With plain types every call on live variables is defined. -/
theorem C118_defined (hp : ∀ T, plain T = true) (s : SSt Ty Val) (d : SCmd Ty Val) :
    (∃ o s', sstep c plain s d = .ok (o, s')) ↔ ∀ v ∈ d.vars, ∃ T a, Has s v T a := by
  constructor
  · rintro ⟨o, s', h⟩
    have one : ∀ {v : Nat} {α : Type} {f : SVar Ty Val → Res α} {r : α}, (slook s v >>= f) = .ok r → ∃ T a, Has s v T a := by
      intro v α f r h
      obtain ⟨x, h1, -⟩ := Res.bind_eq_ok.1 h
      exact ⟨x.k, x.t, slook_ok.1 h1⟩
    cases d with
    | new U u => intro v hv; cases hv
    | assign v w =>
      intro u hu
      obtain ⟨x, h1, h2⟩ := Res.bind_eq_ok.1 h
      simp only [SCmd.vars, List.mem_cons, List.not_mem_nil, or_false] at hu
      rcases hu with rfl | rfl
      · exact one h
      · exact one h2
    | moveAssign v w =>
      intro u hu
      obtain ⟨x, h1, h2⟩ := Res.bind_eq_ok.1 h
      simp only [SCmd.vars, List.mem_cons, List.not_mem_nil, or_false] at hu
      rcases hu with rfl | rfl
      · exact one h
      · exact one h2
    | _ =>
      intro u hu
      rw [List.mem_singleton.1 hu]
      exact one h
  · intro h
    cases d with
    | new U u =>
      simp only [sstep]
      split
      · exact ⟨_, _, rfl⟩
      · exact ⟨_, _, rfl⟩
    | copy v =>
      obtain ⟨T, a, hv⟩ := h v (by simp [SCmd.vars])
      exact ⟨_, _, (C118_copy hv (hp T)).1⟩
    | move v =>
      obtain ⟨T, a, hv⟩ := h v (by simp [SCmd.vars])
      exact ⟨_, _, (C118_copy hv (hp T)).2⟩
    | assign v w =>
      obtain ⟨T, a, hv⟩ := h v (by simp [SCmd.vars])
      obtain ⟨T', b, hw⟩ := h w (by simp [SCmd.vars])
      by_cases e : T = T'
      · obtain ⟨s', h1, -⟩ := (C118_assign (c := c) (plain := plain) hv hw).1 e
        exact ⟨_, _, h1⟩
      · exact ⟨_, _, ((C118_assign hv hw).2 e).1⟩
    | moveAssign v w =>
      obtain ⟨T, a, hv⟩ := h v (by simp [SCmd.vars])
      obtain ⟨T', b, hw⟩ := h w (by simp [SCmd.vars])
      by_cases e : T = T'
      · obtain ⟨s', -, h1, -⟩ := (C118_assign (c := c) (plain := plain) hv hw).1 e
        exact ⟨_, _, h1⟩
      · exact ⟨_, _, ((C118_assign hv hw).2 e).2⟩
    | setT v U u =>
      obtain ⟨T, a, hv⟩ := h v (by simp [SCmd.vars])
      by_cases e : First (c.setable U) T c.slots
      · obtain ⟨s', h1, -⟩ := (C118_set (plain := plain) (u := u) hv).1 e
        exact ⟨_, _, h1⟩
      · exact ⟨_, _, (C118_set hv).2 e⟩
    | get v U =>
      obtain ⟨T, a, hv⟩ := h v (by simp [SCmd.vars])
      by_cases e : First (c.castable U) T c.slots
      · exact ⟨_, _, (C118_get hv).1 e⟩
      · exact ⟨_, _, (C118_get hv).2.1 e⟩
    | type v =>
      obtain ⟨T, a, hv⟩ := h v (by simp [SCmd.vars])
      exact ⟨_, _, (C118_get (U := T) hv).2.2⟩
    | destroy v =>
      obtain ⟨T, a, hv⟩ := h v (by simp [SCmd.vars])
      exact ⟨.done, s.set v none, by simp [sstep, hv.look]⟩

/-! ## Realization and fixation -/

/-- The place of the source's type is found, whatever other types there are before and after it. -/
theorem setR_eq {setable : Ty → Ty → Bool} (hs : ∀ T, setable T T = true) (tgt : Ty → Ty) (k : Ty) : ∀ l : List Ty,
    setR setable tgt k l = if k ∈ l then some (tgt k) else none := by
  intro l
  induction l with
  | nil => simp [setR]
  | cons V Vs ih =>
    unfold setR
    by_cases h : k = V
    · subst h
      simp [dispatch, hs]
    · rw [if_neg h, ih]
      simp [h]

/-- **C118** The type of every variable of a program is one of its class: what is asked of a source below. -/
theorem C118_source (world : Nat → Val) : ∀ (ds : List (Cmd Ty Val)) {s s' : St Ty Val} {os : List (Out Ty Val)},
    (∀ v T, HasType s v T → T ∈ c.slots) → run c world s ds = .ok (os, s') → ∀ v T, HasType s' v T → T ∈ c.slots
  | [], s, s', os, hs, h => by cases h; exact hs
  | d :: ds, s, s', os, hs, h => by
    obtain ⟨r, h1, h2⟩ := Res.bind_eq_ok.1 h
    obtain ⟨t, h3, h4⟩ := Res.bind_eq_ok.1 h2
    cases h4
    obtain ⟨o, s1⟩ := r
    refine C118_source world ds (s := s1) ?_ h3
    have mk : ∀ {w : Nat} {a : Val} {s2 : St Ty Val}, eval c world (depth s) s w = .ok (a, s2) →
        ∀ v T, HasType s2 v T → T ∈ c.slots := by
      intro w a s2 he v T hT
      obtain ⟨y, hy, rfl⟩ := hT
      obtain ⟨-, m⟩ := eval_spec c world _ _ _ _ _ he
      obtain ⟨x, hx⟩ := m.back hy
      obtain ⟨b, hb, -⟩ := m.at hx
      rw [hy] at hb
      cases hb
      exact hs v _ ⟨x, hx, rfl⟩
    have app : ∀ {s2 : St Ty Val} {x : Vun Ty Val} {K : Ty}, (∀ v T, HasType s2 v T → T ∈ c.slots) → K ∈ c.slots → x.k = K →
        ∀ v T, HasType (s2 ++ [some x]) v T → T ∈ c.slots := by
      intro s2 x K h hx e v T ⟨y, hy, hk⟩
      rcases Nat.lt_or_ge v s2.length with hv | hv
      · rw [List.getElem?_append_left hv] at hy
        exact h v T ⟨y, hy, hk⟩
      · rw [List.getElem?_append_right hv] at hy
        rcases Nat.eq_zero_or_pos (v - s2.length) with h0 | h0
        · rw [h0] at hy
          simp only [List.getElem?_cons_zero, Option.some.injEq] at hy
          rw [← hk, ← hy, e]; exact hx
        · rw [List.getElem?_eq_none (by simp; omega)] at hy
          cases hy
    have put : ∀ {s2 : St Ty Val} {w : Nat} {x : Vun Ty Val} {K : Ty}, (∀ v T, HasType s2 v T → T ∈ c.slots) → K ∈ c.slots → x.k = K →
        ∀ v T, HasType (s2.set w (some x)) v T → T ∈ c.slots := by
      intro s2 w x K h hx e v T ⟨y, hy, hk⟩
      rw [List.getElem?_set] at hy
      split at hy
      · split at hy
        · simp only [Option.some.injEq] at hy
          rw [← hk, ← hy, e]; exact hx
        · cases hy
      · exact h v T ⟨y, hy, hk⟩
    have hl : ∀ {s2 : St Ty Val} {w : Nat} {x : Vun Ty Val}, (∀ v T, HasType s2 v T → T ∈ c.slots) → look s2 w = .ok x → x.k ∈ c.slots :=
      fun h hx => h _ _ ⟨_, look_ok.1 hx, rfl⟩
    cases d with
    | new U u =>
      simp only [step] at h1
      split at h1
      · rename_i T hT
        cases h1
        exact app hs (List.mem_of_find?_eq_some hT) rfl
      · cases h1; exact hs
    | copy v =>
      obtain ⟨x, e1, e2⟩ := Res.bind_eq_ok.1 h1
      obtain ⟨r, e3, e4⟩ := Res.bind_eq_ok.1 e2
      cases e4
      exact app (mk e3) (hl hs e1) rfl
    | move v =>
      obtain ⟨x, e1, e2⟩ := Res.bind_eq_ok.1 h1
      cases e2
      exact app (put hs (hl hs e1) rfl) (hl hs e1) rfl
    | assign v w =>
      obtain ⟨x, e1, e2⟩ := Res.bind_eq_ok.1 h1
      obtain ⟨y, e3, e4⟩ := Res.bind_eq_ok.1 e2
      split at e4
      · cases e4; exact hs
      · obtain ⟨r, e5, e6⟩ := Res.bind_eq_ok.1 e4
        obtain ⟨z, e7, e8⟩ := Res.bind_eq_ok.1 e6
        cases e8
        exact put (mk e5) (hl (mk e5) e7) rfl
    | moveAssign v w =>
      obtain ⟨x, e1, e2⟩ := Res.bind_eq_ok.1 h1
      obtain ⟨y, e3, e4⟩ := Res.bind_eq_ok.1 e2
      split at e4
      · cases e4; exact hs
      · split at e4 <;> cases e4
        · exact put hs (hl hs e1) rfl
        · exact put (put hs (hl hs e1) rfl) (hl hs e3) rfl
    | setT v U u =>
      obtain ⟨x, e1, e2⟩ := Res.bind_eq_ok.1 h1
      split at e2
      · cases e2; exact hs
      · split at e2 <;> cases e2
        · exact put hs (hl hs e1) rfl
        · exact hs
    | setF v U g =>
      obtain ⟨x, e1, e2⟩ := Res.bind_eq_ok.1 h1
      split at e2
      · cases e2; exact hs
      · split at e2 <;> cases e2
        · exact put hs (hl hs e1) rfl
        · exact hs
    | chain v w =>
      obtain ⟨x, e1, e2⟩ := Res.bind_eq_ok.1 h1
      obtain ⟨y, e3, e4⟩ := Res.bind_eq_ok.1 e2
      split at e4
      · cases e4; exact hs
      · split at e4 <;> cases e4
        · exact hs
        · exact put hs (hl hs e1) rfl
    | get v U =>
      obtain ⟨x, e1, e2⟩ := Res.bind_eq_ok.1 h1
      split at e2
      · obtain ⟨r, e5, e6⟩ := Res.bind_eq_ok.1 e2
        cases e6
        exact mk e5
      · cases e2; exact hs
    | type v =>
      obtain ⟨x, e1, e2⟩ := Res.bind_eq_ok.1 h1
      cases e2; exact hs
    | reset v =>
      obtain ⟨x, e1, e2⟩ := Res.bind_eq_ok.1 h1
      cases e2; exact put hs (hl hs e1) rfl
    | unmark v =>
      obtain ⟨x, e1, e2⟩ := Res.bind_eq_ok.1 h1
      cases e2; exact put hs (hl hs e1) rfl
    | mark v =>
      obtain ⟨x, e1, e2⟩ := Res.bind_eq_ok.1 h1
      split at e2
      · cases e2; exact hs
      · split at e2 <;> cases e2
        · exact put hs (hl hs e1) rfl
        · exact hs
    | destroy v =>
      obtain ⟨x, e1, e2⟩ := Res.bind_eq_ok.1 h1
      cases e2
      intro u T ⟨y, hy, hk⟩
      rw [List.getElem?_set] at hy
      split at hy
      · split at hy <;> cases hy
      · exact hs u T ⟨y, hy, hk⟩

/-- **C118** A realization is a variable of the realized type that holds the realized value of what the source stands for; it
has no function, and the source (with what it is chained to) is marked as read.  It throws only if the source has a type that
is not one of the class. -/
theorem C118_realize (hs : ∀ T, c.setable T T = true) (real : Ty → Ty) (conv : Ty → Val → Val) (world : Nat → Val) {s : St Ty Val}
    {v : Nat} {T : Ty} (hv : HasType s v T) (hT : T ∈ c.slots) :
    (∀ a, Stands c world s v a → ∃ x s', realize c real conv world s v = .ok (x, s') ∧ x.k = real T ∧ x.t = conv T a ∧
      x.f = none ∧ x.used = false ∧ Marks s v s') ∧
    ((∀ a, ¬ Stands c world s v a) → realize c real conv world s v = .ub) := by
  obtain ⟨x, hx, rfl⟩ := hv
  have e : setR c.setable real x.k c.slots = some (real x.k) := by rw [setR_eq hs, if_pos hT]
  constructor
  · intro a ha
    rcases eval_cases c world s v with ⟨b, s', hb, hm, he⟩ | ⟨h, -⟩
    · have : b = a := hb.unique ha
      subst this
      refine ⟨⟨real x.k, conv x.k b, none, false, true, false⟩, s', ?_, rfl, rfl, rfl, rfl, hm⟩
      simp [realize, look_ok.2 hx, e, he]
    · exact absurd ha (h a)
  · intro h
    rcases eval_cases c world s v with ⟨b, s', hb, hm, he⟩ | ⟨-, he⟩
    · exact absurd hb (h b)
    · simp [realize, look_ok.2 hx, e, he]

/-- **C118** What was realized does not change when the functions give other values and the source is written. -/
theorem C118_realize_fixed (hs : ∀ T, c.setable T T = true) (real : Ty → Ty) (conv : Ty → Val → Val) (world : Nat → Val) {s s' : St Ty Val}
    {v : Nat} {T : Ty} (hv : HasType s v T) (hT : T ∈ c.slots) {x : Vun Ty Val} (h : realize c real conv world s v = .ok (x, s'))
    (c' : Cls Ty Val) (world' : Nat → Val) (s2 : St Ty Val) (u : Nat) (hu : s2[u]? = some (some x)) :
    ∃ a, Stands c world s v a ∧ Stands c' world' s2 u (conv T a) := by
  obtain ⟨h1, h2⟩ := C118_realize hs real conv world hv hT
  rcases eval_cases c world s v with ⟨b, -, hb, -, -⟩ | ⟨hn, -⟩
  · obtain ⟨y, s3, e, e1, e2, e3, -⟩ := h1 b hb
    rw [h] at e
    cases e
    refine ⟨b, hb, ?_⟩
    rw [← e2]
    exact .value hu e3
  · rw [h2 hn] at h
    cases h

/-- **C118** A fixation to a plain type is a simple variant of the cast type that holds the converted value. -/
theorem C118_fixate (hs : ∀ T, c.setable T T = true) (cast : Ty → Ty) (world : Nat → Val) {s : St Ty Val} {v : Nat} {T : Ty}
    (hv : HasType s v T) (hT : T ∈ c.slots) (hp : plain (cast T) = true) {a : Val} (ha : Stands c world s v a) :
    ∃ s', fixate c plain cast world s v = .ok (⟨cast T, c.conv T (cast T) a⟩, s') ∧ Marks s v s' := by
  obtain ⟨x, hx, rfl⟩ := hv
  have e : setR c.setable cast x.k c.slots = some (cast x.k) := by rw [setR_eq hs, if_pos hT]
  rcases eval_cases c world s v with ⟨b, s', hb, hm, he⟩ | ⟨h, -⟩
  · have : b = a := hb.unique ha
    subst this
    exact ⟨s', by simp [fixate, look_ok.2 hx, e, he, putRaw, hp], hm⟩
  · exact absurd ha (h a)

/-- **C118** A fixation to a class is undefined. -/
theorem C118_fixate_wrong (hs : ∀ T, c.setable T T = true) (cast : Ty → Ty) (world : Nat → Val) {s : St Ty Val} {v : Nat} {T : Ty}
    (hv : HasType s v T) (hT : T ∈ c.slots) (hp : plain (cast T) = false) : fixate c plain cast world s v = .ub := by
  obtain ⟨x, hx, rfl⟩ := hv
  have e : setR c.setable cast x.k c.slots = some (cast x.k) := by rw [setR_eq hs, if_pos hT]
  rcases eval_cases c world s v with ⟨b, s', hb, hm, he⟩ | ⟨h, he⟩
  · simp [fixate, look_ok.2 hx, e, he, putRaw, hp]
  · simp [fixate, look_ok.2 hx, e, he]

end

/-! ## Examples -/

/-- Numbers are plain; the other two types are classes. -/
def exPlain : ExTy → Bool
  | .int => true
  | .double => true
  | _ => false

/-- A history of calls on simple variants. -/
example : (srun exCls exPlain [] [.new .int 37, .new .double 5, .copy 1, .setT 1 .double 7, .get 2 .double, .get 0 .double,
    .assign 0 1, .assign 2 1, .get 2 .double, .new .base 3, .type 3, .destroy 3]).bind (fun r => .ok r.1) =
    .ok [.done, .done, .done, .done, .val 5, .threw, .threw, .done, .val 7, .done, .type .base, .done] := by decide +kernel

/-- A copy of a class. -/
example : (srun exCls exPlain [] [.new .base 3, .copy 0]).bind (fun r => .ok r.1) = .ub := by decide +kernel

/-- The realization, and the fixation, of a variable chained to another, which is then written. -/
example : ∃ s : St ExTy Nat, HasType s 1 .double ∧ Stands exCls (fun g => g) s 1 5 ∧
    (∀ T, exCls.setable T T = true) ∧ ExTy.double ∈ exCls.slots :=
  ⟨[some ⟨.double, 5, none, false, false, false⟩, some ⟨.double, 8, some (.chain 0), false, false, false⟩], ⟨_, rfl, rfl⟩,
    .chain (w := 0) rfl rfl (.value (x := ⟨.double, 5, none, false, false, false⟩) rfl rfl), by intro T; cases T <;> decide,
    by decide⟩

end OP.Var.Simple
