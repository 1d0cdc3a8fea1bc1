import Verif.Var.Vunctor
import Mathlib.Data.List.Nodup
import Mathlib.Data.List.Perm.Subperm
import Mathlib.Tactic.Push
/-!
# C36: variants keep their type, reject other types, and mark reads and writes

The specification says what a variable stands for (`Stands`), which calls are rejected (`Rejected`), and reads the flags off
the list of what happened to a variable.
-/
namespace OP.Var
variable {Ty Val : Type}

/-! ## Specification -/

/-- The value a variable stands for: its own, that of its function, or that of the variable it is chained to. -/
inductive Stands (c : Cls Ty Val) (world : Nat → Val) (s : St Ty Val) : Nat → Val → Prop
  | value {v : Nat} {x : Vun Ty Val} (h : s[v]? = some (some x)) (hf : x.f = none) : Stands c world s v x.t
  | user {v : Nat} {x : Vun Ty Val} {U : Ty} {g : Nat} (h : s[v]? = some (some x)) (hf : x.f = some (.user U g)) :
      Stands c world s v (c.conv U x.k (world g))
  | chain {v w : Nat} {x : Vun Ty Val} {a : Val} (h : s[v]? = some (some x)) (hf : x.f = some (.chain w))
      (hw : Stands c world s w a) : Stands c world s v a

/-- Reading `v` reads `u`: itself, or a variable it is chained to. -/
inductive Reach (s : St Ty Val) : Nat → Nat → Prop
  | here {v : Nat} {x : Vun Ty Val} (h : s[v]? = some (some x)) : Reach s v v
  | next {v w u : Nat} {x : Vun Ty Val} (h : s[v]? = some (some x)) (hf : x.f = some (.chain w)) (hw : Reach s w u) :
      Reach s v u

/-- Type `k` is the first of the types with `p`. -/
def First (p : Ty → Bool) (k : Ty) (l : List Ty) : Prop :=
  ∃ pre post, l = pre ++ k :: post ∧ p k = true ∧ ∀ T ∈ pre, p T = false

/-- Variable `v` is live and has type `T`. -/
def HasType (s : St Ty Val) (v : Nat) (T : Ty) : Prop := ∃ x, s[v]? = some (some x) ∧ x.k = T
/-- Variable `v` is live and marked as used. -/
def Used (s : St Ty Val) (v : Nat) : Prop := ∃ x, s[v]? = some (some x) ∧ x.used = true
/-- Variable `v` is live. -/
def Live (s : St Ty Val) (v : Nat) : Prop := ∃ x, s[v]? = some (some x)

/-- The calls that are rejected: by type, or because the variable was used. -/
def Rejected (c : Cls Ty Val) (s : St Ty Val) : Cmd Ty Val → Prop
  | .new U _ => ∀ T ∈ c.slots, c.setable U T = false
  | .assign v w => ∃ T T', HasType s v T ∧ HasType s w T' ∧ T ≠ T'
  | .moveAssign v w => ∃ T T', HasType s v T ∧ HasType s w T' ∧ T ≠ T'
  | .setT v U _ => Used s v ∨ ∃ T, HasType s v T ∧ ¬ First (c.setable U) T c.slots
  | .setF v U _ => Used s v ∨ ∃ T, HasType s v T ∧ ¬ First (c.setable U) T c.slots
  | .chain v w => Live s w ∧ (Used s v ∨ ∃ T T', HasType s v T ∧ HasType s w T' ∧ T ≠ T')
  | .get v U => ∃ T, HasType s v T ∧ ¬ First (c.castable U) T c.slots
  | .mark v => ∃ x, s[v]? = some (some x) ∧ x.written = true ∧ (x.used = true ∨ x.read = true)
  | _ => False

/-! ## Lemmas -/

theorem lt_of_some {α : Type} {l : List α} {i : Nat} {a : α} (h : l[i]? = some a) : i < l.length :=
  (List.getElem?_eq_some_iff.1 h).1

theorem look_ok {s : St Ty Val} {v : Nat} {x : Vun Ty Val} : look s v = .ok x ↔ s[v]? = some (some x) := by
  unfold look; split <;> simp_all

theorem look_cases (s : St Ty Val) (v : Nat) :
    (∃ x, s[v]? = some (some x) ∧ look s v = .ok x) ∨ ((∀ x, s[v]? ≠ some (some x)) ∧ look s v = .ub) := by
  unfold look
  split
  · rename_i x h; exact .inl ⟨x, h, rfl⟩
  · rename_i h; exact .inr ⟨h, rfl⟩

/-- The same sources of values. -/
def SameSrc (s s' : St Ty Val) : Prop :=
  s'.length = s.length ∧ ∀ (u : Nat) (x : Vun Ty Val), s[u]? = some (some x) →
    ∃ x', s'[u]? = some (some x') ∧ x'.k = x.k ∧ x'.t = x.t ∧ x'.f = x.f

theorem Stands.mono {c : Cls Ty Val} {world : Nat → Val} {s s' : St Ty Val} (h : SameSrc s s') {v : Nat} {a : Val}
    (d : Stands c world s v a) : Stands c world s' v a := by
  induction d with
  | value hx hf =>
    obtain ⟨x', e, _, h2, h3⟩ := h.2 _ _ hx
    rw [← h2]; exact .value e (h3.trans hf)
  | user hx hf =>
    obtain ⟨x', e, h1, _, h3⟩ := h.2 _ _ hx
    rw [← h1]; exact .user e (h3.trans hf)
  | chain hx hf _ ih =>
    obtain ⟨x', e, _, _, h3⟩ := h.2 _ _ hx
    exact .chain e (h3.trans hf) ih

theorem Reach.mono {s s' : St Ty Val} (h : SameSrc s s') {v u : Nat} (d : Reach s v u) : Reach s' v u := by
  induction d with
  | here hx =>
    obtain ⟨x', e, _⟩ := h.2 _ _ hx
    exact .here e
  | next hx hf _ ih =>
    obtain ⟨x', e, _, _, h3⟩ := h.2 _ _ hx
    exact .next e (h3.trans hf) ih

/-- The flag set by a read. -/
def marked (o : Option (Vun Ty Val)) : Option (Vun Ty Val) := o.map fun x => { x with read := true }

theorem sameSrc_mark {s : St Ty Val} {v : Nat} {x : Vun Ty Val} (h : s[v]? = some (some x)) :
    SameSrc s (s.set v (some { x with read := true })) := by
  refine ⟨by simp, fun u y hy => ?_⟩
  by_cases e : u = v
  · subst e
    rw [h] at hy; cases hy
    exact ⟨_, List.getElem?_set_self (lt_of_some h), rfl, rfl, rfl⟩
  · exact ⟨y, by rw [List.getElem?_set_ne (Ne.symm e)]; exact hy, rfl, rfl, rfl⟩

theorem sameSrc_mark' {s : St Ty Val} {v : Nat} {x : Vun Ty Val} (h : s[v]? = some (some x)) :
    SameSrc (s.set v (some { x with read := true })) s := by
  refine ⟨by simp, fun u y hy => ?_⟩
  by_cases e : u = v
  · subst e
    rw [List.getElem?_set_self (lt_of_some h)] at hy; cases hy
    exact ⟨_, h, rfl, rfl, rfl⟩
  · rw [List.getElem?_set_ne (Ne.symm e)] at hy
    exact ⟨y, hy, rfl, rfl, rfl⟩

/-- `s'` is `s` with the variables that reading `v` reads marked. -/
def Marks (s : St Ty Val) (v : Nat) (s' : St Ty Val) : Prop :=
  s'.length = s.length ∧ (∀ u, Reach s v u → s'[u]? = (s[u]?).map marked) ∧ ∀ u, ¬ Reach s v u → s'[u]? = s[u]?

theorem reach_iff_chain {s : St Ty Val} {v w u : Nat} {x : Vun Ty Val} (h : s[v]? = some (some x))
    (hf : x.f = some (.chain w)) : Reach s v u ↔ u = v ∨ Reach s w u := by
  constructor
  · intro d
    cases d with
    | here _ => exact .inl rfl
    | next h' hf' hw =>
      rw [h] at h'; cases h'
      rw [hf] at hf'; cases hf'
      exact .inr hw
  · rintro (rfl | d)
    · exact .here h
    · exact .next h hf d

theorem reach_iff_self {s : St Ty Val} {v u : Nat} {x : Vun Ty Val} (h : s[v]? = some (some x))
    (hf : ∀ w, x.f ≠ some (.chain w)) : Reach s v u ↔ u = v := by
  constructor
  · intro d
    cases d with
    | here _ => rfl
    | next h' hf' hw =>
      rw [h] at h'; cases h'
      exact absurd hf' (hf _)
  · rintro rfl; exact .here h

theorem marks_self {s : St Ty Val} {v : Nat} {x : Vun Ty Val} (h : s[v]? = some (some x))
    (hf : ∀ w, x.f ≠ some (.chain w)) : Marks s v (s.set v (some { x with read := true })) := by
  refine ⟨by simp, fun u hu => ?_, fun u hu => ?_⟩
  · rw [reach_iff_self h hf] at hu; subst hu
    rw [List.getElem?_set_self (lt_of_some h), h]; rfl
  · rw [reach_iff_self h hf] at hu
    exact List.getElem?_set_ne (Ne.symm hu)

theorem eval_spec (c : Cls Ty Val) (world : Nat → Val) : ∀ (fuel : Nat) (s : St Ty Val) (v : Nat) (a : Val)
    (s' : St Ty Val), eval c world fuel s v = .ok (a, s') → Stands c world s v a ∧ Marks s v s'
  | 0, _, _, _, _, h => by cases h
  | fuel + 1, s, v, a, s', h => by
    rcases look_cases s v with ⟨x, hx, e⟩ | ⟨_, e⟩
    · rw [eval, e, Res.ok_bind] at h
      dsimp only at h
      split at h
      · rename_i hf
        cases h
        exact ⟨.value hx hf, marks_self hx (by simp [hf])⟩
      · rename_i U g hf
        cases h
        exact ⟨.user hx hf, marks_self hx (by simp [hf])⟩
      · rename_i w hf
        obtain ⟨d, l, m1, m2⟩ := eval_spec c world fuel _ w a s' h
        have S := sameSrc_mark hx
        have S' := sameSrc_mark' hx
        have rc : ∀ u, Reach s v u ↔ u = v ∨ Reach (s.set v (some { x with read := true })) w u := fun u => by
          rw [reach_iff_chain hx hf]
          exact or_congr Iff.rfl ⟨fun q => q.mono S, fun q => q.mono S'⟩
        have here : ∀ u, u ≠ v → (s.set v (some { x with read := true }))[u]? = s[u]? :=
          fun u hu => List.getElem?_set_ne (Ne.symm hu)
        have atv : (s.set v (some { x with read := true }))[v]? = (s[v]?).map marked := by
          rw [List.getElem?_set_self (lt_of_some hx), hx]; rfl
        refine ⟨.chain hx hf (d.mono S'), by rw [l]; simp, fun u hu => ?_, fun u hu => ?_⟩
        · by_cases hw : Reach (s.set v (some { x with read := true })) w u
          · rw [m1 u hw]
            by_cases e : u = v
            · subst e; rw [atv, hx]; rfl
            · rw [here u e]
          · rw [m2 u hw]
            rcases (rc u).1 hu with e | e
            · subst e; exact atv
            · exact absurd e hw
        · rw [rc, not_or] at hu
          rw [m2 u hu.2, here u hu.1]
    · rw [eval, e] at h; cases h

/-- How far away the value is. -/
inductive StandsIn (s : St Ty Val) : Nat → Nat → Prop
  | zero {v : Nat} {x : Vun Ty Val} (h : s[v]? = some (some x)) (hf : ∀ w, x.f ≠ some (.chain w)) : StandsIn s 0 v
  | succ {m v w : Nat} {x : Vun Ty Val} (h : s[v]? = some (some x)) (hf : x.f = some (.chain w))
      (hw : StandsIn s m w) : StandsIn s (m + 1) v

theorem StandsIn.live {s : St Ty Val} {n v : Nat} (h : StandsIn s n v) : ∃ x, s[v]? = some (some x) := by
  cases h with
  | zero h _ => exact ⟨_, h⟩
  | succ h _ _ => exact ⟨_, h⟩

theorem standsIn_zero {s : St Ty Val} {n v : Nat} {x : Vun Ty Val} (h : s[v]? = some (some x))
    (hf : ∀ w, x.f ≠ some (.chain w)) : StandsIn s n v ↔ n = 0 := by
  constructor
  · intro d
    cases d with
    | zero _ _ => rfl
    | succ h' hf' _ =>
      rw [h] at h'; cases h'
      exact absurd hf' (hf _)
  · rintro rfl
    exact .zero h hf

theorem standsIn_chain {s : St Ty Val} {n v w : Nat} {x : Vun Ty Val} (h : s[v]? = some (some x))
    (hf : x.f = some (.chain w)) : StandsIn s n v ↔ ∃ m, n = m + 1 ∧ StandsIn s m w := by
  constructor
  · intro d
    cases d with
    | zero h' hf' =>
      rw [h] at h'; cases h'
      exact absurd hf (hf' _)
    | succ h' hf' hw =>
      rw [h] at h'; cases h'
      rw [hf] at hf'; cases hf'
      exact ⟨_, rfl, hw⟩
  · rintro ⟨m, rfl, hw⟩
    exact .succ h hf hw

theorem Stands.depth {c : Cls Ty Val} {world : Nat → Val} {s : St Ty Val} {v : Nat} {a : Val}
    (d : Stands c world s v a) : ∃ n, StandsIn s n v := by
  induction d with
  | value h hf => exact ⟨0, (standsIn_zero h (by simp [hf])).2 rfl⟩
  | user h hf => exact ⟨0, (standsIn_zero h (by simp [hf])).2 rfl⟩
  | chain h hf _ ih =>
    obtain ⟨n, hn⟩ := ih
    exact ⟨n + 1, (standsIn_chain h hf).2 ⟨n, rfl, hn⟩⟩

theorem standsIn_unique {s : St Ty Val} : ∀ (n m v : Nat), StandsIn s n v → StandsIn s m v → n = m
  | n, m, v, h, h' => by
    obtain ⟨x, hx⟩ := h.live
    by_cases hf : ∃ w, x.f = some (.chain w)
    · obtain ⟨w, hf⟩ := hf
      obtain ⟨n', rfl, h1⟩ := (standsIn_chain hx hf).1 h
      obtain ⟨m', rfl, h2⟩ := (standsIn_chain hx hf).1 h'
      rw [standsIn_unique n' m' w h1 h2]
    · push Not at hf
      rw [(standsIn_zero hx hf).1 h, (standsIn_zero hx hf).1 h']
termination_by n => n

theorem standsIn_path {s : St Ty Val} : ∀ (n v : Nat), StandsIn s n v → ∃ p : List Nat, p.length = n + 1 ∧ p.Nodup ∧
    ∀ u ∈ p, u < s.length ∧ ∃ m ≤ n, StandsIn s m u
  | n, v, h => by
    obtain ⟨x, hx⟩ := h.live
    by_cases hf : ∃ w, x.f = some (.chain w)
    · obtain ⟨w, hf⟩ := hf
      obtain ⟨n', rfl, h1⟩ := (standsIn_chain hx hf).1 h
      obtain ⟨p, a, b, d⟩ := standsIn_path n' w h1
      refine ⟨v :: p, by simp [a], List.nodup_cons.2 ⟨fun hv => ?_, b⟩, ?_⟩
      · obtain ⟨_, m, hm, hm'⟩ := d v hv
        have := standsIn_unique _ _ _ h hm'
        omega
      · intro u hu
        rcases List.mem_cons.1 hu with rfl | hu
        · exact ⟨lt_of_some hx, _, Nat.le_refl _, h⟩
        · obtain ⟨l, m, hm, hm'⟩ := d u hu
          exact ⟨l, m, by omega, hm'⟩
    · push Not at hf
      have := (standsIn_zero hx hf).1 h
      subst this
      exact ⟨[v], rfl, by simp, fun u hu => by
        simp at hu; subst hu; exact ⟨lt_of_some hx, 0, Nat.le_refl _, h⟩⟩
termination_by n => n

theorem Stands.depth_lt {c : Cls Ty Val} {world : Nat → Val} {s : St Ty Val} {v : Nat} {a : Val}
    (d : Stands c world s v a) : ∃ n, n < s.length ∧ StandsIn s n v := by
  obtain ⟨n, hn⟩ := d.depth
  obtain ⟨p, a, b, e⟩ := standsIn_path n v hn
  refine ⟨n, ?_, hn⟩
  have : p.Subperm (List.range s.length) := b.subperm fun u hu => List.mem_range.2 (e u hu).1
  have := this.length_le
  simp at this; omega

theorem StandsIn.mono {s s' : St Ty Val} (h : SameSrc s s') : ∀ (n v : Nat), StandsIn s n v → StandsIn s' n v
  | n, v, d => by
    obtain ⟨x, hx⟩ := d.live
    obtain ⟨x', e, _, _, h3⟩ := h.2 v x hx
    by_cases hf : ∃ w, x.f = some (.chain w)
    · obtain ⟨w, hf⟩ := hf
      obtain ⟨n', rfl, h1⟩ := (standsIn_chain hx hf).1 d
      exact (standsIn_chain e (h3.trans hf)).2 ⟨n', rfl, StandsIn.mono h n' w h1⟩
    · push Not at hf
      rw [(standsIn_zero hx hf).1 d]
      exact (standsIn_zero e (by rw [h3]; exact hf)).2 rfl
termination_by n => n

theorem eval_total (c : Cls Ty Val) (world : Nat → Val) : ∀ (fuel n : Nat) (s : St Ty Val) (v : Nat), n < fuel →
    StandsIn s n v → ∃ r, eval c world fuel s v = .ok r
  | 0, _, _, _, h, _ => by omega
  | fuel + 1, n, s, v, hn, d => by
    obtain ⟨x, hx⟩ := d.live
    rw [eval, look_ok.2 hx, Res.ok_bind]
    dsimp only
    split
    · exact ⟨_, rfl⟩
    · exact ⟨_, rfl⟩
    · rename_i w hf
      obtain ⟨n', rfl, h1⟩ := (standsIn_chain hx hf).1 d
      exact eval_total c world fuel n' _ w (by omega) (h1.mono (sameSrc_mark hx) n' w)

theorem eval_not_throw (c : Cls Ty Val) (world : Nat → Val) : ∀ (fuel : Nat) (s : St Ty Val) (v : Nat),
    eval c world fuel s v ≠ .throw
  | 0, _, _ => by simp [eval]
  | fuel + 1, s, v => by
    rcases look_cases s v with ⟨x, hx, e⟩ | ⟨_, e⟩
    · rw [eval, e, Res.ok_bind]
      dsimp only
      split
      · simp
      · simp
      · exact eval_not_throw c world fuel _ _
    · rw [eval, e]; exact fun h => by cases h

theorem Stands.unique {c : Cls Ty Val} {world : Nat → Val} {s : St Ty Val} {v : Nat} {a b : Val}
    (d : Stands c world s v a) (d' : Stands c world s v b) : a = b := by
  induction d with
  | value h hf =>
    cases d' with
    | value h' hf' => rw [h] at h'; cases h'; rfl
    | user h' hf' => rw [h] at h'; cases h'; rw [hf] at hf'; cases hf'
    | chain h' hf' _ => rw [h] at h'; cases h'; rw [hf] at hf'; cases hf'
  | user h hf =>
    cases d' with
    | value h' hf' => rw [h] at h'; cases h'; rw [hf] at hf'; cases hf'
    | user h' hf' => rw [h] at h'; cases h'; rw [hf] at hf'; cases hf'; rfl
    | chain h' hf' _ => rw [h] at h'; cases h'; rw [hf] at hf'; cases hf'
  | chain h hf _ ih =>
    cases d' with
    | value h' hf' => rw [h] at h'; cases h'; rw [hf] at hf'; cases hf'
    | user h' hf' => rw [h] at h'; cases h'; rw [hf] at hf'; cases hf'
    | chain h' hf' hw => rw [h] at h'; cases h'; rw [hf] at hf'; cases hf'; exact ih hw

/-- Reading a variable: the value it stands for, with the marks, or undefined if it stands for none. -/
theorem eval_cases (c : Cls Ty Val) (world : Nat → Val) (s : St Ty Val) (v : Nat) :
    (∃ a s', Stands c world s v a ∧ Marks s v s' ∧ eval c world (depth s) s v = .ok (a, s')) ∨
      ((∀ a, ¬ Stands c world s v a) ∧ eval c world (depth s) s v = .ub) := by
  cases h : eval c world (depth s) s v with
  | ok r =>
    obtain ⟨a, s'⟩ := r
    obtain ⟨h1, h2⟩ := eval_spec c world _ _ _ _ _ h
    exact .inl ⟨a, s', h1, h2, rfl⟩
  | throw => exact absurd h (eval_not_throw c world _ _ _)
  | ub =>
    refine .inr ⟨fun a d => ?_, rfl⟩
    obtain ⟨n, hn, hd⟩ := d.depth_lt
    obtain ⟨r, e⟩ := eval_total c world (depth s) n s v (by unfold depth; omega) hd
    rw [h] at e; cases e

theorem dispatch_iff [DecidableEq Ty] (p : Ty → Bool) (k : Ty) : ∀ l : List Ty, dispatch p k l = true ↔ First p k l
  | [] => by simp [dispatch, First]
  | T :: l => by
    rw [dispatch]
    by_cases hp : p T = true
    · rw [if_pos hp, decide_eq_true_iff]
      constructor
      · rintro rfl; exact ⟨[], l, rfl, hp, by simp⟩
      · rintro ⟨pre, post, e, h1, h2⟩
        cases pre with
        | nil => simp at e; exact e.1.symm
        | cons a pre =>
          simp at e
          have := h2 a (by simp)
          rw [← e.1, hp] at this; cases this
    · rw [if_neg hp, dispatch_iff p k l]
      constructor
      · rintro ⟨pre, post, e, h1, h2⟩
        refine ⟨T :: pre, post, by simp [e], h1, fun a ha => ?_⟩
        rcases List.mem_cons.1 ha with rfl | ha
        · simpa using hp
        · exact h2 a ha
      · rintro ⟨pre, post, e, h1, h2⟩
        cases pre with
        | nil =>
          simp at e
          exact absurd (e.1 ▸ h1) hp
        | cons a pre =>
          simp at e
          exact ⟨pre, post, e.2, h1, fun b hb => h2 b (by simp [hb])⟩

/-! ## Calls -/

/-- The calls that are defined: on variables that are live, and reading one that stands for a value. -/
def Defined (c : Cls Ty Val) (world : Nat → Val) (s : St Ty Val) : Cmd Ty Val → Prop
  | .new _ _ => True
  | .copy v => ∃ a, Stands c world s v a
  | .assign v w => Live s v ∧ Live s w ∧ ((∀ T, HasType s v T → HasType s w T) → ∃ a, Stands c world s w a)
  | .moveAssign v w => Live s v ∧ Live s w
  | .chain v w => Live s v ∧ Live s w
  | .get v U => ∃ T, HasType s v T ∧ (First (c.castable U) T c.slots → ∃ a, Stands c world s v a)
  | .move v => Live s v
  | .setT v _ _ => Live s v
  | .setF v _ _ => Live s v
  | .type v => Live s v
  | .reset v => Live s v
  | .unmark v => Live s v
  | .mark v => Live s v
  | .destroy v => Live s v

theorem Stands.live {c : Cls Ty Val} {world : Nat → Val} {s : St Ty Val} {v : Nat} {a : Val}
    (d : Stands c world s v a) : Live s v := by
  cases d with
  | value h _ => exact ⟨_, h⟩
  | user h _ => exact ⟨_, h⟩
  | chain h _ _ => exact ⟨_, h⟩

theorem Marks.at {s s' : St Ty Val} {v u : Nat} (m : Marks s v s') {x : Vun Ty Val} (hx : s[u]? = some (some x)) :
    ∃ b, s'[u]? = some (some { x with read := b }) ∧ (b = true ↔ x.read = true ∨ Reach s v u) := by
  by_cases h : Reach s v u
  · refine ⟨true, ?_, by simp [h]⟩
    rw [m.2.1 u h, hx]; rfl
  · exact ⟨x.read, (m.2.2 u h).trans hx, by simp [h]⟩

theorem Marks.back {s s' : St Ty Val} {v u : Nat} (m : Marks s v s') {x' : Vun Ty Val} (hx : s'[u]? = some (some x')) :
    ∃ x, s[u]? = some (some x) := by
  by_cases h : Reach s v u
  · rw [m.2.1 u h] at hx
    cases e : s[u]? with
    | none => rw [e] at hx; cases hx
    | some o =>
      cases o with
      | none => rw [e] at hx; cases hx
      | some x => exact ⟨x, rfl⟩
  · exact ⟨x', (m.2.2 u h).symm.trans hx⟩

section
variable [DecidableEq Ty] {c : Cls Ty Val} {world : Nat → Val}

theorem hasType_iff {s : St Ty Val} {v : Nat} {x : Vun Ty Val} (h : s[v]? = some (some x)) {T : Ty} :
    HasType s v T ↔ x.k = T := by
  constructor
  · rintro ⟨y, hy, e⟩; rw [h] at hy; cases hy; exact e
  · intro e; exact ⟨x, h, e⟩

theorem used_iff {s : St Ty Val} {v : Nat} {x : Vun Ty Val} (h : s[v]? = some (some x)) :
    Used s v ↔ x.used = true := by
  constructor
  · rintro ⟨y, hy, e⟩; rw [h] at hy; cases hy; exact e
  · intro e; exact ⟨x, h, e⟩

/-- C36: a call is defined exactly on live variables that stand for values where one is read; else it is undefined.  No
other outcome exists: a rejected call returns to the caller by an exception. -/
theorem C36_defined (s : St Ty Val) (d : Cmd Ty Val) :
    (Defined c world s d → ∃ r, step c world s d = .ok r) ∧ (¬ Defined c world s d → step c world s d = .ub) := by
  have one : ∀ (v : Nat) (f : Vun Ty Val → Res (Out Ty Val × St Ty Val)), (∀ x, ∃ r, f x = .ok r) →
      (Live s v → ∃ r, (look s v >>= f) = .ok r) ∧ (¬ Live s v → (look s v >>= f) = .ub) := by
    intro v f hf
    rcases look_cases s v with ⟨x, hx, e⟩ | ⟨hn, e⟩
    · exact ⟨fun _ => by rw [e]; exact hf x, fun hn => absurd ⟨x, hx⟩ hn⟩
    · exact ⟨fun ⟨x, hx⟩ => absurd hx (hn x), fun _ => by rw [e]; rfl⟩
  have two : ∀ (v w : Nat) (f : Vun Ty Val → Vun Ty Val → Res (Out Ty Val × St Ty Val)), (∀ x y, ∃ r, f x y = .ok r) →
      (Live s v ∧ Live s w → ∃ r, (look s v >>= fun x => look s w >>= fun y => f x y) = .ok r) ∧
      (¬ (Live s v ∧ Live s w) → (look s v >>= fun x => look s w >>= fun y => f x y) = .ub) := by
    intro v w f hf
    rcases look_cases s v with ⟨x, hx, e⟩ | ⟨hn, e⟩
    · rcases look_cases s w with ⟨y, hy, e'⟩ | ⟨hn', e'⟩
      · exact ⟨fun _ => by rw [e, Res.ok_bind, e']; exact hf x y, fun hn => absurd ⟨⟨x, hx⟩, y, hy⟩ hn⟩
      · exact ⟨fun ⟨_, y, hy⟩ => absurd hy (hn' y), fun _ => by rw [e, Res.ok_bind, e']; rfl⟩
    · exact ⟨fun ⟨⟨x, hx⟩, _⟩ => absurd hx (hn x), fun _ => by rw [e]; rfl⟩
  cases d with
  | new U u =>
    refine ⟨fun _ => ?_, fun h => absurd trivial h⟩
    simp only [step]; split <;> exact ⟨_, rfl⟩
  | copy v =>
    simp only [step, Defined]
    rcases eval_cases c world s v with ⟨a, s', h1, _, e⟩ | ⟨h1, e⟩
    · obtain ⟨x, hx⟩ := h1.live
      exact ⟨fun _ => by rw [look_ok.2 hx, Res.ok_bind, e]; exact ⟨_, rfl⟩, fun hn => absurd ⟨a, h1⟩ hn⟩
    · refine ⟨fun ⟨a, ha⟩ => absurd ha (h1 a), fun _ => ?_⟩
      rw [e]
      rcases look_cases s v with ⟨x, hx, e'⟩ | ⟨_, e'⟩ <;> rw [e'] <;> rfl
  | move v => exact one v _ fun x => ⟨_, rfl⟩
  | assign v w =>
    simp only [step, Defined]
    rcases look_cases s v with ⟨x, hx, e⟩ | ⟨hn, e⟩
    · rcases look_cases s w with ⟨y, hy, e'⟩ | ⟨hn', e'⟩
      · rw [e, Res.ok_bind, e', Res.ok_bind]
        by_cases hk : x.k = y.k
        · rw [if_neg (by simp [hk])]
          rcases eval_cases c world s w with ⟨a, s', h1, m, e⟩ | ⟨h1, e⟩
          · obtain ⟨b, hb, _⟩ := m.at hx
            refine ⟨fun _ => ?_, fun hn => absurd ⟨⟨x, hx⟩, ⟨y, hy⟩, fun _ => ⟨a, h1⟩⟩ hn⟩
            rw [e, Res.ok_bind, look_ok.2 hb]; exact ⟨_, rfl⟩
          · refine ⟨fun ⟨_, _, h⟩ => ?_, fun _ => by rw [e]; rfl⟩
            obtain ⟨a, ha⟩ := h fun T hT => by
              rw [hasType_iff hx] at hT; rw [hasType_iff hy, ← hk]; exact hT
            exact absurd ha (h1 a)
        · rw [if_pos hk]
          refine ⟨fun _ => ⟨_, rfl⟩, fun hn => absurd ⟨⟨x, hx⟩, ⟨y, hy⟩, fun h => ?_⟩ hn⟩
          have := h x.k ((hasType_iff hx).2 rfl)
          exact absurd ((hasType_iff hy).1 this).symm hk
      · exact ⟨fun ⟨_, ⟨y, hy⟩, _⟩ => absurd hy (hn' y), fun _ => by rw [e, Res.ok_bind, e']; rfl⟩
    · exact ⟨fun ⟨⟨x, hx⟩, _⟩ => absurd hx (hn x), fun _ => by rw [e]; rfl⟩
  | moveAssign v w => exact two v w _ fun x y => by split_ifs <;> exact ⟨_, rfl⟩
  | setT v U u => exact one v _ fun x => by split_ifs <;> exact ⟨_, rfl⟩
  | setF v U g => exact one v _ fun x => by split_ifs <;> exact ⟨_, rfl⟩
  | chain v w => exact two v w _ fun x y => by split_ifs <;> exact ⟨_, rfl⟩
  | get v U =>
    simp only [step, Defined]
    rcases look_cases s v with ⟨x, hx, e⟩ | ⟨hn, e⟩
    · rw [e, Res.ok_bind]
      by_cases hd : dispatch (c.castable U) x.k c.slots = true
      · rw [if_pos hd]
        rw [dispatch_iff] at hd
        rcases eval_cases c world s v with ⟨a, s', h1, m, e⟩ | ⟨h1, e⟩
        · exact ⟨fun _ => by rw [e]; exact ⟨_, rfl⟩, fun hn => absurd ⟨x.k, (hasType_iff hx).2 rfl, fun _ => ⟨a, h1⟩⟩ hn⟩
        · refine ⟨fun ⟨T, hT, h⟩ => ?_, fun _ => by rw [e]; rfl⟩
          rw [hasType_iff hx] at hT; subst hT
          obtain ⟨a, ha⟩ := h hd
          exact absurd ha (h1 a)
      · rw [if_neg hd]
        rw [dispatch_iff] at hd
        exact ⟨fun _ => ⟨_, rfl⟩, fun hn => absurd ⟨x.k, (hasType_iff hx).2 rfl, fun h => absurd h hd⟩ hn⟩
    · exact ⟨fun ⟨T, ⟨x, hx, _⟩, _⟩ => absurd hx (hn x), fun _ => by rw [e]; rfl⟩
  | type v => exact one v _ fun x => ⟨_, rfl⟩
  | reset v => exact one v _ fun x => ⟨_, rfl⟩
  | unmark v => exact one v _ fun x => ⟨_, rfl⟩
  | mark v => exact one v _ fun x => by split_ifs <;> exact ⟨_, rfl⟩
  | destroy v => exact one v _ fun x => ⟨_, rfl⟩

/-- C36: a defined call throws exactly when it is rejected for its type, or because the variable was used, or read and
written; and then no variable changes, neither its value nor its marks. -/
theorem C36_rejected {s s' : St Ty Val} {d : Cmd Ty Val} {o : Out Ty Val} (h : step c world s d = .ok (o, s')) :
    (o = .threw ↔ Rejected c s d) ∧ (o = .threw → s' = s) := by
  cases d with
  | new U u =>
    simp only [step, place] at h
    split at h
    · rename_i T hT
      cases h
      have h1 := List.find?_some hT
      have h2 := List.mem_of_find?_eq_some hT
      refine ⟨⟨fun e => by (cases e), fun hr => ?_⟩, fun e => by (cases e)⟩
      rw [hr T h2] at h1; cases h1
    · rename_i hT
      cases h
      rw [List.find?_eq_none] at hT
      exact ⟨⟨fun _ T hT' => by simpa using hT T hT', fun _ => rfl⟩, fun _ => rfl⟩
  | copy v =>
    obtain ⟨x, h1, h2⟩ := Res.bind_eq_ok.1 h
    obtain ⟨r, h3, h4⟩ := Res.bind_eq_ok.1 h2
    cases h4
    exact ⟨⟨fun e => by (cases e), fun e => e.elim⟩, fun e => by (cases e)⟩
  | move v =>
    obtain ⟨x, h1, h2⟩ := Res.bind_eq_ok.1 h
    cases h2
    exact ⟨⟨fun e => by (cases e), fun e => e.elim⟩, fun e => by (cases e)⟩
  | assign v w =>
    obtain ⟨x, h1, h2⟩ := Res.bind_eq_ok.1 h
    obtain ⟨y, h3, h4⟩ := Res.bind_eq_ok.1 h2
    rw [look_ok] at h1 h3
    have key : Rejected c s (.assign v w) ↔ x.k ≠ y.k := by
      constructor
      · rintro ⟨T, T', hT, hT', hn⟩
        rw [(hasType_iff h1).1 hT, (hasType_iff h3).1 hT']; exact hn
      · exact fun hn => ⟨_, _, (hasType_iff h1).2 rfl, (hasType_iff h3).2 rfl, hn⟩
    rw [key]
    by_cases hk : x.k ≠ y.k
    · rw [if_pos hk] at h4; cases h4
      exact ⟨⟨fun _ => hk, fun _ => rfl⟩, fun _ => rfl⟩
    · rw [if_neg hk] at h4
      obtain ⟨r, h5, h6⟩ := Res.bind_eq_ok.1 h4
      obtain ⟨x', h7, h8⟩ := Res.bind_eq_ok.1 h6
      cases h8
      exact ⟨⟨fun e => by (cases e), fun e => absurd e hk⟩, fun e => by (cases e)⟩
  | moveAssign v w =>
    obtain ⟨x, h1, h2⟩ := Res.bind_eq_ok.1 h
    obtain ⟨y, h3, h4⟩ := Res.bind_eq_ok.1 h2
    rw [look_ok] at h1 h3
    have key : Rejected c s (.moveAssign v w) ↔ x.k ≠ y.k := by
      constructor
      · rintro ⟨T, T', hT, hT', hn⟩
        rw [(hasType_iff h1).1 hT, (hasType_iff h3).1 hT']; exact hn
      · exact fun hn => ⟨_, _, (hasType_iff h1).2 rfl, (hasType_iff h3).2 rfl, hn⟩
    rw [key]
    by_cases hk : x.k ≠ y.k
    · rw [if_pos hk] at h4; cases h4
      exact ⟨⟨fun _ => hk, fun _ => rfl⟩, fun _ => rfl⟩
    · rw [if_neg hk] at h4
      split_ifs at h4 <;> cases h4 <;> exact ⟨⟨fun e => by (cases e), fun e => absurd e hk⟩, fun e => by (cases e)⟩
  | setT v U u =>
    obtain ⟨x, h1, h2⟩ := Res.bind_eq_ok.1 h
    rw [look_ok] at h1
    have key : Rejected c s (.setT v U u) ↔ x.used = true ∨ ¬ dispatch (c.setable U) x.k c.slots = true := by
      rw [dispatch_iff, ← used_iff h1]
      refine or_congr Iff.rfl ⟨?_, fun hn => ⟨_, (hasType_iff h1).2 rfl, hn⟩⟩
      rintro ⟨T, hT, hn⟩
      rw [(hasType_iff h1).1 hT]; exact hn
    rw [key]
    split_ifs at h2 with h5 h6 <;> cases h2
    · exact ⟨⟨fun _ => .inl h5, fun _ => rfl⟩, fun _ => rfl⟩
    · exact ⟨⟨fun e => by (cases e), fun e => by simp_all⟩, fun e => by (cases e)⟩
    · exact ⟨⟨fun _ => .inr h6, fun _ => rfl⟩, fun _ => rfl⟩
  | setF v U g =>
    obtain ⟨x, h1, h2⟩ := Res.bind_eq_ok.1 h
    rw [look_ok] at h1
    have key : Rejected c s (.setF v U g) ↔ x.used = true ∨ ¬ dispatch (c.setable U) x.k c.slots = true := by
      rw [dispatch_iff, ← used_iff h1]
      refine or_congr Iff.rfl ⟨?_, fun hn => ⟨_, (hasType_iff h1).2 rfl, hn⟩⟩
      rintro ⟨T, hT, hn⟩
      rw [(hasType_iff h1).1 hT]; exact hn
    rw [key]
    split_ifs at h2 with h5 h6 <;> cases h2
    · exact ⟨⟨fun _ => .inl h5, fun _ => rfl⟩, fun _ => rfl⟩
    · exact ⟨⟨fun e => by (cases e), fun e => by simp_all⟩, fun e => by (cases e)⟩
    · exact ⟨⟨fun _ => .inr h6, fun _ => rfl⟩, fun _ => rfl⟩
  | chain v w =>
    obtain ⟨x, h1, h2⟩ := Res.bind_eq_ok.1 h
    obtain ⟨y, h3, h4⟩ := Res.bind_eq_ok.1 h2
    rw [look_ok] at h1 h3
    have key : Rejected c s (.chain v w) ↔ x.used = true ∨ x.k ≠ y.k := by
      rw [← used_iff h1]
      constructor
      · rintro ⟨_, hu | ⟨T, T', hT, hT', hn⟩⟩
        · exact .inl hu
        · right; rw [(hasType_iff h1).1 hT, (hasType_iff h3).1 hT']; exact hn
      · rintro (hu | hn)
        · exact ⟨⟨y, h3⟩, .inl hu⟩
        · exact ⟨⟨y, h3⟩, .inr ⟨_, _, (hasType_iff h1).2 rfl, (hasType_iff h3).2 rfl, hn⟩⟩
    rw [key]
    split_ifs at h4 with h5 h6 <;> cases h4
    · exact ⟨⟨fun _ => .inl h5, fun _ => rfl⟩, fun _ => rfl⟩
    · exact ⟨⟨fun _ => .inr h6, fun _ => rfl⟩, fun _ => rfl⟩
    · exact ⟨⟨fun e => by (cases e), fun e => by simp_all⟩, fun e => by (cases e)⟩
  | get v U =>
    obtain ⟨x, h1, h2⟩ := Res.bind_eq_ok.1 h
    rw [look_ok] at h1
    have key : Rejected c s (.get v U) ↔ ¬ dispatch (c.castable U) x.k c.slots = true := by
      rw [dispatch_iff]
      refine ⟨?_, fun hn => ⟨_, (hasType_iff h1).2 rfl, hn⟩⟩
      rintro ⟨T, hT, hn⟩
      rw [(hasType_iff h1).1 hT]; exact hn
    rw [key]
    by_cases hd : dispatch (c.castable U) x.k c.slots = true
    · rw [if_pos hd] at h2
      obtain ⟨r, h5, h6⟩ := Res.bind_eq_ok.1 h2
      cases h6
      exact ⟨⟨fun e => by (cases e), fun e => absurd hd e⟩, fun e => by (cases e)⟩
    · rw [if_neg hd] at h2
      cases h2
      exact ⟨⟨fun _ => hd, fun _ => rfl⟩, fun _ => rfl⟩
  | type v =>
    obtain ⟨x, h1, h2⟩ := Res.bind_eq_ok.1 h
    cases h2
    exact ⟨⟨fun e => by (cases e), fun e => e.elim⟩, fun e => by (cases e)⟩
  | reset v =>
    obtain ⟨x, h1, h2⟩ := Res.bind_eq_ok.1 h
    cases h2
    exact ⟨⟨fun e => by (cases e), fun e => e.elim⟩, fun e => by (cases e)⟩
  | unmark v =>
    obtain ⟨x, h1, h2⟩ := Res.bind_eq_ok.1 h
    cases h2
    exact ⟨⟨fun e => by (cases e), fun e => e.elim⟩, fun e => by (cases e)⟩
  | mark v =>
    obtain ⟨x, h1, h2⟩ := Res.bind_eq_ok.1 h
    rw [look_ok] at h1
    have key : Rejected c s (.mark v) ↔ (x.written && (x.used || x.read)) = true := by
      constructor
      · rintro ⟨y, hy, e⟩
        rw [h1] at hy; cases hy; simp; exact e
      · intro e; simp at e; exact ⟨x, h1, e⟩
    rw [key]
    split_ifs at h2 with h5 h6 <;> cases h2
    · exact ⟨⟨fun _ => h5, fun _ => rfl⟩, fun _ => rfl⟩
    · exact ⟨⟨fun e => by (cases e), fun e => absurd e h5⟩, fun e => by (cases e)⟩
    · exact ⟨⟨fun e => by (cases e), fun e => absurd e h5⟩, fun e => by (cases e)⟩
  | destroy v =>
    obtain ⟨x, h1, h2⟩ := Res.bind_eq_ok.1 h
    cases h2
    exact ⟨⟨fun e => by (cases e), fun e => e.elim⟩, fun e => by (cases e)⟩

/-- C36: reading returns the value the variable stands for, as the type asked for. -/
theorem C36_get {s s' : St Ty Val} {v : Nat} {U T : Ty} {o : Out Ty Val} (hT : HasType s v T)
    (hU : First (c.castable U) T c.slots) (h : step c world s (.get v U) = .ok (o, s')) :
    ∃ a, Stands c world s v a ∧ o = .val (c.conv T U a) ∧ Marks s v s' := by
  obtain ⟨x, h1, h2⟩ := Res.bind_eq_ok.1 h
  rw [look_ok] at h1
  rw [hasType_iff h1] at hT; subst hT
  rw [if_pos ((dispatch_iff _ _ _).2 hU)] at h2
  obtain ⟨r, h5, h6⟩ := Res.bind_eq_ok.1 h2
  cases h6
  obtain ⟨a, m⟩ := eval_spec c world _ _ _ _ _ h5
  exact ⟨r.1, a, rfl, m⟩

end

/-! ## What calls do to values and types -/

/-- The variables whose value a call may change. -/
def Writes : Cmd Ty Val → Nat → Prop
  | .move v, z => z = v
  | .assign v _, z => z = v
  | .moveAssign v w, z => z = v ∨ z = w
  | .setT v _ _, z => z = v
  | .setF v _ _, z => z = v
  | .chain v _, z => z = v
  | .destroy v, z => z = v
  | _, _ => False

theorem Stands.frame {c : Cls Ty Val} {world : Nat → Val} {s s' : St Ty Val} {v : Nat} {a : Val} (d : Stands c world s v a)
    (h : ∀ (z : Nat) (x : Vun Ty Val), Reach s v z → s[z]? = some (some x) →
      ∃ x', s'[z]? = some (some x') ∧ x'.k = x.k ∧ x'.t = x.t ∧ x'.f = x.f) : Stands c world s' v a := by
  induction d with
  | value hx hf =>
    obtain ⟨x', e, _, h2, h3⟩ := h _ _ (.here hx) hx
    rw [← h2]; exact .value e (h3.trans hf)
  | user hx hf =>
    obtain ⟨x', e, h1, _, h3⟩ := h _ _ (.here hx) hx
    rw [← h1]; exact .user e (h3.trans hf)
  | chain hx hf _ ih =>
    obtain ⟨x', e, _, _, h3⟩ := h _ _ (.here hx) hx
    exact .chain e (h3.trans hf) (ih fun z x hz => h z x (.next hx hf hz))

theorem StandsIn.reach {s : St Ty Val} {w v : Nat} (d : Reach s w v) : ∀ n, StandsIn s n w → ∃ m ≤ n, StandsIn s m v := by
  induction d with
  | here _ => exact fun n h => ⟨n, Nat.le_refl n, h⟩
  | next hx hf _ ih =>
    intro n h
    obtain ⟨m, rfl, hm⟩ := (standsIn_chain hx hf).1 h
    obtain ⟨k, hk, h'⟩ := ih m hm
    exact ⟨k, by omega, h'⟩

theorem Stands.acyclic {c : Cls Ty Val} {world : Nat → Val} {s : St Ty Val} {v w : Nat} {a : Val} {x : Vun Ty Val}
    (d : Stands c world s v a) (hx : s[v]? = some (some x)) (hf : x.f = some (.chain w)) : ¬ Reach s w v := by
  intro hr
  obtain ⟨n, hn⟩ := d.depth
  obtain ⟨m, rfl, hm⟩ := (standsIn_chain hx hf).1 hn
  obtain ⟨k, hk, h'⟩ := hm.reach hr
  have := standsIn_unique _ _ _ hn h'
  omega

section
variable [DecidableEq Ty] {c : Cls Ty Val} {world : Nat → Val}

theorem eval_at {s : St Ty Val} {v u : Nat} {r : Val × St Ty Val} (h : eval c world (depth s) s v = .ok r) {x : Vun Ty Val}
    (hx : s[u]? = some (some x)) : ∃ b, r.2[u]? = some (some { x with read := b }) := by
  obtain ⟨_, m⟩ := eval_spec c world _ _ _ _ _ h
  obtain ⟨b, hb, _⟩ := m.at hx
  exact ⟨b, hb⟩

theorem eval_len {s : St Ty Val} {v : Nat} {r : Val × St Ty Val} (h : eval c world (depth s) s v = .ok r) :
    r.2.length = s.length := (eval_spec c world _ _ _ _ _ h).2.1

theorem set_at {s : St Ty Val} {v u : Nat} {x y : Vun Ty Val} {o : Option (Vun Ty Val)} (hx : s[v]? = some (some x))
    (hy : s[u]? = some (some y)) (h : u ≠ v ∨ ∃ y', o = some y' ∧ (u = v → y'.k = y.k)) :
    ∃ y', (s.set v o)[u]? = some (some y') ∧ y'.k = y.k ∧ (u ≠ v → y' = y) := by
  by_cases e : u = v
  · subst e
    rcases h with h | ⟨y', rfl, h⟩
    · exact absurd rfl h
    · exact ⟨y', List.getElem?_set_self (lt_of_some hx), h rfl, fun h => absurd rfl h⟩
  · exact ⟨y, by rw [List.getElem?_set_ne (Ne.symm e)]; exact hy, rfl, fun _ => rfl⟩

/-- What every call leaves of a live variable: its type, and, unless the call writes it, where its value comes from. -/
theorem step_keeps {s s' : St Ty Val} {d : Cmd Ty Val} {o : Out Ty Val} (h : step c world s d = .ok (o, s')) {u : Nat}
    {x : Vun Ty Val} (hx : s[u]? = some (some x)) (hd : d ≠ .destroy u) :
    ∃ x', s'[u]? = some (some x') ∧ x'.k = x.k ∧ (¬ Writes d u → x'.t = x.t ∧ x'.f = x.f) := by
  have app : ∀ (l : St Ty Val) (y : Vun Ty Val) (z : Option (Vun Ty Val)), l[u]? = some (some y) →
      (l ++ [z])[u]? = some (some y) := by
    intro l y z hy
    rw [List.getElem?_append_left (lt_of_some hy)]; exact hy
  cases d with
  | new U y =>
    simp only [step] at h
    split at h <;> cases h
    · exact ⟨x, app _ _ _ hx, rfl, fun _ => ⟨rfl, rfl⟩⟩
    · exact ⟨x, hx, rfl, fun _ => ⟨rfl, rfl⟩⟩
  | copy v =>
    obtain ⟨y, h1, h2⟩ := Res.bind_eq_ok.1 h
    obtain ⟨r, h3, h4⟩ := Res.bind_eq_ok.1 h2
    cases h4
    obtain ⟨b, hb⟩ := eval_at h3 hx
    exact ⟨_, app _ _ _ hb, rfl, fun _ => ⟨rfl, rfl⟩⟩
  | move v =>
    obtain ⟨y, h1, h2⟩ := Res.bind_eq_ok.1 h
    rw [look_ok] at h1
    cases h2
    obtain ⟨y', e, hk, hn⟩ := set_at (o := some { y with f := none }) h1 hx
      (.inr ⟨_, rfl, fun e => by subst e; rw [h1] at hx; cases hx; rfl⟩)
    exact ⟨y', app _ _ _ e, hk, fun hw => by rw [hn hw]; exact ⟨rfl, rfl⟩⟩
  | assign v w =>
    obtain ⟨y, h1, h2⟩ := Res.bind_eq_ok.1 h
    obtain ⟨z, h3, h4⟩ := Res.bind_eq_ok.1 h2
    split_ifs at h4 with hk
    · cases h4; exact ⟨x, hx, rfl, fun _ => ⟨rfl, rfl⟩⟩
    · obtain ⟨r, h5, h6⟩ := Res.bind_eq_ok.1 h4
      obtain ⟨y', h7, h8⟩ := Res.bind_eq_ok.1 h6
      rw [look_ok] at h7
      cases h8
      obtain ⟨b, hb⟩ := eval_at h5 hx
      obtain ⟨q, e, hk, hn⟩ := set_at (o := some { y' with written := true, t := r.1, f := none }) h7 hb
        (.inr ⟨_, rfl, fun e => by subst e; rw [h7] at hb; cases hb; rfl⟩)
      exact ⟨q, e, hk, fun hw => by rw [hn hw]; exact ⟨rfl, rfl⟩⟩
  | moveAssign v w =>
    obtain ⟨y, h1, h2⟩ := Res.bind_eq_ok.1 h
    obtain ⟨z, h3, h4⟩ := Res.bind_eq_ok.1 h2
    rw [look_ok] at h1 h3
    split_ifs at h4 with hk hvw <;> cases h4
    · exact ⟨x, hx, rfl, fun _ => ⟨rfl, rfl⟩⟩
    · subst hvw
      obtain ⟨q, e, hk, hn⟩ := set_at (o := some { y with written := true }) h1 hx
        (.inr ⟨_, rfl, fun e => by subst e; rw [h1] at hx; cases hx; rfl⟩)
      exact ⟨q, e, hk, fun hw => by rw [hn fun e => hw (.inl e)]; exact ⟨rfl, rfl⟩⟩
    · obtain ⟨q, e, hk, hn⟩ := set_at (o := some { y with written := true, t := z.t, f := z.f }) h1 hx
        (.inr ⟨_, rfl, fun e => by subst e; rw [h1] at hx; cases hx; rfl⟩)
      have h3' : (s.set v (some { y with written := true, t := z.t, f := z.f }))[w]? = some (some z) := by
        rw [List.getElem?_set_ne hvw]; exact h3
      obtain ⟨q', e', hk', hn'⟩ := set_at (o := some { z with f := none }) h3' e
        (.inr ⟨_, rfl, fun e' => by subst e'; rw [h3'] at e; cases e; rfl⟩)
      exact ⟨q', e', hk'.trans hk, fun hw => by
        rw [hn' fun e => hw (.inr e), hn fun e => hw (.inl e)]; exact ⟨rfl, rfl⟩⟩
  | setT v U z =>
    obtain ⟨y, h1, h2⟩ := Res.bind_eq_ok.1 h
    rw [look_ok] at h1
    split_ifs at h2 with h3 h4 <;> cases h2
    · exact ⟨x, hx, rfl, fun _ => ⟨rfl, rfl⟩⟩
    · obtain ⟨q, e, hk, hn⟩ := set_at (o := some { y with written := true, t := c.conv U y.k z, f := none }) h1 hx
        (.inr ⟨_, rfl, fun e => by subst e; rw [h1] at hx; cases hx; rfl⟩)
      exact ⟨q, e, hk, fun hw => by rw [hn hw]; exact ⟨rfl, rfl⟩⟩
    · exact ⟨x, hx, rfl, fun _ => ⟨rfl, rfl⟩⟩
  | setF v U g =>
    obtain ⟨y, h1, h2⟩ := Res.bind_eq_ok.1 h
    rw [look_ok] at h1
    split_ifs at h2 with h3 h4 <;> cases h2
    · exact ⟨x, hx, rfl, fun _ => ⟨rfl, rfl⟩⟩
    · obtain ⟨q, e, hk, hn⟩ := set_at (o := some { y with written := true, f := some (.user U g) }) h1 hx
        (.inr ⟨_, rfl, fun e => by subst e; rw [h1] at hx; cases hx; rfl⟩)
      exact ⟨q, e, hk, fun hw => by rw [hn hw]; exact ⟨rfl, rfl⟩⟩
    · exact ⟨x, hx, rfl, fun _ => ⟨rfl, rfl⟩⟩
  | chain v w =>
    obtain ⟨y, h1, h2⟩ := Res.bind_eq_ok.1 h
    obtain ⟨z, h3, h4⟩ := Res.bind_eq_ok.1 h2
    rw [look_ok] at h1
    split_ifs at h4 with h5 h6 <;> cases h4
    · exact ⟨x, hx, rfl, fun _ => ⟨rfl, rfl⟩⟩
    · exact ⟨x, hx, rfl, fun _ => ⟨rfl, rfl⟩⟩
    · obtain ⟨q, e, hk, hn⟩ := set_at (o := some { y with written := true, f := some (.chain w) }) h1 hx
        (.inr ⟨_, rfl, fun e => by subst e; rw [h1] at hx; cases hx; rfl⟩)
      exact ⟨q, e, hk, fun hw => by rw [hn hw]; exact ⟨rfl, rfl⟩⟩
  | get v U =>
    obtain ⟨y, h1, h2⟩ := Res.bind_eq_ok.1 h
    split_ifs at h2 with h3
    · obtain ⟨r, h5, h6⟩ := Res.bind_eq_ok.1 h2
      cases h6
      obtain ⟨b, hb⟩ := eval_at h5 hx
      exact ⟨_, hb, rfl, fun _ => ⟨rfl, rfl⟩⟩
    · cases h2; exact ⟨x, hx, rfl, fun _ => ⟨rfl, rfl⟩⟩
  | type v =>
    obtain ⟨y, h1, h2⟩ := Res.bind_eq_ok.1 h
    cases h2; exact ⟨x, hx, rfl, fun _ => ⟨rfl, rfl⟩⟩
  | reset v =>
    obtain ⟨y, h1, h2⟩ := Res.bind_eq_ok.1 h
    rw [look_ok] at h1
    cases h2
    by_cases e : u = v
    · subst e; rw [h1] at hx; cases hx
      exact ⟨_, List.getElem?_set_self (lt_of_some h1), rfl, fun _ => ⟨rfl, rfl⟩⟩
    · exact ⟨x, by rw [List.getElem?_set_ne (Ne.symm e)]; exact hx, rfl, fun _ => ⟨rfl, rfl⟩⟩
  | unmark v =>
    obtain ⟨y, h1, h2⟩ := Res.bind_eq_ok.1 h
    rw [look_ok] at h1
    cases h2
    by_cases e : u = v
    · subst e; rw [h1] at hx; cases hx
      exact ⟨_, List.getElem?_set_self (lt_of_some h1), rfl, fun _ => ⟨rfl, rfl⟩⟩
    · exact ⟨x, by rw [List.getElem?_set_ne (Ne.symm e)]; exact hx, rfl, fun _ => ⟨rfl, rfl⟩⟩
  | mark v =>
    obtain ⟨y, h1, h2⟩ := Res.bind_eq_ok.1 h
    rw [look_ok] at h1
    split_ifs at h2 with h3 h4 <;> cases h2
    · exact ⟨x, hx, rfl, fun _ => ⟨rfl, rfl⟩⟩
    · by_cases e : u = v
      · subst e; rw [h1] at hx; cases hx
        exact ⟨_, List.getElem?_set_self (lt_of_some h1), rfl, fun _ => ⟨rfl, rfl⟩⟩
      · exact ⟨x, by rw [List.getElem?_set_ne (Ne.symm e)]; exact hx, rfl, fun _ => ⟨rfl, rfl⟩⟩
    · exact ⟨x, hx, rfl, fun _ => ⟨rfl, rfl⟩⟩
  | destroy v =>
    obtain ⟨y, h1, h2⟩ := Res.bind_eq_ok.1 h
    cases h2
    have e : u ≠ v := fun e => hd (by rw [e])
    exact ⟨x, by rw [List.getElem?_set_ne (Ne.symm e)]; exact hx, rfl, fun _ => ⟨rfl, rfl⟩⟩

/-- C36: the type of a variable is the same after every call, as long as it lives. -/
theorem C36_type {s s' : St Ty Val} {d : Cmd Ty Val} {o : Out Ty Val} (h : step c world s d = .ok (o, s')) {u : Nat}
    {T : Ty} (hT : HasType s u T) (hd : d ≠ .destroy u) : HasType s' u T := by
  obtain ⟨x, hx, e⟩ := hT
  obtain ⟨x', hx', e', _⟩ := step_keeps h hx hd
  exact ⟨x', hx', e'.trans e⟩

/-- C36: over a history of calls that do not destroy the variable too. -/
theorem C36_type_history : ∀ (ds : List (Cmd Ty Val)) {s s' : St Ty Val} {os : List (Out Ty Val)},
    run c world s ds = .ok (os, s') → ∀ {u : Nat} {T : Ty}, HasType s u T → .destroy u ∉ ds → HasType s' u T
  | [], s, s', os, h, u, T, hT, _ => by cases h; exact hT
  | d :: ds, s, s', os, h, u, T, hT, hn => by
    obtain ⟨r, h1, h2⟩ := Res.bind_eq_ok.1 h
    obtain ⟨t, h3, h4⟩ := Res.bind_eq_ok.1 h2
    cases h4
    refine C36_type_history ds h3 (C36_type h1 hT fun e => hn ?_) fun e => hn (List.mem_cons_of_mem _ e)
    rw [e]; exact List.mem_cons_self

/-- C36: a call changes the value of no variable except those it writes and those chained to them. -/
theorem C36_others {s s' : St Ty Val} {d : Cmd Ty Val} {o : Out Ty Val} (h : step c world s d = .ok (o, s')) {u : Nat}
    {a : Val} (hu : Stands c world s u a) (hw : ∀ z, Reach s u z → ¬ Writes d z) : Stands c world s' u a :=
  hu.frame fun z x hz hx => by
    obtain ⟨x', hx', hk, ht⟩ := step_keeps h hx fun e => hw z hz (by subst e; rfl)
    exact ⟨x', hx', hk, ht (hw z hz)⟩

/-- C36: `get_type` returns the type. -/
theorem C36_get_type {s s' : St Ty Val} {v : Nat} {T : Ty} {o : Out Ty Val} (hT : HasType s v T)
    (h : step c world s (.type v) = .ok (o, s')) : o = .type T ∧ s' = s := by
  obtain ⟨y, h1, h2⟩ := Res.bind_eq_ok.1 h
  cases h2
  rw [look_ok] at h1
  rw [hasType_iff h1] at hT
  rw [hT]; exact ⟨rfl, rfl⟩

/-- C36: a new variable has the first type its value can be stored as, and stands for that value. -/
theorem C36_new {s s' : St Ty Val} {U : Ty} {u : Val} (h : step c world s (.new U u) = .ok (.done, s')) :
    ∃ T, First (c.setable U) T c.slots ∧ HasType s' s.length T ∧ Stands c world s' s.length (c.conv U T u) := by
  simp only [step, place] at h
  split at h
  · rename_i T hT
    cases h
    obtain ⟨hp, pre, post, e, hn⟩ := List.find?_eq_some_iff_append.1 hT
    have e' : ∀ z : Option (Vun Ty Val), (s ++ [z])[s.length]? = some z := fun z => by simp
    refine ⟨T, ⟨pre, post, e, hp, fun T hT => by simpa using hn T hT⟩, ⟨_, e' _, rfl⟩, ?_⟩
    exact .value (x := ⟨T, c.conv U T u, none, false, false, false⟩) (e' _) rfl
  · cases h

/-- C36: a copy has the type of the original and the value it stood for, and no function. -/
theorem C36_copy {s s' : St Ty Val} {v : Nat} {o : Out Ty Val} (h : step c world s (.copy v) = .ok (o, s')) :
    ∃ a T, HasType s v T ∧ Stands c world s v a ∧ HasType s' s.length T ∧ Stands c world s' s.length a ∧
      ∀ z, Reach s' s.length z → z = s.length := by
  obtain ⟨y, h1, h2⟩ := Res.bind_eq_ok.1 h
  obtain ⟨r, h3, h4⟩ := Res.bind_eq_ok.1 h2
  cases h4
  rw [look_ok] at h1
  obtain ⟨ha, m⟩ := eval_spec c world _ _ _ _ _ h3
  have hl := eval_len h3
  have e : (r.2 ++ [some ⟨y.k, r.1, none, false, true, false⟩])[s.length]? =
      some (some (⟨y.k, r.1, none, false, true, false⟩ : Vun Ty Val)) := by rw [← hl]; simp
  refine ⟨r.1, y.k, (hasType_iff h1).2 rfl, ha, ⟨_, e, rfl⟩, .value e rfl, fun z hz => ?_⟩
  exact ((reach_iff_self e (fun w => by simp)).1 hz)

/-- C36: what is moved into a new variable is what the old one stood for, even if that changes later; the old one is left
with its own value. -/
theorem C36_move {s s' : St Ty Val} {v : Nat} {o : Out Ty Val} (h : step c world s (.move v) = .ok (o, s')) :
    (∀ T, HasType s v T → HasType s' s.length T) ∧ (∀ a, Stands c world s v a → Stands c world s' s.length a) ∧
      (∀ z, Reach s' v z → z = v) := by
  obtain ⟨y, h1, h2⟩ := Res.bind_eq_ok.1 h
  cases h2
  rw [look_ok] at h1
  have e : (s.set v (some { y with f := none }) ++ [some ⟨y.k, y.t, y.f, false, true, false⟩])[s.length]? =
      some (some (⟨y.k, y.t, y.f, false, true, false⟩ : Vun Ty Val)) := by simp
  have hv : v < s.length := lt_of_some h1
  have e' : (s.set v (some { y with f := none }) ++ [some ⟨y.k, y.t, y.f, false, true, false⟩])[v]? =
      some (some { y with f := none }) := by
    rw [List.getElem?_append_left (by simpa using hv), List.getElem?_set_self hv]
  refine ⟨fun T hT => ⟨_, e, (hasType_iff h1).1 hT⟩, fun a ha => ?_, fun z hz => (reach_iff_self e' (fun w => by simp)).1 hz⟩
  have ha' := ha
  cases ha with
  | value hx hf => rw [h1] at hx; cases hx; exact .value (x := ⟨y.k, y.t, y.f, false, true, false⟩) e hf
  | user hx hf => rw [h1] at hx; cases hx; exact .user (x := ⟨y.k, y.t, y.f, false, true, false⟩) e hf
  | chain hx hf hw =>
    rw [h1] at hx; cases hx
    refine .chain e hf ?_
    have hac := ha'.acyclic h1 hf
    exact C36_others h hw fun z hz hz' => by cases hz'; exact hac hz

/-- C36: after an accepted assignment the variable stands for the value the other one stood for. -/
theorem C36_assign {s s' : St Ty Val} {v w : Nat} (h : step c world s (.assign v w) = .ok (.done, s')) :
    ∃ a, Stands c world s w a ∧ Stands c world s' v a ∧ ∀ z, Reach s' v z → z = v := by
  obtain ⟨y, h1, h2⟩ := Res.bind_eq_ok.1 h
  obtain ⟨z, h3, h4⟩ := Res.bind_eq_ok.1 h2
  split_ifs at h4 with hk
  · cases h4
  obtain ⟨r, h5, h6⟩ := Res.bind_eq_ok.1 h4
  obtain ⟨y', h7, h8⟩ := Res.bind_eq_ok.1 h6
  rw [look_ok] at h7
  cases h8
  obtain ⟨ha, m⟩ := eval_spec c world _ _ _ _ _ h5
  have e : (r.2.set v (some { y' with written := true, t := r.1, f := none }))[v]? =
      some (some { y' with written := true, t := r.1, f := none }) := List.getElem?_set_self (lt_of_some h7)
  exact ⟨r.1, ha, .value (x := { y' with written := true, t := r.1, f := none }) e rfl,
    fun z hz => (reach_iff_self e (fun w => by simp)).1 hz⟩

/-- C36: after an accepted move assignment the variable stands for what the other one stood for, unless that one depended on
it; the other one is left with its own value. -/
theorem C36_move_assign {s s' : St Ty Val} {v w : Nat} (h : step c world s (.moveAssign v w) = .ok (.done, s'))
    (hvw : v ≠ w) : (∀ a, ¬ Reach s w v → Stands c world s w a → Stands c world s' v a) ∧ ∀ z, Reach s' w z → z = w := by
  obtain ⟨x, h1, h2⟩ := Res.bind_eq_ok.1 h
  obtain ⟨y, h3, h4⟩ := Res.bind_eq_ok.1 h2
  rw [look_ok] at h1 h3
  split_ifs at h4 with hk <;> cases h4
  have e : ((s.set v (some { x with written := true, t := y.t, f := y.f })).set w (some { y with f := none }))[v]? =
      some (some { x with written := true, t := y.t, f := y.f }) := by
    rw [List.getElem?_set_ne (Ne.symm hvw), List.getElem?_set_self (lt_of_some h1)]
  have e' : ((s.set v (some { x with written := true, t := y.t, f := y.f })).set w (some { y with f := none }))[w]? =
      some (some { y with f := none }) := List.getElem?_set_self (by rw [List.length_set]; exact lt_of_some h3)
  refine ⟨fun a hw ha => ?_, fun z hz => (reach_iff_self e' (fun w => by simp)).1 hz⟩
  have ha' := ha
  cases ha with
  | value hx hf =>
    rw [h3] at hx; cases hx
    exact .value (x := { x with written := true, t := y.t, f := y.f }) e hf
  | @user _ q U g hx hf =>
    rw [h3] at hx; cases hx
    have := Stands.user (c := c) (world := world) (x := { x with written := true, t := y.t, f := y.f }) e hf
    have hk' : x.k = y.k := by simpa using hk
    dsimp only at this
    rw [hk'] at this
    simpa only [hk'] using this
  | chain hx hf hu =>
    rw [h3] at hx; cases hx
    refine .chain e hf ?_
    have hac := ha'.acyclic h3 hf
    refine C36_others h hu fun z hz hz' => ?_
    rcases hz' with rfl | rfl
    · exact hw (.next h3 hf hz)
    · exact hac hz

/-- C36: after an accepted assignment of a value the variable stands for it, and no longer for a function. -/
theorem C36_set {s s' : St Ty Val} {v : Nat} {U T : Ty} {u : Val} (hT : HasType s v T)
    (h : step c world s (.setT v U u) = .ok (.done, s')) :
    Stands c world s' v (c.conv U T u) ∧ ∀ z, Reach s' v z → z = v := by
  obtain ⟨y, h1, h2⟩ := Res.bind_eq_ok.1 h
  rw [look_ok] at h1
  rw [hasType_iff h1] at hT; subst hT
  split_ifs at h2 with h3 h4 <;> cases h2
  have e : (s.set v (some { y with written := true, t := c.conv U y.k u, f := none }))[v]? =
      some (some { y with written := true, t := c.conv U y.k u, f := none }) := List.getElem?_set_self (lt_of_some h1)
  exact ⟨.value (x := { y with written := true, t := c.conv U y.k u, f := none }) e rfl,
    fun z hz => (reach_iff_self e (fun w => by simp)).1 hz⟩

/-- C36: after an accepted assignment of a function the variable stands for what the function returns. -/
theorem C36_set_function {s s' : St Ty Val} {v : Nat} {U T : Ty} {g : Nat} (hT : HasType s v T)
    (h : step c world s (.setF v U g) = .ok (.done, s')) :
    Stands c world s' v (c.conv U T (world g)) ∧ ∀ z, Reach s' v z → z = v := by
  obtain ⟨y, h1, h2⟩ := Res.bind_eq_ok.1 h
  rw [look_ok] at h1
  rw [hasType_iff h1] at hT; subst hT
  split_ifs at h2 with h3 h4 <;> cases h2
  have e : (s.set v (some { y with written := true, f := some (.user U g) }))[v]? =
      some (some { y with written := true, f := some (.user U g) }) := List.getElem?_set_self (lt_of_some h1)
  exact ⟨.user (x := { y with written := true, f := some (.user U g) }) e rfl,
    fun z hz => (reach_iff_self e (fun w => by simp)).1 hz⟩

theorem chain_state {s s' : St Ty Val} {v w : Nat} (h : step c world s (.chain v w) = .ok (.done, s')) :
    ∃ x, s[v]? = some (some x) ∧ s' = s.set v (some { x with written := true, f := some (.chain w) }) := by
  obtain ⟨y, h1, h2⟩ := Res.bind_eq_ok.1 h
  obtain ⟨z, h3, h4⟩ := Res.bind_eq_ok.1 h2
  rw [look_ok] at h1
  split_ifs at h4 with h5 h6 <;> cases h4
  exact ⟨y, h1, rfl⟩

/-- C36: after an accepted `chain` the variable stands for what the other one stands for, unless that one depended on it. -/
theorem C36_chain {s s' : St Ty Val} {v w : Nat} (h : step c world s (.chain v w) = .ok (.done, s'))
    (hw : ¬ Reach s w v) {a : Val} (ha : Stands c world s w a) : Stands c world s' v a := by
  obtain ⟨x, hx, rfl⟩ := chain_state h
  refine .chain (x := { x with written := true, f := some (.chain w) }) (List.getElem?_set_self (lt_of_some hx)) rfl ?_
  exact C36_others h ha fun z hz hz' => by cases hz'; exact hw hz

theorem reach_chain {s : St Ty Val} {v w : Nat} {x : Vun Ty Val} (hx : s[v]? = some (some x)) {u : Nat} (d : Reach s u v) :
    Reach (s.set v (some { x with written := true, f := some (.chain w) })) u v := by
  have hv := List.getElem?_set_self (a := some { x with written := true, f := some (.chain w) }) (lt_of_some hx)
  generalize hz : v = z at d
  induction d with
  | here _ => subst hz; exact .here hv
  | @next p q r y hy hf _ ih =>
    subst hz
    by_cases e : p = v
    · subst e; exact .here hv
    · exact .next (by rw [List.getElem?_set_ne (Ne.symm e)]; exact hy) hf (ih rfl)

/-- C36 does not hold: `chain` accepts a variable that depends on this one.  Neither then stands for a value, and reading
or copying it does not return. -/
theorem C36_chain_cycle_wrong {s s' : St Ty Val} {v w : Nat} (h : step c world s (.chain v w) = .ok (.done, s'))
    (hw : Reach s w v) : (∀ a, ¬ Stands c world s' v a) ∧ step c world s' (.copy v) = .ub ∧
      ∀ U T, HasType s' v T → First (c.castable U) T c.slots → step c world s' (.get v U) = .ub := by
  obtain ⟨x, hx, rfl⟩ := chain_state h
  have hv := List.getElem?_set_self (a := some { x with written := true, f := some (.chain w) }) (lt_of_some hx)
  have hn : ∀ a, ¬ Stands c world (s.set v (some { x with written := true, f := some (.chain w) })) v a :=
    fun a ha => ha.acyclic hv rfl (reach_chain hx hw)
  refine ⟨hn, (C36_defined _ _).2 fun ⟨a, ha⟩ => hn a ha, fun U T hT hU => (C36_defined _ _).2 ?_⟩
  rintro ⟨T', hT', h'⟩
  rw [hasType_iff hv] at hT hT'
  obtain ⟨a, ha⟩ := h' (by rw [← hT', hT]; exact hU)
  exact hn a ha

/-- C36 does not hold: with an earlier type that can be read as `U`, a variable cannot be read as `U`, even if that is its
own type. -/
theorem C36_shadowed_wrong {s : St Ty Val} {v : Nat} {U T T' : Ty} {pre post : List Ty} (hc : c.slots = pre ++ T' :: post)
    (hp : T ∉ pre) (hne : T ≠ T') (hU : c.castable U T' = true) (hT : HasType s v T) :
    step c world s (.get v U) = .ok (.threw, s) := by
  obtain ⟨x, hx, rfl⟩ := hT
  have hF : ¬ First (c.castable U) x.k c.slots := by
    rintro ⟨p, q, e, h1, h2⟩
    rw [hc] at e
    rcases List.append_eq_append_iff.1 e with ⟨l, e1, e2⟩ | ⟨l, e1, e2⟩
    · cases l with
      | nil => simp at e2; exact hne e2.1.symm
      | cons b l =>
        simp at e2
        have := h2 T' (by rw [e1, e2.1]; simp)
        rw [this] at hU; cases hU
    · cases l with
      | nil => simp at e2; exact hne e2.1
      | cons b l =>
        simp at e2
        exact hp (by rw [e1, e2.1]; simp)
  obtain ⟨r, hr⟩ := (C36_defined (c := c) (world := world) s (.get v U)).1 ⟨x.k, ⟨x, hx, rfl⟩, fun h => absurd h hF⟩
  obtain ⟨o, s'⟩ := r
  have := C36_rejected hr
  have ho := this.1.2 ⟨x.k, ⟨x, hx, rfl⟩, hF⟩
  rw [hr, ho, this.2 ho]

end

/-! ## Flags -/

/-- What can happen to a variable. -/
inductive Ev
  | read | write | reset | unmark | mark
deriving DecidableEq

open Classical in
/-- What an accepted call makes happen to variable `v`.  A variable made from another one counts as written. -/
noncomputable def happens (s : St Ty Val) : Cmd Ty Val → Nat → List Ev
  | .new _ _, _ => []
  | .copy w, v => (if Reach s w v then [.read] else []) ++ if v = s.length then [.write] else []
  | .move _, v => if v = s.length then [.write] else []
  | .assign u w, v => (if Reach s w v then [.read] else []) ++ if v = u then [.write] else []
  | .moveAssign u _, v => if v = u then [.write] else []
  | .setT u _ _, v => if v = u then [.write] else []
  | .setF u _ _, v => if v = u then [.write] else []
  | .chain u _, v => if v = u then [.write] else []
  | .get w _, v => if Reach s w v then [.read] else []
  | .type _, _ => []
  | .reset u, v => if v = u then [.reset] else []
  | .unmark u, v => if v = u then [.unmark] else []
  | .mark u, v => if v = u then [.mark] else []
  | .destroy _, _ => []

/-- It was read, and since then not reset, unmarked or marked. -/
def Pending (l : List Ev) : Prop := ∃ a b, l = a ++ .read :: b ∧ ∀ e ∈ b, e = .read ∨ e = .write
/-- It was written since the last reset. -/
def Written (l : List Ev) : Prop := ∃ a b, l = a ++ .write :: b ∧ .reset ∉ b
/-- A read was turned into a use since the last reset. -/
def WasUsed (l : List Ev) : Prop := ∃ a b, l = a ++ .mark :: b ∧ .reset ∉ b ∧ Pending a

/-- A program from its start, with what has happened to each variable. -/
inductive Logged [DecidableEq Ty] (c : Cls Ty Val) (world : Nat → Val) : St Ty Val → (Nat → List Ev) → Prop
  | start : Logged c world [] fun _ => []
  | done {s s' : St Ty Val} {L : Nat → List Ev} {d : Cmd Ty Val} {o : Out Ty Val} (h : Logged c world s L)
      (hs : step c world s d = .ok (o, s')) (ho : o ≠ .threw) : Logged c world s' fun v => L v ++ happens s d v
  | threw {s s' : St Ty Val} {L : Nat → List Ev} {d : Cmd Ty Val} (h : Logged c world s L)
      (hs : step c world s d = .ok (.threw, s')) : Logged c world s' L

theorem append_snoc_cases {l a b : List Ev} {e x : Ev} (h : l ++ [e] = a ++ x :: b) :
    (b = [] ∧ l = a ∧ e = x) ∨ ∃ b', b = b' ++ [e] ∧ l = a ++ x :: b' := by
  rcases List.eq_nil_or_concat b with rfl | ⟨b', y, rfl⟩
  · left
    have := List.append_inj' h rfl
    simp at this
    exact ⟨rfl, this.1, this.2⟩
  · right
    have h' : l ++ [e] = (a ++ x :: b') ++ [y] := by rw [h]; simp
    have := List.append_inj' h' rfl
    simp at this
    exact ⟨b', by rw [this.2]; simp, this.1⟩

theorem pending_snoc (l : List Ev) (e : Ev) : Pending (l ++ [e]) ↔ e = .read ∨ (Pending l ∧ e = .write) := by
  constructor
  · rintro ⟨a, b, h, hb⟩
    rcases append_snoc_cases h with ⟨rfl, rfl, rfl⟩ | ⟨b', rfl, rfl⟩
    · exact .inl rfl
    · rcases hb e (by simp) with he | he
      · exact .inl he
      · exact .inr ⟨⟨a, b', rfl, fun x hx => hb x (by simp [hx])⟩, he⟩
  · rintro (rfl | ⟨⟨a, b, rfl, hb⟩, rfl⟩)
    · exact ⟨l, [], rfl, by simp⟩
    · refine ⟨a, b ++ [.write], by simp, fun e he => ?_⟩
      simp at he
      rcases he with he | he
      · exact hb e he
      · exact .inr he

theorem written_snoc (l : List Ev) (e : Ev) : Written (l ++ [e]) ↔ e = .write ∨ (Written l ∧ e ≠ .reset) := by
  constructor
  · rintro ⟨a, b, h, hb⟩
    rcases append_snoc_cases h with ⟨rfl, rfl, rfl⟩ | ⟨b', rfl, rfl⟩
    · exact .inl rfl
    · simp at hb
      exact .inr ⟨⟨a, b', rfl, hb.1⟩, Ne.symm hb.2⟩
  · rintro (rfl | ⟨⟨a, b, rfl, hb⟩, he⟩)
    · exact ⟨l, [], rfl, by simp⟩
    · exact ⟨a, b ++ [e], by simp, by simp [hb, Ne.symm he]⟩

theorem wasUsed_snoc (l : List Ev) (e : Ev) : WasUsed (l ++ [e]) ↔ (e = .mark ∧ Pending l) ∨ (WasUsed l ∧ e ≠ .reset) := by
  constructor
  · rintro ⟨a, b, h, hb, hp⟩
    rcases append_snoc_cases h with ⟨rfl, rfl, rfl⟩ | ⟨b', rfl, rfl⟩
    · exact .inl ⟨rfl, hp⟩
    · simp at hb
      exact .inr ⟨⟨a, b', rfl, hb.1, hp⟩, Ne.symm hb.2⟩
  · rintro (⟨rfl, hp⟩ | ⟨⟨a, b, rfl, hb, hp⟩, he⟩)
    · exact ⟨l, [], rfl, by simp, hp⟩
    · exact ⟨a, b ++ [e], by simp, by simp [hb, Ne.symm he], hp⟩

/-- The flags of a variable are those of a list of events. -/
def FlagsOf (x : Vun Ty Val) (l : List Ev) : Prop :=
  (x.read = true ↔ Pending l) ∧ (x.written = true ↔ Written l) ∧ (x.used = true ↔ WasUsed l)

theorem FlagsOf.snoc {x y : Vun Ty Val} {l : List Ev} (h : FlagsOf x l) (e : Ev)
    (h1 : y.read = true ↔ e = .read ∨ (x.read = true ∧ e = .write))
    (h2 : y.written = true ↔ e = .write ∨ (x.written = true ∧ e ≠ .reset))
    (h3 : y.used = true ↔ (e = .mark ∧ x.read = true) ∨ (x.used = true ∧ e ≠ .reset)) : FlagsOf y (l ++ [e]) := by
  obtain ⟨a, b, d⟩ := h
  exact ⟨by rw [pending_snoc, h1, a], by rw [written_snoc, h2, b], by rw [wasUsed_snoc, h3, d, a]⟩

theorem FlagsOf.nil {x : Vun Ty Val} (h1 : x.read = false) (h2 : x.written = false) (h3 : x.used = false) :
    FlagsOf x [] := by
  refine ⟨?_, ?_, ?_⟩
  · rw [h1]; simp [Pending]
  · rw [h2]; simp [Written]
  · rw [h3]; simp [WasUsed]

section
variable [DecidableEq Ty] {c : Cls Ty Val} {world : Nat → Val}

theorem FlagsOf.congr {x y : Vun Ty Val} {l : List Ev} (h : FlagsOf x l) (h1 : y.read = x.read)
    (h2 : y.written = x.written) (h3 : y.used = x.used) : FlagsOf y l := by
  unfold FlagsOf; rw [h1, h2, h3]; exact h

theorem reach_old {s : St Ty Val} {w v : Nat} (h : Reach s w v) : ∃ x, s[v]? = some (some x) := by
  induction h with
  | here h => exact ⟨_, h⟩
  | next _ _ _ ih => exact ih

/-- A read of `w` and the flags of `v`. -/
theorem flags_read {s : St Ty Val} {w v : Nat} {r : Val × St Ty Val} (h : eval c world (depth s) s w = .ok r)
    {x : Vun Ty Val} {l : List Ev} (hx : s[v]? = some (some x)) (hf : FlagsOf x l) {y : Vun Ty Val}
    (hy : r.2[v]? = some (some y)) [Decidable (Reach s w v)] : FlagsOf y (l ++ if Reach s w v then [.read] else []) := by
  obtain ⟨_, m⟩ := eval_spec c world _ _ _ _ _ h
  obtain ⟨b, hb, hb'⟩ := m.at hx
  rw [hy] at hb; cases hb
  by_cases hr : Reach s w v
  · rw [if_pos hr]
    exact hf.snoc .read (by simp [hb'.2 (.inr hr)]) (by simp) (by simp)
  · rw [if_neg hr, List.append_nil]
    exact hf.congr (by cases b <;> cases e : x.read <;> simp_all) rfl rfl

open Classical in
theorem step_flags {s s' : St Ty Val} {d : Cmd Ty Val} {o : Out Ty Val} (h : step c world s d = .ok (o, s'))
    (ho : o ≠ .threw) {L : Nat → List Ev} (hL : ∀ (v : Nat) (x : Vun Ty Val), s[v]? = some (some x) → FlagsOf x (L v))
    (hN : ∀ v, s.length ≤ v → L v = []) (v : Nat) (y : Vun Ty Val) (hy : s'[v]? = some (some y)) :
    FlagsOf y (L v ++ happens s d v) := by
  -- a variable that is set, when `e` happens to it
  have one : ∀ (u : Nat) (x z : Vun Ty Val) (e : Ev), s[u]? = some (some x) → s' = s.set u (some z) →
      (∀ l, FlagsOf x l → FlagsOf z (l ++ [e])) → FlagsOf y (L v ++ if v = u then [e] else []) := by
    intro u x z e hx hs' hz
    rw [hs'] at hy
    by_cases hv : v = u
    · subst hv
      rw [List.getElem?_set_self (lt_of_some hx)] at hy
      cases hy
      rw [if_pos rfl]; exact hz _ (hL _ _ hx)
    · rw [List.getElem?_set_ne (Ne.symm hv)] at hy
      rw [if_neg hv, List.append_nil]; exact hL _ _ hy
  -- a variable that is new
  have app : ∀ (t : St Ty Val) (z : Vun Ty Val), t.length = s.length → s' = t ++ [some z] →
      (v = s.length ∧ y = z) ∨ (v ≠ s.length ∧ t[v]? = some (some y)) := by
    intro t z ht e
    rw [e] at hy
    rcases Nat.lt_trichotomy v s.length with hv | hv | hv
    · right
      rw [List.getElem?_append_left (by omega)] at hy
      exact ⟨by omega, hy⟩
    · left
      rw [List.getElem?_append_right (by omega), ht, hv] at hy
      simp at hy
      exact ⟨hv, hy.symm⟩
    · have := lt_of_some hy
      simp at this; omega
  cases d with
  | new U u =>
    simp only [step] at h
    split at h <;> cases h
    · rw [happens, List.append_nil]
      rcases app s _ rfl rfl with ⟨rfl, rfl⟩ | ⟨_, hy⟩
      · rw [hN _ (Nat.le_refl _)]; exact FlagsOf.nil rfl rfl rfl
      · exact hL _ _ hy
    · exact absurd rfl ho
  | copy w =>
    obtain ⟨z, h1, h2⟩ := Res.bind_eq_ok.1 h
    obtain ⟨r, h3, h4⟩ := Res.bind_eq_ok.1 h2
    cases h4
    rw [happens, ← List.append_assoc]
    rcases app _ _ (eval_len h3) rfl with ⟨rfl, rfl⟩ | ⟨hne, hy⟩
    · rw [if_pos rfl, if_neg, hN _ (Nat.le_refl _)]
      · exact (FlagsOf.nil (x := ⟨z.k, r.1, none, false, false, false⟩) rfl rfl rfl).snoc .write (by simp) (by simp)
          (by simp)
      · intro hr
        obtain ⟨x, hx⟩ := reach_old hr
        have := lt_of_some hx; omega
    · rw [if_neg hne, List.append_nil]
      obtain ⟨_, m⟩ := eval_spec c world _ _ _ _ _ h3
      obtain ⟨x, hx⟩ := m.back hy
      exact flags_read h3 hx (hL _ _ hx) hy
  | move w =>
    obtain ⟨z, h1, h2⟩ := Res.bind_eq_ok.1 h
    rw [look_ok] at h1
    cases h2
    rw [happens]
    rcases app _ _ (by simp) rfl with ⟨rfl, rfl⟩ | ⟨hne, hy⟩
    · rw [if_pos rfl, hN _ (Nat.le_refl _)]
      exact (FlagsOf.nil (x := ⟨z.k, z.t, none, false, false, false⟩) rfl rfl rfl).snoc .write (by simp) (by simp) (by simp)
    · rw [if_neg hne, List.append_nil]
      by_cases hv : v = w
      · subst hv
        rw [List.getElem?_set_self (lt_of_some h1)] at hy
        cases hy; exact (hL _ _ h1).congr rfl rfl rfl
      · rw [List.getElem?_set_ne (Ne.symm hv)] at hy
        exact hL _ _ hy
  | assign u w =>
    obtain ⟨z, h1, h2⟩ := Res.bind_eq_ok.1 h
    obtain ⟨z', h3, h4⟩ := Res.bind_eq_ok.1 h2
    rw [look_ok] at h1
    split_ifs at h4 with hk
    · cases h4; exact absurd rfl ho
    obtain ⟨r, h5, h6⟩ := Res.bind_eq_ok.1 h4
    obtain ⟨x', h7, h8⟩ := Res.bind_eq_ok.1 h6
    rw [look_ok] at h7
    cases h8
    rw [happens, ← List.append_assoc]
    by_cases hv : v = u
    · subst hv
      rw [List.getElem?_set_self (lt_of_some h7)] at hy
      cases hy
      rw [if_pos rfl]
      exact (flags_read h5 h1 (hL _ _ h1) h7).snoc .write (by simp) (by simp) (by simp)
    · rw [List.getElem?_set_ne (Ne.symm hv)] at hy
      rw [if_neg hv, List.append_nil]
      obtain ⟨_, m⟩ := eval_spec c world _ _ _ _ _ h5
      obtain ⟨x, hx⟩ := m.back hy
      exact flags_read h5 hx (hL _ _ hx) hy
  | moveAssign u w =>
    obtain ⟨z, h1, h2⟩ := Res.bind_eq_ok.1 h
    obtain ⟨z', h3, h4⟩ := Res.bind_eq_ok.1 h2
    rw [look_ok] at h1 h3
    split_ifs at h4 with hk hvw <;> cases h4
    · exact absurd rfl ho
    · exact one u _ _ .write h1 rfl fun l hl => hl.snoc .write (by simp) (by simp) (by simp)
    · rw [happens]
      by_cases hw : v = w
      · subst hw
        rw [List.getElem?_set_self (by rw [List.length_set]; exact lt_of_some h3)] at hy
        cases hy
        rw [if_neg (Ne.symm hvw), List.append_nil]
        exact (hL _ _ h3).congr rfl rfl rfl
      · rw [List.getElem?_set_ne (Ne.symm hw)] at hy
        by_cases hv : v = u
        · subst hv
          rw [List.getElem?_set_self (lt_of_some h1)] at hy
          cases hy
          rw [if_pos rfl]
          exact (hL _ _ h1).snoc .write (by simp) (by simp) (by simp)
        · rw [List.getElem?_set_ne (Ne.symm hv)] at hy
          rw [if_neg hv, List.append_nil]; exact hL _ _ hy
  | setT u U a =>
    obtain ⟨z, h1, h2⟩ := Res.bind_eq_ok.1 h
    rw [look_ok] at h1
    split_ifs at h2 with h3 h4 <;> cases h2
    · exact absurd rfl ho
    · exact one u _ _ .write h1 rfl fun l hl => hl.snoc .write (by simp) (by simp) (by simp)
    · exact absurd rfl ho
  | setF u U g =>
    obtain ⟨z, h1, h2⟩ := Res.bind_eq_ok.1 h
    rw [look_ok] at h1
    split_ifs at h2 with h3 h4 <;> cases h2
    · exact absurd rfl ho
    · exact one u _ _ .write h1 rfl fun l hl => hl.snoc .write (by simp) (by simp) (by simp)
    · exact absurd rfl ho
  | chain u w =>
    obtain ⟨z, h1, h2⟩ := Res.bind_eq_ok.1 h
    obtain ⟨z', h3, h4⟩ := Res.bind_eq_ok.1 h2
    rw [look_ok] at h1
    split_ifs at h4 with h5 h6 <;> cases h4
    · exact absurd rfl ho
    · exact absurd rfl ho
    · exact one u _ _ .write h1 rfl fun l hl => hl.snoc .write (by simp) (by simp) (by simp)
  | get w U =>
    obtain ⟨z, h1, h2⟩ := Res.bind_eq_ok.1 h
    split_ifs at h2 with h3
    · obtain ⟨r, h5, h6⟩ := Res.bind_eq_ok.1 h2
      cases h6
      rw [happens]
      obtain ⟨_, m⟩ := eval_spec c world _ _ _ _ _ h5
      obtain ⟨x, hx⟩ := m.back hy
      exact flags_read h5 hx (hL _ _ hx) hy
    · cases h2; exact absurd rfl ho
  | type u =>
    obtain ⟨z, h1, h2⟩ := Res.bind_eq_ok.1 h
    cases h2
    rw [happens, List.append_nil]; exact hL _ _ hy
  | reset u =>
    obtain ⟨z, h1, h2⟩ := Res.bind_eq_ok.1 h
    rw [look_ok] at h1
    cases h2
    exact one u _ _ .reset h1 rfl fun l hl => hl.snoc .reset (by simp) (by simp) (by simp)
  | unmark u =>
    obtain ⟨z, h1, h2⟩ := Res.bind_eq_ok.1 h
    rw [look_ok] at h1
    cases h2
    exact one u _ _ .unmark h1 rfl fun l hl => hl.snoc .unmark (by simp) (by simp) (by simp)
  | mark u =>
    obtain ⟨z, h1, h2⟩ := Res.bind_eq_ok.1 h
    rw [look_ok] at h1
    split_ifs at h2 with h3 h4 <;> cases h2
    · exact absurd rfl ho
    · exact one u _ _ .mark h1 rfl fun l hl => hl.snoc .mark (by simp) (by simp) (by simp [h4])
    · have e : s = s.set u (some z) := by
        refine List.ext_getElem? fun i => ?_
        by_cases hi : i = u
        · subst hi; rw [h1, List.getElem?_set_self (lt_of_some h1)]
        · rw [List.getElem?_set_ne (Ne.symm hi)]
      exact one u _ _ .mark h1 e fun l hl => hl.snoc .mark (by simp [h4]) (by simp) (by simp [h4])
  | destroy u =>
    obtain ⟨z, h1, h2⟩ := Res.bind_eq_ok.1 h
    rw [look_ok] at h1
    cases h2
    rw [happens, List.append_nil]
    by_cases hv : v = u
    · subst hv
      rw [List.getElem?_set_self (lt_of_some h1)] at hy
      cases hy
    · rw [List.getElem?_set_ne (Ne.symm hv)] at hy
      exact hL _ _ hy

theorem step_length {s s' : St Ty Val} {d : Cmd Ty Val} {o : Out Ty Val} (h : step c world s d = .ok (o, s')) :
    s.length ≤ s'.length ∧ ∀ v, s'.length ≤ v → happens s d v = [] ∨ o = .threw := by
  have hr : ∀ {w v : Nat}, s.length ≤ v → ¬ Reach s w v := by
    intro w v hv hr
    obtain ⟨x, hx⟩ := reach_old hr
    have := lt_of_some hx; omega
  have ne : ∀ {u v : Nat} {x : Vun Ty Val}, s[u]? = some (some x) → s.length ≤ v → v ≠ u := by
    intro u v x hx hv e
    have := lt_of_some hx; omega
  cases d with
  | new U u =>
    simp only [step] at h
    split at h <;> cases h
    · exact ⟨by simp, fun v _ => .inl rfl⟩
    · exact ⟨Nat.le_refl _, fun v _ => .inr rfl⟩
  | copy w =>
    obtain ⟨z, h1, h2⟩ := Res.bind_eq_ok.1 h
    obtain ⟨r, h3, h4⟩ := Res.bind_eq_ok.1 h2
    cases h4
    have hl := eval_len h3
    refine ⟨by simp [hl], fun v hv => .inl ?_⟩
    simp [hl] at hv
    rw [happens, if_neg (hr (by omega)), if_neg (by omega)]; rfl
  | move w =>
    obtain ⟨z, h1, h2⟩ := Res.bind_eq_ok.1 h
    cases h2
    refine ⟨by simp, fun v hv => .inl ?_⟩
    simp at hv
    rw [happens, if_neg (by omega)]
  | assign u w =>
    obtain ⟨z, h1, h2⟩ := Res.bind_eq_ok.1 h
    obtain ⟨z', h3, h4⟩ := Res.bind_eq_ok.1 h2
    rw [look_ok] at h1
    split_ifs at h4 with hk
    · cases h4; exact ⟨Nat.le_refl _, fun v _ => .inr rfl⟩
    obtain ⟨r, h5, h6⟩ := Res.bind_eq_ok.1 h4
    obtain ⟨x', h7, h8⟩ := Res.bind_eq_ok.1 h6
    cases h8
    have hl := eval_len h5
    refine ⟨by simp [hl], fun v hv => .inl ?_⟩
    simp [hl] at hv
    rw [happens, if_neg (hr hv), if_neg (ne h1 hv)]; rfl
  | moveAssign u w =>
    obtain ⟨z, h1, h2⟩ := Res.bind_eq_ok.1 h
    obtain ⟨z', h3, h4⟩ := Res.bind_eq_ok.1 h2
    rw [look_ok] at h1
    split_ifs at h4 with hk hvw <;> cases h4
    · exact ⟨Nat.le_refl _, fun v _ => .inr rfl⟩
    · exact ⟨by simp, fun v hv => .inl (by simp at hv; rw [happens, if_neg (ne h1 hv)])⟩
    · exact ⟨by simp, fun v hv => .inl (by simp at hv; rw [happens, if_neg (ne h1 hv)])⟩
  | setT u U a =>
    obtain ⟨z, h1, h2⟩ := Res.bind_eq_ok.1 h
    rw [look_ok] at h1
    split_ifs at h2 with h3 h4 <;> cases h2
    · exact ⟨Nat.le_refl _, fun v _ => .inr rfl⟩
    · exact ⟨by simp, fun v hv => .inl (by simp at hv; rw [happens, if_neg (ne h1 hv)])⟩
    · exact ⟨Nat.le_refl _, fun v _ => .inr rfl⟩
  | setF u U g =>
    obtain ⟨z, h1, h2⟩ := Res.bind_eq_ok.1 h
    rw [look_ok] at h1
    split_ifs at h2 with h3 h4 <;> cases h2
    · exact ⟨Nat.le_refl _, fun v _ => .inr rfl⟩
    · exact ⟨by simp, fun v hv => .inl (by simp at hv; rw [happens, if_neg (ne h1 hv)])⟩
    · exact ⟨Nat.le_refl _, fun v _ => .inr rfl⟩
  | chain u w =>
    obtain ⟨z, h1, h2⟩ := Res.bind_eq_ok.1 h
    obtain ⟨z', h3, h4⟩ := Res.bind_eq_ok.1 h2
    rw [look_ok] at h1
    split_ifs at h4 with h5 h6 <;> cases h4
    · exact ⟨Nat.le_refl _, fun v _ => .inr rfl⟩
    · exact ⟨Nat.le_refl _, fun v _ => .inr rfl⟩
    · exact ⟨by simp, fun v hv => .inl (by simp at hv; rw [happens, if_neg (ne h1 hv)])⟩
  | get w U =>
    obtain ⟨z, h1, h2⟩ := Res.bind_eq_ok.1 h
    split_ifs at h2 with h3
    · obtain ⟨r, h5, h6⟩ := Res.bind_eq_ok.1 h2
      cases h6
      have hl := eval_len h5
      exact ⟨by simp [hl], fun v hv => .inl (by rw [happens, if_neg (hr (by simpa [hl] using hv))])⟩
    · cases h2; exact ⟨Nat.le_refl _, fun v _ => .inr rfl⟩
  | type u =>
    obtain ⟨z, h1, h2⟩ := Res.bind_eq_ok.1 h
    cases h2
    exact ⟨Nat.le_refl _, fun v _ => .inl rfl⟩
  | reset u =>
    obtain ⟨z, h1, h2⟩ := Res.bind_eq_ok.1 h
    rw [look_ok] at h1
    cases h2
    exact ⟨by simp, fun v hv => .inl (by simp at hv; rw [happens, if_neg (ne h1 hv)])⟩
  | unmark u =>
    obtain ⟨z, h1, h2⟩ := Res.bind_eq_ok.1 h
    rw [look_ok] at h1
    cases h2
    exact ⟨by simp, fun v hv => .inl (by simp at hv; rw [happens, if_neg (ne h1 hv)])⟩
  | mark u =>
    obtain ⟨z, h1, h2⟩ := Res.bind_eq_ok.1 h
    rw [look_ok] at h1
    split_ifs at h2 with h3 h4 <;> cases h2
    · exact ⟨Nat.le_refl _, fun v _ => .inr rfl⟩
    · exact ⟨by simp, fun v hv => .inl (by simp at hv; rw [happens, if_neg (ne h1 hv)])⟩
    · exact ⟨Nat.le_refl _, fun v hv => .inl (by rw [happens, if_neg (ne h1 hv)])⟩
  | destroy u =>
    obtain ⟨z, h1, h2⟩ := Res.bind_eq_ok.1 h
    cases h2
    exact ⟨by simp, fun v _ => .inl rfl⟩

theorem logged_flags {s : St Ty Val} {L : Nat → List Ev} (h : Logged c world s L) :
    (∀ (v : Nat) (x : Vun Ty Val), s[v]? = some (some x) → FlagsOf x (L v)) ∧ ∀ v, s.length ≤ v → L v = [] := by
  induction h with
  | start => exact ⟨fun v x h => by simp at h, fun _ _ => rfl⟩
  | done h hs ho ih =>
    refine ⟨step_flags hs ho ih.1 ih.2, fun v hv => ?_⟩
    obtain ⟨h1, h2⟩ := step_length hs
    rcases h2 v hv with e | e
    · dsimp only; rw [e, ih.2 v (by omega)]; rfl
    · exact absurd e ho
  | threw h hs ih =>
    rw [(C36_rejected hs).2 rfl]; exact ih

/-- C36: at every point of every program, `mark_read_as_used` rejects a variable exactly when since its last reset it was
written, and it was used or read since the last mark. -/
theorem C36_mark {s s' : St Ty Val} {L : Nat → List Ev} (h : Logged c world s L) {v : Nat} {o : Out Ty Val}
    (hs : step c world s (.mark v) = .ok (o, s')) : o = .threw ↔ Written (L v) ∧ (WasUsed (L v) ∨ Pending (L v)) := by
  rw [(C36_rejected hs).1]
  constructor
  · rintro ⟨x, hx, h1, h2⟩
    obtain ⟨a, b, d⟩ := (logged_flags h).1 v x hx
    exact ⟨b.1 h1, h2.imp d.1 a.1⟩
  · rintro ⟨h1, h2⟩
    obtain ⟨y, h3, h4⟩ := Res.bind_eq_ok.1 hs
    rw [look_ok] at h3
    obtain ⟨a, b, d⟩ := (logged_flags h).1 v y h3
    exact ⟨y, h3, b.2 h1, h2.imp d.2 a.2⟩

/-- C36: at every point of every program, assigning a value of the variable's type, a function, or `chain` with a variable
of the same type is rejected exactly when since the last reset a read of the variable was turned into a use. -/
theorem C36_used {s s' : St Ty Val} {L : Nat → List Ev} (h : Logged c world s L) {v : Nat} {T : Ty} (hT : HasType s v T)
    {o : Out Ty Val} {d : Cmd Ty Val} (hd : (∃ U, First (c.setable U) T c.slots ∧ ((∃ u, d = .setT v U u) ∨
      ∃ g, d = .setF v U g)) ∨ ∃ w, HasType s w T ∧ d = .chain v w)
    (hs : step c world s d = .ok (o, s')) : o = .threw ↔ WasUsed (L v) := by
  rw [(C36_rejected hs).1]
  obtain ⟨x, hx, hk⟩ := hT
  rw [← ((logged_flags h).1 v x hx).2.2, ← used_iff hx]
  rcases hd with ⟨U, hU, ⟨u, rfl⟩ | ⟨g, rfl⟩⟩ | ⟨w, hw, rfl⟩
  · refine ⟨fun h' => h'.resolve_right ?_, .inl⟩
    rintro ⟨T', hT', hn⟩
    rw [hasType_iff hx] at hT'; exact hn (by rw [← hT', hk]; exact hU)
  · refine ⟨fun h' => h'.resolve_right ?_, .inl⟩
    rintro ⟨T', hT', hn⟩
    rw [hasType_iff hx] at hT'; exact hn (by rw [← hT', hk]; exact hU)
  · obtain ⟨y, hy, hky⟩ := hw
    refine ⟨fun h' => h'.2.resolve_right ?_, fun h' => ⟨⟨y, hy⟩, .inl h'⟩⟩
    rintro ⟨T', T'', h1, h2, hn⟩
    rw [hasType_iff hx] at h1; rw [hasType_iff hy] at h2
    exact hn (by rw [← h1, ← h2, hk, hky])

/-- C36 does not hold: assignment from a variable of the same type goes ahead although the variable was used. -/
theorem C36_assign_used_wrong {s : St Ty Val} {v w : Nat} {T : Ty} {a : Val} (hv : HasType s v T) (hw : HasType s w T)
    (ha : Stands c world s w a) : ∃ s', step c world s (.assign v w) = .ok (.done, s') ∧ Stands c world s' v a := by
  obtain ⟨x, hx, hk⟩ := hv
  obtain ⟨⟨o, s'⟩, hr⟩ := (C36_defined (c := c) (world := world) s (.assign v w)).1 ⟨⟨x, hx⟩, ha.live, fun _ => ⟨a, ha⟩⟩
  have ho : o = .done := by
    have h1 : o ≠ .threw := fun e => by
      obtain ⟨T1, T2, h1, h2, hn⟩ := (C36_rejected hr).1.1 e
      obtain ⟨y, hy, hky⟩ := hw
      rw [hasType_iff hx] at h1; rw [hasType_iff hy] at h2
      exact hn (by rw [← h1, ← h2, hk, hky])
    obtain ⟨y, h1', h2⟩ := Res.bind_eq_ok.1 hr
    obtain ⟨z, h3, h4⟩ := Res.bind_eq_ok.1 h2
    split_ifs at h4 with hk
    · cases h4; exact absurd rfl h1
    obtain ⟨r, h5, h6⟩ := Res.bind_eq_ok.1 h4
    obtain ⟨y', h7, h8⟩ := Res.bind_eq_ok.1 h6
    cases h8; rfl
  subst ho
  obtain ⟨b, hb, hb', _⟩ := C36_assign hr
  rw [ha.unique hb]
  exact ⟨s', hr, hb'⟩

/-- C36 does not hold: a copy that was only ever read is rejected, as a copy counts as written. -/
theorem C36_copy_read_wrong {s s1 s2 : St Ty Val} {v : Nat} {U T : Ty} {o1 o2 : Out Ty Val} (hT : HasType s v T)
    (hU : First (c.castable U) T c.slots) (h1 : step c world s (.copy v) = .ok (o1, s1))
    (h2 : step c world s1 (.get s.length U) = .ok (o2, s2)) :
    step c world s2 (.mark s.length) = .ok (.threw, s2) := by
  obtain ⟨y, e1, e2⟩ := Res.bind_eq_ok.1 h1
  obtain ⟨r, e3, e4⟩ := Res.bind_eq_ok.1 e2
  cases e4
  rw [look_ok] at e1
  rw [hasType_iff e1] at hT; subst hT
  have hl := eval_len e3
  have e : (r.2 ++ [some ⟨y.k, r.1, none, false, true, false⟩])[s.length]? =
      some (some (⟨y.k, r.1, none, false, true, false⟩ : Vun Ty Val)) := by rw [← hl]; simp
  obtain ⟨a, _, _, m⟩ := C36_get ⟨_, e, rfl⟩ hU h2
  obtain ⟨b, hb, hb'⟩ := m.at e
  have : b = true := hb'.2 (.inr (.here e))
  subst this
  simp only [step, look_ok.2 hb, Res.ok_bind]
  rfl

end

/-! ## Examples -/

/-- Types for examples: two numbers, and a class with a class derived from it. -/
inductive ExTy
  | int | double | base | derived
deriving DecidableEq

/-- `vunctor<int,double,derived,base>`, with `int` values for all.  A conversion to `int` is to a whole multiple of 10, so
that conversions show. -/
def exCls : Cls ExTy Nat where
  slots := [.int, .double, .derived, .base]
  castable U T := decide (U = T) || (decide (U = .base) && decide (T = .derived))
  setable U T := decide (U = T) || (decide (U = .derived) && decide (T = .base))
  conv _ T x := if T = .int then x / 10 * 10 else x

/-- A run that chains, reads, marks and writes. -/
example : (run exCls (fun g => g) [] [.new .int 37, .new .double 5, .copy 1, .chain 2 1, .setT 1 .double 7, .get 2 .double,
    .get 0 .double, .get 0 .int, .mark 1, .mark 0, .setT 0 .int 5, .setF 1 .double 11, .assign 1 0]).bind
    (fun r => .ok r.1) = .ok [.done, .done, .done, .done, .done, .val 7, .threw, .val 30, .threw, .done, .threw, .done,
      .threw] := by
  decide +kernel
/-- A cycle is accepted, and then cannot be read. -/
example : (run exCls (fun g => g) [] [.new .int 37, .new .int 5, .chain 0 1, .chain 1 0, .get 0 .int]).bind
    (fun r => .ok r.1) = .ub := by
  decide +kernel
/-- A `base` in `vunctor<...,derived,base>` cannot be read as `base`. -/
example : (run exCls (fun g => g) [] [.new .base 37, .type 0, .get 0 .base]).bind (fun r => .ok r.1) =
    .ok [.done, .type .base, .threw] := by
  decide +kernel
/-- A used variable is assigned to from another one. -/
example : (run exCls (fun g => g) [] [.new .double 37, .new .double 5, .get 0 .double, .mark 0, .setT 0 .double 3,
    .assign 0 1, .get 0 .double, .mark 0]).bind (fun r => .ok r.1) =
    .ok [.done, .done, .val 37, .done, .threw, .done, .val 5, .threw] := by
  decide +kernel
/-- The hypotheses of `C36_chain_cycle_wrong`. -/
example : ∃ s s' : St ExTy Nat, step exCls (fun g => g) s (.chain 1 0) = .ok (.done, s') ∧ Reach s 0 1 :=
  ⟨[some ⟨.int, 1, some (.chain 1), false, false, false⟩, some ⟨.int, 2, none, false, false, false⟩], _, rfl,
    .next rfl rfl (.here rfl)⟩
/-- The hypotheses of `C36_shadowed_wrong`. -/
example : ∃ s : St ExTy Nat, exCls.slots = [.int, .double] ++ .derived :: [.base] ∧ exCls.castable .base .derived = true ∧
    HasType s 0 .base :=
  ⟨[some ⟨.base, 1, none, false, false, false⟩], rfl, rfl, _, rfl, rfl⟩
/-- The hypotheses of `C36_mark`: a program in which variable 0 was read and then written. -/
example : ∃ (s : St ExTy Nat) (L : Nat → List Ev), Logged exCls (fun g => g) s L ∧ L 0 = [.read, .write] := by
  refine ⟨_, _, .done (d := .setT 0 .int 4) (.done (d := .get 0 .int) (.done (d := .new .int 30) .start rfl ?_) rfl ?_) rfl ?_,
    ?_⟩
  · decide
  · decide
  · decide
  · have : Reach ([] ++ [some ⟨.int, exCls.conv .int .int 30, none, false, false, false⟩] : St ExTy Nat) 0 0 := .here rfl
    simp only [happens]
    rw [if_pos this]; rfl

end OP.Var
