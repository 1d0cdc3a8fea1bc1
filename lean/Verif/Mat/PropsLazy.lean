import Verif.Mat.Lazy
import Verif.Mat.PropsDense
/-!
# Properties C37 and C82: shared matrices
-/
namespace OP.Mat
open Matrix

variable {K : Type}

/-! ## Specification: variables hold matrices, and no call changes another variable -/

/-- A matrix with its sizes. -/
structure Val (K : Type) where
  m : Nat
  n : Nat
  A : Matrix (Fin m) (Fin n) K

/-- The variables: dead, without a value, or a matrix. -/
abbrev Env (K : Type) := List (Option (Option (Val K)))

section
variable [Field K] [DecidableEq K]

/-- The calls allowed and what they do. -/
inductive SpecStep : Env K → Cmd K → Out K → Env K → Prop
  | null {e} : SpecStep e .null .done (e ++ [some none])
  | zero {e} (m n : Nat) : SpecStep e (.zero m n) .done (e ++ [some (some ⟨m, n, 0⟩)])
  | dense {e} {m n : Nat} {d : Dense K} {A : Matrix (Fin m) (Fin n) K} (h : d.Holds A) :
      SpecStep e (.dense d) .done (e ++ [some (some ⟨m, n, A⟩)])
  | eye {e} (n : Nat) : SpecStep e (.eye n) .done (e ++ [some (some ⟨n, n, 1⟩)])
  | copy {e v x} (h : e[v]? = some (some x)) : SpecStep e (.copy v) .done (e ++ [some x])
  | neg {e v x} (h : e[v]? = some (some x)) :
      SpecStep e (.neg v) .done (e ++ [some (x.map fun X => ⟨X.m, X.n, -X.A⟩)])
  | trans {e v x} (h : e[v]? = some (some x)) :
      SpecStep e (.trans v) .done (e ++ [some (x.map fun X => ⟨X.n, X.m, X.A.transpose⟩)])
  | unref {e v x} (h : e[v]? = some (some x)) : SpecStep e (.unref v) .done (e.set v (some none) ++ [some x])
  | assign {e v w x y} (hv : e[v]? = some (some y)) (hw : e[w]? = some (some x)) :
      SpecStep e (.assign v w) .done (e.set v (some x))
  | destroy {e v x} (h : e[v]? = some (some x)) : SpecStep e (.destroy v) .done (e.set v none)
  | rows {e v X} (h : e[v]? = some (some (some X))) : SpecStep e (.rows v) (.size X.m) e
  | cols {e v X} (h : e[v]? = some (some (some X))) : SpecStep e (.cols v) (.size X.n) e
  | read {e v X} (h : e[v]? = some (some (some X))) (i : Fin X.m) (j : Fin X.n) :
      SpecStep e (.read v i j) (.num (X.A i j)) e
  | eq {e v w X Y b} (hv : e[v]? = some (some (some X))) (hw : e[w]? = some (some (some Y)))
      (hb : b = true ↔ X = Y) : SpecStep e (.eq v w) (.truth b) e

/-- Histories of allowed calls. -/
inductive SpecRun : Env K → List (Cmd K) → List (Out K) → Env K → Prop
  | nil {e} : SpecRun e [] [] e
  | cons {e e1 e2 c cs o os} (h : SpecStep e c o e1) (t : SpecRun e1 cs os e2) : SpecRun e (c :: cs) (o :: os) e2

end

/-! ## Invariant of the heap -/

/-- The pointers of a place. -/
def eptrs : Option (Nat × Obj K) → List Nat
  | some e => e.2.ptrs
  | none => []

/-- All pointers between objects. -/
def inner (h : Heap K) : List Nat := h.flatMap eptrs

/-- The pointers of the variables. -/
def outer (vs : List (Option (Option Nat))) : List Nat := vs.flatMap fun v => (v.join).toList

/-- The count stored in a place. -/
def cnt (h : Heap K) (k : Nat) : Nat :=
  match h[k]? with
  | some (some e) => e.1
  | _ => 0

/-- Counts are right, objects in use are counted, and operands are older than operators. -/
structure Counted (h : Heap K) (ext : List Nat) : Prop where
  total : ∀ k, cnt h k = ext.count k + (inner h).count k
  pos : ∀ (k c : Nat) (o : Obj K), h[k]? = some (some (c, o)) → 0 < c ∧ ∀ p ∈ o.ptrs, p < k

theorem cnt_of {h : Heap K} {k c o} (e : h[k]? = some (some (c, o))) : cnt h k = c := by simp [cnt, e]

theorem live_of_cnt {h : Heap K} {k} (e : 0 < cnt h k) : ∃ c o, h[k]? = some (some (c, o)) := by
  unfold cnt at e
  split at e
  · rename_i x hx
    exact ⟨x.1, x.2, hx⟩
  · omega

theorem Counted.live_ext {h : Heap K} {ext k} (I : Counted h ext) (hk : k ∈ ext) : ∃ c o, h[k]? = some (some (c, o)) :=
  live_of_cnt (by rw [I.total]; have := List.count_pos_iff.2 hk; omega)

theorem Counted.live_inner {h : Heap K} {ext : List Nat} {k c : Nat} {o : Obj K} {p : Nat} (I : Counted h ext) (hk : h[k]? = some (some (c, o))) (hp : p ∈ o.ptrs) :
    ∃ c o, h[p]? = some (some (c, o)) := by
  refine live_of_cnt ?_
  rw [I.total]
  have : p ∈ inner h := by
    unfold inner
    rw [List.mem_flatMap]
    exact ⟨_, List.mem_of_getElem? hk, hp⟩
  have := List.count_pos_iff.2 this
  omega

theorem inner_set (h : Heap K) (k : Nat) (x y : Option (Nat × Obj K)) (hk : h[k]? = some x) (j : Nat) :
    (inner (h.set k y)).count j + (eptrs x).count j = (inner h).count j + (eptrs y).count j := by
  induction h generalizing k with
  | nil => simp at hk
  | cons a h ih =>
    cases k with
    | zero =>
      simp only [List.getElem?_cons_zero, Option.some.injEq] at hk
      subst hk
      simp only [inner, List.set_cons_zero, List.flatMap_cons, List.count_append]
      omega
    | succ k =>
      have := ih k (by simpa using hk)
      simp only [inner, List.set_cons_succ, List.flatMap_cons, List.count_append] at this ⊢
      omega

theorem cnt_set (h : Heap K) (k : Nat) (y : Option (Nat × Obj K)) (hk : k < h.length) (j : Nat) :
    cnt (h.set k y) j = if j = k then (match y with | some e => e.1 | none => 0) else cnt h j := by
  unfold cnt
  by_cases e : j = k
  · subst e
    rw [List.getElem?_set_self hk, if_pos rfl]
    cases y <;> rfl
  · rw [List.getElem?_set_ne (Ne.symm e), if_neg e]

/-- The objects of `h'` are objects of `h`. -/
def Sub (h' h : Heap K) : Prop := ∀ (k c : Nat) (o : Obj K), k < h.length → h'[k]? = some (some (c, o)) → ∃ c', h[k]? = some (some (c', o))

theorem Sub.refl (h : Heap K) : Sub h h := fun _ c _ _ e => ⟨c, e⟩

theorem Sub.trans {a b c : Heap K} (h1 : Sub a b) (h2 : Sub b c) (hl : c.length ≤ b.length) : Sub a c :=
  fun k n o hk e => by
    obtain ⟨n', e'⟩ := h1 k n o (by omega) e
    exact h2 k n' o hk e'

theorem addref_ok {h : Heap K} {ext : List Nat} (I : Counted h ext) (p : Option Nat) (hp : ∀ k ∈ p, ∃ c o, h[k]? = some (some (c, o))) :
    ∃ h', addref h p = .ok h' ∧ Counted h' (p.toList ++ ext) ∧ Sub h' h ∧ h'.length = h.length := by
  cases p with
  | none => exact ⟨h, rfl, I, Sub.refl h, rfl⟩
  | some k =>
    obtain ⟨c, o, hk⟩ := hp k rfl
    have hlt := (List.getElem?_eq_some_iff.1 hk).1
    refine ⟨h.set k (some (c + 1, o)), by simp [addref, deref, hk], ⟨?_, ?_⟩, ?_, by simp⟩
    · intro j
      have h1 := inner_set h k _ (some (c + 1, o)) hk j
      have h2 := I.total j
      rw [cnt_set _ _ _ hlt]
      simp only [eptrs] at h1
      simp only [Option.toList_some, List.cons_append, List.nil_append, List.count_cons]
      by_cases e : j = k
      · subst e
        rw [cnt_of hk] at h2
        simp only [if_true, beq_self_eq_true]
        omega
      · rw [if_neg e, if_neg (by simpa using Ne.symm e)]
        omega
    · intro j c' o' hj
      by_cases e : j = k
      · subst e
        rw [List.getElem?_set_self hlt] at hj
        simp only [Option.some.injEq, Prod.mk.injEq] at hj
        obtain ⟨rfl, rfl⟩ := hj
        exact ⟨by omega, (I.pos _ _ _ hk).2⟩
      · rw [List.getElem?_set_ne (Ne.symm e)] at hj
        exact I.pos _ _ _ hj
    · intro j c' o' _ hj
      by_cases e : j = k
      · subst e
        rw [List.getElem?_set_self hlt] at hj
        simp only [Option.some.injEq, Prod.mk.injEq] at hj
        obtain ⟨rfl, rfl⟩ := hj
        exact ⟨c, hk⟩
      · rw [List.getElem?_set_ne (Ne.symm e)] at hj
        exact ⟨c', hj⟩

/-- A new object takes over counted operands. -/
theorem new_ok {h : Heap K} {ext : List Nat} (o : Obj K) (I : Counted h (o.ptrs ++ ext)) :
    addref (newObj h o).1 (some (newObj h o).2) = .ok (h ++ [some (1, o)]) ∧
    Counted (h ++ [some (1, o)]) (h.length :: ext) ∧ Sub (h ++ [some (1, o)]) h := by
  refine ⟨by simp [addref, newObj, deref], ⟨?_, ?_⟩, ?_⟩
  · intro j
    have h2 := I.total j
    have h3 : (inner (h ++ [some (1, o)])).count j = (inner h).count j + o.ptrs.count j := by
      simp [inner, eptrs]
    rw [h3, List.count_cons]
    rw [List.count_append] at h2
    by_cases e : j = h.length
    · subst e
      have h4 : cnt h h.length = 0 := by simp [cnt]
      have h5 : cnt (h ++ [some (1, o)]) h.length = 1 := by simp [cnt]
      rw [h5]
      simp only [beq_self_eq_true, if_true]
      omega
    · have : cnt (h ++ [some (1, o)]) j = cnt h j := by
        unfold cnt
        rcases Nat.lt_or_ge j h.length with hj | hj
        · rw [List.getElem?_append_left hj]
        · rw [List.getElem?_eq_none (by simp; omega), List.getElem?_eq_none (by omega)]
      rw [this, if_neg (by simpa using Ne.symm e)]
      omega
  · intro j c' o' hj
    rcases Nat.lt_trichotomy j h.length with hl | hl | hl
    · rw [List.getElem?_append_left hl] at hj
      exact I.pos _ _ _ hj
    · subst hl
      simp only [List.getElem?_concat_length, Option.some.injEq, Prod.mk.injEq] at hj
      obtain ⟨rfl, rfl⟩ := hj
      refine ⟨by omega, fun p hp => ?_⟩
      obtain ⟨c1, o1, h1⟩ := I.live_ext (List.mem_append_left _ hp)
      exact (List.getElem?_eq_some_iff.1 h1).1
    · rw [List.getElem?_eq_none (by simp; omega)] at hj
      exact absurd hj (by simp)
  · intro j c' o' hl hj
    rw [List.getElem?_append_left hl] at hj
    exact ⟨c', hj⟩

theorem release_ok (fuel : Nat) (h : Heap K) (ext : List Nat) (p : Option Nat) (I : Counted h (p.toList ++ ext))
    (hf : ∀ k ∈ p, k < fuel) :
    ∃ h', release fuel h p = .ok h' ∧ Counted h' ext ∧ Sub h' h ∧ h'.length = h.length := by
  induction fuel generalizing h ext p with
  | zero =>
    cases p with
    | none => exact ⟨h, by simp [release], I, Sub.refl h, rfl⟩
    | some k => exact absurd (hf k rfl) (by omega)
  | succ fuel ih =>
    cases p with
    | none => exact ⟨h, by simp [release], I, Sub.refl h, rfl⟩
    | some k =>
      obtain ⟨c, o, hk⟩ := I.live_ext (k := k) (by simp)
      have hlt := (List.getElem?_eq_some_iff.1 hk).1
      obtain ⟨hc, hlow⟩ := I.pos _ _ _ hk
      have hkf := hf k rfl
      have hd : deref h (some k) = .ok (c, o) := by simp [deref, hk]
      by_cases h1 : c - 1 = 0
      · -- deleted
        have hc1 : c = 1 := by omega
        subst hc1
        have htk := I.total k
        rw [cnt_of hk] at htk
        simp only [Option.toList_some, List.cons_append, List.nil_append, List.count_cons_self] at htk
        have I1 : Counted (h.set k none) (o.ptrs ++ ext) := by
          refine ⟨fun j => ?_, fun j c' o' hj => ?_⟩
          · have h3 := inner_set h k _ none hk j
            have h2 := I.total j
            rw [cnt_set _ _ _ hlt]
            simp only [eptrs, List.count_nil, Nat.add_zero] at h3
            simp only [Option.toList_some, List.cons_append, List.nil_append, List.count_cons] at h2
            rw [List.count_append]
            by_cases e : j = k
            · subst e
              have : o.ptrs.count j = 0 := List.count_eq_zero.2 fun hp => absurd (hlow j hp) (by omega)
              simp only [if_true]
              omega
            · rw [if_neg e]
              rw [if_neg (by simpa using Ne.symm e)] at h2
              omega
          · by_cases e : j = k
            · subst e
              rw [List.getElem?_set_self hlt] at hj
              exact absurd hj (by simp)
            · rw [List.getElem?_set_ne (Ne.symm e)] at hj
              exact I.pos _ _ _ hj
        have S1 : Sub (h.set k none) h := fun j c' o' _ hj => by
          by_cases e : j = k
          · subst e
            rw [List.getElem?_set_self hlt] at hj
            exact absurd hj (by simp)
          · rw [List.getElem?_set_ne (Ne.symm e)] at hj
            exact ⟨c', hj⟩
        cases o with
        | op kd p q =>
          have I2 : Counted (h.set k none) (q.toList ++ (p.toList ++ ext)) := by
            refine ⟨fun j => ?_, I1.pos⟩
            rw [I1.total j]
            simp only [Obj.ptrs, List.count_append]
            omega
          obtain ⟨h2, e2, J2, S2, l2⟩ := ih _ (p.toList ++ ext) q I2
            (fun r hr => by have := hlow r (by simp [Obj.ptrs, Option.mem_toList.2 hr]); omega)
          obtain ⟨h3, e3, J3, S3, l3⟩ := ih _ ext p J2
            (fun r hr => by have := hlow r (by simp [Obj.ptrs, Option.mem_toList.2 hr]); omega)
          refine ⟨h3, ?_, J3, (S3.trans S2 (by omega)).trans S1 (by simp), by simp [l3, l2]⟩
          simp only [release, hd, Res.ok_bind, if_neg (show ¬ (1 : Nat) = 0 by omega), Nat.sub_self, if_true, e2, e3]
        | dense d => exact ⟨_, by simp [release, hd], by simpa [Obj.ptrs] using I1, S1, by simp⟩
        | zero m n => exact ⟨_, by simp [release, hd], by simpa [Obj.ptrs] using I1, S1, by simp⟩
        | eye n => exact ⟨_, by simp [release, hd], by simpa [Obj.ptrs] using I1, S1, by simp⟩
      · refine ⟨h.set k (some (c - 1, o)), ?_, ⟨fun j => ?_, fun j c' o' hj => ?_⟩, ?_, by simp⟩
        · simp only [release, hd, Res.ok_bind, if_neg (show ¬ c = 0 by omega), if_neg h1]
        · have h3 := inner_set h k _ (some (c - 1, o)) hk j
          have h2 := I.total j
          rw [cnt_set _ _ _ hlt]
          simp only [eptrs] at h3
          simp only [Option.toList_some, List.cons_append, List.nil_append, List.count_cons] at h2
          by_cases e : j = k
          · subst e
            rw [cnt_of hk] at h2
            simp only [if_true, beq_self_eq_true] at h2 ⊢
            omega
          · rw [if_neg e]
            rw [if_neg (by simpa using Ne.symm e)] at h2
            omega
        · by_cases e : j = k
          · subst e
            rw [List.getElem?_set_self hlt] at hj
            simp only [Option.some.injEq, Prod.mk.injEq] at hj
            obtain ⟨rfl, rfl⟩ := hj
            exact ⟨by omega, hlow⟩
          · rw [List.getElem?_set_ne (Ne.symm e)] at hj
            exact I.pos _ _ _ hj
        · intro j c' o' _ hj
          by_cases e : j = k
          · subst e
            rw [List.getElem?_set_self hlt] at hj
            simp only [Option.some.injEq, Prod.mk.injEq] at hj
            obtain ⟨rfl, rfl⟩ := hj
            exact ⟨c, hk⟩
          · rw [List.getElem?_set_ne (Ne.symm e)] at hj
            exact ⟨c', hj⟩

/-! ## What a pointer denotes -/

section
variable [Field K] [DecidableEq K]

/-- The matrix behind a pointer. -/
inductive Den (h : Heap K) : Nat → Val K → Prop
  | dense {k c d m n} {A : Matrix (Fin m) (Fin n) K} (e : h[k]? = some (some (c, .dense d))) (hd : d.Holds A) :
      Den h k ⟨m, n, A⟩
  | zero {k c m n} (e : h[k]? = some (some (c, .zero m n))) : Den h k ⟨m, n, 0⟩
  | eye {k c n} (e : h[k]? = some (some (c, .eye n))) : Den h k ⟨n, n, 1⟩
  | unref {k c p q X} (e : h[k]? = some (some (c, .op .unref (some p) q))) (hp : Den h p X) : Den h k X
  | neg {k c p q X} (e : h[k]? = some (some (c, .op .neg (some p) q))) (hp : Den h p X) :
      Den h k ⟨X.m, X.n, -X.A⟩
  | trans {k c p q X} (e : h[k]? = some (some (c, .op .trans (some p) q))) (hp : Den h p X) :
      Den h k ⟨X.n, X.m, X.A.transpose⟩

theorem Den.live {h : Heap K} {k X} (D : Den h k X) : ∃ c o, h[k]? = some (some (c, o)) := by
  cases D <;> exact ⟨_, _, ‹_›⟩

theorem Den.move {h h' : Heap K} {ext k X} (D : Den h k X) (I : Counted h' ext) (S : Sub h' h)
    (hl : ∃ c o, h'[k]? = some (some (c, o))) : Den h' k X := by
  have same : ∀ {k c : Nat} {o : Obj K}, h[k]? = some (some (c, o)) → (∃ c o, h'[k]? = some (some (c, o))) →
      ∃ c', h'[k]? = some (some (c', o)) := by
    intro k c o hk ⟨c', o', hk'⟩
    obtain ⟨c'', e⟩ := S k c' o' (List.getElem?_eq_some_iff.1 hk).1 hk'
    rw [hk] at e
    simp only [Option.some.injEq, Prod.mk.injEq] at e
    exact ⟨c', by rw [hk', e.2]⟩
  induction D with
  | dense e hd => exact .dense (same e hl).choose_spec hd
  | zero e => exact .zero (same e hl).choose_spec
  | eye e => exact .eye (same e hl).choose_spec
  | unref e hp ih =>
    have e' := (same e hl).choose_spec
    exact .unref e' (ih (I.live_inner e' (by simp [Obj.ptrs])))
  | neg e hp ih =>
    have e' := (same e hl).choose_spec
    exact .neg e' (ih (I.live_inner e' (by simp [Obj.ptrs])))
  | trans e hp ih =>
    have e' := (same e hl).choose_spec
    exact .trans e' (ih (I.live_inner e' (by simp [Obj.ptrs])))

theorem Den.eval {h : Heap K} {ext k X} (D : Den h k X) (I : Counted h ext) (fuel : Nat) (hf : k < fuel) :
    dim fuel h (some k) false = .ok X.m ∧ dim fuel h (some k) true = .ok X.n ∧
    ∀ (i : Fin X.m) (j : Fin X.n), entry fuel h (some k) i j = .ok (X.A i j) := by
  induction D generalizing fuel with
  | @dense k c d m n A e hd =>
    obtain ⟨fuel, rfl⟩ : ∃ f, fuel = f + 1 := ⟨fuel - 1, by omega⟩
    refine ⟨by simp [dim, deref, e, hd.1], by simp [dim, deref, e, hd.2.1], fun i j => ?_⟩
    simp only [entry, deref, e, Res.ok_bind]
    exact hd.get i j
  | @zero k c m n e =>
    obtain ⟨fuel, rfl⟩ : ∃ f, fuel = f + 1 := ⟨fuel - 1, by omega⟩
    exact ⟨by simp [dim, deref, e], by simp [dim, deref, e], fun i j => by simp [entry, deref, e]⟩
  | @eye k c n e =>
    obtain ⟨fuel, rfl⟩ : ∃ f, fuel = f + 1 := ⟨fuel - 1, by omega⟩
    refine ⟨by simp [dim, deref, e], by simp [dim, deref, e], fun i j => ?_⟩
    simp [entry, deref, e, Matrix.one_apply, Fin.ext_iff]
  | @unref k c p q X e hp ih =>
    have := (I.pos _ _ _ e).2 p (by simp [Obj.ptrs])
    obtain ⟨fuel, rfl⟩ : ∃ f, fuel = f + 1 := ⟨fuel - 1, by omega⟩
    obtain ⟨h1, h2, h3⟩ := ih fuel (by omega)
    refine ⟨by simp [dim, deref, e]; exact h1, by simp [dim, deref, e]; exact h2, fun i j => ?_⟩
    simp only [entry, deref, e, Res.ok_bind]
    exact h3 i j
  | @neg k c p q X e hp ih =>
    have := (I.pos _ _ _ e).2 p (by simp [Obj.ptrs])
    obtain ⟨fuel, rfl⟩ : ∃ f, fuel = f + 1 := ⟨fuel - 1, by omega⟩
    obtain ⟨h1, h2, h3⟩ := ih fuel (by omega)
    refine ⟨by simp [dim, deref, e]; exact h1, by simp [dim, deref, e]; exact h2, fun i j => ?_⟩
    simp only [entry, deref, e, Res.ok_bind]
    rw [h3 i j]; rfl
  | @trans k c p q X e hp ih =>
    have := (I.pos _ _ _ e).2 p (by simp [Obj.ptrs])
    obtain ⟨fuel, rfl⟩ : ∃ f, fuel = f + 1 := ⟨fuel - 1, by omega⟩
    obtain ⟨h1, h2, h3⟩ := ih fuel (by omega)
    refine ⟨by simp [dim, deref, e]; exact h2, by simp [dim, deref, e]; exact h1, fun i j => ?_⟩
    simp only [entry, deref, e, Res.ok_bind]
    exact h3 j i

/-! ## Simulation -/

/-- A variable stands for a value of the specification. -/
def Stands (h : Heap K) : Option (Option Nat) → Option (Option (Val K)) → Prop
  | none, none => True
  | some p, some x => ∀ X, x = some X → ∃ k, p = some k ∧ Den h k X
  | _, _ => False

/-- The state stands for an environment. -/
structure Sim (s : St K) (e : Env K) : Prop where
  inv : Counted s.heap (outer s.vars)
  vars : List.Forall₂ (Stands s.heap) s.vars e

theorem Stands.move {h h' : Heap K} {ext v x} (D : Stands h v x) (I : Counted h' ext) (S : Sub h' h)
    (hl : ∀ k, v = some (some k) → k ∈ ext) : Stands h' v x := by
  match v, x, D with
  | none, none, _ => trivial
  | some p, some x, D =>
    intro X hX
    obtain ⟨k, rfl, D'⟩ := D X hX
    exact ⟨k, rfl, D'.move I S (I.live_ext (hl k rfl))⟩

theorem mem_outer {vs : List (Option (Option Nat))} {k : Nat} : k ∈ outer vs ↔ some (some k) ∈ vs := by
  unfold outer
  rw [List.mem_flatMap]
  constructor
  · rintro ⟨v, hv, hk⟩
    match v, hk with
    | some (some j), hk =>
      simp only [Option.join, Option.toList_some, List.mem_singleton, Option.bind_some, id] at hk
      rw [hk]; exact hv
    | some none, hk => simp at hk
    | none, hk => simp at hk
  · intro hv
    exact ⟨_, hv, by simp⟩

theorem outer_set (vs : List (Option (Option Nat))) (v : Nat) (x y : Option (Option Nat)) (hv : vs[v]? = some x) (j : Nat) :
    (outer (vs.set v y)).count j + (x.join).toList.count j = (outer vs).count j + (y.join).toList.count j := by
  induction vs generalizing v with
  | nil => simp at hv
  | cons a vs ih =>
    cases v with
    | zero =>
      simp only [List.getElem?_cons_zero, Option.some.injEq] at hv
      subst hv
      simp only [outer, List.set_cons_zero, List.flatMap_cons, List.count_append]
      omega
    | succ v =>
      have := ih v (by simpa using hv)
      simp only [outer, List.set_cons_succ, List.flatMap_cons, List.count_append] at this ⊢
      omega

theorem outer_append (vs : List (Option (Option Nat))) (x : Option (Option Nat)) :
    outer (vs ++ [x]) = outer vs ++ (x.join).toList := by simp [outer]

theorem Counted.perm {h : Heap K} {a b : List Nat} (I : Counted h a) (hab : ∀ j, a.count j = b.count j) : Counted h b :=
  ⟨fun k => by rw [I.total, hab], I.pos⟩

theorem forall₂_move {h h' : Heap K} {ext vs e} (D : List.Forall₂ (Stands h) vs e) (I : Counted h' ext) (S : Sub h' h)
    (hl : ∀ k, some (some k) ∈ vs → k ∈ ext) : List.Forall₂ (Stands h') vs e := by
  induction D with
  | nil => exact .nil
  | cons a _ ih =>
    refine .cons (a.move I S fun k hk => hl k (by simp [hk])) (ih fun k hk => hl k (by simp [hk]))

theorem forall₂_get {R : α → β → Prop} {as : List α} {bs : List β} (D : List.Forall₂ R as bs) {v : Nat} {b : β}
    (h : bs[v]? = some b) : ∃ a, as[v]? = some a ∧ R a b := by
  induction D generalizing v with
  | nil => simp at h
  | cons a _ ih =>
    cases v with
    | zero =>
      simp only [List.getElem?_cons_zero, Option.some.injEq] at h
      subst h
      exact ⟨_, rfl, a⟩
    | succ v =>
      simp only [List.getElem?_cons_succ] at h
      simpa using ih h

theorem forall₂_set {R : α → β → Prop} {as : List α} {bs : List β} (D : List.Forall₂ R as bs) (v : Nat) {a : α} {b : β}
    (h : R a b) : List.Forall₂ R (as.set v a) (bs.set v b) := by
  induction D generalizing v with
  | nil => exact .nil
  | cons a' t ih =>
    cases v with
    | zero => exact .cons h t
    | succ v => exact .cons a' (ih v)

/-- The pointer of a variable that lives in the specification. -/
theorem Sim.data {s : St K} {e : Env K} (hs : Sim s e) {v x} (h : e[v]? = some (some x)) :
    ∃ p, s.data v = .ok p ∧ s.vars[v]? = some (some p) ∧ (∀ X, x = some X → ∃ k, p = some k ∧ Den s.heap k X) ∧
      (∀ k ∈ p, ∃ c o, s.heap[k]? = some (some (c, o))) := by
  obtain ⟨a, ha, hr⟩ := forall₂_get hs.vars h
  match a, hr with
  | some p, hr =>
    refine ⟨p, by simp [St.data, ha], ha, hr, fun k hk => hs.inv.live_ext (mem_outer.2 ?_)⟩
    have : p = some k := hk
    subst this
    exact List.mem_of_getElem? ha

theorem lt_of_live {h : Heap K} {k : Nat} (e : ∃ c o, h[k]? = some (some (c, o))) : k < h.length := by
  obtain ⟨c, o, e⟩ := e
  exact (List.getElem?_eq_some_iff.1 e).1

/-- A new variable with a new object. -/
theorem Sim.fresh {s : St K} {e : Env K} (o : Obj K) (I : Counted s.heap (o.ptrs ++ outer s.vars))
    (hv : List.Forall₂ (Stands s.heap) s.vars e) (x : Option (Val K))
    (hx : ∀ h' : Heap K, h'[s.heap.length]? = some (some (1, o)) →
      (∀ k X, Den s.heap k X → (∃ c o, h'[k]? = some (some (c, o))) → Den h' k X) →
      (∀ p ∈ o.ptrs, ∃ c o, h'[p]? = some (some (c, o))) →
      ∀ X, x = some X → Den h' s.heap.length X) :
    ∃ s', s.fresh o = .ok s' ∧ Sim s' (e ++ [some x]) ∧ s'.vars = s.vars ++ [some (some s.heap.length)] ∧
      s'.heap.length = s.heap.length + 1 ∧ Sub s'.heap s.heap ∧
      (∀ k ∈ outer s.vars, ∃ c o, s'.heap[k]? = some (some (c, o))) := by
  obtain ⟨h1, h2, h3⟩ := new_ok o I
  have J : Counted (s.heap ++ [some (1, o)]) (outer (s.vars ++ [some (some s.heap.length)])) := by
    refine h2.perm fun j => ?_
    rw [outer_append]
    simp [List.count_cons, List.count_append]
  refine ⟨⟨s.heap ++ [some (1, o)], s.vars ++ [some (some s.heap.length)]⟩, ?_, ⟨J, ?_⟩, rfl, by simp, h3, ?_⟩
  · unfold St.fresh
    rw [h1]; rfl
  · refine List.rel_append (forall₂_move hv J h3 fun k hk => mem_outer.2 (by simp [hk])) (.cons ?_ .nil)
    intro X hX
    refine ⟨_, rfl, hx _ (by simp) (fun k X D hl => D.move J h3 hl) ?_ X hX⟩
    intro p hp
    exact J.live_inner (k := s.heap.length) (c := 1) (o := o) (by simp) hp
  · intro k hk
    exact J.live_ext (by rw [outer_append]; exact List.mem_append_left _ hk)

theorem Sim.freshOp {s : St K} {e : Env K} (hs : Sim s e) (k : OpKind) {v x} (h : e[v]? = some (some x))
    (f : Val K → Val K)
    (hf : ∀ (h' : Heap K) (n p : Nat) X, h'[n]? = some (some (1, .op k (some p) none)) → Den h' p X → Den h' n (f X)) :
    ∃ p s', s.data v = .ok p ∧ s.vars[v]? = some (some p) ∧ s.freshOp k p = .ok s' ∧ Sim s' (e ++ [some (x.map f)]) ∧
      s'.vars = s.vars ++ [some (some s.heap.length)] ∧ (∀ k ∈ p, k < s'.fuel) := by
  obtain ⟨p, h1, h2, h3, h4⟩ := hs.data h
  obtain ⟨h', e1, I1, S1, l1⟩ := addref_ok hs.inv p h4
  have hmem : ∀ k, some (some k) ∈ s.vars → k ∈ p.toList ++ outer s.vars := fun k hk =>
    List.mem_append_right _ (mem_outer.2 hk)
  obtain ⟨s', g1, g2, g3, g4, -⟩ := Sim.fresh (s := ⟨h', s.vars⟩) (e := e) (.op k p none)
    (by simpa [Obj.ptrs] using I1) (forall₂_move hs.vars I1 S1 hmem) (x.map f) (by
      intro h'' hn hmove hlive X hX
      cases x with
      | none => simp at hX
      | some X0 =>
        obtain ⟨q, rfl, D⟩ := h3 X0 rfl
        simp only [Option.map_some, Option.some.injEq] at hX
        subst hX
        refine hf _ _ q _ hn (hmove q X0 (D.move I1 S1 (I1.live_ext (by simp))) (hlive q (by simp [Obj.ptrs])))
    )
  refine ⟨p, s', h1, h2, ?_, g2, ?_, ?_⟩
  · unfold St.freshOp
    rw [e1]; exact g1
  · rw [g3, l1]
  · intro k hk
    have := lt_of_live (h4 k hk)
    unfold St.fuel
    simp only at g4
    omega

theorem eqRow_ok (f g : Nat → Nat → Res K) (x y : Nat → K) (i : Nat) (js : List Nat) (hf : ∀ j ∈ js, f i j = .ok (x j))
    (hg : ∀ j ∈ js, g i j = .ok (y j)) : ∃ b, eqRow f g i js = .ok b ∧ (b = true ↔ ∀ j ∈ js, x j = y j) := by
  induction js with
  | nil => exact ⟨true, rfl, by simp⟩
  | cons j js ih =>
    obtain ⟨b, h1, h2⟩ := ih (fun j hj => hf j (by simp [hj])) (fun j hj => hg j (by simp [hj]))
    rw [eqRow, hf j (by simp), hg j (by simp)]
    simp only [Res.ok_bind]
    by_cases e : x j = y j
    · rw [if_neg (by simpa using e)]
      exact ⟨b, h1, by rw [h2]; simp [e]⟩
    · rw [if_pos e]
      exact ⟨false, rfl, by simp [e]⟩

theorem eqRows_ok (n : Nat) (f g : Nat → Nat → Res K) (x y : Nat → Nat → K) (is : List Nat)
    (hf : ∀ i ∈ is, ∀ j < n, f i j = .ok (x i j)) (hg : ∀ i ∈ is, ∀ j < n, g i j = .ok (y i j)) :
    ∃ b, eqRows n f g is = .ok b ∧ (b = true ↔ ∀ i ∈ is, ∀ j < n, x i j = y i j) := by
  induction is with
  | nil => exact ⟨true, rfl, by simp⟩
  | cons i is ih =>
    obtain ⟨b, h1, h2⟩ := ih (fun i hi => hf i (by simp [hi])) (fun i hi => hg i (by simp [hi]))
    obtain ⟨c, h3, h4⟩ := eqRow_ok f g (x i) (y i) i (List.range n) (fun j hj => hf i (by simp) j (List.mem_range.1 hj))
      (fun j hj => hg i (by simp) j (List.mem_range.1 hj))
    rw [eqRows, h3]
    simp only [Res.ok_bind]
    cases c with
    | true =>
      simp only [if_true]
      refine ⟨b, h1, ?_⟩
      rw [h2]
      simp only [true_iff, List.mem_range] at h4
      simp only [List.mem_cons, forall_eq_or_imp]
      exact ⟨fun hh => ⟨h4, hh⟩, fun hh => hh.2⟩
    | false =>
      refine ⟨false, by simp, ?_⟩
      simp only [Bool.false_eq_true, false_iff, List.mem_range] at h4 ⊢
      intro hh
      exact h4 fun j hj => hh i (by simp) j hj

/-- Each allowed call runs, returns what the specification says, and leads to a state that stands for its result. -/
theorem step_sim {s : St K} {e : Env K} (hs : Sim s e) {c o e'} (h : SpecStep e c o e') :
    ∃ s', step s c = .ok (o, s') ∧ Sim s' e' := by
  cases h with
  | null =>
    refine ⟨_, rfl, ?_, List.rel_append hs.vars (.cons (by intro X hX; simp at hX) .nil)⟩
    simpa [outer_append] using hs.inv
  | zero m n =>
    obtain ⟨s', h1, h2, -⟩ := Sim.fresh (.zero m n) (by simpa [Obj.ptrs] using hs.inv) hs.vars (some ⟨m, n, 0⟩)
      (by rintro h' hn - - X ⟨⟩; exact .zero hn)
    exact ⟨s', by rw [step, h1]; rfl, h2⟩
  | @dense m n d A hd =>
    obtain ⟨s', h1, h2, -⟩ := Sim.fresh (.dense d) (by simpa [Obj.ptrs] using hs.inv) hs.vars (some ⟨m, n, A⟩)
      (by rintro h' hn - - X ⟨⟩; exact .dense hn hd)
    exact ⟨s', by rw [step, h1]; rfl, h2⟩
  | eye n =>
    obtain ⟨s', h1, h2, -⟩ := Sim.fresh (.eye n) (by simpa [Obj.ptrs] using hs.inv) hs.vars (some ⟨n, n, 1⟩)
      (by rintro h' hn - - X ⟨⟩; exact .eye hn)
    exact ⟨s', by rw [step, h1]; rfl, h2⟩
  | copy h =>
    obtain ⟨p, h1, h2, h3, h4⟩ := hs.data h
    obtain ⟨h', e1, I1, S1, l1⟩ := addref_ok hs.inv p h4
    refine ⟨⟨h', s.vars ++ [some p]⟩, by rw [step, h1]; simp only [Res.ok_bind]; rw [e1]; rfl, ?_, ?_⟩
    · refine I1.perm fun j => ?_
      rw [outer_append, List.count_append, List.count_append]
      simp only [Option.join, Option.bind_some, id]
      omega
    · refine List.rel_append (forall₂_move hs.vars I1 S1 fun k hk => List.mem_append_right _ (mem_outer.2 hk))
        (.cons ?_ .nil)
      intro X hX
      obtain ⟨k, rfl, D⟩ := h3 X hX
      exact ⟨k, rfl, D.move I1 S1 (I1.live_ext (by simp))⟩
  | neg h =>
    obtain ⟨p, s', h1, h2, h3, h4, -⟩ := hs.freshOp .neg h (fun X => ⟨X.m, X.n, -X.A⟩) fun _ _ _ _ e D => .neg e D
    exact ⟨s', by rw [step, h1]; simp only [Res.ok_bind]; rw [h3]; rfl, h4⟩
  | trans h =>
    obtain ⟨p, s', h1, h2, h3, h4, -⟩ := hs.freshOp .trans h (fun X => ⟨X.n, X.m, X.A.transpose⟩)
      fun _ _ _ _ e D => .trans e D
    exact ⟨s', by rw [step, h1]; simp only [Res.ok_bind]; rw [h3]; rfl, h4⟩
  | @unref v x h =>
    obtain ⟨p, s', h1, h2, h3, h4, h5, h6⟩ := hs.freshOp .unref h (fun X => X) fun _ _ _ _ e D => .unref e D
    have hv : v < s.vars.length := (List.getElem?_eq_some_iff.1 h2).1
    have hve : v < e.length := (List.getElem?_eq_some_iff.1 h).1
    have hv' : s'.vars[v]? = some (some p) := by rw [h5, List.getElem?_append_left hv]; exact h2
    have I1 : Counted s'.heap (p.toList ++ outer (s'.vars.set v (some none))) := by
      refine h4.inv.perm fun j => ?_
      have := outer_set s'.vars v _ (some none) hv' j
      simp only [Option.join, Option.bind_some, id, Option.toList_none, List.count_nil] at this
      rw [List.count_append]
      omega
    obtain ⟨h', e1, I2, S2, l2⟩ := release_ok s'.fuel s'.heap _ p I1 h6
    refine ⟨⟨h', s'.vars.set v (some none)⟩, ?_, I2, ?_⟩
    · rw [step, h1]; simp only [Res.ok_bind]; rw [h3]; simp only [Res.ok_bind]; rw [e1]; rfl
    · have hvars := forall₂_set h4.vars v (a := some none) (b := some none) (by intro X hX; simp at hX)
      have : (e ++ [some (x.map fun X => X)]).set v (some none) = e.set v (some none) ++ [some x] := by
        rw [List.set_append_left _ _ hve]
        simp
      rw [this] at hvars
      exact forall₂_move hvars I2 S2 fun k hk => mem_outer.2 hk
  | @assign v w x y hv hw =>
    obtain ⟨p, p1, p2, p3, p4⟩ := hs.data hv
    obtain ⟨q, q1, q2, q3, q4⟩ := hs.data hw
    by_cases hvw : v = w
    · subst hvw
      rw [hv] at hw
      simp only [Option.some.injEq] at hw
      subst hw
      have : e.set v (some y) = e := by
        apply List.ext_getElem? 
        intro k
        by_cases hk : k = v
        · subst hk
          rw [List.getElem?_set_self (List.getElem?_eq_some_iff.1 hv).1, hv]
        · rw [List.getElem?_set_ne (Ne.symm hk)]
      rw [this]
      exact ⟨s, by rw [step, p1]; simp, hs⟩
    · obtain ⟨h1, e1, I1, S1, l1⟩ := addref_ok hs.inv q q4
      have I2 : Counted h1 (p.toList ++ outer (s.vars.set v (some q))) := by
        refine I1.perm fun j => ?_
        have := outer_set s.vars v _ (some q) p2 j
        simp only [Option.join, Option.bind_some, id] at this
        rw [List.count_append, List.count_append]
        omega
      obtain ⟨h2, e2, I3, S3, l3⟩ := release_ok s.fuel h1 _ p I2 fun k hk => lt_of_live (p4 k hk)
      refine ⟨⟨h2, s.vars.set v (some q)⟩, ?_, I3, ?_⟩
      · rw [step, p1]; simp only [Res.ok_bind]; rw [q1]; simp only [Res.ok_bind]
        rw [if_neg hvw, e1]; simp only [Res.ok_bind]; rw [e2]; rfl
      · have hvars := forall₂_set hs.vars v (a := some q) (b := some x) q3
        exact forall₂_move hvars I3 (S3.trans S1 (by omega)) fun k hk => mem_outer.2 hk
  | @destroy v x h =>
    obtain ⟨p, p1, p2, p3, p4⟩ := hs.data h
    have I1 : Counted s.heap (p.toList ++ outer (s.vars.set v none)) := by
      refine hs.inv.perm fun j => ?_
      have := outer_set s.vars v _ none p2 j
      simp only [Option.join, Option.bind_some, id, Option.bind_none, Option.toList_none, List.count_nil] at this
      rw [List.count_append]
      omega
    obtain ⟨h2, e2, I3, S3, l3⟩ := release_ok s.fuel s.heap _ p I1 fun k hk => lt_of_live (p4 k hk)
    refine ⟨⟨h2, s.vars.set v none⟩, ?_, I3, ?_⟩
    · rw [step, p1]; simp only [Res.ok_bind]; rw [e2]; rfl
    · exact forall₂_move (forall₂_set hs.vars v (a := none) (b := none) trivial) I3 S3 fun k hk => mem_outer.2 hk
  | rows h =>
    obtain ⟨p, p1, p2, p3, p4⟩ := hs.data h
    obtain ⟨k, rfl, D⟩ := p3 _ rfl
    obtain ⟨d1, d2, d3⟩ := D.eval hs.inv s.fuel (lt_of_live D.live)
    exact ⟨s, by rw [step, p1]; simp only [Res.ok_bind]; rw [d1]; rfl, hs⟩
  | cols h =>
    obtain ⟨p, p1, p2, p3, p4⟩ := hs.data h
    obtain ⟨k, rfl, D⟩ := p3 _ rfl
    obtain ⟨d1, d2, d3⟩ := D.eval hs.inv s.fuel (lt_of_live D.live)
    exact ⟨s, by rw [step, p1]; simp only [Res.ok_bind]; rw [d2]; rfl, hs⟩
  | read h i j =>
    obtain ⟨p, p1, p2, p3, p4⟩ := hs.data h
    obtain ⟨k, rfl, D⟩ := p3 _ rfl
    obtain ⟨d1, d2, d3⟩ := D.eval hs.inv s.fuel (lt_of_live D.live)
    exact ⟨s, by rw [step, p1]; simp only [Res.ok_bind]; rw [d3]; rfl, hs⟩
  | @eq v w X Y b hv hw hb =>
    obtain ⟨p, p1, p2, p3, p4⟩ := hs.data hv
    obtain ⟨k, rfl, D⟩ := p3 _ rfl
    obtain ⟨d1, d2, d3⟩ := D.eval hs.inv s.fuel (lt_of_live D.live)
    obtain ⟨q, q1, q2, q3, q4⟩ := hs.data hw
    obtain ⟨l, rfl, E⟩ := q3 _ rfl
    obtain ⟨f1, f2, f3⟩ := E.eval hs.inv s.fuel (lt_of_live E.live)
    refine ⟨s, ?_, hs⟩
    rw [step, p1]; simp only [Res.ok_bind]; rw [q1]; simp only [Res.ok_bind]
    rw [d1]; simp only [Res.ok_bind]; rw [d2]; simp only [Res.ok_bind]; rw [f1]; simp only [Res.ok_bind]
    obtain ⟨m, n, A⟩ := X
    obtain ⟨m', n', B⟩ := Y
    simp only at d1 d2 d3 f1 f2 f3 ⊢
    by_cases hm : m = m'
    · subst hm
      rw [if_neg (by simp), f2]; simp only [Res.ok_bind]
      by_cases hn : n = n'
      · subst hn
        rw [if_neg (by simp)]
        obtain ⟨b', g1, g2⟩ := eqRows_ok n (entry s.fuel s.heap (some k)) (entry s.fuel s.heap (some l))
          (fun i j => if h : i < m ∧ j < n then A ⟨i, h.1⟩ ⟨j, h.2⟩ else 0)
          (fun i j => if h : i < m ∧ j < n then B ⟨i, h.1⟩ ⟨j, h.2⟩ else 0) (List.range m)
          (fun i hi j hj => by
            have hi := List.mem_range.1 hi
            rw [dif_pos ⟨hi, hj⟩]; exact d3 ⟨i, hi⟩ ⟨j, hj⟩)
          (fun i hi j hj => by
            have hi := List.mem_range.1 hi
            rw [dif_pos ⟨hi, hj⟩]; exact f3 ⟨i, hi⟩ ⟨j, hj⟩)
        rw [g1]; simp only [Res.ok_bind]
        have : b' = b := by
          rw [Bool.eq_iff_iff, g2, hb]
          constructor
          · intro hh
            congr 1
            ext i j
            have := hh i (List.mem_range.2 i.2) j j.2
            simpa using this
          · intro hh i hi j hj
            have hAB : A = B := by simpa using hh
            rw [hAB]
        rw [this]
      · rw [if_pos hn]
        have : b = false := by
          rw [← Bool.not_eq_true, hb]
          intro hh
          exact hn (congrArg Val.n hh)
        rw [this]
    · rw [if_pos hm]
      have : b = false := by
        rw [← Bool.not_eq_true, hb]
        intro hh
        exact hm (congrArg Val.m hh)
      rw [this]

theorem run_sim {s : St K} {e : Env K} (hs : Sim s e) {cs os e'} (h : SpecRun e cs os e') :
    ∃ s', run s cs = .ok (os, s') ∧ Sim s' e' := by
  induction h generalizing s with
  | nil => exact ⟨s, rfl, hs⟩
  | cons h t ih =>
    obtain ⟨s1, h1, h2⟩ := step_sim hs h
    obtain ⟨s2, h3, h4⟩ := ih h2
    exact ⟨s2, by rw [run, h1]; simp only [Res.ok_bind]; rw [h3]; rfl, h4⟩

/-! ## C82 and C37 -/

/-- **C82**: shared matrices are values: every history of allowed calls runs, and returns what it would return if each
variable held its own matrix. -/
theorem C82_values {cs : List (Cmd K)} {os e} (h : SpecRun [] cs os e) : ∃ s, run ⟨[], []⟩ cs = .ok (os, s) := by
  obtain ⟨s, h1, -⟩ := run_sim (s := ⟨[], []⟩) ⟨⟨by simp [cnt, outer, inner], by simp⟩, .nil⟩ h
  exact ⟨s, h1⟩

/-- **C82**: after every history the count of an object is the number of variables and operators that point to it, it is
deleted exactly when that is 0, and when no variable is left no object is left. -/
theorem C82_counts {cs : List (Cmd K)} {os e} (h : SpecRun [] cs os e) {s : St K} (hs : run ⟨[], []⟩ cs = .ok (os, s)) :
    (∀ k c o, s.heap[k]? = some (some (c, o)) →
      0 < c ∧ c = s.vars.countP (· = some (some k)) + (s.heap.map fun e => (eptrs e).count k).sum) ∧
    (∀ k, some (some k) ∈ s.vars → ∃ c o, s.heap[k]? = some (some (c, o))) ∧
    ((∀ v ∈ e, v = none) → ∀ x ∈ s.heap, x = none) := by
  obtain ⟨s', h1, h2⟩ := run_sim (s := ⟨[], []⟩) ⟨⟨by simp [cnt, outer, inner], by simp⟩, .nil⟩ h
  have : s' = s := by
    rw [h1] at hs
    simpa using hs
  subst this
  refine ⟨fun k c o hk => ⟨(h2.inv.pos k c o hk).1, ?_⟩, fun k hk => h2.inv.live_ext (mem_outer.2 hk), fun hv => ?_⟩
  · have ht := h2.inv.total k
    rw [cnt_of hk] at ht
    rw [ht]
    have e1 : ∀ vs : List (Option (Option Nat)), (outer vs).count k = vs.countP (· = some (some k)) := by
      intro vs
      induction vs with
      | nil => rfl
      | cons v vs ih =>
        have : outer (v :: vs) = (v.join).toList ++ outer vs := by simp [outer]
        rw [this, List.count_append, ih, List.countP_cons, Nat.add_comm]
        congr 1
        match v with
        | none => simp
        | some none => simp
        | some (some j) => simp [List.count_cons]
    have e2 : ∀ h : Heap K, (inner h).count k = (h.map fun e => (eptrs e).count k).sum := by
      intro h
      induction h with
      | nil => rfl
      | cons a h ih => simp [inner, List.count_append] at ih ⊢; rw [ih]
    rw [e1, e2]
  · -- the newest object left would have no reference
    have hout : outer s'.vars = [] := by
      rw [List.eq_nil_iff_forall_not_mem]
      intro k hk
      have hk := mem_outer.1 hk
      obtain ⟨v, hvl, hvk⟩ := List.getElem_of_mem hk
      have hlen : v < e.length := by rw [← h2.vars.length_eq]; exact hvl
      have := List.Forall₂.get h2.vars hvl hlen
      simp only [List.get_eq_getElem, hvk] at this
      rw [hv _ (List.getElem_mem hlen)] at this
      exact this
    by_contra hcon
    have hlive : ∃ k : Nat, ∃ c o, s'.heap[k]? = some (some (c, o)) := by
      by_contra hno
      apply hcon
      intro x hx
      obtain ⟨k, hkl, hkx⟩ := List.getElem_of_mem hx
      cases hx' : x with
      | none => rfl
      | some eo =>
        exfalso
        apply hno
        exact ⟨k, eo.1, eo.2, by rw [List.getElem?_eq_getElem hkl, hkx, hx']⟩
    have hdown : ∀ d k : Nat, s'.heap.length - k ≤ d → (∃ c o, s'.heap[k]? = some (some (c, o))) → False := by
      intro d
      induction d with
      | zero =>
        intro k hd hk
        have := lt_of_live hk
        omega
      | succ d ih =>
        rintro k hd ⟨c, o, hk⟩
        have h1 := h2.inv.total k
        rw [cnt_of hk, hout] at h1
        have h3 := (h2.inv.pos k c o hk).1
        have : 0 < (inner s'.heap).count k := by simp at h1; omega
        have hm := List.count_pos_iff.1 this
        unfold inner at hm
        rw [List.mem_flatMap] at hm
        obtain ⟨x, hx, hp⟩ := hm
        obtain ⟨j, hjl, hjx⟩ := List.getElem_of_mem hx
        cases x with
        | none => simp [eptrs] at hp
        | some eo =>
          have hj : s'.heap[j]? = some (some (eo.1, eo.2)) := by rw [List.getElem?_eq_getElem hjl, hjx]
          have := (h2.inv.pos j _ _ hj).2 k hp
          exact ih j (by omega) ⟨_, _, hj⟩
    obtain ⟨k, hk⟩ := hlive
    exact hdown _ k (le_refl _) hk

/-- The transpose of a negated matrix, shared and released in turn. -/
example : ∃ s, run (K := ℚ) ⟨[], []⟩ [.dense ⟨1, 2, [some 3, some 4]⟩, .neg 0, .trans 1, .unref 1, .destroy 0, .rows 2, .read 2 1 0,
      .eq 2 2, .assign 2 3, .destroy 1, .read 2 0 1, .destroy 2, .destroy 3] =
    .ok ([.done, .done, .done, .done, .done, .size 2, .num (-4), .truth true, .done, .done, .num (-4), .done, .done], s) ∧
    ∀ x ∈ s.heap, x = none := by
  let A : Matrix (Fin 1) (Fin 2) ℚ := !![3, 4]
  have hd : Dense.Holds ⟨1, 2, [some 3, some 4]⟩ A := by
    refine ⟨rfl, rfl, rfl, ?_⟩
    intro i j
    fin_cases i
    fin_cases j <;> rfl
  have hr : SpecRun (K := ℚ) [] [.dense ⟨1, 2, [some 3, some 4]⟩, .neg 0, .trans 1, .unref 1, .destroy 0, .rows 2, .read 2 1 0,
      .eq 2 2, .assign 2 3, .destroy 1, .read 2 0 1, .destroy 2, .destroy 3]
      [.done, .done, .done, .done, .done, .size 2, .num (-4), .truth true, .done, .done, .num (-4), .done, .done]
      [none, none, none, none] := by
    refine .cons (.dense hd) (.cons (.neg rfl) (.cons (.trans rfl) (.cons (.unref rfl) (.cons (.destroy rfl) (.cons (SpecStep.rows
      (e := [none, some none, some (some ⟨2, 1, (-A).transpose⟩), some (some ⟨1, 2, -A⟩)]) (v := 2) (X := ⟨2, 1, (-A).transpose⟩) rfl)
      (.cons (SpecStep.read (e := [none, some none, some (some ⟨2, 1, (-A).transpose⟩), some (some ⟨1, 2, -A⟩)]) (v := 2)
        (X := ⟨2, 1, (-A).transpose⟩) rfl 1 0)
      (.cons (.eq rfl rfl (by simp)) (.cons (.assign rfl rfl) (.cons (.destroy rfl) (.cons
      (SpecStep.read (e := [none, none, some (some ⟨1, 2, -A⟩), some (some ⟨1, 2, -A⟩)]) (v := 2) (X := ⟨1, 2, -A⟩) rfl 0 1)
      (.cons (.destroy rfl) (.cons (.destroy rfl) .nil))))))))))))
  obtain ⟨s, hs⟩ := C82_values hr
  exact ⟨s, hs, (C82_counts hr hs).2.2 (by simp)⟩

theorem build_entry {h : Heap K} {ext k X} (D : Den h k X) (I : Counted h ext) :
    ∃ d, Dense.build X.m X.n (fun i j => entry h.length h (some k) i j) = .ok d ∧ d.Holds X.A :=
  build_ok _ _ (D.eval I _ (lt_of_live D.live)).2.2

/-- **C37 (part)**: `getdense` copies the matrix for storage that is not an operator, and for an `unref` operator. -/
theorem C37_getdense_partial {h : Heap K} {ext k X} (I : Counted h ext) (D : Den h k X)
    (hk : ∀ c p q, h[k]? ≠ some (some (c, .op .neg p q)) ∧ h[k]? ≠ some (some (c, .op .trans p q))) :
    ∃ d, getdense h.length h (some k) = .ok d ∧ d.Holds X.A := by
  obtain ⟨d1, d2, -⟩ := D.eval I h.length (lt_of_live D.live)
  cases D with
  | dense e hd => exact ⟨_, by simp only [getdense, deref, e, Res.ok_bind], hd⟩
  | @zero _ c m n e =>
    obtain ⟨h1, -⟩ := C37_dense_const (K := K) (m := m) (n := n) 0
    obtain ⟨d, g1, g2⟩ := h1
    refine ⟨d, by simp only [getdense, deref, e, Res.ok_bind]; exact g1, ?_⟩
    exact g2
  | @eye _ c n e =>
    obtain ⟨-, h1⟩ := C37_dense_const (K := K) (m := n) (n := n) 1
    obtain ⟨d, g1, g2⟩ := h1
    refine ⟨d, by simp only [getdense, deref, e, Res.ok_bind]; exact g1, ?_⟩
    convert g2 using 1
    ext i j
    simp [Matrix.one_apply, Fin.ext_iff]
  | @unref _ c p q X e hp =>
    obtain ⟨d, g1, g2⟩ := build_entry hp I
    refine ⟨d, ?_, g2⟩
    have hd : deref h (some k) = .ok (c, .op .unref (some p) q) := by simp [deref, e]
    simp only [getdense, hd, Res.ok_bind, d1, d2]
    exact g1
  | neg e hp => exact absurd e (hk _ _ _).1
  | trans e hp => exact absurd e (hk _ _ _).2

/-- **C37 fails** for `getdense` of a negated matrix, which gives the matrix itself, and of a transposed square matrix,
which gives the matrix not transposed. -/
theorem C37_getdense_wrong {h : Heap K} {ext} (I : Counted h ext) {k c p : Nat} {n m : Nat} :
    (∀ {A : Matrix (Fin m) (Fin n) K} {q : Option Nat}, h[k]? = some (some (c, .op .neg (some p) q)) → Den h p ⟨m, n, A⟩ →
      Den h k ⟨m, n, -A⟩ ∧ ∃ d, getdense h.length h (some k) = .ok d ∧ d.Holds A ∧ (A ≠ -A → ¬ d.Holds (-A))) ∧
    (∀ {A : Matrix (Fin n) (Fin n) K} {q : Option Nat}, h[k]? = some (some (c, .op .trans (some p) q)) → Den h p ⟨n, n, A⟩ →
      Den h k ⟨n, n, A.transpose⟩ ∧
      ∃ d, getdense h.length h (some k) = .ok d ∧ d.Holds A ∧ (A ≠ A.transpose → ¬ d.Holds A.transpose)) := by
  have uniq : ∀ {m n : Nat} {A B : Matrix (Fin m) (Fin n) K} {d : Dense K}, d.Holds A → d.Holds B → A = B := by
    intro m n A B d hA hB
    ext i j
    have h1 := hA.2.2.2 i j
    rw [hB.2.2.2 i j] at h1
    simpa using h1.symm
  constructor
  · intro A q e hp
    have D : Den h k ⟨m, n, -A⟩ := .neg e hp
    obtain ⟨d1, d2, -⟩ := D.eval I h.length (lt_of_live D.live)
    obtain ⟨d, g1, g2⟩ := build_entry hp I
    refine ⟨D, d, ?_, g2, fun hne hd => hne (uniq g2 hd)⟩
    have hd : deref h (some k) = .ok (c, .op .neg (some p) q) := by simp [deref, e]
    simp only [getdense, hd, Res.ok_bind, d1, d2]
    exact g1
  · intro A q e hp
    have D : Den h k ⟨n, n, A.transpose⟩ := .trans e hp
    obtain ⟨d1, d2, -⟩ := D.eval I h.length (lt_of_live D.live)
    obtain ⟨d, g1, g2⟩ := build_entry hp I
    refine ⟨D, d, ?_, g2, fun hne hd => hne (uniq g2 hd)⟩
    have hd : deref h (some k) = .ok (c, .op .trans (some p) q) := by simp [deref, e]
    simp only [getdense, hd, Res.ok_bind, d1, d2]
    exact g1

/-- **C37 fails** for sums, differences, products and inverses held as operators: they read as their first operand. -/
theorem C37_operators_wrong {h : Heap K} {ext k c p X} {q : Option Nat} {kind : OpKind} (I : Counted h ext)
    (hkind : kind = .add ∨ kind = .sub ∨ kind = .mul ∨ kind = .inv)
    (e : h[k]? = some (some (c, .op kind (some p) q))) (D : Den h p X) (i : Fin X.m) (j : Fin X.n) :
    entry h.length h (some k) i j = .ok (X.A i j) := by
  have hp := (I.pos _ _ _ e).2 p (by simp [Obj.ptrs])
  have hk := (List.getElem?_eq_some_iff.1 e).1
  obtain ⟨f, hf⟩ : ∃ f, h.length = f + 1 := ⟨h.length - 1, by omega⟩
  obtain ⟨-, -, h3⟩ := D.eval I f (by omega)
  rw [hf, entry]
  have hd : deref h (some k) = .ok (c, .op kind (some p) q) := by simp [deref, e]
  rcases hkind with rfl | rfl | rfl | rfl <;> simp only [hd, Res.ok_bind, h3]

/-- A transposed row is read outside its array. -/
example : getdense (K := ℚ) 2 [some (1, .dense ⟨1, 2, [some 3, some 4]⟩), some (1, .op .trans (some 0) none)] (some 1) = .ub := rfl

/-- 1 plus 2 reads as 1. -/
example : entry (K := ℚ) 3 [some (1, .dense ⟨1, 1, [some 1]⟩), some (1, .dense ⟨1, 1, [some 2]⟩),
    some (1, .op .add (some 0) (some 1))] (some 2) 0 0 = .ok 1 := rfl

end
end OP.Mat
