import Verif.SetFam.Search
import Verif.SetFam.SortPairs
import Mathlib.Logic.Function.Basic
import Mathlib.Data.List.Nodup
/-!
# Keyed sets: `kfset`/`ksset`/`koset` (include/set.h:789-1062), `iset` (561-778),
`kiset` (1072-1297) and `afset`/`asset` (1306-1530)

The live part `value[0..size)` (and `idx`, `key`) is a list; the capacity and the raw storage are
those of `fset` (see `SSet.lean`) and are not repeated.  The key of an element is `key v` (a base
class subobject in the code, the identity for `iset`); `operator ==` and `operator <` on keys are those
of a linear order.
-/
namespace OP.SetFam.Keyed
open QS

/-! ## Specification: an insertion-ordered finite map -/

/-- The keys in insertion order and the value of each key. -/
structure Map (K V : Type) where
  order : List K
  val : K → Option V

namespace Map
variable {K V : Type} [DecidableEq K]

/-- The empty map. -/
def nil : Map K V := ⟨[], fun _ => none⟩

/-- Insert or overwrite; a new key goes last, an existing key keeps its place. -/
def put (m : Map K V) (k : K) (v : V) : Map K V :=
  ⟨if k ∈ m.order then m.order else m.order ++ [k], Function.update m.val k (some v)⟩

/-- Remove a key. -/
def del (m : Map K V) (k : K) : Map K V := ⟨m.order.erase k, Function.update m.val k none⟩
end Map

/-- The operations on keyed sets. -/
inductive Op (K V : Type) where
  | add (vs : List V)
  | remove (k : K)
  | replace (v : V)
  | empty

/-- What an operation should do; `none` is rejection. -/
def spec {K V : Type} [DecidableEq K] (key : V → K) (m : Map K V) : Op K V → Option (Map K V)
  | .add vs => if vs = [] then none else some (vs.foldl (fun m v => m.put (key v) v) m)
  | .remove k => if k ∈ m.order then some (m.del k) else none
  | .replace v => if key v ∈ m.order then some (m.put (key v) v) else none
  | .empty => some .nil

/-- A history: the final map and which calls were accepted. -/
def specRun {K V : Type} [DecidableEq K] (key : V → K) (m : Map K V) :
    List (Op K V) → Map K V × List Bool
  | [] => (m, [])
  | op :: ops =>
    match spec key m op with
    | none => let r := specRun key m ops; (r.1, false :: r.2)
    | some m' => let r := specRun key m' ops; (r.1, true :: r.2)

/-- A history of calls on an object with step function `step`; a throw leaves it unchanged. -/
def run {S O : Type} (step : S → O → Res S) (st : S) : List O → Res (S × List Bool)
  | [] => .ok (st, [])
  | op :: ops =>
    match step st op with
    | .ok st' => run step st' ops >>= fun r => .ok (r.1, true :: r.2)
    | .throw => run step st ops >>= fun r => .ok (r.1, false :: r.2)
    | .ub => .ub

/-- If each step follows the specification under `R`, so does each history. -/
theorem run_spec {K V S : Type} [DecidableEq K] (key : V → K) (step : S → Op K V → Res S)
    (R : S → Map K V → Prop)
    (hstep : ∀ st m op, R st m → (∀ m', spec key m op = some m' → ∃ st', step st op = .ok st' ∧ R st' m')
      ∧ (spec key m op = none → step st op = .throw))
    (ops : List (Op K V)) : ∀ (st : S) (m : Map K V), R st m →
    ∃ st', run step st ops = .ok (st', (specRun key m ops).2) ∧ R st' (specRun key m ops).1 := by
  induction ops with
  | nil => intro st m h; exact ⟨st, rfl, h⟩
  | cons op ops ih =>
    intro st m h
    have hs := hstep st m op h
    rw [run, specRun]
    cases hsp : spec key m op with
    | none =>
      rw [hs.2 hsp]
      obtain ⟨st', h1, h2⟩ := ih st m h
      exact ⟨st', by simp [h1], h2⟩
    | some m' =>
      obtain ⟨st1, h1, h2⟩ := hs.1 m' hsp
      rw [h1]
      obtain ⟨st', h3, h4⟩ := ih st1 m' h2
      exact ⟨st', by simp [h3], h4⟩

/-! ## `ksset` -/

section ks
variable {K V : Type} [DecidableEq K] (key : V → K)

/-- `kfset::haskey` (include/set.h:818-824) from element `i` on; `UINT_MAX` is `none`. -/
def haskeyFrom (k : K) : List V → Nat → Option Nat
  | [], _ => none
  | v :: vs, i => if key v = k then some i else haskeyFrom k vs (i + 1)

/-- `kfset::haskey` (include/set.h:818-824). -/
def haskey (a : List V) (k : K) : Option Nat := haskeyFrom key k a 0

/-- One round of `kfset::copy(s,v,true)` (include/set.h:899-906). -/
def copyOne (a : List V) (v : V) : List V :=
  match haskey key a (key v) with
  | some p => a.set p v
  | none => a ++ [v]

/-- `ksset` (include/set.h:957-986): `add`, `remove`, `replace`, `empty`. -/
def ksStep (a : List V) : Op K V → Res (List V)
  | .add vs => if vs = [] then .throw else .ok (vs.foldl (copyOne key) a)
  | .remove k =>
    match haskey key a k with
    | none => .throw
    | some p => .ok (a.eraseIdx p)
  | .replace v =>
    match haskey key a (key v) with
    | none => .throw
    | some p => .ok (a.set p v)
  | .empty => .ok []

/-- The list holds exactly the map. -/
structure KRep (a : List V) (m : Map K V) : Prop where
  order : a.map key = m.order
  nodup : m.order.Nodup
  val : ∀ v ∈ a, m.val (key v) = some v
  out : ∀ k, k ∉ m.order → m.val k = none

theorem haskeyFrom_some {k : K} : ∀ (a : List V) (i p : Nat), haskeyFrom key k a i = some p →
    ∃ q, p = i + q ∧ ∃ h : q < a.length, key a[q] = k := by
  intro a
  induction a with
  | nil => intro i p h; simp [haskeyFrom] at h
  | cons v vs ih =>
    intro i p h
    rw [haskeyFrom] at h
    split at h
    · rename_i hk
      simp only [Option.some.injEq] at h
      exact ⟨0, by omega, by simp, by simpa using hk⟩
    · obtain ⟨q, h1, h2, h3⟩ := ih (i + 1) p h
      exact ⟨q + 1, by omega, by simp; omega, by simpa using h3⟩

theorem haskeyFrom_none {k : K} : ∀ (a : List V) (i : Nat), haskeyFrom key k a i = none →
    k ∉ a.map key := by
  intro a
  induction a with
  | nil => intro i h; simp
  | cons v vs ih =>
    intro i h
    rw [haskeyFrom] at h
    split at h
    · simp at h
    · rename_i hk
      have := ih (i + 1) h
      simp only [List.map_cons, List.mem_cons, not_or]
      exact ⟨fun h => hk h.symm, this⟩

theorem haskey_cases (a : List V) (k : K) :
    (haskey key a k = none ∧ k ∉ a.map key) ∨
    (∃ p, haskey key a k = some p ∧ ∃ h : p < a.length, key a[p] = k) := by
  cases h : haskey key a k with
  | none => exact .inl ⟨rfl, haskeyFrom_none key a 0 h⟩
  | some p =>
    obtain ⟨q, h1, h2, h3⟩ := haskeyFrom_some key a 0 p h
    have : p = q := by omega
    subst this
    exact .inr ⟨p, rfl, h2, h3⟩

theorem KRep.nil : KRep key ([] : List V) (Map.nil : Map K V) :=
  ⟨rfl, List.nodup_nil, by simp, by simp [Map.nil]⟩

theorem KRep.set {a : List V} {m : Map K V} (h : KRep key a m) {p : Nat} (hp : p < a.length) (v : V)
    (hk : key a[p] = key v) : KRep key (a.set p v) (m.put (key v) v) := by
  have hmem : key v ∈ m.order := by
    rw [← h.order, ← hk]; exact List.mem_map_of_mem (List.getElem_mem hp)
  have ho : (a.set p v).map key = m.order := by
    rw [List.map_set, ← hk, ← h.order]
    have : key a[p] = (a.map key)[p]'(by simpa using hp) := by simp
    rw [this, List.set_getElem_self]
  refine ⟨by simp [Map.put, hmem, ho], by simpa [Map.put, hmem] using h.nodup, ?_, ?_⟩
  · intro w hw
    simp only [Map.put]
    by_cases hkw : key w = key v
    · rw [hkw, Function.update_self]
      -- keys are distinct, so w is v
      obtain ⟨i, hi, rfl⟩ := List.getElem_of_mem hw
      have hi' : i < a.length := by simpa using hi
      by_cases hip : p = i
      · subst hip; simp
      · exfalso
        have hw' : (a.set p v)[i] = a[i] := by rw [List.getElem_set_ne hip]
        rw [hw', ← hk] at hkw
        have hnd : (a.map key).Nodup := by rw [h.order]; exact h.nodup
        have := (List.Nodup.getElem_inj_iff hnd (hi := by simpa using hi') (hj := by simpa using hp)).1
          (by simpa using hkw)
        omega
    · rw [Function.update_of_ne hkw]
      have : w ∈ a := by
        rcases List.mem_or_eq_of_mem_set hw with h1 | h1
        · exact h1
        · subst h1; exact absurd rfl hkw
      exact h.val w this
  · intro k hkn
    simp only [Map.put, hmem, if_true] at hkn ⊢
    rw [Function.update_of_ne (by rintro rfl; exact hkn hmem)]
    exact h.out k hkn

theorem KRep.append {a : List V} {m : Map K V} (h : KRep key a m) (v : V)
    (hk : key v ∉ m.order) : KRep key (a ++ [v]) (m.put (key v) v) := by
  refine ⟨by simp [Map.put, hk, h.order], ?_, ?_, ?_⟩
  · simp only [Map.put, hk, if_false]
    rw [List.nodup_append]
    exact ⟨h.nodup, by simp, by
      intro x hx y hy
      simp only [List.mem_singleton] at hy
      subst hy; rintro rfl; exact hk hx⟩
  · intro w hw
    simp only [Map.put]
    rcases List.mem_append.mp hw with hw | hw
    · have : key w ≠ key v := fun he => hk (by
        rw [← he, ← h.order]; exact List.mem_map_of_mem hw)
      rw [Function.update_of_ne this]
      exact h.val w hw
    · simp only [List.mem_singleton] at hw
      subst hw; simp
  · intro k hkn
    simp only [Map.put, hk, if_false, List.mem_append, List.mem_singleton, not_or] at hkn ⊢
    rw [Function.update_of_ne hkn.2]
    exact h.out k hkn.1

theorem KRep.copyOne {a : List V} {m : Map K V} (h : KRep key a m) (v : V) :
    KRep key (copyOne key a v) (m.put (key v) v) := by
  unfold Keyed.copyOne
  rcases haskey_cases key a (key v) with ⟨h1, h2⟩ | ⟨p, h1, h2, h3⟩
  · rw [h1]; exact h.append key v (by rw [← h.order]; exact h2)
  · rw [h1]; exact h.set key h2 v h3

theorem KRep.foldl {a : List V} {m : Map K V} (h : KRep key a m) (vs : List V) :
    KRep key (vs.foldl (Keyed.copyOne key) a) (vs.foldl (fun m v => m.put (key v) v) m) := by
  induction vs generalizing a m with
  | nil => exact h
  | cons v vs ih => exact ih (h.copyOne key v)

theorem map_eraseIdx' {A B : Type} (f : A → B) (a : List A) (p : Nat) :
    (a.eraseIdx p).map f = (a.map f).eraseIdx p := by
  rw [List.eraseIdx_eq_take_drop_succ, List.eraseIdx_eq_take_drop_succ]; simp

theorem erase_eq_eraseIdx {a : List K} (hnd : a.Nodup) {p : Nat} (hp : p < a.length) :
    a.eraseIdx p = a.erase a[p] := by
  induction a generalizing p with
  | nil => simp at hp
  | cons x a ih =>
    rw [List.nodup_cons] at hnd
    cases p with
    | zero => simp
    | succ p =>
      have hp' : p < a.length := by simpa using hp
      have : x ≠ a[p] := fun h => hnd.1 (h ▸ List.getElem_mem hp')
      simp only [List.eraseIdx_cons_succ, List.getElem_cons_succ]
      rw [List.erase_cons_tail (by simpa using this), ih hnd.2 hp']

theorem KRep.erase {a : List V} {m : Map K V} (h : KRep key a m) {p : Nat} (hp : p < a.length) :
    KRep key (a.eraseIdx p) (m.del (key a[p])) := by
  have hnd : (a.map key).Nodup := by rw [h.order]; exact h.nodup
  have ho : (a.eraseIdx p).map key = m.order.erase (key a[p]) := by
    rw [map_eraseIdx', erase_eq_eraseIdx hnd (by simpa using hp), ← h.order]
    simp
  refine ⟨ho, h.nodup.erase _, ?_, ?_⟩
  · intro w hw
    simp only [Map.del]
    have hmem : key w ∈ m.order.erase (key a[p]) := by rw [← ho]; exact List.mem_map_of_mem hw
    have hne : key w ≠ key a[p] := by
      rintro he; rw [he] at hmem
      exact (List.Nodup.not_mem_erase h.nodup) hmem
    rw [Function.update_of_ne hne]
    exact h.val w ((List.eraseIdx_sublist a p).subset hw)
  · intro k hk
    simp only [Map.del] at hk ⊢
    by_cases hke : k = key a[p]
    · rw [hke, Function.update_self]
    · rw [Function.update_of_ne hke]
      exact h.out k fun hm => hk ((List.mem_erase_of_ne hke).2 hm)

theorem ksStep_ok (a : List V) (m : Map K V) (op : Op K V) (h : KRep key a m) :
    (∀ m', spec key m op = some m' → ∃ a', ksStep key a op = .ok a' ∧ KRep key a' m') ∧
    (spec key m op = none → ksStep key a op = .throw) := by
  cases op with
  | add vs =>
    simp only [spec, ksStep]
    split
    · simp
    · simp only [Option.some.injEq, forall_eq', reduceCtorEq, false_implies, and_true]
      exact ⟨_, rfl, h.foldl key vs⟩
  | remove k =>
    simp only [spec, ksStep]
    rcases haskey_cases key a k with ⟨h1, h2⟩ | ⟨p, h1, h2, h3⟩
    · rw [h.order] at h2
      rw [if_neg h2, h1]; simp
    · have : k ∈ m.order := by
        rw [← h.order, ← h3]; exact List.mem_map_of_mem (List.getElem_mem h2)
      rw [if_pos this, h1]
      simp only [Option.some.injEq, forall_eq', reduceCtorEq, false_implies, and_true]
      refine ⟨_, rfl, ?_⟩
      rw [← h3]; exact h.erase key h2
  | replace v =>
    simp only [spec, ksStep]
    rcases haskey_cases key a (key v) with ⟨h1, h2⟩ | ⟨p, h1, h2, h3⟩
    · rw [h.order] at h2
      rw [if_neg h2, h1]; simp
    · have : key v ∈ m.order := by
        rw [← h.order, ← h3]; exact List.mem_map_of_mem (List.getElem_mem h2)
      rw [if_pos this, h1]
      simp only [Option.some.injEq, forall_eq', reduceCtorEq, false_implies, and_true]
      exact ⟨_, rfl, h.set key h2 v h3⟩
  | empty =>
    simp only [spec, ksStep, Option.some.injEq, forall_eq', reduceCtorEq, false_implies, and_true]
    exact ⟨_, rfl, KRep.nil key⟩

/-- What can be observed of a keyed set: it shows exactly the map `m`. -/
structure Shows (a : List V) (hk : K → Res (Option Nat)) (m : Map K V) : Prop where
  length : a.length = m.order.length
  /-- element `i` is the value stored for the `i`-th key -/
  elem : ∀ i (h : i < a.length), m.order[i]? = some (key a[i]) ∧ m.val (key a[i]) = some a[i]
  /-- a key that is present is found at its own position -/
  found : ∀ k ∈ m.order, ∃ p, hk k = .ok (some p) ∧ ∃ h : p < a.length, key a[p] = k
  /-- a key that is absent is not found -/
  missing : ∀ k, k ∉ m.order → hk k = .ok none ∧ m.val k = none

theorem KRep.shows {a : List V} {m : Map K V} (h : KRep key a m) :
    Shows key a (fun k => .ok (haskey key a k)) m := by
  refine ⟨by rw [← h.order]; simp, fun i hi => ⟨by rw [← h.order]; simp [hi],
    h.val _ (List.getElem_mem hi)⟩, ?_, ?_⟩
  · intro k hk
    rw [← h.order] at hk
    rcases haskey_cases key a k with ⟨h1, h2⟩ | ⟨p, h1, h2, h3⟩
    · exact absurd hk h2
    · exact ⟨p, by simp [h1], h2, h3⟩
  · intro k hk
    refine ⟨?_, h.out k hk⟩
    rcases haskey_cases key a k with ⟨h1, h2⟩ | ⟨p, h1, h2, h3⟩
    · simp [h1]
    · exact absurd (by rw [← h.order, ← h3]; exact List.mem_map_of_mem (List.getElem_mem h2)) hk

end ks
end OP.SetFam.Keyed
