import Verif.Links.Owned
import Mathlib.Data.List.Nodup
/-!
# Lemmas on doubly linked lists
-/
namespace OP.Links

/-- The chain `L` starts at `p`, whose predecessor is `pr`; its last element is `la` (`pr` if empty), whose
successor is `q`. -/
def DSeg (h : Nat → Option (Option Nat × Option Nat)) : Option Nat → Option Nat → List Nat → Option Nat → Option Nat → Prop
  | pr, p, [], la, q => p = q ∧ pr = la
  | pr, p, a :: L, la, q => p = some a ∧ ∃ r, h a = some (pr, r) ∧ DSeg h (some a) r L la q

theorem DSeg.append {h : Nat → Option (Option Nat × Option Nat)} {pr p la q : Option Nat} {A B : List Nat} :
    DSeg h pr p (A ++ B) la q ↔ ∃ m n, DSeg h pr p A m n ∧ DSeg h m n B la q := by
  induction A generalizing pr p with
  | nil =>
    simp only [List.nil_append, DSeg]
    constructor
    · intro h; exact ⟨pr, p, ⟨rfl, rfl⟩, h⟩
    · rintro ⟨m, n, ⟨rfl, rfl⟩, h⟩; exact h
  | cons a A ih =>
    simp only [List.cons_append, DSeg, ih]
    constructor
    · rintro ⟨h1, r, h2, m, n, h3, h4⟩; exact ⟨m, n, ⟨h1, r, h2, h3⟩, h4⟩
    · rintro ⟨m, n, ⟨h1, r, h2, h3⟩, h4⟩; exact ⟨h1, r, h2, m, n, h3, h4⟩

theorem DSeg.frame {h h' : Nat → Option (Option Nat × Option Nat)} {pr p la q : Option Nat} {L : List Nat}
    (hs : DSeg h pr p L la q) (hf : ∀ a ∈ L, h' a = h a) : DSeg h' pr p L la q := by
  induction L generalizing pr p with
  | nil => exact hs
  | cons a L ih =>
    obtain ⟨h1, r, h2, h3⟩ := hs
    exact ⟨h1, r, by rw [hf a (by simp)]; exact h2, ih h3 fun b hb => hf b (by simp [hb])⟩

/-- The list holds the elements `L`. -/
structure L2.Rep (s : L2) (L : List Nat) : Prop where
  seg : DSeg s.nod none s.first L s.last none
  nodup : L.Nodup

@[simp] theorem put_same (s : L2) (i : Nat) (v) : (s.put i v).nod i = v := by simp [L2.put]
theorem put_ne (s : L2) {i j : Nat} (v) (h : j ≠ i) : (s.put i v).nod j = s.nod j := by simp [L2.put, h]
@[simp] theorem put_first (s : L2) (i : Nat) (v) : (s.put i v).first = s.first := rfl
@[simp] theorem put_last (s : L2) (i : Nat) (v) : (s.put i v).last = s.last := rfl

theorem get_ok2 {s : L2} {i : Nat} {v} (h : s.nod i = some v) : s.get i = .ok v := by simp [L2.get, h]
theorem setPrev_ok {s : L2} {i : Nat} {v} (h : s.nod i = some v) (p : Option Nat) :
    s.setPrev i p = .ok (s.put i (some (p, v.2))) := by simp [L2.setPrev, get_ok2 h]
theorem setNext_ok {s : L2} {i : Nat} {v} (h : s.nod i = some v) (p : Option Nat) :
    s.setNext i p = .ok (s.put i (some (v.1, p))) := by simp [L2.setNext, get_ok2 h]

theorem snoc_cases (A : List Nat) : A = [] ∨ ∃ A' a, A = A' ++ [a] := by
  by_cases h : A = []
  · exact .inl h
  · exact .inr ⟨A.dropLast, A.getLast h, (List.dropLast_append_getLast h).symm⟩

theorem DSeg.snoc {h : Nat → Option (Option Nat × Option Nat)} {pr p la q : Option Nat} {A : List Nat} {a : Nat} :
    DSeg h pr p (A ++ [a]) la q ↔ ∃ m, DSeg h pr p A m (some a) ∧ h a = some (m, q) ∧ la = some a := by
  rw [DSeg.append]
  simp only [DSeg]
  constructor
  · rintro ⟨m, n, h1, rfl, r, h2, rfl, rfl⟩; exact ⟨m, h1, h2, rfl⟩
  · rintro ⟨m, h1, h2, rfl⟩; exact ⟨m, some a, h1, rfl, q, h2, rfl, rfl⟩

/-- The state after linking `e` between `a` and `b`. -/
theorem rep_insert {s s' : L2} {A B : List Nat} {e : Nat} (h : s.Rep (A ++ B)) (he : e ∉ A ++ B)
    (hf : s'.first = if A = [] then some e else s.first) (hl : s'.last = if B = [] then some e else s.last)
    (hne : s'.nod e = some (A.getLast?, B.head?))
    (ha : ∀ A' a, A = A' ++ [a] → ∀ v, s.nod a = some v → s'.nod a = some (v.1, some e))
    (hb : ∀ b B', B = b :: B' → ∀ v, s.nod b = some v → s'.nod b = some (some e, v.2))
    (ho : ∀ j, j ≠ e → A.getLast? ≠ some j → B.head? ≠ some j → s'.nod j = s.nod j) :
    s'.Rep (A ++ e :: B) := by
  obtain ⟨hseg, hnd⟩ := h
  have hnd' : (A ++ e :: B).Nodup := by rw [List.perm_middle.nodup_iff, List.nodup_cons]; exact ⟨he, hnd⟩
  refine ⟨?_, hnd'⟩
  obtain ⟨m, n, s1, s2⟩ := DSeg.append.1 hseg
  rw [List.nodup_append] at hnd
  obtain ⟨nA, nB, nAB⟩ := hnd
  have heA : e ∉ A := fun h => he (by simp [h])
  have heB : e ∉ B := fun h => he (by simp [h])
  -- the part before
  have f1 : DSeg s'.nod none s'.first A A.getLast? (some e) := by
    rcases snoc_cases A with rfl | ⟨A', a, rfl⟩
    · exact ⟨by rw [hf]; rfl, rfl⟩
    · obtain ⟨k, k1, k2, k3⟩ := DSeg.snoc.1 s1
      rw [hf, if_neg (by simp)]
      refine DSeg.snoc.2 ⟨k, k1.frame fun j hj => ?_, ha A' a rfl _ k2, by simp⟩
      refine ho j ?_ ?_ ?_
      · rintro rfl; exact heA (by simp [hj])
      · simp only [List.getLast?_append, List.getLast?_singleton, Option.some_or, ne_eq, Option.some.injEq]
        rintro rfl
        rw [List.nodup_append] at nA
        exact nA.2.2 a hj a (by simp) rfl
      · intro hh
        exact nAB j (by simp [hj]) j (List.mem_of_mem_head? hh) rfl
  have f2 : DSeg s'.nod (some e) B.head? B s'.last none := by
    cases B with
    | nil => exact ⟨rfl, by rw [hl]; rfl⟩
    | cons b B =>
      obtain ⟨k1, r, k2, k3⟩ := s2
      rw [hl, if_neg (by simp)]
      refine ⟨rfl, r, hb b B rfl _ k2, k3.frame fun j hj => ?_⟩
      refine ho j ?_ ?_ ?_
      · rintro rfl; exact heB (by simp [hj])
      · intro hh
        exact nAB j (List.mem_of_getLast? hh) j (by simp [hj]) rfl
      · simp only [List.head?_cons, ne_eq, Option.some.injEq]
        rintro rfl
        rw [List.nodup_cons] at nB
        exact nB.1 hj
  exact DSeg.append.2 ⟨A.getLast?, some e, f1, rfl, B.head?, hne, f2⟩

/-- The state after unlinking `e`. -/
theorem rep_erase {s s' : L2} {A B : List Nat} {e : Nat} (h : s.Rep (A ++ e :: B))
    (hf : s'.first = if A = [] then B.head? else s.first) (hl : s'.last = if B = [] then A.getLast? else s.last)
    (ha : ∀ A' a, A = A' ++ [a] → ∀ v, s.nod a = some v → s'.nod a = some (v.1, B.head?))
    (hb : ∀ b B', B = b :: B' → ∀ v, s.nod b = some v → s'.nod b = some (A.getLast?, v.2))
    (ho : ∀ j, j ≠ e → A.getLast? ≠ some j → B.head? ≠ some j → s'.nod j = s.nod j) :
    s'.Rep (A ++ B) := by
  obtain ⟨hseg, hnd⟩ := h
  have hnd2 := hnd
  rw [List.perm_middle.nodup_iff, List.nodup_cons] at hnd2
  refine ⟨?_, hnd2.2⟩
  obtain ⟨m, n, s1, rfl, q, s2, s3⟩ := DSeg.append.1 hseg
  have nAB := hnd2.2
  rw [List.nodup_append] at nAB
  obtain ⟨nA, nB, nAB⟩ := nAB
  have heA : e ∉ A := fun h => hnd2.1 (by simp [h])
  have heB : e ∉ B := fun h => hnd2.1 (by simp [h])
  have f1 : DSeg s'.nod none s'.first A A.getLast? B.head? := by
    rcases snoc_cases A with rfl | ⟨A', a, rfl⟩
    · exact ⟨by rw [hf]; rfl, rfl⟩
    · obtain ⟨k, k1, k2, k3⟩ := DSeg.snoc.1 s1
      rw [hf, if_neg (by simp)]
      refine DSeg.snoc.2 ⟨k, k1.frame fun j hj => ?_, ha A' a rfl _ k2, by simp⟩
      refine ho j ?_ ?_ ?_
      · rintro rfl; exact heA (by simp [hj])
      · simp only [List.getLast?_append, List.getLast?_singleton, Option.some_or, ne_eq, Option.some.injEq]
        rintro rfl
        rw [List.nodup_append] at nA
        exact nA.2.2 a hj a (by simp) rfl
      · intro hh
        exact nAB j (by simp [hj]) j (List.mem_of_mem_head? hh) rfl
  have f2 : DSeg s'.nod A.getLast? B.head? B s'.last none := by
    cases B with
    | nil => exact ⟨rfl, by rw [hl]; rfl⟩
    | cons b B =>
      obtain ⟨k1, r, k2, k3⟩ := s3
      rw [hl, if_neg (by simp)]
      refine ⟨rfl, r, hb b B rfl _ k2, k3.frame fun j hj => ?_⟩
      refine ho j ?_ ?_ ?_
      · rintro rfl; exact heB (by simp [hj])
      · intro hh
        exact nAB j (List.mem_of_getLast? hh) j (by simp [hj]) rfl
      · simp only [List.head?_cons, ne_eq, Option.some.injEq]
        rintro rfl
        rw [List.nodup_cons] at nB
        exact nB.1 hj
  exact DSeg.append.2 ⟨A.getLast?, B.head?, f1, f2⟩

/-- What is stored for the elements around a place. -/
theorem DSeg.ends {h : Nat → Option (Option Nat × Option Nat)} {p la q : Option Nat} {A : List Nat}
    (hs : DSeg h none p A la q) : la = A.getLast? := by
  rcases snoc_cases A with rfl | ⟨A', a, rfl⟩
  · exact hs.2.symm
  · obtain ⟨_, _, _, h3⟩ := DSeg.snoc.1 hs; rw [h3]; simp

theorem DSeg.starts {h : Nat → Option (Option Nat × Option Nat)} {pr p la : Option Nat} {A : List Nat}
    (hs : DSeg h pr p A la none) : p = A.head? := by
  cases A with
  | nil => exact hs.1
  | cons a A => exact hs.1

theorem L2.Rep.node {s : L2} {A B : List Nat} {e : Nat} (h : s.Rep (A ++ e :: B)) :
    s.nod e = some (A.getLast?, B.head?) := by
  obtain ⟨m, n, s1, rfl, q, s2, s3⟩ := DSeg.append.1 h.seg
  rw [s2, s1.ends, s3.starts]

theorem L2.Rep.first_eq {s : L2} {L : List Nat} (h : s.Rep L) : s.first = L.head? := h.seg.starts
theorem L2.Rep.last_eq {s : L2} {L : List Nat} (h : s.Rep L) : s.last = L.getLast? := h.seg.ends

end OP.Links
