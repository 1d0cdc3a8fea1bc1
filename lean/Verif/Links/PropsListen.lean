import Verif.Links.Listen
import Verif.Links.OwnedLemmas
import Mathlib.Data.List.Nodup
import Mathlib.Data.List.Perm.Subperm
/-!
# Property C25: events reach each attached listener once, in order
-/
namespace OP.Links

/-! ## Specification -/

/-- The registrations of each dispatcher, in order, as (registration number, listener); the listeners that exist. -/
structure Reg where
  disp : Nat → Option (List (Nat × Nat))
  live : Nat → Bool
  count : Nat

def Reg.init : Reg := ⟨fun _ => none, fun _ => false, 0⟩

/-- A new registration at the end, or before registration `b`, if there is one. -/
def place (L : List (Nat × Nat)) (x : Nat × Nat) : Option Nat → Option (List (Nat × Nat))
  | none => some (L ++ [x])
  | some b => if b ∈ L.map Prod.fst then some (L.insertIdx ((L.map Prod.fst).idxOf b) x) else none

/-- The registrations after an operation, and what the program sees. -/
def HOp.spec (R : Reg) : HOp → Reg × HOut
  | newD d => ({ R with disp := fun j => if j = d then some [] else R.disp j }, .done)
  | newL l => ({ R with live := fun j => if j = l then true else R.live j }, .done)
  | listen l d b => match place ((R.disp d).getD []) (R.count, l) b with
    | some L => ({ R with disp := fun j => if j = d then some L else R.disp j, count := R.count + 1 }, .done)
    | none => (R, .rejected)
  | dispatch d => (R, .called (((R.disp d).getD []).map Prod.snd))
  | dropL l => ({ R with disp := fun j => (R.disp j).map (List.filter fun x => x.2 ≠ l),
                         live := fun j => if j = l then false else R.live j }, .done)
  | dropD d => ({ R with disp := fun j => if j = d then none else R.disp j }, .done)

/-- Objects are created once before they are used; a dispatcher dies after its listeners; and a position is
only named on a dispatcher that has listeners. -/
def HOp.Valid (R : Reg) : HOp → Prop
  | newD d => R.disp d = none
  | newL l => R.live l = false
  | listen l d b => R.live l = true ∧ ∃ L, R.disp d = some L ∧ (b = none ∨ L ≠ [])
  | dispatch d => R.disp d ≠ none
  | dropL l => R.live l = true
  | dropD d => R.disp d = some []

def HValid : Reg → List HOp → Prop
  | _, [] => True
  | R, o :: os => o.Valid R ∧ HValid (o.spec R).1 os

def hspec : Reg → List HOp → Reg × List HOut
  | R, [] => (R, [])
  | R, o :: os => ((hspec (o.spec R).1 os).1, (o.spec R).2 :: (hspec (o.spec R).1 os).2)

/-! ## Proofs -/

/-- The chains of all dispatchers. -/
structure Chains (s : Hub) (A : Nat → Option (List Nat)) : Prop where
  seg : ∀ d L, A d = some L → ∃ h, s.disp d = some h ∧ Seg s.nxt h L none ∧ L.Nodup
  gone : ∀ d, A d = none → s.disp d = none
  disj : ∀ d d' L L' i, A d = some L → A d' = some L' → i ∈ L → i ∈ L' → d = d'
  dead : ∀ i, (∀ d L, A d = some L → i ∉ L) → s.nxt i = none
  bound : ∀ i, s.fresh ≤ i → s.nxt i = none

/-- The pointer to the pointer between the elements before and after. -/
def locOf (d : Nat) (A : List Nat) : HLoc := match A.getLast? with
  | none => .head d
  | some a => .next a

theorem Seg.alive {h : Heap} {p q : Option Nat} {L : List Nat} {i : Nat} (hs : Seg h p L q) (hi : i ∈ L) : h i ≠ none := by
  induction L generalizing p with
  | nil => simp at hi
  | cons a L ih =>
    obtain ⟨-, r, h1, h2⟩ := hs
    rcases List.mem_cons.1 hi with rfl | hi
    · rw [h1]; simp
    · exact ih h2 hi

theorem rd_loc {s : Hub} {d : Nat} {h : Option Nat} {A B : List Nat} (hd : s.disp d = some h) (hs : Seg s.nxt h (A ++ B) none) :
    s.rd (locOf d A) = .ok B.head? := by
  rcases snoc_cases A with rfl | ⟨A, a, rfl⟩
  · simp only [List.nil_append] at hs
    simp [locOf, Hub.rd, hd, hs.head]
  · obtain ⟨m, h1, h2⟩ := Seg.append.1 hs
    obtain ⟨k, h3, -, r, h5, h6⟩ := Seg.append.1 h1
    cases h6
    simp [locOf, Hub.rd, h5, h2.head]

theorem wr_loc {s : Hub} {d : Nat} {h : Option Nat} {A : List Nat} {m : Option Nat} (v : Option Nat) (hd : s.disp d = some h)
    (hs : Seg s.nxt h A m) (hn : A.Nodup) :
    ∃ s' h', s.wr v (locOf d A) = .ok s' ∧ s'.disp d = some h' ∧ Seg s'.nxt h' A v ∧ (∀ j, j ∉ A → s'.nxt j = s.nxt j) ∧
      (∀ j, j ≠ d → s'.disp j = s.disp j) ∧ s'.who = s.who ∧ s'.lis = s.lis ∧ s'.fresh = s.fresh := by
  rcases snoc_cases A with rfl | ⟨A, a, rfl⟩
  · exact ⟨{ s with disp := fun j => if j = d then some v else s.disp j }, v, by simp [locOf, Hub.wr, hd], by simp, rfl,
      by simp, by simp +contextual, rfl, rfl, rfl⟩
  · obtain ⟨k, h3, rfl, r, h5, h6⟩ := Seg.append.1 hs
    refine ⟨{ s with nxt := s.nxt.set a v }, h, by simp [locOf, Hub.wr, h5], hd, ?_, ?_, by simp, rfl, rfl, rfl⟩
    · rw [List.nodup_append] at hn
      refine Seg.append.2 ⟨some a, h3.set fun hm => hn.2.2 a hm a (by simp) rfl, rfl, v, by simp [Heap.set], rfl⟩
    · intro j hj
      have : j ≠ a := by rintro rfl; simp at hj
      simp [Heap.set, this]

theorem locOf_snoc (d : Nat) (A : List Nat) (a : Nat) : locOf d (A ++ [a]) = .next a := by simp [locOf]

theorem attachLoop_end {s : Hub} {d : Nat} {h : Option Nat} (hd : s.disp d = some h) : ∀ {B A : List Nat} {f : Nat},
    Seg s.nxt h (A ++ B) none → B.length < f → attachLoop s none f (locOf d A) = .ok (some (locOf d (A ++ B)))
  | [], A, 0, _, hf => by simp at hf
  | [], A, f + 1, hs, _ => by simp [attachLoop, rd_loc hd hs]
  | b :: B, A, 0, hs, hf => by simp at hf
  | b :: B, A, f + 1, hs, hf => by
    have hs' : Seg s.nxt h ((A ++ [b]) ++ B) none := by simpa using hs
    have h1 := rd_loc hd hs'
    rw [locOf_snoc] at h1
    have := attachLoop_end hd (f := f) hs' (by simpa using hf)
    rw [locOf_snoc] at this
    simp [attachLoop, rd_loc hd hs, h1, this]

theorem attachLoop_found {s : Hub} {d t : Nat} {h : Option Nat} (hd : s.disp d = some h) {C : List Nat} : ∀ {B A : List Nat} {f : Nat},
    Seg s.nxt h (A ++ B ++ t :: C) none → t ∉ B → B.length < f →
    attachLoop s (some t) f (locOf d A) = .ok (some (locOf d (A ++ B)))
  | [], A, 0, _, _, hf => by simp at hf
  | [], A, f + 1, hs, _, _ => by
    have hs' : Seg s.nxt h (A ++ t :: C) none := by simpa using hs
    simp [attachLoop, rd_loc hd hs']
  | b :: B, A, 0, hs, _, hf => by simp at hf
  | b :: B, A, f + 1, hs, ht, hf => by
    have hs0 : Seg s.nxt h (A ++ b :: (B ++ t :: C)) none := by simpa using hs
    have hs' : Seg s.nxt h ((A ++ [b]) ++ (B ++ t :: C)) none := by simpa using hs
    have h1 := rd_loc hd hs'
    rw [locOf_snoc] at h1
    have := attachLoop_found hd (C := C) (B := B) (A := A ++ [b]) (f := f) (by simpa using hs) (by simp at ht; tauto) (by simpa using hf)
    rw [locOf_snoc] at this
    have hbt : ¬ b = t := by simp at ht; tauto
    have hnn : ¬ ((B ++ t :: C).head? = none) := by simp
    rw [attachLoop, rd_loc hd hs0]
    simp only [Res.ok_bind, List.head?_cons, Option.some.injEq, if_neg hbt, h1]
    rw [if_neg (by simp), this]; simp

theorem attachLoop_missing {s : Hub} {d t : Nat} {h : Option Nat} (hd : s.disp d = some h) : ∀ {B A : List Nat} {f : Nat},
    Seg s.nxt h (A ++ B) none → t ∉ B → B ≠ [] → B.length < f → attachLoop s (some t) f (locOf d A) = .throw
  | [], A, f, _, _, hb, _ => absurd rfl hb
  | b :: B, A, 0, hs, _, _, hf => by simp at hf
  | b :: B, A, f + 1, hs, ht, _, hf => by
    have hs' : Seg s.nxt h ((A ++ [b]) ++ B) none := by simpa using hs
    have h1 := rd_loc hd hs'
    rw [locOf_snoc] at h1
    have hbt : ¬ b = t := by simp at ht; tauto
    rw [attachLoop, rd_loc hd hs]
    simp only [Res.ok_bind, List.head?_cons, Option.some.injEq, if_neg hbt, h1]
    cases B with
    | nil => simp
    | cons c B =>
      have := attachLoop_missing hd (B := c :: B) (A := A ++ [b]) (f := f) hs' (by simp at ht ⊢; tauto) (by simp) (by simpa using hf)
      rw [locOf_snoc] at this
      simp [this]

theorem removerLoop_found {s : Hub} {d t : Nat} {h : Option Nat} (hd : s.disp d = some h) {C : List Nat} : ∀ {B A : List Nat} {f : Nat},
    Seg s.nxt h (A ++ B ++ t :: C) none → t ∉ B → B.length < f →
    removerLoop s t f (locOf d A) = (s.wr C.head? (locOf d (A ++ B)) >>= fun s => .ok { s with nxt := fun j => if j = t then none else s.nxt j })
  | [], A, 0, _, _, hf => by simp at hf
  | [], A, f + 1, hs, _, _ => by
    have hs' : Seg s.nxt h (A ++ t :: C) none := by simpa using hs
    have hs2 : Seg s.nxt h ((A ++ [t]) ++ C) none := by simpa using hs
    have h1 := rd_loc hd hs2
    rw [locOf_snoc] at h1
    simp [removerLoop, rd_loc hd hs', h1]
  | b :: B, A, 0, hs, _, hf => by simp at hf
  | b :: B, A, f + 1, hs, ht, hf => by
    have hs0 : Seg s.nxt h (A ++ b :: (B ++ t :: C)) none := by simpa using hs
    have := removerLoop_found hd (C := C) (B := B) (A := A ++ [b]) (f := f) (by simpa using hs) (by simp at ht; tauto) (by simpa using hf)
    rw [locOf_snoc] at this
    have hbt : ¬ b = t := by simp at ht; tauto
    simp [removerLoop, rd_loc hd hs0, hbt, this]

/-- A registration inserted between `X` and `Y`. -/
theorem attach_ok {s : Hub} {A : Nat → Option (List Nat)} {d l : Nat} {X Y : List Nat} {b : Option Nat} {f : Nat} (hc : Chains s A)
    (hA : A d = some (X ++ Y)) (hb : b = Y.head?) (hl : attachLoop s b f (.head d) = .ok (some (locOf d X))) :
    ∃ s', s.attach f d l b = .ok (s', s.fresh) ∧ Chains s' (fun j => if j = d then some (X ++ s.fresh :: Y) else A j) ∧
      s'.who = (fun j => if j = s.fresh then l else s.who j) ∧ s'.lis = s.lis ∧ s'.fresh = s.fresh + 1 := by
  obtain ⟨h, hd, hs, hn⟩ := hc.seg d _ hA
  have hnew : ∀ d' L, A d' = some L → s.fresh ∉ L := by
    intro d' L hL hm
    obtain ⟨h', -, h2, -⟩ := hc.seg d' L hL
    exact h2.alive hm (hc.bound _ (Nat.le_refl _))
  obtain ⟨m, s1, s2⟩ := Seg.append.1 hs
  have hnX : s.fresh ∉ X := fun hm => hnew d _ hA (by simp [hm])
  have hnY : s.fresh ∉ Y := fun hm => hnew d _ hA (by simp [hm])
  have hXn := (List.nodup_append.1 hn).1
  obtain ⟨t, h', w1, w2, w3, w4, w5, w6, w7, w8⟩ := wr_loc
    (s := { s with nxt := s.nxt.set s.fresh none, who := fun j => if j = s.fresh then l else s.who j, fresh := s.fresh + 1 })
    (some s.fresh) hd (s1.set hnX) hXn
  have htf : t.nxt s.fresh = some none := by rw [w4 _ hnX]; simp [Heap.set]
  refine ⟨{ t with nxt := t.nxt.set s.fresh b }, ?_, ?_, w6, w7, w8⟩
  · simp only [Hub.attach, hl, Res.ok_bind, w1]
    simp [Hub.wr, htf]
  · have hold : ∀ j, j ∉ X → j ≠ s.fresh → t.nxt.set s.fresh b j = s.nxt j := by
      intro j h1 h2
      simp [Heap.set, h2, w4 j h1]
    constructor
    · intro d' L hL
      by_cases hdd : d' = d
      · subst hdd
        simp at hL; subst hL
        refine ⟨h', w2, Seg.append.2 ⟨some s.fresh, w3.set hnX, rfl, b, by simp [Heap.set], ?_⟩, ?_⟩
        · have s2' := s2
          rw [s2.head, ← hb] at s2'
          refine s2'.frame fun j hj => hold j ?_ ?_
          · intro hx; exact (List.nodup_append.1 hn).2.2 j hx j hj rfl
          · rintro rfl; exact hnY hj
        · rw [List.perm_middle.nodup_iff, List.nodup_cons]
          exact ⟨hnew _ _ hA, hn⟩
      · rw [if_neg hdd] at hL
        obtain ⟨k, k1, k2, k3⟩ := hc.seg d' L hL
        refine ⟨k, (w5 d' hdd).trans k1, k2.frame fun j hj => hold j ?_ ?_, k3⟩
        · intro hx; exact hdd (hc.disj d' d L _ j hL hA hj (by simp [hx]))
        · rintro rfl; exact hnew d' L hL hj
    · intro d' hd'
      have hdd : d' ≠ d := by rintro rfl; simp at hd'
      rw [if_neg hdd] at hd'
      exact (w5 d' hdd).trans (hc.gone d' hd')
    · intro d1 d2 L1 L2 i h1 h2 i1 i2
      have key : ∀ d' L', (if d' = d then some (X ++ s.fresh :: Y) else A d') = some L' → i ∈ L' → 
          (i = s.fresh ∧ d' = d) ∨ ∃ L, A d' = some L ∧ i ∈ L := by
        intro d' L' hL' hi
        by_cases hdd : d' = d
        · subst hdd
          simp at hL'; subst hL'
          by_cases hif : i = s.fresh
          · exact .inl ⟨hif, rfl⟩
          · exact .inr ⟨_, hA, by simp [hif] at hi ⊢; exact hi⟩
        · rw [if_neg hdd] at hL'
          exact .inr ⟨L', hL', hi⟩
      rcases key d1 L1 h1 i1 with ⟨e1, e2⟩ | ⟨L, e1, e2⟩ <;> rcases key d2 L2 h2 i2 with ⟨e3, e4⟩ | ⟨L', e3, e4⟩
      · rw [e2, e4]
      · exact absurd (e1 ▸ e4) (hnew _ _ e3)
      · exact absurd (e3 ▸ e2) (hnew _ _ e1)
      · exact hc.disj _ _ _ _ _ e1 e3 e2 e4
    · intro i hi
      have h1 := hi d (X ++ s.fresh :: Y) (by simp)
      have hif : i ≠ s.fresh := by rintro rfl; simp at h1
      have hiX : i ∉ X := by simp at h1; tauto
      show t.nxt.set s.fresh b i = none
      rw [hold i hiX hif]
      refine hc.dead i fun d' L hL => ?_
      by_cases hdd : d' = d
      · subst hdd; rw [hA] at hL; cases hL; simp at h1 ⊢; tauto
      · exact hi d' L (by rw [if_neg hdd]; exact hL)
    · intro i hi
      have hi' : t.fresh ≤ i := hi
      simp only at w8
      rw [w8] at hi'
      have hiX : i ∉ X := by
        intro hm
        exact s1.alive hm (hc.bound i (by omega))
      show t.nxt.set s.fresh b i = none
      rw [hold i hiX (by omega)]
      exact hc.bound i (by omega)

/-- A registration taken out. -/
theorem remover_ok {s : Hub} {A : Nat → Option (List Nat)} {d t : Nat} {L : List Nat} {f : Nat} (hc : Chains s A)
    (hA : A d = some L) (ht : t ∈ L) (hf : L.length < f) :
    ∃ s', removerLoop s t f (.head d) = .ok s' ∧ Chains s' (fun j => if j = d then some (L.filter (· ≠ t)) else A j) ∧
      s'.who = s.who ∧ s'.lis = s.lis ∧ s'.fresh = s.fresh := by
  obtain ⟨h, hd, hs, hn⟩ := hc.seg d _ hA
  obtain ⟨X, Y, rfl⟩ := List.append_of_mem ht
  have hnd := hn
  rw [List.perm_middle.nodup_iff, List.nodup_cons] at hnd
  have htX : t ∉ X := fun hm => hnd.1 (by simp [hm])
  have htY : t ∉ Y := fun hm => hnd.1 (by simp [hm])
  have hfil : (X ++ t :: Y).filter (· ≠ t) = X ++ Y := by
    have h1 : X.filter (· ≠ t) = X := List.filter_eq_self.2 fun x hx => by
      simp only [ne_eq, decide_eq_true_eq]; rintro rfl; exact htX hx
    have h2 : Y.filter (· ≠ t) = Y := List.filter_eq_self.2 fun x hx => by
      simp only [ne_eq, decide_eq_true_eq]; rintro rfl; exact htY hx
    rw [List.filter_append, List.filter_cons_of_neg (by simp), h1, h2]
  obtain ⟨m, s1, rfl, r, s2, s3⟩ := Seg.append.1 hs
  obtain ⟨u, h', w1, w2, w3, w4, w5, w6, w7, w8⟩ := wr_loc Y.head? hd s1 (List.nodup_append.1 hn).1
  have hloop := removerLoop_found hd (A := []) (B := X) (C := Y) (t := t) (f := f) hs htX (by simp at hf; omega)
  rw [show locOf d [] = .head d from rfl, List.nil_append, w1] at hloop
  refine ⟨_, hloop, ?_, w6, w7, w8⟩
  rw [hfil]
  have hold : ∀ j, j ∉ X → j ≠ t → (if j = t then none else u.nxt j) = s.nxt j := by
    intro j h1 h2; simp [h2, w4 j h1]
  constructor
  · intro d' L hL
    by_cases hdd : d' = d
    · subst hdd
      simp at hL; subst hL
      refine ⟨h', w2, Seg.append.2 ⟨Y.head?, w3.frame fun j hj => ?_, ?_⟩, hnd.2⟩
      · have : j ≠ t := by rintro rfl; exact htX hj
        simp [this]
      · rw [← s3.head]
        refine s3.frame fun j hj => hold j ?_ ?_
        · intro hx; exact (List.nodup_append.1 hnd.2).2.2 j hx j hj rfl
        · rintro rfl; exact htY hj
    · rw [if_neg hdd] at hL
      obtain ⟨k, k1, k2, k3⟩ := hc.seg d' L hL
      refine ⟨k, (w5 d' hdd).trans k1, k2.frame fun j hj => hold j ?_ ?_, k3⟩
      · intro hx; exact hdd (hc.disj d' d L _ j hL hA hj (by simp [hx]))
      · rintro rfl; exact hdd (hc.disj d' d L _ j hL hA hj (by simp))
  · intro d' hd'
    have hdd : d' ≠ d := by rintro rfl; simp at hd'
    rw [if_neg hdd] at hd'
    exact (w5 d' hdd).trans (hc.gone d' hd')
  · intro d1 d2 L1 L2 i h1 h2 i1 i2
    have key : ∀ d' L', (if d' = d then some (X ++ Y) else A d') = some L' → i ∈ L' → ∃ L, A d' = some L ∧ i ∈ L := by
      intro d' L' hL' hi
      by_cases hdd : d' = d
      · subst hdd
        simp at hL'; subst hL'
        exact ⟨_, hA, by simp at hi ⊢; tauto⟩
      · rw [if_neg hdd] at hL'
        exact ⟨L', hL', hi⟩
    obtain ⟨L, e1, e2⟩ := key d1 L1 h1 i1
    obtain ⟨L', e3, e4⟩ := key d2 L2 h2 i2
    exact hc.disj _ _ _ _ _ e1 e3 e2 e4
  · intro i hi
    by_cases hit : i = t
    · simp [hit]
    · have h1 := hi d (X ++ Y) (by simp)
      have hiX : i ∉ X := by simp at h1; tauto
      show (if i = t then none else u.nxt i) = none
      rw [hold i hiX hit]
      refine hc.dead i fun d' L hL => ?_
      by_cases hdd : d' = d
      · subst hdd; rw [hA] at hL; cases hL; simp at h1 ⊢; tauto
      · exact hi d' L (by rw [if_neg hdd]; exact hL)
  · intro i hi
    have hi' : s.fresh ≤ i := by rw [← w8]; exact hi
    have hiX : i ∉ X := fun hm => s1.alive hm (hc.bound i hi')
    by_cases hit : i = t
    · simp [hit]
    · show (if i = t then none else u.nxt i) = none
      rw [hold i hiX hit]
      exact hc.bound i hi'

theorem dropAll_ok {f : Nat} : ∀ {S : List (Nat × Nat)} {s : Hub} {A : Nat → Option (List Nat)}, Chains s A →
    (∀ x ∈ S, ∃ L, A x.1 = some L ∧ x.2 ∈ L ∧ L.length < f) → S.Nodup →
    ∃ s', dropAll f s S = .ok s' ∧ Chains s' (fun d => (A d).map (List.filter fun i => (d, i) ∉ S)) ∧
      s'.who = s.who ∧ s'.lis = s.lis ∧ s'.fresh = s.fresh
  | [], s, A, hc, _, _ => by
    refine ⟨s, rfl, ?_, rfl, rfl, rfl⟩
    have : (fun d => (A d).map (List.filter fun i => (d, i) ∉ ([] : List (Nat × Nat)))) = A := by
      funext d; cases A d <;> simp
    rw [this]; exact hc
  | (d, t) :: S, s, A, hc, hS, hn => by
    obtain ⟨L, h1, h2, h3⟩ := hS (d, t) (by simp)
    obtain ⟨s1, r1, r2, r3, r4, r5⟩ := remover_ok hc h1 h2 h3
    rw [List.nodup_cons] at hn
    obtain ⟨s2, q1, q2, q3, q4, q5⟩ := dropAll_ok (S := S) r2 (by
      rintro ⟨d', i⟩ hx
      obtain ⟨L', k1, k2, k3⟩ := hS (d', i) (by simp [hx])
      by_cases hdd : d' = d
      · subst hdd
        simp only at k1 k2
        rw [h1] at k1; cases k1
        have hit : i ≠ t := by rintro rfl; exact hn.1 hx
        exact ⟨L.filter (· ≠ t), by simp, by simp [k2, hit], Nat.lt_of_le_of_lt (List.length_filter_le ..) h3⟩
      · exact ⟨L', by simp [hdd, k1], k2, k3⟩) hn.2
    refine ⟨s2, by simp [dropAll, r1, q1], ?_, q3.trans r3, q4.trans r4, q5.trans r5⟩
    have : (fun d' => (A d').map (List.filter fun i => (d', i) ∉ (d, t) :: S)) =
        (fun d' => (if d' = d then some (L.filter (· ≠ t)) else A d').map (List.filter fun i => (d', i) ∉ S)) := by
      funext d'
      by_cases hdd : d' = d
      · subst hdd
        simp only [h1, if_true, Option.map_some, List.filter_filter, Option.some.injEq]
        refine List.filter_congr fun i _ => ?_
        simp [Bool.and_comm]
      · simp [hdd]
    rw [this]; exact q2

theorem dispatchLoop_ok {s : Hub} : ∀ {L : List Nat} {p : Option Nat} {f : Nat}, Seg s.nxt p L none → L.length ≤ f →
    dispatchLoop s f p = .ok (L.map s.who)
  | [], p, f, hs, _ => by cases hs; cases f <;> rfl
  | a :: L, p, 0, _, hf => by simp at hf
  | a :: L, p, f + 1, ⟨h1, r, h2, h3⟩, hf => by
    subst h1
    simp [dispatchLoop, h2, dispatchLoop_ok h3 (by simpa using hf)]

/-- The program's objects hold the registrations. -/
structure HRep (s : Hub) (R : Reg) : Prop where
  chains : Chains s (fun d => (R.disp d).map (List.map Prod.fst))
  who : ∀ d L, R.disp d = some L → ∀ x ∈ L, s.who x.1 = x.2
  cnt : s.fresh = R.count
  live : ∀ l, (s.lis l).isSome = R.live l
  src : ∀ l S, s.lis l = some S → S.Nodup ∧ ∀ d i, (d, i) ∈ S ↔ ∃ L, R.disp d = some L ∧ (i, l) ∈ L
  owner : ∀ d L, R.disp d = some L → ∀ x ∈ L, R.live x.2 = true

theorem HRep.lt {s : Hub} {R : Reg} (h : HRep s R) {d : Nat} {L : List (Nat × Nat)} (hd : R.disp d = some L) {x : Nat × Nat}
    (hx : x ∈ L) : x.1 < s.fresh := by
  by_contra hc
  obtain ⟨p, -, h2, -⟩ := h.chains.seg d (L.map Prod.fst) (by simp [hd])
  exact h2.alive (List.mem_map_of_mem hx) (h.chains.bound _ (by omega))

theorem HRep.nodup {s : Hub} {R : Reg} (h : HRep s R) {d : Nat} {L : List (Nat × Nat)} (hd : R.disp d = some L) :
    (L.map Prod.fst).Nodup := by
  obtain ⟨p, -, -, h2⟩ := h.chains.seg d (L.map Prod.fst) (by simp [hd])
  exact h2

theorem Chains.congr {s s' : Hub} {A : Nat → Option (List Nat)} (h : Chains s A) (h1 : s'.disp = s.disp) (h2 : s'.nxt = s.nxt)
    (h3 : s'.fresh = s.fresh) : Chains s' A :=
  ⟨by rw [h1, h2]; exact h.seg, by rw [h1]; exact h.gone, h.disj, by rw [h2]; exact h.dead, by rw [h2, h3]; exact h.bound⟩

theorem listen_ok {s : Hub} {R : Reg} (h : HRep s R) {d l : Nat} {P Q : List (Nat × Nat)} {b : Option Nat} (hl : R.live l = true)
    (hd : R.disp d = some (P ++ Q)) (hb : b = (Q.map Prod.fst).head?) {f : Nat}
    (hloop : attachLoop s b f (.head d) = .ok (some (locOf d (P.map Prod.fst)))) :
    ∃ s', s.listen f l d b = .ok s' ∧
      HRep s' { R with disp := fun j => if j = d then some (P ++ (R.count, l) :: Q) else R.disp j, count := R.count + 1 } := by
  obtain ⟨S, hS⟩ : ∃ S, s.lis l = some S := by
    have := h.live l
    rw [hl] at this
    exact Option.isSome_iff_exists.1 this
  obtain ⟨s1, a1, a2, a3, a4, a5⟩ := attach_ok (l := l) (X := P.map Prod.fst) (Y := Q.map Prod.fst) h.chains (by simp [hd]) hb hloop
  refine ⟨{ s1 with lis := fun j => if j = l then some (S ++ [(d, s.fresh)]) else s1.lis j }, by simp [Hub.listen, hS, a1], ?_⟩
  have hmem : ∀ d' L', (if d' = d then some (P ++ (R.count, l) :: Q) else R.disp d') = some L' → ∀ x ∈ L',
      (x = (R.count, l) ∧ d' = d) ∨ ∃ L, R.disp d' = some L ∧ x ∈ L := by
    intro d' L' hL' x hx
    by_cases hdd : d' = d
    · subst hdd
      simp at hL'; subst hL'
      by_cases hxe : x = (R.count, l)
      · exact .inl ⟨hxe, rfl⟩
      · exact .inr ⟨_, hd, by simp [hxe] at hx ⊢; exact hx⟩
    · rw [if_neg hdd] at hL'
      exact .inr ⟨L', hL', hx⟩
  constructor
  · have : (fun j => (if j = d then some (P ++ (R.count, l) :: Q) else R.disp j).map (List.map Prod.fst)) =
        (fun j => if j = d then some (P.map Prod.fst ++ s.fresh :: Q.map Prod.fst) else (R.disp j).map (List.map Prod.fst)) := by
      funext j
      by_cases hj : j = d <;> simp [hj, h.cnt]
    show Chains _ (fun j => (if j = d then some (P ++ (R.count, l) :: Q) else R.disp j).map (List.map Prod.fst))
    rw [this]
    exact a2.congr rfl rfl rfl
  · intro d' L' hL' x hx
    show s1.who x.1 = x.2
    rw [a3]
    rcases hmem d' L' hL' x hx with ⟨rfl, -⟩ | ⟨L, h1, h2⟩
    · simp [h.cnt]
    · have := h.lt h1 h2
      show (if x.1 = s.fresh then l else s.who x.1) = x.2
      rw [if_neg (by omega)]
      exact h.who d' L h1 x h2
  · show s1.fresh = R.count + 1
    rw [a5, h.cnt]
  · intro j
    by_cases hj : j = l
    · subst hj; simp [hl]
    · simp only [if_neg hj, a4]; exact h.live j
  · intro j T hT
    by_cases hj : j = l
    · subst hj
      simp at hT; subst hT
      obtain ⟨n1, n2⟩ := h.src j S hS
      have hfr : ∀ d', (d', s.fresh) ∉ S := by
        intro d' hm
        obtain ⟨L, h1, h2⟩ := (n2 d' s.fresh).1 hm
        exact Nat.lt_irrefl _ (h.lt h1 h2)
      refine ⟨?_, fun d' i => ?_⟩
      · rw [List.nodup_append]
        refine ⟨n1, by simp, ?_⟩
        rintro x hx y hy rfl
        simp at hy; subst hy
        exact hfr d hx
      · simp only [List.mem_append, List.mem_singleton, Prod.mk.injEq, n2]
        constructor
        · rintro (⟨L, h1, h2⟩ | ⟨rfl, rfl⟩)
          · by_cases hdd : d' = d
            · subst hdd
              rw [hd] at h1; cases h1
              exact ⟨P ++ (R.count, j) :: Q, by simp, by simp at h2 ⊢; tauto⟩
            · exact ⟨L, by simp [hdd, h1], h2⟩
          · exact ⟨P ++ (R.count, j) :: Q, by simp, by simp [h.cnt]⟩
        · rintro ⟨L', h1, h2⟩
          rcases hmem d' L' h1 _ h2 with ⟨h3, h4⟩ | ⟨L, h3, h4⟩
          · simp at h3; exact .inr ⟨h4, h3.trans h.cnt.symm⟩
          · exact .inl ⟨L, h3, h4⟩
    · simp only [if_neg hj, a4] at hT
      obtain ⟨n1, n2⟩ := h.src j T hT
      refine ⟨n1, fun d' i => (n2 d' i).trans ?_⟩
      constructor
      · rintro ⟨L, h1, h2⟩
        by_cases hdd : d' = d
        · subst hdd
          rw [hd] at h1; cases h1
          exact ⟨P ++ (R.count, l) :: Q, by simp, by simp at h2 ⊢; tauto⟩
        · exact ⟨L, by simp [hdd, h1], h2⟩
      · rintro ⟨L', h1, h2⟩
        rcases hmem d' L' h1 _ h2 with ⟨h3, h4⟩ | ⟨L, h3, h4⟩
        · simp at h3; exact absurd h3.2 hj
        · exact ⟨L, h3, h4⟩
  · intro d' L' hL' x hx
    rcases hmem d' L' hL' x hx with ⟨rfl, -⟩ | ⟨L, h1, h2⟩
    · exact hl
    · exact h.owner d' L h1 x h2

theorem insertIdx_len2 {α : Type} (A B : List α) (e : α) : (A ++ B).insertIdx A.length e = A ++ e :: B := by
  induction A with
  | nil => simp
  | cons a A ih => simp [ih]

theorem split_fst {L : List (Nat × Nat)} {b : Nat} (h : b ∈ L.map Prod.fst) :
    ∃ P x Q, L = P ++ x :: Q ∧ x.1 = b ∧ b ∉ P.map Prod.fst ∧ (L.map Prod.fst).idxOf b = P.length := by
  induction L with
  | nil => simp at h
  | cons a L ih =>
    by_cases hab : a.1 = b
    · exact ⟨[], a, L, by simp, hab, by simp, by simp [hab]⟩
    · obtain ⟨P, x, Q, h1, h2, h3, h4⟩ := ih (by
        rw [List.map_cons, List.mem_cons] at h
        exact h.resolve_left (Ne.symm hab))
      refine ⟨a :: P, x, Q, by simp [h1], h2, ?_, ?_⟩
      · rw [List.map_cons, List.mem_cons]; rintro (h | h)
        · exact hab h.symm
        · exact h3 h
      · rw [List.map_cons, List.idxOf_cons_ne _ hab, h4]; simp

theorem HRep.len {s : Hub} {R : Reg} (h : HRep s R) {d : Nat} {L : List (Nat × Nat)} (hd : R.disp d = some L) :
    L.length ≤ R.count := by
  have hsub : L.map Prod.fst ⊆ List.range R.count := by
    intro i hi
    obtain ⟨x, hx, rfl⟩ := List.mem_map.1 hi
    have := h.lt hd hx
    rw [h.cnt] at this
    exact List.mem_range.2 this
  have := (List.subperm_of_subset (h.nodup hd) hsub).length_le
  simpa using this

theorem hop_ok {s : Hub} {R : Reg} (h : HRep s R) {o : HOp} (hv : o.Valid R) :
    ∀ f, R.count < f → ∃ s', o.run f s = .ok (s', (o.spec R).2) ∧ HRep s' (o.spec R).1 := by
  intro f hf
  have hlen : ∀ d L, R.disp d = some L → L.length < f := fun d L hL => by have := h.len hL; omega
  cases o with
  | newD d =>
    have hv : R.disp d = none := hv
    refine ⟨_, rfl, ?_⟩
    have hc := h.chains
    have hmem : ∀ d' L', (if d' = d then some [] else R.disp d') = some L' → ∀ x ∈ L', R.disp d' = some L' := by
      intro d' L' hL' x hx
      by_cases hdd : d' = d
      · simp [hdd] at hL'; subst hL'; simp at hx
      · rw [if_neg hdd] at hL'; exact hL'
    constructor
    · show Chains _ (fun j => (if j = d then some [] else R.disp j).map (List.map Prod.fst))
      constructor
      · intro d' L hL
        by_cases hdd : d' = d
        · subst hdd
          simp at hL; subst hL
          exact ⟨none, by simp [Hub.newDispatcher], rfl, List.nodup_nil⟩
        · obtain ⟨k, k1, k2, k3⟩ := hc.seg d' L (by simpa [hdd] using hL)
          exact ⟨k, by simp [Hub.newDispatcher, hdd, k1], k2, k3⟩
      · intro d' hd'
        have hdd : d' ≠ d := by rintro rfl; simp at hd'
        simp only [Hub.newDispatcher, if_neg hdd]
        exact hc.gone d' (by simpa [hdd] using hd')
      · intro d1 d2 L1 L2 i h1 h2 i1 i2
        have key : ∀ d' L', (if d' = d then some [] else R.disp d').map (List.map Prod.fst) = some L' → i ∈ L' →
            (R.disp d').map (List.map Prod.fst) = some L' := by
          intro d' L' hL' hi
          by_cases hdd : d' = d
          · simp [hdd] at hL'; subst hL'; simp at hi
          · simpa [hdd] using hL'
        exact hc.disj d1 d2 L1 L2 i (key _ _ h1 i1) (key _ _ h2 i2) i1 i2
      · intro i hi
        refine hc.dead i fun d' L hL => ?_
        have hdd : d' ≠ d := by rintro rfl; simp [hv] at hL
        exact hi d' L (by simpa [hdd] using hL)
      · exact hc.bound
    · intro d' L' hL' x hx; exact h.who d' L' (hmem d' L' hL' x hx) x hx
    · exact h.cnt
    · exact h.live
    · intro l S hS
      obtain ⟨n1, n2⟩ := h.src l S hS
      refine ⟨n1, fun d' i => (n2 d' i).trans ⟨?_, ?_⟩⟩
      · rintro ⟨L, h1, h2⟩
        have hdd : d' ≠ d := by rintro rfl; simp [hv] at h1
        exact ⟨L, by simp [HOp.spec, hdd, h1], h2⟩
      · rintro ⟨L, h1, h2⟩
        exact ⟨L, hmem d' L h1 _ h2, h2⟩
    · intro d' L' hL' x hx; exact h.owner d' L' (hmem d' L' hL' x hx) x hx
  | newL l =>
    have hv : R.live l = false := hv
    refine ⟨_, rfl, ?_⟩
    constructor
    · exact h.chains.congr rfl rfl rfl
    · exact h.who
    · exact h.cnt
    · intro j
      by_cases hj : j = l
      · simp [HOp.spec, Hub.newListener, hj]
      · simp only [HOp.spec, Hub.newListener, if_neg hj]; exact h.live j
    · intro j S hS
      by_cases hj : j = l
      · subst hj
        simp [Hub.newListener] at hS; subst hS
        refine ⟨List.nodup_nil, fun d i => ⟨by simp, ?_⟩⟩
        rintro ⟨L, h1, h2⟩
        have := h.owner d L h1 _ h2
        rw [hv] at this; cases this
      · simp only [Hub.newListener, if_neg hj] at hS
        exact h.src j S hS
    · intro d L hL x hx
      have := h.owner d L hL x hx
      by_cases hj : x.2 = l
      · simp [HOp.spec, hj]
      · simp only [HOp.spec, if_neg hj]; exact this
  | listen l d b =>
    obtain ⟨hl, L, hd, hb⟩ := hv
    obtain ⟨p, hp1, hp2, hp3⟩ := h.chains.seg d (L.map Prod.fst) (by simp [hd])
    have hfl := hlen d L hd
    cases b with
    | none =>
      have := attachLoop_end hp1 (A := []) (B := L.map Prod.fst) (f := f) hp2 (by simpa using hfl)
      obtain ⟨s', h1, h2⟩ := listen_ok h hl (P := L) (Q := []) (b := none) (f := f) (d := d) (by simp [hd]) rfl (by rw [show locOf d [] = .head d from rfl] at this; simpa using this)
      refine ⟨s', by simp [HOp.run, h1, HOp.spec, place], ?_⟩
      simpa [HOp.spec, place, hd] using h2
    | some b =>
      by_cases hm : b ∈ L.map Prod.fst
      · obtain ⟨P, x, Q, rfl, hx, hP, hi⟩ := split_fst hm
        have := attachLoop_found hp1 (A := []) (B := P.map Prod.fst) (C := Q.map Prod.fst) (t := b) (f := f) (by simpa [hx] using hp2) hP
          (by simp at hfl ⊢; omega)
        obtain ⟨s', h1, h2⟩ := listen_ok h hl (P := P) (Q := x :: Q) (b := some b) (f := f) hd (by simp [hx]) (by rw [show locOf d [] = .head d from rfl] at this; simpa using this)
        have hpl : place (P ++ x :: Q) (R.count, l) (some b) = some (P ++ (R.count, l) :: x :: Q) := by
          rw [place, if_pos hm, hi, insertIdx_len2]
        refine ⟨s', ?_, ?_⟩
        · simp only [HOp.run, h1, HOp.spec, hd, Option.getD_some, hpl]
        · simp only [HOp.spec, hd, Option.getD_some, hpl]; exact h2
      · have hLne : L ≠ [] := by rcases hb with hb | hb; · cases hb
                                 exact hb
        have := attachLoop_missing hp1 (A := []) (t := b) (f := f) hp2 hm (by simpa using hLne) (by simpa using hfl)
        have hpl : place L (R.count, l) (some b) = none := by rw [place, if_neg hm]
        obtain ⟨S, hS⟩ : ∃ S, s.lis l = some S := by
          have := h.live l
          rw [hl] at this
          exact Option.isSome_iff_exists.1 this
        have hth : s.listen f l d (some b) = .throw := by
          rw [show locOf d [] = .head d from rfl] at this
          simp [Hub.listen, hS, Hub.attach, this]
        refine ⟨s, ?_, ?_⟩
        · simp only [HOp.run, hth, HOp.spec, hd, Option.getD_some, hpl]
        · simp only [HOp.spec, hd, Option.getD_some, hpl]; exact h
  | dispatch d =>
    obtain ⟨L, hd⟩ := Option.ne_none_iff_exists'.1 hv
    obtain ⟨p, hp1, hp2, hp3⟩ := h.chains.seg d (L.map Prod.fst) (by simp [hd])
    have hfl := hlen d L hd
    refine ⟨s, ?_, h⟩
    have := dispatchLoop_ok (f := f) hp2 (by simp; omega)
    simp only [HOp.run, Hub.dispatch, hp1, this, Res.ok_bind, HOp.spec, hd, Option.getD_some, List.map_map]
    congr 3
    exact List.map_congr_left fun x hx => h.who d L hd x hx
  | dropL l =>
    have hl : R.live l = true := hv
    obtain ⟨S, hS⟩ : ∃ S, s.lis l = some S := by
      have := h.live l
      rw [hl] at this
      exact Option.isSome_iff_exists.1 this
    obtain ⟨n1, n2⟩ := h.src l S hS
    obtain ⟨s1, r1, r2, r3, r4, r5⟩ := dropAll_ok (f := f) (S := S) h.chains (fun x hx => by
      obtain ⟨L, h1, h2⟩ := (n2 x.1 x.2).1 hx
      exact ⟨L.map Prod.fst, by simp [h1], List.mem_map_of_mem h2, by simpa using hlen _ _ h1⟩) n1
    refine ⟨{ s1 with lis := fun j => if j = l then none else s1.lis j }, by simp [HOp.run, Hub.dropListener, hS, r1, HOp.spec], ?_⟩
    have hmem : ∀ d' L', (R.disp d').map (List.filter fun x => x.2 ≠ l) = some L' → ∃ L, R.disp d' = some L ∧ L' = L.filter fun x => x.2 ≠ l := by
      intro d' L' hL'
      rw [Option.map_eq_some_iff] at hL'
      obtain ⟨L, h1, h2⟩ := hL'
      exact ⟨L, h1, h2.symm⟩
    constructor
    · show Chains _ (fun j => ((R.disp j).map (List.filter fun x => x.2 ≠ l)).map (List.map Prod.fst))
      have : (fun j => ((R.disp j).map (List.filter fun x => x.2 ≠ l)).map (List.map Prod.fst)) =
          (fun j => ((R.disp j).map (List.map Prod.fst)).map (List.filter fun i => (j, i) ∉ S)) := by
        funext j
        cases hj : R.disp j with
        | none => rfl
        | some L =>
          simp only [Option.map_some, List.filter_map, Option.some.injEq]
          congr 1
          refine List.filter_congr fun x hx => ?_
          simp only [Function.comp, decide_eq_decide, n2, hj, Option.some.injEq, exists_eq_left']
          constructor
          · intro hxl hm
            have e1 := h.who j L hj _ hx
            have e2 := h.who j L hj _ hm
            simp only at e2
            exact hxl (e1.symm.trans e2)
          · intro hm hxl
            exact hm (by rw [← hxl]; exact hx)
      rw [this]
      exact r2.congr rfl rfl rfl
    · intro d' L' hL' x hx
      obtain ⟨L, h1, rfl⟩ := hmem d' L' hL'
      show s1.who x.1 = x.2
      rw [r3]
      exact h.who d' L h1 x (List.mem_filter.1 hx).1
    · exact r5.trans h.cnt
    · intro j
      by_cases hj : j = l
      · simp [HOp.spec, hj]
      · simp only [HOp.spec, if_neg hj, r4]; exact h.live j
    · intro j T hT
      by_cases hj : j = l
      · simp [hj] at hT
      · simp only [if_neg hj, r4] at hT
        obtain ⟨m1, m2⟩ := h.src j T hT
        refine ⟨m1, fun d' i => (m2 d' i).trans ⟨?_, ?_⟩⟩
        · rintro ⟨L, h1, h2⟩
          exact ⟨L.filter fun x => x.2 ≠ l, by simp [HOp.spec, h1], by simp [h2, hj]⟩
        · rintro ⟨L', h1, h2⟩
          obtain ⟨L, h3, rfl⟩ := hmem d' L' h1
          exact ⟨L, h3, (List.mem_filter.1 h2).1⟩
    · intro d' L' hL' x hx
      obtain ⟨L, h1, rfl⟩ := hmem d' L' hL'
      obtain ⟨h2, h3⟩ := List.mem_filter.1 hx
      have hne : x.2 ≠ l := by simpa using h3
      simp only [HOp.spec, if_neg hne]
      exact h.owner d' L h1 x h2
  | dropD d =>
    have hd : R.disp d = some [] := hv
    obtain ⟨p, hp1, hp2, hp3⟩ := h.chains.seg d [] (by simp [hd])
    have hc := h.chains
    refine ⟨_, by simp only [HOp.run, Hub.dropDispatcher, hp1, Res.ok_bind]; rfl, ?_⟩
    have hmem : ∀ d' L', (if d' = d then none else R.disp d') = some L' → d' ≠ d ∧ R.disp d' = some L' := by
      intro d' L' hL'
      by_cases hdd : d' = d
      · simp [hdd] at hL'
      · rw [if_neg hdd] at hL'; exact ⟨hdd, hL'⟩
    constructor
    · show Chains _ (fun j => (if j = d then none else R.disp j).map (List.map Prod.fst))
      have key : ∀ d' L', (if d' = d then none else R.disp d').map (List.map Prod.fst) = some L' →
          d' ≠ d ∧ (R.disp d').map (List.map Prod.fst) = some L' := by
        intro d' L' hL'
        by_cases hdd : d' = d
        · simp [hdd] at hL'
        · exact ⟨hdd, by simpa [hdd] using hL'⟩
      constructor
      · intro d' L hL
        obtain ⟨hdd, hL⟩ := key d' L hL
        obtain ⟨k, k1, k2, k3⟩ := hc.seg d' L hL
        exact ⟨k, by simp [hdd, k1], k2, k3⟩
      · intro d' hd'
        by_cases hdd : d' = d
        · simp [hdd]
        · simp only [if_neg hdd]
          exact hc.gone d' (by simpa [hdd] using hd')
      · intro d1 d2 L1 L2 i h1 h2 i1 i2
        exact hc.disj d1 d2 L1 L2 i (key _ _ h1).2 (key _ _ h2).2 i1 i2
      · intro i hi
        refine hc.dead i fun d' L hL => ?_
        by_cases hdd : d' = d
        · rw [hdd, hd] at hL; simp at hL; subst hL; simp
        · exact hi d' L (by simpa [hdd] using hL)
      · exact hc.bound
    · intro d' L' hL'; exact h.who d' L' (hmem d' L' hL').2
    · exact h.cnt
    · exact h.live
    · intro l S hS
      obtain ⟨m1, m2⟩ := h.src l S hS
      refine ⟨m1, fun d' i => (m2 d' i).trans ⟨?_, ?_⟩⟩
      · rintro ⟨L, h1, h2⟩
        have hdd : d' ≠ d := by rintro rfl; rw [hd] at h1; cases h1; simp at h2
        exact ⟨L, by simp [HOp.spec, hdd, h1], h2⟩
      · rintro ⟨L, h1, h2⟩
        exact ⟨L, (hmem d' L h1).2, h2⟩
    · intro d' L' hL'; exact h.owner d' L' (hmem d' L' hL').2

theorem spec_count (R : Reg) (o : HOp) : (o.spec R).1.count ≤ R.count + 1 := by
  cases o <;> simp [HOp.spec]
  split <;> simp

theorem hrun_ok {f : Nat} : ∀ {os : List HOp} {s : Hub} {R : Reg}, HRep s R → HValid R os → R.count + os.length < f →
    ∃ s', hrun f s os = .ok (s', (hspec R os).2) ∧ HRep s' (hspec R os).1
  | [], s, R, h, _, _ => ⟨s, rfl, h⟩
  | o :: os, s, R, h, hv, hf => by
    obtain ⟨s1, h1, h2⟩ := hop_ok h hv.1 f (by simp at hf; omega)
    have := spec_count R o
    obtain ⟨s2, h3, h4⟩ := hrun_ok h2 hv.2 (f := f) (by simp at hf; omega)
    exact ⟨s2, by simp [hrun, h1, h3, hspec], h4⟩

theorem init_hrep : HRep Hub.init Reg.init := by
  constructor
  · constructor <;> simp [Reg.init, Hub.init]
  · simp [Reg.init]
  · rfl
  · simp [Reg.init, Hub.init]
  · simp [Hub.init]
  · simp [Reg.init]

/-- **C25** (partial: dispatchers must outlive their listeners, and a position may only be named on a
dispatcher that has listeners).  In every history of creations, registrations at the end or before a given registration,
dispatches and destructions, each message is delivered exactly to the listeners registered with that
dispatcher, once per registration, in order; a registration before an unknown one is rejected and changes
nothing; and destroying a listener leaves none of its registrations behind, nor any registration record of theirs alive. -/
theorem C25_events_partial (os : List HOp) (hv : HValid Reg.init os) (f : Nat) (hf : os.length < f) :
    ∃ s, hrun f Hub.init os = .ok (s, (hspec Reg.init os).2) ∧
      ∀ i, s.nxt i ≠ none ↔ ∃ d L l, (hspec Reg.init os).1.disp d = some L ∧ (i, l) ∈ L ∧ (hspec Reg.init os).1.live l = true := by
  obtain ⟨s, h1, h2⟩ := hrun_ok (f := f) init_hrep hv (by simpa [Reg.init] using hf)
  refine ⟨s, h1, fun i => ⟨fun hn => ?_, ?_⟩⟩
  · by_contra hc
    refine hn (h2.chains.dead i fun d L hL hi => hc ?_)
    rw [Option.map_eq_some_iff] at hL
    obtain ⟨M, hM, rfl⟩ := hL
    obtain ⟨x, hx, rfl⟩ := List.mem_map.1 hi
    exact ⟨d, M, x.2, hM, hx, h2.owner d M hM x hx⟩
  · rintro ⟨d, L, l, hd, hl, -⟩
    obtain ⟨p, -, h3, -⟩ := h2.chains.seg d (L.map Prod.fst) (by simp [hd])
    exact h3.alive (List.mem_map_of_mem hl)

/-- Two dispatchers, three listeners, registrations at the end, before another and before an unknown one. -/
example : HValid Reg.init [.newD 0, .newD 1, .newL 5, .newL 6, .newL 7, .listen 5 0 none, .listen 6 0 none, .listen 7 0 (some 1),
      .listen 5 1 none, .listen 7 0 (some 9), .dispatch 0, .dropL 5, .dispatch 0, .dispatch 1, .dropD 1] ∧
    (hspec Reg.init [.newD 0, .newD 1, .newL 5, .newL 6, .newL 7, .listen 5 0 none, .listen 6 0 none, .listen 7 0 (some 1),
      .listen 5 1 none, .listen 7 0 (some 9), .dispatch 0, .dropL 5, .dispatch 0, .dispatch 1, .dropD 1]).2 =
      [.done, .done, .done, .done, .done, .done, .done, .done, .done, .rejected, .called [5, 7, 6], .done, .called [7, 6], .called [], .done] := by
  refine ⟨?_, by decide⟩
  simp [HValid, HOp.Valid, HOp.spec, Reg.init, place, List.idxOf, List.findIdx, List.findIdx.go]

/-- Destroying a dispatcher that still has listeners makes the later destruction of any of them undefined,
after every history: each listener keeps a remover for the dispatcher. -/
theorem C25_dispatcher_first_dangles (os : List HOp) (hv : HValid Reg.init os) (f : Nat) (hf : os.length < f) (d i l : Nat)
    (L : List (Nat × Nat)) (hd : (hspec Reg.init os).1.disp d = some L) (hl : (i, l) ∈ L) :
    hrun f Hub.init (os ++ [.dropD d, .dropL l]) = .ub := by
  obtain ⟨s, h1, h2⟩ := hrun_ok (f := f) init_hrep hv (by simpa [Reg.init] using hf)
  have happ : ∀ (os os' : List HOp) (s : Hub), hrun f s (os ++ os') = (hrun f s os >>= fun r => hrun f r.1 os' >>= fun q => .ok (q.1, r.2 ++ q.2)) := by
    intro os os'
    induction os with
    | nil => intro s; cases h : hrun f s os' <;> simp [hrun, h]
    | cons o os ih =>
      intro s
      cases h : o.run f s with
      | ok r =>
        cases h' : hrun f r.1 os with
        | ok q => cases h'' : hrun f q.1 os' <;> simp [hrun, h, ih, h', h'']
        | throw => simp [hrun, h, ih, h']
        | ub => simp [hrun, h, ih, h']
      | throw => simp [hrun, h]
      | ub => simp [hrun, h]
  obtain ⟨p, hp, -⟩ := h2.chains.seg d (L.map Prod.fst) (by simp [hd])
  obtain ⟨S, hS⟩ : ∃ S, s.lis l = some S := by
    have := h2.live l
    rw [h2.owner d L hd _ hl] at this
    exact Option.isSome_iff_exists.1 this
  have hmem : (d, i) ∈ S := ((h2.src l S hS).2 d i).2 ⟨L, hd, hl⟩
  -- every listener's removers run in turn; the one for `d` reads the dead dispatcher
  have key : ∀ (S : List (Nat × Nat)) (t : Hub), t.disp d = none → (d, i) ∈ S → ∀ t', dropAll f t S ≠ .ok t' := by
    intro S
    induction S with
    | nil => intro t _ hm; simp at hm
    | cons x S ih =>
      intro t ht hm t'
      obtain ⟨d', j⟩ := x
      have keep : ∀ (g : Nat) (u u' : Hub) (k : HLoc), u.disp d = none → removerLoop u j g k = .ok u' → u'.disp d = none := by
        intro g
        induction g with
        | zero => intro u u' k _ h; simp [removerLoop] at h
        | succ g ihg =>
          intro u u' k hu h
          rw [removerLoop, Res.bind_eq_ok] at h
          obtain ⟨q, hq, h⟩ := h
          cases q with
          | none => cases h; exact hu
          | some a =>
            simp only at h
            by_cases haj : a = j
            · rw [if_pos haj, Res.bind_eq_ok] at h
              obtain ⟨q, -, h⟩ := h
              rw [Res.bind_eq_ok] at h
              obtain ⟨w, hw, h⟩ := h
              cases h
              cases k with
              | head e =>
                have hne : e ≠ d := by rintro rfl; simp [Hub.rd, hu] at hq
                simp only [Hub.wr] at hw
                split at hw
                · cases hw; simp [hne.symm, hu]
                · cases hw
              | next e =>
                simp only [Hub.wr] at hw
                split at hw
                · cases hw; exact hu
                · cases hw
            · rw [if_neg haj] at h
              exact ihg u u' (.next a) hu h
      rw [dropAll]
      intro hc
      rw [Res.bind_eq_ok] at hc
      obtain ⟨u, hu, hc⟩ := hc
      rcases List.mem_cons.1 hm with heq | hm
      · cases heq
        cases f with
        | zero => simp at hf
        | succ g => simp [removerLoop, Hub.rd, ht] at hu
      · exact ih u (keep f t u _ ht hu) hm t' hc
  -- no remover throws
  have nothrow : ∀ (S : List (Nat × Nat)) (t : Hub), dropAll f t S ≠ .throw := by
    have nl : ∀ (g : Nat) (u : Hub) (j : Nat) (k : HLoc), removerLoop u j g k ≠ .throw := by
      intro g
      induction g with
      | zero => intro u j k; simp [removerLoop]
      | succ g ihg =>
        intro u j k
        rw [removerLoop]
        have hrd : ∀ k, u.rd k ≠ .throw := by intro k; cases k <;> simp only [Hub.rd] <;> split <;> simp
        have hwr : ∀ v k, u.wr v k ≠ .throw := by intro v k; cases k <;> simp only [Hub.wr] <;> split <;> simp
        cases h : u.rd k with
        | ok q =>
          cases q with
          | none => simp
          | some a =>
            by_cases haj : a = j
            · cases h' : u.rd (.next j) with
              | ok q =>
                cases h'' : u.wr q k with
                | ok w => simp [haj, h', h'']
                | throw => exact absurd h'' (hwr _ _)
                | ub => simp [haj, h', h'']
              | throw => exact absurd h' (hrd _)
              | ub => simp [haj, h']
            · simp only [Res.ok_bind, if_neg haj]; exact ihg u j _
        | throw => exact absurd h (hrd k)
        | ub => simp
    intro S
    induction S with
    | nil => intro t; simp [dropAll]
    | cons x S ih =>
      intro t
      cases h : removerLoop t x.2 f (.head x.1) with
      | ok u => simp only [dropAll, h, Res.ok_bind]; exact ih u
      | throw => exact absurd h (nl _ _ _ _)
      | ub => simp [dropAll, h]
  rw [happ, h1]
  simp only [Res.ok_bind, hrun, HOp.run, Hub.dropDispatcher, hp, Hub.dropListener, hS]
  cases hres : dropAll f { s with disp := fun j => if j = d then none else s.disp j } S with
  | ok t' => exact absurd hres (key S _ (by simp) hmem t')
  | throw => exact absurd hres (nothrow S _)
  | ub => rfl

/-- Naming a position on a dispatcher without listeners is not rejected but undefined. -/
theorem C25_before_on_empty {s : Hub} {d l b : Nat} {S : List (Nat × Nat)} (hd : s.disp d = some none) (hl : s.lis l = some S) (f : Nat)
    (hf : 0 < f) : s.listen f l d (some b) = .ub := by
  obtain ⟨f, rfl⟩ : ∃ g, f = g + 1 := ⟨f - 1, by omega⟩
  simp [Hub.listen, hl, Hub.attach, attachLoop, Hub.rd, hd]

example : hrun 9 Hub.init [.newD 0, .newL 5, .listen 5 0 none, .dropD 0, .dropL 5] = .ub ∧
    (hrun 9 Hub.init [.newD 0, .newL 5, .listen 5 0 (some 3)] >>= fun r => .ok r.2) = .ub := by
  refine ⟨?_, by decide +kernel⟩
  exact C25_dispatcher_first_dangles [.newD 0, .newL 5, .listen 5 0 none]
    (by simp [HValid, HOp.Valid, HOp.spec, Reg.init]) 9 (by simp) 0 0 5 [(0, 5)] (by simp [hspec, HOp.spec, Reg.init, place]) (by simp)

end OP.Links
