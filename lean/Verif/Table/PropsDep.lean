import Verif.Table.DepLemmas
import Verif.Table.PropsTable
/-!
# Property C22: an axis that depends on another axis

The model has one parent axis and one dependent axis (`axis<K,K₁>`).
-/
namespace OP.Table
open OP.Tree

variable {K K₁ : Type} [LinearOrder K] [LinearOrder K₁]

/-- The calls of a user. -/
inductive DOp (K₁ K : Type) where
  | padd (k1 : K₁)
  | premove (k1 : K₁)
  | pempty
  | cadd (k : K) (k1 : K₁)
  | cremove (k : K) (k1 : K₁)

/-- A call on the model: the new state and the messages sent by the dependent axis; `none` if the call has not
returned within the fuel. -/
def dstep (fuel : Nat) (s : Dep K₁ K) : DOp K₁ K → Res (Option (Dep K₁ K × List Msg))
  | .padd k1 => s.priorAdd k1 >>= fun s => .ok (some (s, []))
  | .premove k1 => s.priorRemove fuel k1
  | .pempty => .ok (some s.priorEmpty)
  | .cadd k k1 => s.add k k1 >>= fun r => .ok (some r)
  | .cremove k k1 => s.remove k k1 >>= fun r => .ok (some r)

/-- A history: a call that throws leaves the state and is reported as `none`. -/
def drun (fuel : Nat) (s : Dep K₁ K) : List (DOp K₁ K) → Res (Option (Dep K₁ K × List (Option (List Msg))))
  | [] => .ok (some (s, []))
  | op :: ops => match dstep fuel s op with
    | .ok none => .ok none
    | .ok (some r) => drun fuel r.1 ops >>= fun x => .ok (x.map fun y => (y.1, some r.2 :: y.2))
    | .throw => drun fuel s ops >>= fun x => .ok (x.map fun y => (y.1, none :: y.2))
    | .ub => .ub

/-- New axes. -/
def Dep.init : Dep K₁ K := ⟨Avl.S.init, Avl.S.init⟩

/-- What the two axes stand for: the parent elements in order, and the entries, ordered by parent and then
by key. -/
structure DSpec (K₁ K : Type) where
  parents : List K₁
  entries : List (K₁ ×ₗ K)

/-- What a call should do, and the messages it should send. -/
def dspecStep (σ : DSpec K₁ K) : DOp K₁ K → Option (DSpec K₁ K × List Msg)
  | .padd k1 => if k1 ∈ σ.parents then none else some (⟨insertKey k1 σ.parents, σ.entries⟩, [])
  | .premove k1 => if k1 ∈ σ.parents then
      some (⟨σ.parents.filter (· ≠ k1), σ.entries.filter fun e => (ofLex e).1 ≠ k1⟩,
        List.replicate (σ.entries.filter fun e => (ofLex e).1 = k1).length
          (.remove (σ.entries.filter fun e => (ofLex e).1 < k1).length)) else none
  | .pempty => some (⟨[], []⟩, [.empty])
  | .cadd k k1 => if k1 ∈ σ.parents ∧ toLex (k1, k) ∉ σ.entries then
      some (⟨σ.parents, insertKey (toLex (k1, k)) σ.entries⟩, [.add (σ.entries.filter (· < toLex (k1, k))).length])
      else none
  | .cremove k k1 => if k1 ∈ σ.parents ∧ toLex (k1, k) ∈ σ.entries then
      some (⟨σ.parents, σ.entries.filter (· ≠ toLex (k1, k))⟩,
        [.remove (σ.entries.filter (· < toLex (k1, k))).length]) else none

/-- The specified history. -/
def dspec (σ : DSpec K₁ K) : List (DOp K₁ K) → DSpec K₁ K × List (Option (List Msg))
  | [] => (σ, [])
  | op :: ops => match dspecStep σ op with
    | some r => ((dspec r.1 ops).1, some r.2 :: (dspec r.1 ops).2)
    | none => ((dspec σ ops).1, none :: (dspec σ ops).2)

/-- A call that does not remove a parent with entries, unless there is just one and it is the last entry. -/
def Safe (σ : DSpec K₁ K) : DOp K₁ K → Prop
  | .premove k1 => ∃ L R, σ.entries = L ++ R ∧ R.length ≤ 1 ∧ ∀ e ∈ L, (ofLex e).1 ≠ k1
  | _ => True

/-- Every call of the history is safe when it is made. -/
def SafeHist (σ : DSpec K₁ K) : List (DOp K₁ K) → Prop
  | [] => True
  | op :: ops => Safe σ op ∧ SafeHist (match dspecStep σ op with | some r => r.1 | none => σ) ops

/-! ### Parent positions -/

/-- The stored key of an entry. -/
def enc (P : List K₁) (e : K₁ ×ₗ K) : DKey K := toLex (P.idxOf (ofLex e).1, (ofLex e).2)

theorem idxOf_mid {A B : List K₁} {k : K₁} (h : k ∉ A) : (A ++ k :: B).idxOf k = A.length := by
  rw [List.idxOf_append_of_notMem h]; simp

theorem idxOf_lt_idxOf {P : List K₁} (hP : P.Pairwise (· < ·)) {x y : K₁} (hx : x ∈ P) (hy : y ∈ P) (h : x < y) :
    P.idxOf x < P.idxOf y := by
  induction P with
  | nil => simp at hx
  | cons a P ih =>
    rw [List.pairwise_cons] at hP
    rw [List.mem_cons] at hx hy
    rcases hx with rfl | hx
    · have hne : x ≠ y := ne_of_lt h
      rw [List.idxOf_cons_self, List.idxOf_cons_ne _ hne]; omega
    · rcases hy with rfl | hy
      · exact absurd (hP.1 x hx) (not_lt.2 (le_of_lt h))
      · have h1 : a ≠ x := ne_of_lt (hP.1 x hx)
        have h2 : a ≠ y := ne_of_lt (hP.1 y hy)
        rw [List.idxOf_cons_ne _ h1, List.idxOf_cons_ne _ h2]
        have := ih hP.2 hx hy; omega

theorem idxOf_insert {A B : List K₁} {k x : K₁} (hn : (A ++ k :: B).Nodup) (hx : x ∈ A ++ B) :
    (A ++ k :: B).idxOf x = if (A ++ B).idxOf x ≥ A.length then (A ++ B).idxOf x + 1 else (A ++ B).idxOf x := by
  by_cases hA : x ∈ A
  · rw [List.idxOf_append_of_mem hA, List.idxOf_append_of_mem hA, if_neg]
    have := List.idxOf_lt_length_iff.2 hA; omega
  · have hne : k ≠ x := by
      rintro rfl
      rw [List.perm_middle.nodup_iff, List.nodup_cons] at hn
      exact hn.1 hx
    rw [List.idxOf_append_of_notMem hA, List.idxOf_append_of_notMem hA, List.idxOf_cons_ne _ hne, if_pos (by omega)]
    omega

theorem idxOf_erase {A B : List K₁} {k x : K₁} (hn : (A ++ k :: B).Nodup) (hx : x ∈ A ++ B) :
    (A ++ B).idxOf x = if (A ++ k :: B).idxOf x > A.length then (A ++ k :: B).idxOf x - 1 else (A ++ k :: B).idxOf x := by
  rw [idxOf_insert hn hx]
  split <;> split <;> omega

theorem enc_lt_iff {P : List K₁} (hP : P.Pairwise (· < ·)) {e e' : K₁ ×ₗ K} (h : (ofLex e).1 ∈ P)
    (h' : (ofLex e').1 ∈ P) : enc P e < enc P e' ↔ e < e' := by
  obtain ⟨⟨a, b⟩, rfl⟩ := toLex.surjective e
  obtain ⟨⟨c, d⟩, rfl⟩ := toLex.surjective e'
  simp only [enc, ofLex_toLex, Prod.Lex.toLex_lt_toLex] at *
  rcases lt_trichotomy a c with hac | rfl | hac
  · have := idxOf_lt_idxOf hP h h' hac
    simp [hac, this]
  · simp
  · have := idxOf_lt_idxOf hP h' h hac
    have e1 : ¬ a < c := not_lt.2 (le_of_lt hac)
    have e2 : a ≠ c := ne_of_gt hac
    simp [e1, e2]; omega

theorem enc_inj {P : List K₁} (hP : P.Pairwise (· < ·)) {e e' : K₁ ×ₗ K} (h : (ofLex e).1 ∈ P)
    (h' : (ofLex e').1 ∈ P) (he : enc P e = enc P e') : e = e' := by
  rcases lt_trichotomy e e' with hl | hl | hl
  · exact absurd ((enc_lt_iff hP h h').2 hl) (by rw [he]; exact lt_irrefl _)
  · exact hl
  · exact absurd ((enc_lt_iff hP h' h).2 hl) (by rw [he]; exact lt_irrefl _)

theorem enc_sorted {P : List K₁} (hP : P.Pairwise (· < ·)) {C : List (K₁ ×ₗ K)} (hC : C.Pairwise (· < ·))
    (hm : ∀ e ∈ C, (ofLex e).1 ∈ P) : (C.map (enc P)).Pairwise (· < ·) := by
  rw [List.pairwise_map]
  exact hC.imp_of_mem fun ha hb h => (enc_lt_iff hP (hm _ ha) (hm _ hb)).2 h

/-- The axes hold the specified elements. -/
structure DInv (s : Dep K₁ K) (σ : DSpec K₁ K) : Prop where
  prior : ARep s.prior σ.parents
  me : ARep s.me (σ.entries.map (enc σ.parents))
  sorted : σ.entries.Pairwise (· < ·)
  known : ∀ e ∈ σ.entries, (ofLex e).1 ∈ σ.parents

theorem filter_split {α : Type} [LinearOrder α] {A B : List α} {k : α} (hA : ∀ x ∈ A, x < k) (hB : ∀ x ∈ B, k < x) :
    (A ++ B).filter (· < k) = A := by
  have e1 : A.filter (· < k) = A := List.filter_eq_self.2 fun x hx => by simpa using hA x hx
  have e2 : B.filter (· < k) = [] := List.filter_eq_nil_iff.2 fun x hx => by simpa using le_of_lt (hB x hx)
  rw [List.filter_append, e1, e2, List.append_nil]

theorem filter_split' {α : Type} [LinearOrder α] {A B : List α} {k : α} (hs : (A ++ k :: B).Pairwise (· < ·)) :
    (A ++ k :: B).filter (· < k) = A ∧ (A ++ k :: B).filter (· ≠ k) = A ++ B := by
  rw [List.pairwise_append, List.pairwise_cons] at hs
  obtain ⟨-, ⟨h2, -⟩, h3⟩ := hs
  have e1 : A.filter (· < k) = A := List.filter_eq_self.2 fun x hx => by simpa using h3 x hx k (by simp)
  have e2 : B.filter (· < k) = [] := List.filter_eq_nil_iff.2 fun x hx => by simpa using le_of_lt (h2 x hx)
  have e3 : A.filter (· ≠ k) = A :=
    List.filter_eq_self.2 fun x hx => by simpa using ne_of_lt (h3 x hx k (by simp))
  have e4 : B.filter (· ≠ k) = B := List.filter_eq_self.2 fun x hx => by simpa using ne_of_gt (h2 x hx)
  constructor
  · rw [List.filter_append, List.filter_cons, e1, e2]; simp
  · rw [List.filter_append, List.filter_cons, e3, e4]; simp

theorem dstep_ok {s : Dep K₁ K} {σ : DSpec K₁ K} (h : DInv s σ) (op : DOp K₁ K) (hs : Safe σ op) (fuel : Nat)
    (hf : σ.entries.length + 2 < fuel) :
    (dspecStep σ op = none ∧ dstep fuel s op = .throw) ∨
    ∃ s' σ' l, dspecStep σ op = some (σ', l) ∧ dstep fuel s op = .ok (some (s', l)) ∧ DInv s' σ' ∧
      σ'.entries.length ≤ σ.entries.length + 1 := by
  have hP := h.prior.sorted
  have henc : ∀ e : K₁ ×ₗ K, (ofLex e).1 ∈ σ.parents → (enc σ.parents e ∈ σ.entries.map (enc σ.parents) ↔ e ∈ σ.entries) := by
    intro e he
    constructor
    · intro hm
      obtain ⟨e', h1, h2⟩ := List.mem_map.1 hm
      rwa [← enc_inj hP (h.known _ h1) he h2]
    · exact fun hm => List.mem_map.2 ⟨e, hm, rfl⟩
  cases op with
  | padd k1 =>
    by_cases hk : k1 ∈ σ.parents
    · exact .inl ⟨by simp [dspecStep, hk], by simp [dstep, Dep.priorAdd, h.prior.add_dup hk]⟩
    · obtain ⟨s', A, B, f1, f2, f3, f4, f5⟩ := h.prior.add hk
      have hmap : (σ.entries.map (enc σ.parents)).map (shiftUp A.length) = σ.entries.map (enc (A ++ k1 :: B)) := by
        rw [List.map_map]
        refine List.map_congr_left fun e he => ?_
        have := h.known e he
        rw [f2] at this
        simp only [Function.comp, enc, shiftUp, ofLex_toLex, f2]
        rw [idxOf_insert f3.nodup this]
      have hkn : ∀ e ∈ σ.entries, (ofLex e).1 ∈ A ++ k1 :: B := by
        intro e he
        have := h.known e he
        rw [f2, List.mem_append] at this
        rw [List.mem_append, List.mem_cons]; tauto
      obtain ⟨m, g1, g2⟩ := h.me.onAdd A.length (by rw [hmap]; exact enc_sorted f3.sorted h.sorted hkn)
      rw [hmap] at g2
      refine .inr ⟨⟨s', ⟨m, s.me.root⟩⟩, ⟨A ++ k1 :: B, σ.entries⟩, [], ?_, ?_, ⟨f3, g2, h.sorted, hkn⟩, by simp⟩
      · rw [dspecStep, if_neg hk, f2, insertKey_eq f4 f5]
      · simp [dstep, Dep.priorAdd, f1, g1]
  | premove k1 =>
    by_cases hk : k1 ∈ σ.parents
    · obtain ⟨A, B, hAB⟩ := List.append_of_mem hk
      obtain ⟨s', f1, f2⟩ := h.prior.remove hAB
      have hns : (A ++ k1 :: B).Pairwise (· < ·) := hAB ▸ hP
      have hnd : (A ++ k1 :: B).Nodup := hAB ▸ h.prior.nodup
      have hkA : k1 ∉ A ∧ k1 ∉ B := by
        rw [List.perm_middle.nodup_iff, List.nodup_cons, List.mem_append, not_or] at hnd; exact hnd.1
      have hidx : σ.parents.idxOf k1 = A.length := by rw [hAB]; exact idxOf_mid hkA.1
      have hPf : σ.parents.filter (· ≠ k1) = A ++ B := by rw [hAB]; exact (filter_split' hns).2
      have hmem : ∀ x, x ∈ σ.parents → x ≠ k1 → x ∈ A ++ B := by
        intro x hx hne
        rw [hAB, List.mem_append, List.mem_cons] at hx
        rw [List.mem_append]; tauto
      have hmap : ∀ C : List (K₁ ×ₗ K), (∀ e ∈ C, e ∈ σ.entries ∧ (ofLex e).1 ≠ k1) →
          (C.map (enc σ.parents)).map (shiftDown A.length) = C.map (enc (A ++ B)) := by
        intro C hC
        rw [List.map_map]
        refine List.map_congr_left fun e he => ?_
        have := hmem _ (h.known e (hC e he).1) (hC e he).2
        simp only [Function.comp, enc, shiftDown, ofLex_toLex, hAB]
        rw [idxOf_erase hnd this]
      obtain ⟨L, R, hLR, hR, hL⟩ := hs
      by_cases hno : ∀ e ∈ σ.entries, (ofLex e).1 ≠ k1
      · have hmap' := hmap σ.entries fun e he => ⟨he, hno e he⟩
        have hkn : ∀ e ∈ σ.entries, (ofLex e).1 ∈ A ++ B := fun e he => hmem _ (h.known e he) (hno e he)
        have hp : ∀ a ∈ σ.entries.map (enc σ.parents), (ofLex a).1 ≠ A.length := by
          intro a ha hc
          obtain ⟨e, he, rfl⟩ := List.mem_map.1 ha
          simp only [enc, ofLex_toLex] at hc
          rw [← hidx] at hc
          exact hno e he ((List.idxOf_inj (h.known e he)).1 hc)
        obtain ⟨m, g1, g2⟩ := h.me.onRemove_none A.length (f := fuel) (by simp; omega) hp
          (by rw [hmap']; exact enc_sorted f2.sorted h.sorted hkn) []
        rw [hmap'] at g2
        have e1 : (σ.entries.filter fun e => (ofLex e).1 ≠ k1) = σ.entries :=
          List.filter_eq_self.2 fun e he => by simpa using hno e he
        have e2 : (σ.entries.filter fun e => (ofLex e).1 = k1) = [] :=
          List.filter_eq_nil_iff.2 fun e he => by simpa using hno e he
        refine .inr ⟨⟨s', m⟩, ⟨A ++ B, σ.entries⟩, [], ?_, ?_, ⟨f2, g2, h.sorted, hkn⟩, by simp⟩
        · rw [dspecStep, if_pos hk, hPf, e1, e2]; rfl
        · simp [dstep, Dep.priorRemove, f1, g1]
      · -- exactly one entry, the last one
        have hRe : ∃ e, R = [e] ∧ (ofLex e).1 = k1 := by
          push Not at hno
          obtain ⟨e, he, hek⟩ := hno
          rw [hLR, List.mem_append] at he
          rcases he with he | he
          · exact absurd hek (hL e he)
          · match R, hR, he with
            | [x], _, he => rw [List.mem_singleton] at he; exact ⟨x, rfl, he ▸ hek⟩
        obtain ⟨e, rfl, hek⟩ := hRe
        have hme := h.me
        have hsorted := h.sorted
        have hkn := h.known
        rw [hLR] at hme hsorted hkn
        rw [List.map_append, List.map_singleton] at hme
        rw [List.pairwise_append] at hsorted
        have hlt : ∀ x ∈ L, (ofLex x).1 < k1 := by
          intro x hx
          have h1 := hsorted.2.2 x hx e (by simp)
          have h2 := hL x hx
          obtain ⟨⟨a, b⟩, rfl⟩ := toLex.surjective x
          obtain ⟨⟨c, d⟩, rfl⟩ := toLex.surjective e
          simp only [ofLex_toLex, Prod.Lex.toLex_lt_toLex] at *
          subst hek
          rcases h1 with h1 | ⟨h1, -⟩
          · exact h1
          · exact absurd h1 h2
        have hkL : ∀ x ∈ L, x ∈ σ.entries ∧ (ofLex x).1 ≠ k1 := fun x hx => ⟨by rw [hLR]; simp [hx], hL x hx⟩
        have he1 : (ofLex (enc σ.parents e)).1 = A.length := by simp only [enc, ofLex_toLex]; rw [hek, hidx]
        have hidxlt : ∀ x ∈ L, σ.parents.idxOf (ofLex x).1 < A.length := by
          intro x hx
          rw [← hidx]
          exact idxOf_lt_idxOf hP (hkn x (by simp [hx])) hk (hlt x hx)
        obtain ⟨m, g1, g2⟩ := hme.onRemove_last (f := fuel) (by rw [hLR] at hf; simp at hf ⊢; omega) (by
          intro a ha
          obtain ⟨x, hx, rfl⟩ := List.mem_map.1 ha
          rw [he1]; exact hidxlt x hx) []
        rw [he1] at g1
        have hmapL : L.map (enc σ.parents) = L.map (enc (A ++ B)) := by
          rw [← hmap L hkL, List.map_map]
          refine List.map_congr_left fun x hx => ?_
          have := hidxlt x hx
          show enc σ.parents x = shiftDown A.length (enc σ.parents x)
          have hng : ¬ (ofLex (enc σ.parents x)).1 > A.length := by
            simp only [enc, ofLex_toLex]; omega
          rw [shiftDown, if_neg hng]; rfl
        rw [hmapL] at g2
        have e1 : (σ.entries.filter fun e => (ofLex e).1 ≠ k1) = L := by
          rw [hLR, List.filter_append]
          rw [List.filter_eq_self.2 fun x hx => by simpa using hL x hx]
          simp [hek]
        have e2 : (σ.entries.filter fun e => (ofLex e).1 = k1) = [e] := by
          rw [hLR, List.filter_append]
          rw [List.filter_eq_nil_iff.2 fun x hx => by simpa using hL x hx]
          simp [hek]
        have e3 : (σ.entries.filter fun e => (ofLex e).1 < k1) = L := by
          rw [hLR, List.filter_append]
          rw [List.filter_eq_self.2 fun x hx => by simpa using hlt x hx]
          simp [hek]
        refine .inr ⟨⟨s', m⟩, ⟨A ++ B, L⟩, [.remove L.length], ?_, ?_, ⟨f2, g2, hsorted.1, ?_⟩, ?_⟩
        · rw [dspecStep, if_pos hk, hPf, e1, e2, e3]; rfl
        · rw [List.length_map] at g1
          simp [dstep, Dep.priorRemove, f1, g1]
        · exact fun x hx => hmem _ (hkn x (by simp [hx])) (hL x hx)
        · rw [hLR]; simp; omega
    · exact .inl ⟨by simp [dspecStep, hk], by simp [dstep, Dep.priorRemove, h.prior.remove_missing hk]⟩
  | pempty =>
    refine .inr ⟨⟨Avl.S.init, Avl.S.init⟩, ⟨[], []⟩, [.empty], rfl, rfl, ⟨ARep.init, ARep.init, .nil, by simp⟩, by simp⟩
  | cadd k k1 =>
    by_cases hk : k1 ∈ σ.parents
    · obtain ⟨A, B, hAB⟩ := List.append_of_mem hk
      have ho := h.prior.order hAB
      have hnd : (A ++ k1 :: B).Nodup := hAB ▸ h.prior.nodup
      have hkA : k1 ∉ A := by
        rw [List.perm_middle.nodup_iff, List.nodup_cons, List.mem_append, not_or] at hnd; exact hnd.1.1
      have he : (toLex (A.length, k) : DKey K) = enc σ.parents (toLex (k1, k)) := by
        simp only [enc, ofLex_toLex]; rw [hAB, idxOf_mid hkA]
      by_cases hm : toLex (k1, k) ∈ σ.entries
      · refine .inl ⟨by rw [dspecStep, if_neg (by tauto)], ?_⟩
        have := h.me.add_dup ((henc (toLex (k1, k)) hk).2 hm)
        simp [dstep, Dep.add, h.prior.haskey, hk, ho, he, this]
      · obtain ⟨m, A', B', f1, f2, f3, f4, f5⟩ := h.me.add (k := enc σ.parents (toLex (k1, k)))
          fun hc => hm ((henc (toLex (k1, k)) hk).1 hc)
        obtain ⟨C1, C2, hC, rfl, rfl⟩ := List.map_eq_append_iff.1 f2
        have hkn := h.known
        have hC1 : ∀ x ∈ C1, x < toLex (k1, k) := fun x hx =>
          (enc_lt_iff hP (e' := toLex (k1, k)) (hkn x (by rw [hC]; simp [hx])) hk).1 (f4 _ (List.mem_map.2 ⟨x, hx, rfl⟩))
        have hC2 : ∀ x ∈ C2, toLex (k1, k) < x := fun x hx =>
          (enc_lt_iff hP (e := toLex (k1, k)) hk (hkn x (by rw [hC]; simp [hx]))).1 (f5 _ (List.mem_map.2 ⟨x, hx, rfl⟩))
        have hkn' : ∀ e ∈ C1 ++ toLex (k1, k) :: C2, (ofLex e).1 ∈ σ.parents := by
          intro e he
          rw [List.mem_append, List.mem_cons] at he
          rcases he with he | rfl | he
          · exact hkn e (by rw [hC]; simp [he])
          · exact hk
          · exact hkn e (by rw [hC]; simp [he])
        refine .inr ⟨⟨s.prior, m⟩, ⟨σ.parents, C1 ++ toLex (k1, k) :: C2⟩, [.add C1.length], ?_, ?_,
          ⟨h.prior, by simpa using f3, ?_, hkn'⟩, ?_⟩
        · rw [dspecStep, if_pos ⟨hk, hm⟩, hC, insertKey_eq hC1 hC2, filter_split hC1 hC2]
        · rw [List.length_map] at f1
          simp [dstep, Dep.add, h.prior.haskey, hk, ho, he, f1]
        · have := h.sorted
          rw [hC, List.pairwise_append] at this
          rw [List.pairwise_append, List.pairwise_cons]
          refine ⟨this.1, ⟨hC2, this.2.1⟩, ?_⟩
          intro a ha b hb
          rw [List.mem_cons] at hb
          rcases hb with rfl | hb
          · exact hC1 a ha
          · exact this.2.2 a ha b hb
        · rw [hC]; simp; omega
    · exact .inl ⟨by rw [dspecStep, if_neg (by tauto)], by simp [dstep, Dep.add, h.prior.haskey, hk]⟩
  | cremove k k1 =>
    by_cases hk : k1 ∈ σ.parents
    · obtain ⟨A, B, hAB⟩ := List.append_of_mem hk
      have ho := h.prior.order hAB
      have hnd : (A ++ k1 :: B).Nodup := hAB ▸ h.prior.nodup
      have hkA : k1 ∉ A := by
        rw [List.perm_middle.nodup_iff, List.nodup_cons, List.mem_append, not_or] at hnd; exact hnd.1.1
      have he : (toLex (A.length, k) : DKey K) = enc σ.parents (toLex (k1, k)) := by
        simp only [enc, ofLex_toLex]; rw [hAB, idxOf_mid hkA]
      by_cases hm : toLex (k1, k) ∈ σ.entries
      · obtain ⟨C1, C2, hC⟩ := List.append_of_mem hm
        obtain ⟨m, f1, f2⟩ := h.me.remove (A := C1.map (enc σ.parents)) (B := C2.map (enc σ.parents))
          (k := enc σ.parents (toLex (k1, k))) (by rw [hC]; simp)
        have hso := h.sorted
        rw [hC] at hso
        refine .inr ⟨⟨s.prior, m⟩, ⟨σ.parents, C1 ++ C2⟩, [.remove C1.length], ?_, ?_,
          ⟨h.prior, by simpa using f2, ?_, ?_⟩, ?_⟩
        · rw [dspecStep, if_pos ⟨hk, hm⟩, hC, (filter_split' hso).1, (filter_split' hso).2]
        · rw [List.length_map] at f1
          simp [dstep, Dep.remove, h.prior.haskey, hk, ho, he, f1]
        · exact hso.sublist (by simp)
        · intro e he
          refine h.known e ?_
          rw [hC]
          simp only [List.mem_append, List.mem_cons] at he ⊢; tauto
        · rw [hC]; simp; omega
      · refine .inl ⟨by rw [dspecStep, if_neg (by tauto)], ?_⟩
        have := h.me.remove_missing (k := enc σ.parents (toLex (k1, k))) fun hc => hm ((henc (toLex (k1, k)) hk).1 hc)
        simp [dstep, Dep.remove, h.prior.haskey, hk, ho, he, this]
    · exact .inl ⟨by rw [dspecStep, if_neg (by tauto)], by simp [dstep, Dep.remove, h.prior.haskey, hk]⟩

theorem drun_ok (fuel : Nat) (ops : List (DOp K₁ K)) : ∀ {s : Dep K₁ K} {σ : DSpec K₁ K}, DInv s σ → SafeHist σ ops →
    σ.entries.length + ops.length + 2 < fuel →
    ∃ s', drun fuel s ops = .ok (some (s', (dspec σ ops).2)) ∧ DInv s' (dspec σ ops).1 := by
  induction ops with
  | nil => intro s σ h _ _; exact ⟨s, rfl, h⟩
  | cons op ops ih =>
    intro s σ h hs hf
    simp only [List.length_cons] at hf
    rcases dstep_ok h op hs.1 fuel (by omega) with ⟨h1, h2⟩ | ⟨s', σ', l, h1, h2, h3, h4⟩
    · have hs2 := hs.2
      rw [h1] at hs2
      obtain ⟨s2, g1, g2⟩ := ih h hs2 (by omega)
      exact ⟨s2, by simp [drun, h2, g1, dspec, h1], by simpa [dspec, h1] using g2⟩
    · have hs2 := hs.2
      rw [h1] at hs2
      obtain ⟨s2, g1, g2⟩ := ih h3 hs2 (by omega)
      exact ⟨s2, by simp [drun, h2, g1, dspec, h1], by simpa [dspec, h1] using g2⟩

/-- C22, the part that holds: in any history of additions, removals and clears on the parent and additions and
removals on the dependent axis, in which a parent is only removed when it has no entries or just one entry that
is the last of all, every call returns, is accepted exactly when it should be and announces exactly
the right positions; the dependent axis is ordered by parent and key, and each entry refers to its own
parent element.  (Missing: removal of parents with other entries; see `C22_parent_remove_loops`.
More than one level of dependence, and the axis' own `empty`, are not covered.) -/
theorem C22_dependent_axis_partial (ops : List (DOp K₁ K)) (hs : SafeHist ⟨[], []⟩ ops) (fuel : Nat)
    (hf : ops.length + 2 < fuel) :
    ∃ s : Dep K₁ K, drun fuel Dep.init ops = .ok (some (s, (dspec ⟨[], []⟩ ops).2)) ∧
      Avl.length s.me = (dspec ⟨[], []⟩ ops).1.entries.length ∧
      (dspec ⟨[], []⟩ ops).1.entries.Pairwise (· < ·) ∧
      ∀ p (h : p < (dspec ⟨[], []⟩ ops).1.entries.length),
        s.at_ p = .ok ((ofLex (dspec ⟨[], []⟩ ops).1.entries[p]).2, (ofLex (dspec ⟨[], []⟩ ops).1.entries[p]).1) := by
  obtain ⟨s, h1, h2⟩ := drun_ok fuel ops (s := Dep.init) (σ := ⟨[], []⟩)
    ⟨ARep.init, ARep.init, .nil, by simp⟩ hs (by simpa using hf)
  refine ⟨s, h1, by rw [h2.me.length]; simp, h2.sorted, fun p hp => ?_⟩
  have hk := h2.known _ (List.getElem_mem hp)
  rw [Dep.at_, h2.me.at_, List.getElem?_map, List.getElem?_eq_getElem hp]
  simp only [Option.map_some, Res.ok_bind, enc, ofLex_toLex]
  rw [h2.prior.at_, List.getElem?_eq_getElem (List.idxOf_lt_length_iff.2 hk)]
  simp

/-- Parents inserted before and after entries, and a parent removed with its only entry. -/
example : SafeHist (⟨[], []⟩ : DSpec Nat Nat) [.padd 5, .padd 1, .cadd 7 5, .padd 3, .cadd 2 1, .premove 3, .cadd 9 1,
      .cadd 9 4, .premove 5] ∧
    (dspec (⟨[], []⟩ : DSpec Nat Nat) [.padd 5, .padd 1, .cadd 7 5, .padd 3, .cadd 2 1, .premove 3, .cadd 9 1,
      .cadd 9 4, .premove 5]).2 =
      [some [], some [], some [.add 0], some [], some [.add 0], some [], some [.add 1], none, some [.remove 2]] := by
  constructor
  · refine ⟨trivial, trivial, trivial, trivial, trivial, ⟨[toLex (1, 2), toLex (5, 7)], [], ?_, ?_, ?_⟩, trivial, trivial,
      ⟨[toLex (1, 2), toLex (1, 9)], [toLex (5, 7)], ?_, ?_, ?_⟩, trivial⟩ <;> decide
  · decide

/-- C22 is false: a parent with two entries.  Removing the parent never returns: the handler announces the
removal of position 0 for ever and removes nothing. -/
theorem C22_parent_remove_loops (k1 : K₁) (a b : K) (hab : a < b) :
    ∃ s : Dep K₁ K, (∀ fuel, drun fuel Dep.init [.padd k1, .cadd a k1, .cadd b k1] =
      .ok (some (s, [some [], some [.add 0], some [.add 1]]))) ∧
      s.at_ 0 = .ok (a, k1) ∧ s.at_ 1 = .ok (b, k1) ∧ ∀ fuel, s.priorRemove fuel k1 = .ok none := by
  have h0 : (toLex (0, a) : DKey K) < toLex (0, b) := by simp [Prod.Lex.toLex_lt_toLex, hab]
  generalize hx : (toLex (0, a) : DKey K) = x at h0
  generalize hy : (toLex (0, b) : DKey K) = y at h0
  have h1 : ¬ y < x := not_lt.2 (le_of_lt h0)
  have h2 : ¬ x = y := ne_of_lt h0
  have h3 : ¬ y = x := ne_of_gt h0
  have hx1 : (ofLex x).1 = 0 := by rw [← hx]; rfl
  have hy1 : (ofLex y).1 = 0 := by rw [← hy]; rfl
  have hx2 : (ofLex x).2 = a := by rw [← hx]; rfl
  have hy2 : (ofLex y).2 = b := by rw [← hy]; rfl
  let P : Me K₁ := ⟨[⟨⟨k1, (), 1, 1⟩, none, none⟩], some 0⟩
  let S : DKey K → DKey K → Me (DKey K) := fun x y => ⟨[⟨⟨x, (), 2, 2⟩, none, some 1⟩, ⟨⟨y, (), 1, 1⟩, none, none⟩], some 0⟩
  have r1 : Avl.remove true (S x y) (.cell 0) = .ok (S y x) := by
    simp [S, OP.Tree.get, OP.Tree.put, OP.Tree.upd, Avl.finish, Avl.refresh, Avl.height,
      Avl.rebalance, Avl.balance, Avl.remove, Avl.removeAt, Avl.KRef.read, Avl.minLoop, Avl.swapV, Avl.assignV, h0, h1, h2]
  have r2 : Avl.remove true (S y x) (.cell 0) = .ok (S x y) := by
    simp [S, OP.Tree.get, OP.Tree.put, OP.Tree.upd, Avl.finish, Avl.refresh, Avl.height,
      Avl.rebalance, Avl.balance, Avl.remove, Avl.removeAt, Avl.KRef.read, Avl.minLoop, Avl.swapV, Avl.assignV, h0, h3]
  have loop : ∀ f (log : List Msg), onRemove 0 f 0 (S x y) log = .ok none ∧ onRemove 0 f 0 (S y x) log = .ok none := by
    intro f
    induction f with
    | zero => intro log; exact ⟨rfl, rfl⟩
    | succ f ih =>
      intro log
      have p1 : ∀ u v, posAtOrder (S u v) 0 = .ok 0 := by
        intro u v; simp [S, posAtOrder, Avl.atLoop, OP.Tree.get, Avl.order, Avl.weight]
      have p2 : ∀ u v, OP.Tree.get (S u v).mem 0 = .ok ⟨⟨u, (), 2, 2⟩, none, some 1⟩ := by intro u v; rfl
      have p3 : ∀ u v, Avl.length (S u v) = 2 := fun _ _ => rfl
      constructor
      · rw [onRemove, p3, p1]
        simp only [Res.ok_bind, p2, hx1, r1]
        simpa using (ih _).2
      · rw [onRemove, p3, p1]
        simp only [Res.ok_bind, p2, hy1, r2]
        simpa using (ih _).1
  refine ⟨⟨P, S x y⟩, ?_, ?_, ?_, ?_⟩
  · intro fuel
    simp [drun, dstep, Dep.init, Dep.priorAdd, Dep.add, axisAdd, axisOrder, Avl.haskey, Avl.getposition, Avl.findLoop,
      Avl.add, Avl.append, Avl.S.init, OP.Tree.get, OP.Tree.put, OP.Tree.upd, onAdd, Avl.finish, Avl.refresh, Avl.newWeight, Avl.newHeight,
      Avl.weight, Avl.height, Avl.rebalance, Avl.balance, Avl.getorderof, Avl.ofLoop, Avl.order, hx, hy, h1, h2, S, P]
  · simp [Dep.at_, axisAt, Avl.length, Avl.getatorder, Avl.atLoop, OP.Tree.get, Avl.order, Avl.weight, S, P, hx1, hx2]
  · simp [Dep.at_, axisAt, Avl.length, Avl.getatorder, Avl.atLoop, OP.Tree.get, Avl.order, Avl.weight, S, P, hy1, hy2]
  · intro fuel
    have : axisRemove P k1 = .ok (0, Avl.S.init) := by
      simp [P, axisRemove, Avl.haskey, Avl.getposition, Avl.findLoop, OP.Tree.get, OP.Tree.put, Avl.getorderof, Avl.ofLoop, Avl.order,
        Avl.weight, Avl.remove, Avl.removeAt, Avl.KRef.read, Avl.expunge, Avl.S.init]
    simp [Dep.priorRemove, this, (loop fuel []).1]

/-- Two keys in order exist. -/
example : ∃ s : Dep Nat Nat, ∀ fuel, s.priorRemove fuel 1 = .ok none :=
  let ⟨s, _, _, _, h⟩ := C22_parent_remove_loops (1 : Nat) (2 : Nat) 3 (by decide); ⟨s, h⟩

end OP.Table
