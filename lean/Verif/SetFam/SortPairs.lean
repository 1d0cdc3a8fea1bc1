import Verif.SetFam.Sort
/-!
# Sorting parallel key and value arrays (`aoset`, `avoset`)
-/
namespace OP

/-- Apply a function to a result. -/
def Res.map {α β : Type} (f : α → β) (r : Res α) : Res β := r >>= fun a => .ok (f a)

@[simp] theorem Res.map_ok {α β : Type} (f : α → β) (a : α) : (Res.ok a).map f = .ok (f a) := rfl

namespace SetFam.QS

variable {K V : Type}

/-- `std::swap(key[i],key[j]); std::swap(value[i],value[j]);` (include/set.h:1568-1569). -/
def swp2 (s : List K × List V) (i j : Nat) : Res (List K × List V) :=
  swp s.1 i j >>= fun ks => swp s.2 i j >>= fun vs => .ok (ks, vs)

/-- Storage of `aoset` (include/set.h:1563-1615): compares keys, swaps both arrays. -/
def aoOps (gt : K → K → Bool) : Ops (List K × List V) := ⟨fun s => cmp gt s.1, swp2⟩

/-- Storage of `avoset` (include/set.h:1641-1693): compares values, swaps both arrays. -/
def avoOps (gt : V → V → Bool) : Ops (List K × List V) := ⟨fun s => cmp gt s.2, swp2⟩

section sim
variable {S T : Type} (oS : Ops S) (oT : Ops T) (φ : S → T)

theorem scanUp_sim (hc : ∀ s i j, oT.cmp (φ s) i j = oS.cmp s i j) (s : S) (p i : Nat) :
    scanUp oT (φ s) p i = scanUp oS s p i := by
  fun_induction scanUp oS s p i with
  | case1 i h1 h2 => rw [scanUp, if_pos h1, hc, h2]
  | case2 i h1 h2 ih => rw [scanUp, if_pos h1, hc, h2]; exact ih
  | case3 i h1 h2 => rw [scanUp, if_pos h1, hc, h2]
  | case4 i h1 h2 => rw [scanUp, if_pos h1, hc, h2]
  | case5 i h1 => rw [scanUp, if_neg h1]

theorem scanDown_sim (hc : ∀ s i j, oT.cmp (φ s) i j = oS.cmp s i j) (s : S) (p j : Nat) :
    scanDown oT (φ s) p j = scanDown oS s p j := by
  induction j with
  | zero => rfl
  | succ j ih => rw [scanDown, scanDown, hc, ih]

variable (hc : ∀ s i j, oT.cmp (φ s) i j = oS.cmp s i j)
  (hs : ∀ s i j, oT.swp (φ s) i j = (oS.swp s i j).map φ)
include hc hs

theorem cswp_sim (s : S) (i j : Nat) : cswp oT (φ s) i j = (cswp oS s i j).map φ := by
  unfold cswp
  rw [hc]
  cases oS.cmp s i j with
  | ok c => cases c <;> simp [hs]
  | throw => rfl
  | ub => rfl

theorem part_sim (f : Nat) : ∀ (s : S) (i j p k : Nat),
    part oT f (φ s) i j p k = (part oS f s i j p k).map fun r => (φ r.1, r.2) := by
  induction f with
  | zero => intros; rfl
  | succ f ih =>
    intro s i j p k
    rw [part, part, scanUp_sim oS oT φ hc]
    cases scanUp oS s p i with
    | throw => rfl
    | ub => rfl
    | ok i =>
      simp only [Res.ok_bind]
      rw [scanDown_sim oS oT φ hc]
      cases scanDown oS s p j with
      | throw => rfl
      | ub => rfl
      | ok j =>
        simp only [Res.ok_bind]
        split
        · rfl
        · rw [hs]
          cases oS.swp s i j with
          | throw => rfl
          | ub => rfl
          | ok s' =>
            simp only [Res.map_ok, Res.ok_bind]
            split
            · exact ih ..
            · split <;> exact ih ..

theorem sift_sim (l : Nat) (j : Nat) : ∀ s : S, sift oT l j (φ s) = (sift oS l j s).map φ := by
  induction j with
  | zero => intro s; rfl
  | succ j ih =>
    intro s
    rw [sift, sift, hc]
    split
    · cases oS.cmp s j (j + 1) with
      | throw => rfl
      | ub => rfl
      | ok c =>
        cases c with
        | false => rfl
        | true =>
          simp only [Res.ok_bind, if_true]
          rw [hs]
          cases oS.swp s j (j + 1) with
          | throw => rfl
          | ub => rfl
          | ok s' => exact ih s'
    · rfl

theorem isortLoop_sim (l : Nat) (n : Nat) : ∀ (i : Nat) (s : S),
    isortLoop oT l n i (φ s) = (isortLoop oS l n i s).map φ := by
  induction n with
  | zero => intros; rfl
  | succ n ih =>
    intro i s
    rw [isortLoop, isortLoop, sift_sim oS oT φ hc hs]
    cases sift oS l (i + 1) s with
    | throw => rfl
    | ub => rfl
    | ok s' => exact ih (i + 1) s'

theorem isort_sim (s : S) (l r : Nat) : isort oT (φ s) l r = (isort oS s l r).map φ :=
  isortLoop_sim oS oT φ hc hs ..

theorem qsort_sim (f : Nat) : ∀ (s : S) (l r : Nat),
    qsort oT f (φ s) l r = (qsort oS f s l r).map φ := by
  induction f with
  | zero => intros; rfl
  | succ f ih =>
    intro s l r
    rw [qsort, qsort]
    split
    · rfl
    simp only
    rw [cswp_sim oS oT φ hc hs]
    cases cswp oS s l (l + (r - 1 - l) / 2) with
    | throw => rfl
    | ub => rfl
    | ok s1 =>
      simp only [Res.map_ok, Res.ok_bind]
      rw [cswp_sim oS oT φ hc hs]
      cases cswp oS s1 l (r - 1) with
      | throw => rfl
      | ub => rfl
      | ok s2 =>
        simp only [Res.map_ok, Res.ok_bind]
        rw [cswp_sim oS oT φ hc hs]
        cases cswp oS s2 (l + (r - 1 - l) / 2) (r - 1) with
        | throw => rfl
        | ub => rfl
        | ok s3 =>
          simp only [Res.map_ok, Res.ok_bind]
          split
          · rfl
          · rw [part_sim oS oT φ hc hs]
            cases part oS r s3 l (r - 1) (l + (r - 1 - l) / 2) 0 with
            | throw => rfl
            | ub => rfl
            | ok t =>
              simp only [Res.map_ok, Res.ok_bind]
              split
              · rw [isort_sim oS oT φ hc hs]
                cases isort oS t.1 l t.2.1 with
                | throw => rfl
                | ub => rfl
                | ok t' => exact isort_sim oS oT φ hc hs ..
              · rw [ih]
                cases qsort oS f t.1 l t.2.1 with
                | throw => rfl
                | ub => rfl
                | ok t' => exact ih ..

end sim

/-- The two arrays of a list of pairs. -/
def split2 (l : List (K × V)) : List K × List V := (l.map Prod.fst, l.map Prod.snd)

theorem rd_map {α β : Type} (f : α → β) (l : List α) (i : Nat) : rd (l.map f) i = (rd l i).map f := by
  unfold rd
  rw [List.getElem?_map]
  cases l[i]? <;> rfl

theorem swp2_split (l : List (K × V)) (i j : Nat) : swp2 (split2 l) i j = (swp l i j).map split2 := by
  unfold swp2 swp split2
  simp only [rd_map]
  cases rd l i with
  | throw => rfl
  | ub => rfl
  | ok x =>
    cases rd l j with
    | throw => rfl
    | ub => rfl
    | ok y => simp [List.map_set]

theorem cmp_fst (gt : K → K → Bool) (l : List (K × V)) (i j : Nat) :
    cmp gt (split2 l).1 i j = cmp (fun a b => gt a.1 b.1) l i j := by
  unfold cmp split2
  simp only [rd_map]
  cases rd l i <;> cases rd l j <;> rfl

theorem cmp_snd (gt : V → V → Bool) (l : List (K × V)) (i j : Nat) :
    cmp gt (split2 l).2 i j = cmp (fun a b => gt a.2 b.2) l i j := by
  unfold cmp split2
  simp only [rd_map]
  cases rd l i <;> cases rd l j <;> rfl

theorem ao_sim (gt : K → K → Bool) (l : List (K × V)) (n : Nat) :
    sort (aoOps gt) (split2 l) n = (sort (lo fun a b => gt a.1 b.1) l n).map split2 :=
  qsort_sim _ _ split2 (fun s i j => cmp_fst gt s i j) (fun s i j => swp2_split s i j) ..

theorem avo_sim (gt : V → V → Bool) (l : List (K × V)) (n : Nat) :
    sort (avoOps gt) (split2 l) n = (sort (lo fun a b => gt a.2 b.2) l n).map split2 :=
  qsort_sim _ _ split2 (fun s i j => cmp_snd gt s i j) (fun s i j => swp2_split s i j) ..

theorem sort_ok {α : Type} {gt : α → α → Bool} (hg : StrictWeak gt) (a : List α) :
    ∃ a', sort (lo gt) a a.length = .ok a' ∧ a'.Perm a ∧ a'.Pairwise (fun x y => gt x y = false) := by
  obtain ⟨a', h1, h2, h3⟩ := qsort_ok hg (a.length + 1) a 0 a.length (Nat.le_refl _) (by omega)
  refine ⟨a', h1, h2.perm, Srt_pairwise ?_⟩
  rw [h2.length]; exact h3

end SetFam.QS
end OP
