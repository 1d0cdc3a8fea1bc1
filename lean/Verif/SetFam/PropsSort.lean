import Verif.SetFam.PropsSSet
import Verif.SetFam.Search
import Verif.SetFam.Compact
/-!
# Properties C04, C05, C06, C11: sorting, searching and compacting
-/
namespace OP.SetFam
open QS

/-! ## C04 -/

/-- C04: `oset::sort` always ends, stays in bounds, and leaves a permutation of the elements in
nondecreasing order, for any `operator >` that is the strict part of a total preorder. -/
theorem C04_oset_sort {α : Type} (gt : α → α → Bool) (hg : StrictWeak gt) (a : List α) :
    ∃ a', sort (lo gt) a a.length = .ok a' ∧ a'.Perm a ∧ a'.Pairwise (fun x y => gt x y = false) :=
  sort_ok hg a

theorem strictWeak_lt {α : Type} [LinearOrder α] : StrictWeak (fun x y : α => decide (x > y)) :=
  ⟨fun x y h => by simp at h ⊢; exact le_of_lt h,
   fun x y z h1 h2 => by simp at h1 h2 ⊢; exact le_trans h1 h2⟩

/-- C04 over a linear order. -/
theorem C04_oset_sort_linear {α : Type} [LinearOrder α] (a : List α) :
    ∃ a', sort (lo fun x y : α => decide (x > y)) a a.length = .ok a' ∧ a'.Perm a ∧
      a'.Pairwise (· ≤ ·) := by
  obtain ⟨a', h1, h2, h3⟩ := sort_ok strictWeak_lt a
  exact ⟨a', h1, h2, h3.imp (by simp)⟩

example : sort (lo fun x y : Nat => decide (x > y)) [5, 2, 9, 2, 7, 1, 8, 3] 8
    = .ok [1, 2, 2, 3, 5, 7, 8, 9] := by decide +kernel

/-! ## C05 -/

/-- C05: on a sorted list, lookup returns the lowest position of `v` if it is present and "not found"
otherwise, and every probe is in bounds (the result is never `ub`). -/
theorem C05_findvalue {α : Type} [LinearOrder α] (a : List α) (hs : a.Pairwise (· ≤ ·)) (v : α) :
    (v ∈ a ∧ ∃ k, findvalue a v = .ok (some k) ∧ a[k]? = some v ∧ ∀ i < k, a[i]? ≠ some v) ∨
    (v ∉ a ∧ findvalue a v = .ok none) := by
  by_cases hne : a = []
  · subst hne
    right
    simp [findvalue, bsearch]
  have hpos : 0 < a.length := List.length_pos_iff.mpr hne
  let f : Nat → α := fun i => if h : i < a.length then a[i] else a[0]
  have hf : ∀ i (h : i < a.length), f i = a[i] := fun i h => by simp [f, h]
  have hmono : ∀ i j, i < j → j < a.length → f i ≤ f j := by
    intro i j hij hj
    rw [hf i (by omega), hf j hj]
    exact (List.pairwise_iff_getElem.mp hs) i j (by omega) hj hij
  obtain ⟨k, h1, h2, h3, h4⟩ := bsearch_ok (rd a) f v a.length 0 a.length
    (fun i hi => by rw [rd_ok hi, hf i hi]) hmono (by omega) (le_refl _) (by omega)
    (fun i h1 h2 => by omega)
  unfold findvalue
  rw [h1]
  simp only [Res.ok_bind]
  by_cases hk : k < a.length
  · rw [if_pos hk, rd_ok hk]
    simp only [Res.ok_bind]
    by_cases he : a[k] = v
    · left
      refine ⟨he ▸ List.getElem_mem hk, k, by rw [if_pos he], by simp [hk, he], fun i hi => ?_⟩
      have := h3 i hi
      rw [hf i (by omega)] at this
      simp only [List.getElem?_eq_getElem (show i < a.length by omega), ne_eq, Option.some.injEq]
      exact ne_of_lt this
    · right
      refine ⟨fun hm => ?_, by rw [if_neg he]⟩
      obtain ⟨i, hi, hv⟩ := List.getElem_of_mem hm
      rcases Nat.lt_trichotomy i k with hlt | heq | hgt
      · have := h3 i hlt; rw [hf i hi, hv] at this; exact lt_irrefl _ this
      · subst heq; exact he hv
      · have a1 := h4 k (le_refl _) hk
        have a2 := hmono k i hgt hi
        rw [hf k hk] at a1 a2
        rw [hf i hi, hv] at a2
        exact he (le_antisymm a2 a1)
  · rw [if_neg hk]
    right
    refine ⟨fun hm => ?_, rfl⟩
    obtain ⟨i, hi, hv⟩ := List.getElem_of_mem hm
    have := h3 i (by omega)
    rw [hf i hi, hv] at this
    exact lt_irrefl _ this

example : [1, 2, 2, 5].Pairwise (· ≤ ·) ∧ findvalue [1, 2, 2, 5] 2 = .ok (some 1) := by
  refine ⟨by decide, ?_⟩
  simp [findvalue, bsearch, rd]

/-! ## C06 -/

/-- C06: `cset::sort` on a set holding `l` succeeds and leaves exactly the distinct elements of `l`
in strictly increasing order (so each of them once). -/
theorem C06_cset_sort {α : Type} [LinearOrder α] (st : SSet α) (l : List α) (h : st.Rep l) :
    ∃ st' l', csetSort (fun x y => decide (x > y)) st = .ok st' ∧ st'.copyout = .ok l' ∧
      l'.Pairwise (· < ·) ∧ (∀ x, x ∈ l' ↔ x ∈ l) ∧ st'.Rep l' := by
  obtain ⟨s, h1, h2, h3⟩ := sort_ok (strictWeak_lt (α := α)) l
  have h3' : s.Pairwise (· ≤ ·) := h3.imp (by simp)
  have hrep : SSet.Rep ({ st with buf := s.map some ++ st.buf.drop st.size } : SSet α) s :=
    ⟨h.block_pos, by rw [h2.length_eq]; exact h.size_eq, ⟨_, rfl⟩⟩
  obtain ⟨st', g1, g2⟩ := compact_rep hrep
  refine ⟨st', s.destutter (· ≠ ·), ?_, SSet.copyout_rep g2, ?_, ?_, g2⟩
  · unfold csetSort
    rw [SSet.copyout_rep h, Res.ok_bind, h.size_eq, h1, Res.ok_bind, ← h.size_eq]
    exact g1
  · -- sorted and adjacent-distinct is strictly sorted
    have c1 : (s.destutter (· ≠ ·)).IsChain (· ≠ ·) := List.isChain_destutter _ _
    have c2 : (s.destutter (· ≠ ·)).Pairwise (· ≤ ·) := h3'.sublist (List.destutter_sublist _ _)
    have : (s.destutter (· ≠ ·)).IsChain (· < ·) := by
      rw [List.isChain_iff_getElem] at c1 ⊢
      intro i hi
      exact lt_of_le_of_ne ((List.pairwise_iff_getElem.mp c2) i (i + 1) (by omega) hi (by omega))
        (c1 i hi)
    exact this.pairwise
  · intro x
    rw [← h2.mem_iff]
    refine ⟨fun hx => (List.destutter_sublist _ _).subset hx, fun hx => ?_⟩
    -- an element dropped by destutter equals the one kept before it
    have key : ∀ (l : List α) (a : α), (a :: l).Pairwise (· ≤ ·) → x ∈ a :: l →
        x ∈ l.destutter' (· ≠ ·) a := by
      intro l
      induction l with
      | nil => intro a _ hx; simpa using hx
      | cons b l ih =>
        intro a hp hx
        rw [List.destutter']
        rw [List.pairwise_cons] at hp
        by_cases hab : a ≠ b
        · rw [if_pos hab]
          rcases List.mem_cons.mp hx with rfl | hx
          · simp
          · exact List.mem_cons_of_mem _ (ih b hp.2 hx)
        · rw [if_neg hab]
          have hab := not_not.mp hab
          subst hab
          refine ih a hp.2 ?_
          rcases List.mem_cons.mp hx with rfl | hx
          · simp
          · exact hx
    match s, h3', hx with
    | a :: s, h3', hx => exact key s a h3' hx

/-- A set meeting the hypothesis of `C06_cset_sort`, and the outcome on it. -/
example : (csetSort (fun x y : Nat => decide (x > y)) ⟨64, 5, [3, 1, 3, 2, 1].map some⟩ >>= SSet.copyout)
    = .ok [1, 2, 3] := by decide +kernel

example : SSet.Rep (⟨64, 5, [3, 1, 3, 2, 1].map some⟩ : SSet Nat) [3, 1, 3, 2, 1] :=
  ⟨by decide, rfl, ⟨[], by simp⟩⟩

/-! ## C11 -/

/-- C11 for `aoset`: sorting by key ends in bounds, and the result is the two columns of a permutation
of the original pairs with nondecreasing keys: every value stays with its key. -/
theorem C11_aoset_sort {K V : Type} (gt : K → K → Bool) (hg : StrictWeak gt) (l : List (K × V)) :
    ∃ l' : List (K × V), sort (aoOps gt) (l.map Prod.fst, l.map Prod.snd) l.length
        = .ok (l'.map Prod.fst, l'.map Prod.snd) ∧ l'.Perm l ∧
      l'.Pairwise (fun x y => gt x.1 y.1 = false) := by
  obtain ⟨l', h1, h2, h3⟩ := sort_ok (gt := fun a b : K × V => gt a.1 b.1)
    ⟨fun x y => hg.asymm _ _, fun x y z => hg.trans _ _ _⟩ l
  refine ⟨l', ?_, h2, h3⟩
  have := ao_sim gt l l.length
  rw [h1] at this
  exact this

/-- C11 for `avoset`: the same, ordered by value. -/
theorem C11_avoset_sort {K V : Type} (gt : V → V → Bool) (hg : StrictWeak gt) (l : List (K × V)) :
    ∃ l' : List (K × V), sort (avoOps gt) (l.map Prod.fst, l.map Prod.snd) l.length
        = .ok (l'.map Prod.fst, l'.map Prod.snd) ∧ l'.Perm l ∧
      l'.Pairwise (fun x y => gt x.2 y.2 = false) := by
  obtain ⟨l', h1, h2, h3⟩ := sort_ok (gt := fun a b : K × V => gt a.2 b.2)
    ⟨fun x y => hg.asymm _ _, fun x y z => hg.trans _ _ _⟩ l
  refine ⟨l', ?_, h2, h3⟩
  have := avo_sim gt l l.length
  rw [h1] at this
  exact this

example : sort (aoOps fun x y : Nat => decide (x > y)) ([3, 1, 2, 9, 4], ["c", "a", "b", "i", "d"]) 5
    = .ok ([1, 2, 3, 4, 9], ["a", "b", "c", "d", "i"]) := by decide +kernel

example : StrictWeak (fun x y : Nat => decide (x > y)) := strictWeak_lt

end OP.SetFam
