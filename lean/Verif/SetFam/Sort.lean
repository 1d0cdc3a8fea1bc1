import Verif.Basic
import Mathlib.Logic.Equiv.Basic
import Mathlib.Tactic.Push
/-!
# The quicksort and insertion sort of the ordered sets (include/set.h:445-480)

The same code is repeated in `koset` (1021-1062), `aoset` (1563-1615) and `avoset` (1641-1693); they
differ only in what is compared and in what is swapped, so the model takes the two operations on the
storage as a parameter (`Ops`).  For `oset` and `koset` the storage is one list and the comparison is
`operator >` on elements or keys; for `aoset` and `avoset` it is a key list and a value list.  An access outside the
list is `ub`; a loop or recursion that outlives its fuel is also `ub`, and the theorems show that
this does not happen.
-/
namespace OP.SetFam.QS
variable {α : Type}

/-- `this->value[i]`. -/
def rd (a : List α) (i : Nat) : Res α :=
  match a[i]? with
  | some v => .ok v
  | none => .ub

/-- `this->value[i] > this->value[j]`. -/
def cmp (gt : α → α → Bool) (a : List α) (i j : Nat) : Res Bool :=
  rd a i >>= fun x => rd a j >>= fun y => .ok (gt x y)

/-- `std::swap(this->value[i],this->value[j])`. -/
def swp (a : List α) (i j : Nat) : Res (List α) :=
  rd a i >>= fun x => rd a j >>= fun y => .ok ((a.set i y).set j x)

/-- The two storage operations the sort uses: `value[i] > value[j]` and `swap`. -/
structure Ops (σ : Type) where
  cmp : σ → Nat → Nat → Res Bool
  swp : σ → Nat → Nat → Res σ

/-- The storage of `oset` and `koset`: one list. -/
def lo (gt : α → α → Bool) : Ops (List α) := ⟨cmp gt, swp⟩

variable {σ : Type}

/-- `if (value[i] > value[j]) swap(value[i],value[j])` (include/set.h:449-454). -/
def cswp (o : Ops σ) (a : σ) (i j : Nat) : Res (σ) :=
  o.cmp a i j >>= fun c => if c then o.swp a i j else .ok a

/-- `while (++i < p && !(value[i] > value[p])) {}` (include/set.h:459); the final `i`. -/
def scanUp (o : Ops σ) (a : σ) (p i : Nat) : Res Nat :=
  if i + 1 < p then
    match o.cmp a (i + 1) p with
    | .ok true => .ok (i + 1)
    | .ok false => scanUp o a p (i + 1)
    | .throw => .throw
    | .ub => .ub
  else .ok (i + 1)
termination_by p - i

/-- `while (p < --j && !(value[p] > value[j])) {}` (include/set.h:460); the final `j`.  `--j` at
`j = 0` would wrap; it is `ub` here and never happens. -/
def scanDown (o : Ops σ) (a : σ) (p : Nat) : Nat → Res Nat
  | 0 => .ub
  | j + 1 =>
    if p < j then
      match o.cmp a p j with
      | .ok true => .ok j
      | .ok false => scanDown o a p j
      | .throw => .throw
      | .ub => .ub
    else .ok j

/-- The partition loop (include/set.h:457-464) from state `i`, `j`, `p`, `k`; returns the list, the
final pivot position and whether `k` is still 0. -/
def part (o : Ops σ) : Nat → σ → Nat → Nat → Nat → Nat → Res (σ × Nat × Nat)
  | 0, _, _, _, _, _ => .ub
  | f + 1, a, i, j, p, k =>
    scanUp o a p i >>= fun i =>
    scanDown o a p j >>= fun j =>
    if i ≥ j then .ok (a, p, k)
    else
      o.swp a i j >>= fun a =>
      if p = i then part o f a i (j + 1) j (k + 1)
      else if p = j then part o f a (i - 1) j i (k + 1)
      else part o f a i j p (k + 1)

/-- The inner loop of `isort` (include/set.h:476-478) at `j`. -/
def sift (o : Ops σ) (l : Nat) : Nat → σ → Res (σ)
  | 0, a => .ok a
  | j + 1, a =>
    if j + 1 > l then
      o.cmp a j (j + 1) >>= fun c =>
      if c then o.swp a j (j + 1) >>= fun a => sift o l j a else .ok a
    else .ok a

/-- The outer loop of `isort` (include/set.h:475), `n` iterations from `i`. -/
def isortLoop (o : Ops σ) (l : Nat) : Nat → Nat → σ → Res (σ)
  | 0, _, a => .ok a
  | n + 1, i, a => sift o l (i + 1) a >>= fun a => isortLoop o l n (i + 1) a

/-- `isort(l,r)` (include/set.h:474-480). -/
def isort (o : Ops σ) (a : σ) (l r : Nat) : Res (σ) :=
  isortLoop o l (r - 1 - l) l a

/-- `qsort(l,r)` (include/set.h:445-472). -/
def qsort (o : Ops σ) : Nat → σ → Nat → Nat → Res (σ)
  | 0, _, _, _ => .ub
  | f + 1, a, l, r =>
    if r ≤ l then .ok a
    else
      let p := l + (r - 1 - l) / 2
      cswp o a l p >>= fun a =>
      cswp o a l (r - 1) >>= fun a =>
      cswp o a p (r - 1) >>= fun a =>
      if r - 1 - l ≤ 2 then .ok a
      else
        part o r a l (r - 1) p 0 >>= fun s =>
        if s.2.2 = 0 then
          isort o s.1 l s.2.1 >>= fun a => isort o a (s.2.1 + 1) r
        else
          qsort o f s.1 l s.2.1 >>= fun a => qsort o f a (s.2.1 + 1) r

/-- `sort()` (include/set.h:423-425): `qsort(0,size)`. -/
def sort (o : Ops σ) (a : σ) (size : Nat) : Res σ :=
  qsort o (size + 1) a 0 size

/-- What `operator >` must satisfy: it is the strict part of a total preorder. -/
structure StrictWeak (gt : α → α → Bool) : Prop where
  asymm : ∀ x y, gt x y = true → gt y x = false
  trans : ∀ x y z, gt x y = false → gt y z = false → gt x z = false

/-! ## Lemmas -/

/-- The element at `x` is not greater than the one at `y`. -/
def Lq (gt : α → α → Bool) (a : List α) (x y : Nat) : Prop :=
  ∀ u ∈ a[x]?, ∀ v ∈ a[y]?, gt u v = false

/-- The segment `[l,r)` is sorted. -/
def Srt (gt : α → α → Bool) (a : List α) (l r : Nat) : Prop :=
  ∀ x y, l ≤ x → x < y → y < r → Lq gt a x y

/-- `a'` comes from `a` by permuting the segment `[l,r)`. -/
structure SegPerm (l r : Nat) (a a' : List α) : Prop where
  perm : a'.Perm a
  map : ∃ σ : Equiv.Perm Nat, (∀ x, ¬ (l ≤ x ∧ x < r) → σ x = x) ∧ ∀ x : Nat, a'[x]? = a[σ x]?

theorem SegPerm.length {l r : Nat} {a a' : List α} (h : SegPerm l r a a') :
    a'.length = a.length := h.perm.length_eq

theorem SegPerm.refl (l r : Nat) (a : List α) : SegPerm l r a a :=
  ⟨.refl _, Equiv.refl _, fun _ _ => rfl, fun _ => rfl⟩

theorem SegPerm.trans {l r : Nat} {a b c : List α} (h1 : SegPerm l r a b) (h2 : SegPerm l r b c) :
    SegPerm l r a c := by
  obtain ⟨p1, σ, s1, m1⟩ := h1
  obtain ⟨p2, τ, s2, m2⟩ := h2
  refine ⟨p2.trans p1, τ.trans σ, fun x hx => ?_, fun x => ?_⟩
  · simp [s1 x hx, s2 x hx]
  · rw [m2, m1]; rfl

theorem SegPerm.mono {l r l' r' : Nat} {a b : List α} (h : SegPerm l r a b) (hl : l' ≤ l)
    (hr : r ≤ r') : SegPerm l' r' a b := by
  obtain ⟨p, σ, s, m⟩ := h
  exact ⟨p, σ, fun x hx => s x (by omega), m⟩

theorem SegPerm.outside {l r : Nat} {a b : List α} (h : SegPerm l r a b) (x : Nat)
    (hx : ¬ (l ≤ x ∧ x < r)) : b[x]? = a[x]? := by
  obtain ⟨_, σ, s, m⟩ := h
  rw [m, s x hx]

theorem SegPerm.inside {l r : Nat} {a b : List α} (h : SegPerm l r a b) (x : Nat)
    (hx : l ≤ x ∧ x < r) : ∃ y, l ≤ y ∧ y < r ∧ b[x]? = a[y]? := by
  obtain ⟨_, σ, s, m⟩ := h
  refine ⟨σ x, ?_⟩
  by_contra hc
  have h1 : ¬ (l ≤ σ x ∧ σ x < r) := fun h => hc ⟨h.1, h.2, m x⟩
  have h2 := σ.injective (s _ h1)
  rw [h2] at h1
  exact h1 hx

theorem Lq.congr {gt : α → α → Bool} {a b : List α} {x y x' y' : Nat} (h : Lq gt a x y)
    (hx : b[x']? = a[x]?) (hy : b[y']? = a[y]?) : Lq gt b x' y' := by
  unfold Lq at *; rw [hx, hy]; exact h

theorem Lq.trans {gt : α → α → Bool} (hg : StrictWeak gt) {a : List α} {x y z : Nat}
    (h1 : Lq gt a x y) (h2 : Lq gt a y z) (hy : y < a.length) : Lq gt a x z := by
  intro u hu w hw
  exact hg.trans u a[y] w (h1 u hu _ (by simp [hy])) (h2 _ (by simp [hy]) w hw)

theorem rd_ok {a : List α} {i : Nat} (h : i < a.length) : rd a i = .ok a[i] := by
  simp [rd, h]

theorem cmp_ok {gt : α → α → Bool} {a : List α} {i j : Nat} (hi : i < a.length)
    (hj : j < a.length) : (lo gt).cmp a i j = .ok (gt a[i] a[j]) := by
  simp [lo, cmp, rd_ok hi, rd_ok hj]

theorem Lq_iff {gt : α → α → Bool} {a : List α} {i j : Nat} (hi : i < a.length)
    (hj : j < a.length) : Lq gt a i j ↔ gt a[i] a[j] = false := by
  simp [Lq, hi, hj]

theorem Lq_of_gt {gt : α → α → Bool} (hg : StrictWeak gt) {a : List α} {i j : Nat}
    (hi : i < a.length) (hj : j < a.length) (h : gt a[i] a[j] = true) : Lq gt a j i :=
  (Lq_iff hj hi).2 (hg.asymm _ _ h)

/-- The effect of a swap on every position. -/
theorem swp_ok {gt : α → α → Bool} {a : List α} {i j : Nat} (hi : i < a.length) (hj : j < a.length) :
    ∃ a', (lo gt).swp a i j = .ok a' ∧ a'.Perm a ∧ ∀ x : Nat, a'[x]? = a[Equiv.swap i j x]? := by
  refine ⟨(a.set i a[j]).set j a[i], by simp [lo, swp, rd_ok hi, rd_ok hj],
    List.set_set_perm hi hj, fun x => ?_⟩
  rw [Equiv.swap_apply_def]
  split
  · rename_i h; subst h
    by_cases hxj : x = j
    · subst hxj; simp
    · rw [List.getElem?_set_ne (by omega), List.getElem?_set_self hi]; simp [hj]
  · split
    · rename_i h; subst h
      rw [List.getElem?_set_self (by simpa using hj)]; simp [hi]
    · rw [List.getElem?_set_ne (by omega), List.getElem?_set_ne (by omega)]

theorem swp_seg {gt : α → α → Bool} {a : List α} {i j l r : Nat} (hi : l ≤ i ∧ i < r) (hj : l ≤ j ∧ j < r)
    (hr : r ≤ a.length) :
    ∃ a', (lo gt).swp a i j = .ok a' ∧ SegPerm l r a a' ∧ ∀ x : Nat, a'[x]? = a[Equiv.swap i j x]? := by
  obtain ⟨a', h1, h2, h3⟩ := swp_ok (gt := gt) (a := a) (i := i) (j := j) (by omega) (by omega)
  refine ⟨a', h1, ⟨h2, Equiv.swap i j, fun x hx => ?_, h3⟩, h3⟩
  exact Equiv.swap_apply_of_ne_of_ne (by rintro rfl; exact hx hi) (by rintro rfl; exact hx hj)

theorem cswp_seg {gt : α → α → Bool} (hg : StrictWeak gt) {a : List α} {i j l r : Nat}
    (hi : l ≤ i ∧ i < r) (hj : l ≤ j ∧ j < r) (hr : r ≤ a.length) :
    ∃ a', cswp (lo gt) a i j = .ok a' ∧ SegPerm l r a a' ∧ Lq gt a' i j ∧
      ((∀ x : Nat, a'[x]? = a[x]?) ∨
        (Lq gt a j i ∧ ∀ x : Nat, a'[x]? = a[Equiv.swap i j x]?)) := by
  have hi' : i < a.length := by omega
  have hj' : j < a.length := by omega
  unfold cswp
  rw [cmp_ok hi' hj']
  simp only [Res.ok_bind]
  by_cases h : gt a[i] a[j] = true
  · rw [if_pos h]
    obtain ⟨a', h1, h2, h3⟩ := swp_seg (gt := gt) hi hj hr
    refine ⟨a', h1, h2, ?_, .inr ⟨Lq_of_gt hg hi' hj' h, h3⟩⟩
    refine (Lq_of_gt hg hi' hj' h).congr ?_ ?_ <;> rw [h3] <;> simp
  · rw [if_neg h]
    exact ⟨a, rfl, .refl _ _ _, (Lq_iff hi' hj').2 (by simpa using h), .inl fun _ => rfl⟩

theorem Lq.of_swapped {gt : α → α → Bool} {a a' : List α} {σ : Nat → Nat} {x y : Nat}
    (hs : ∀ x, a'[x]? = a[σ x]?) (h : Lq gt a (σ x) (σ y)) : Lq gt a' x y :=
  h.congr (hs x) (hs y)

theorem scanUp_ok {gt : α → α → Bool} {a : List α} {p i : Nat} (hp : p < a.length) (hi : i < p) :
    ∃ i', scanUp (lo gt) a p i = .ok i' ∧ i < i' ∧ i' ≤ p ∧ ∀ x, i < x → x < i' → Lq gt a x p := by
  fun_induction scanUp (lo gt) a p i with
  | case1 i h hc => exact ⟨i + 1, rfl, by omega, by omega, fun x _ _ => by omega⟩
  | case2 i h hc ih =>
    obtain ⟨i', h1, h2, h3, h4⟩ := ih (by omega)
    refine ⟨i', h1, by omega, h3, fun x hx hx' => ?_⟩
    rw [cmp_ok (by omega) hp] at hc
    by_cases hxe : x = i + 1
    · subst hxe; exact (Lq_iff (by omega) hp).2 (by simpa using hc)
    · exact h4 x (by omega) hx'
  | case3 i h hc => rw [cmp_ok (by omega) hp] at hc; simp at hc
  | case4 i h hc => rw [cmp_ok (by omega) hp] at hc; simp at hc
  | case5 i h => exact ⟨i + 1, rfl, by omega, by omega, fun x _ _ => by omega⟩

theorem scanDown_ok {gt : α → α → Bool} {a : List α} {p j : Nat} (hj : j ≤ a.length) (hp : p < j) :
    ∃ j', scanDown (lo gt) a p j = .ok j' ∧ j' < j ∧ p ≤ j' ∧ ∀ x, j' < x → x < j → Lq gt a p x := by
  induction j with
  | zero => omega
  | succ j ih =>
    rw [scanDown]
    split
    · rename_i h
      rw [cmp_ok (by omega) (by omega)]
      cases hc : gt (a[p]'(by omega)) (a[j]'(by omega)) with
      | true => exact ⟨j, rfl, by omega, by omega, fun x _ _ => by omega⟩
      | false =>
        obtain ⟨j', h1, h2, h3, h4⟩ := ih (by omega) h
        refine ⟨j', h1, by omega, h3, fun x hx hx' => ?_⟩
        by_cases hxe : x = j
        · subst hxe; exact (Lq_iff (by omega) (by omega)).2 hc
        · exact h4 x hx (by omega)
    · exact ⟨j, rfl, by omega, by omega, fun x _ _ => by omega⟩

/-- Partition: the invariant is `l ≤ i < p < j < r`, everything up to `i` is at most the pivot and
everything from `j` is at least the pivot. -/
theorem scan_stop {gt : α → α → Bool} {a : List α} {p i i' : Nat}
    (h : scanUp (lo gt) a p i = .ok i') (hi : i' < p) (hp : p < a.length) : ¬ Lq gt a i' p := by
  fun_induction scanUp (lo gt) a p i with
  | case1 i h1 hc =>
    simp only [Res.ok.injEq] at h; subst h
    rw [cmp_ok (by omega) hp] at hc
    rw [Lq_iff (by omega) hp]; simp_all
  | case2 i h1 hc ih => exact ih h
  | case3 i h1 hc => simp at h
  | case4 i h1 hc => simp at h
  | case5 i h1 => simp only [Res.ok.injEq] at h; omega

theorem scan_stop' {gt : α → α → Bool} {a : List α} {p j j' : Nat}
    (h : scanDown (lo gt) a p j = .ok j') (hj : p < j') (hl : j ≤ a.length) : ¬ Lq gt a p j' := by
  induction j with
  | zero => simp [scanDown] at h
  | succ j ih =>
    rw [scanDown] at h
    split at h
    · rename_i hpj
      rw [cmp_ok (by omega) (by omega)] at h
      cases hc : gt (a[p]'(by omega)) (a[j]'(by omega)) with
      | true =>
        rw [hc] at h
        simp only [Res.ok.injEq] at h; subst h
        rw [Lq_iff (by omega) (by omega)]; simp [hc]
      | false => rw [hc] at h; exact ih h (by omega)
    · simp only [Res.ok.injEq] at h; omega

theorem Lq_total {gt : α → α → Bool} (hg : StrictWeak gt) {a : List α} {x y : Nat}
    (hx : x < a.length) (hy : y < a.length) (h : ¬ Lq gt a x y) : Lq gt a y x := by
  rw [Lq_iff hx hy] at h
  exact Lq_of_gt hg hx hy (by simpa using h)

theorem part_ok {gt : α → α → Bool} (hg : StrictWeak gt) {l r : Nat} (f : Nat) :
    ∀ (a : List α) (i j p k : Nat), r ≤ a.length → l ≤ i → i < p → p < j → j < r → j - i ≤ f →
    (∀ x, l ≤ x → x ≤ i → Lq gt a x p) → (∀ x, j ≤ x → x < r → Lq gt a p x) →
    ∃ a' p' k', part (lo gt) f a i j p k = .ok (a', p', k') ∧ SegPerm l r a a' ∧ l ≤ p' ∧ p' < r ∧
      (∀ x, l ≤ x → x < p' → Lq gt a' x p') ∧ (∀ x, p' < x → x < r → Lq gt a' p' x) := by
  induction f with
  | zero => intros; omega
  | succ f ih =>
    intro a i j p k hr hli hip hpj hjr hf hlo hhi
    obtain ⟨i', hi1, hi2, hi3, hi4⟩ := scanUp_ok (gt := gt) (a := a) (p := p) (i := i) (by omega) hip
    obtain ⟨j', hj1, hj2, hj3, hj4⟩ := scanDown_ok (gt := gt) (a := a) (p := p) (j := j) (by omega) hpj
    rw [part, hi1]
    simp only [Res.ok_bind]
    rw [hj1]
    simp only [Res.ok_bind]
    have hlo' : ∀ x, l ≤ x → x < i' → Lq gt a x p := by
      intro x h1 h2
      by_cases h : x ≤ i
      · exact hlo x h1 h
      · exact hi4 x (by omega) h2
    have hhi' : ∀ x, j' < x → x < r → Lq gt a p x := by
      intro x h1 h2
      by_cases h : j ≤ x
      · exact hhi x h h2
      · exact hj4 x h1 (by omega)
    by_cases hge : i' ≥ j'
    · rw [if_pos hge]
      have e1 : i' = p := by omega
      have e2 : j' = p := by omega
      subst e1
      exact ⟨a, i', k, rfl, .refl _ _ _, by omega, by omega, hlo', fun x h1 h2 => hhi' x (by omega) h2⟩
    · rw [if_neg hge]
      obtain ⟨a1, hs1, hs2, hs3⟩ := swp_seg (gt := gt) (a := a) (i := i') (j := j') (l := l) (r := r)
        (by omega) (by omega) hr
      rw [hs1]
      simp only [Res.ok_bind]
      have hlen := hs2.length
      have hfix : ∀ x, x ≠ i' → x ≠ j' → a1[x]? = a[x]? := by
        intro x h1 h2; rw [hs3, Equiv.swap_apply_of_ne_of_ne h1 h2]
      have hi'' : a1[i']? = a[j']? := by rw [hs3]; simp
      have hj'' : a1[j']? = a[i']? := by rw [hs3]; simp
      -- what the stopped scans say about the swapped elements
      have hbj : p < j' → Lq gt a j' p := fun h =>
        Lq_total hg (by omega) (by omega) (scan_stop' hj1 h (by omega))
      have hbi : i' < p → Lq gt a p i' := fun h =>
        Lq_total hg (by omega) (by omega) (scan_stop hi1 h (by omega))
      by_cases hpi : p = i'
      · rw [if_pos hpi]
        subst hpi
        obtain ⟨a', p', k', h1, h2, h3, h4, h5, h6⟩ :=
          ih a1 p (j' + 1) j' (k + 1) (by omega) (by omega) (by omega) (by omega) (by omega)
            (by omega)
            (fun x h1 h2 => by
              by_cases hx : x = p
              · subst hx; exact (hbj (by omega)).congr hi'' hj''
              · exact (hlo' x h1 (by omega)).congr (hfix x (by omega) (by omega)) hj'')
            (fun x h1 h2 => (hhi' x (by omega) h2).congr hj'' (hfix x (by omega) (by omega)))
        exact ⟨a', p', k', h1, hs2.trans h2, h3, h4, h5, h6⟩
      · rw [if_neg hpi]
        by_cases hpj' : p = j'
        · rw [if_pos hpj']
          subst hpj'
          obtain ⟨a', p', k', h1, h2, h3, h4, h5, h6⟩ :=
            ih a1 (i' - 1) p i' (k + 1) (by omega) (by omega) (by omega) (by omega) (by omega)
              (by omega)
              (fun x h1 h2 => (hlo' x h1 (by omega)).congr (hfix x (by omega) (by omega)) hi'')
              (fun x h1 h2 => by
                by_cases hx : x = p
                · subst hx; exact (hbi (by omega)).congr hi'' hj''
                · exact (hhi' x (by omega) h2).congr hi'' (hfix x (by omega) (by omega)))
          exact ⟨a', p', k', h1, hs2.trans h2, h3, h4, h5, h6⟩
        · rw [if_neg hpj']
          have hpp := hfix p hpi hpj'
          obtain ⟨a', p', k', h1, h2, h3, h4, h5, h6⟩ :=
            ih a1 i' j' p (k + 1) (by omega) (by omega) (by omega) (by omega) (by omega)
              (by omega)
              (fun x h1 h2 => by
                by_cases hx : x = i'
                · subst hx; exact (hbj (by omega)).congr hi'' hpp
                · exact (hlo' x h1 (by omega)).congr (hfix x (by omega) (by omega)) hpp)
              (fun x h1 h2 => by
                by_cases hx : x = j'
                · subst hx; exact (hbi (by omega)).congr hpp hj''
                · exact (hhi' x (by omega) h2).congr hpp (hfix x (by omega) (by omega)))
          exact ⟨a', p', k', h1, hs2.trans h2, h3, h4, h5, h6⟩

/-- `sift` from `j`, when `[l,m)` is sorted except that the element at `j` may be too small. -/
theorem sift_ok {gt : α → α → Bool} (hg : StrictWeak gt) {l m : Nat} (j : Nat) :
    ∀ (a : List α), m ≤ a.length → l ≤ j → j < m →
    (∀ x y, l ≤ x → x < y → y < m → x ≠ j → y ≠ j → Lq gt a x y) →
    (∀ y, j < y → y < m → Lq gt a j y) →
    ∃ a', sift (lo gt) l j a = .ok a' ∧ SegPerm l m a a' ∧ Srt gt a' l m := by
  induction j with
  | zero =>
    intro a hm hl hj h1 h2
    refine ⟨a, rfl, .refl _ _ _, fun x y hx hxy hy => ?_⟩
    by_cases h : x = 0
    · subst h; exact h2 y hxy hy
    · exact h1 x y hx hxy hy h (by omega)
  | succ j ih =>
    intro a hm hl hj h1 h2
    rw [sift]
    by_cases hlj : j + 1 > l
    · rw [if_pos hlj, cmp_ok (by omega) (by omega)]
      simp only [Res.ok_bind]
      by_cases hc : gt (a[j]'(by omega)) (a[j+1]'(by omega)) = true
      · rw [if_pos hc]
        obtain ⟨a1, s1, s2, s3⟩ := swp_seg (gt := gt) (a := a) (i := j) (j := j + 1) (l := l) (r := m)
          (by omega) (by omega) hm
        rw [s1]
        simp only [Res.ok_bind]
        have hfix : ∀ x, x ≠ j → x ≠ j + 1 → a1[x]? = a[x]? := by
          intro x h1 h2; rw [s3, Equiv.swap_apply_of_ne_of_ne h1 h2]
        have e1 : a1[j]? = a[j + 1]? := by rw [s3]; simp
        have e2 : a1[j + 1]? = a[j]? := by rw [s3]; simp
        have hlq := Lq_of_gt hg (i := j) (j := j + 1) (by omega) (by omega) hc
        obtain ⟨a', q1, q2, q3⟩ := ih a1 (by rw [s2.length]; exact hm) (by omega) (by omega)
          (fun x y hx hxy hy hxj hyj => by
            by_cases hy1 : y = j + 1
            · subst hy1
              exact (h1 x j hx (by omega) (by omega) (by omega) (by omega)).congr
                (hfix x (by omega) (by omega)) e2
            · by_cases hx1 : x = j + 1
              · subst hx1
                exact (h1 j y (by omega) (by omega) hy (by omega) (by omega)).congr e2
                  (hfix y (by omega) (by omega))
              · exact (h1 x y hx hxy hy hx1 hy1).congr (hfix x hxj hx1) (hfix y hyj hy1))
          (fun y hy hym => by
            by_cases hy1 : y = j + 1
            · subst hy1; exact hlq.congr e1 e2
            · exact (h2 y (by omega) hym).congr e1 (hfix y (by omega) hy1))
        exact ⟨a', q1, s2.trans q2, q3⟩
      · rw [if_neg hc]
        have hlq : Lq gt a j (j + 1) := (Lq_iff (by omega) (by omega)).2 (by simpa using hc)
        refine ⟨a, rfl, .refl _ _ _, fun x y hx hxy hy => ?_⟩
        by_cases hxj : x = j + 1
        · subst hxj; exact h2 y hxy hy
        · by_cases hyj : y = j + 1
          · subst hyj
            by_cases hxj' : x = j
            · subst hxj'; exact hlq
            · exact (h1 x j hx (by omega) (by omega) (by omega) (by omega)).trans hg hlq (by omega)
          · exact h1 x y hx hxy hy hxj hyj
    · rw [if_neg hlj]
      refine ⟨a, rfl, .refl _ _ _, fun x y hx hxy hy => ?_⟩
      by_cases hxj : x = j + 1
      · subst hxj; exact h2 y hxy hy
      · exact h1 x y hx hxy hy hxj (by omega)

theorem isortLoop_ok {gt : α → α → Bool} (hg : StrictWeak gt) {l : Nat} (n : Nat) :
    ∀ (i : Nat) (a : List α), l ≤ i → i + n < a.length → Srt gt a l (i + 1) →
    ∃ a', isortLoop (lo gt) l n i a = .ok a' ∧ SegPerm l (i + n + 1) a a' ∧ Srt gt a' l (i + n + 1) := by
  induction n with
  | zero => intro i a hl hn hs; exact ⟨a, rfl, .refl _ _ _, hs⟩
  | succ n ih =>
    intro i a hl hn hs
    obtain ⟨a1, s1, s2, s3⟩ := sift_ok hg (l := l) (m := i + 2) (i + 1) a (by omega) (by omega)
      (by omega) (fun x y hx hxy hy _ hyj => hs x y hx hxy (by omega))
      (fun y h1 h2 => by omega)
    obtain ⟨a2, q1, q2, q3⟩ := ih (i + 1) a1 (by omega) (by rw [s2.length]; omega) s3
    refine ⟨a2, ?_, ?_, ?_⟩
    · rw [isortLoop, s1]; exact q1
    · have e : i + (n + 1) + 1 = i + 1 + n + 1 := by omega
      rw [e]; exact (s2.mono (Nat.le_refl _) (by omega)).trans q2
    · have e : i + (n + 1) + 1 = i + 1 + n + 1 := by omega
      rw [e]; exact q3

theorem isort_ok {gt : α → α → Bool} (hg : StrictWeak gt) {a : List α} {l r : Nat}
    (hr : r ≤ a.length) :
    ∃ a', isort (lo gt) a l r = .ok a' ∧ SegPerm l r a a' ∧ Srt gt a' l r := by
  unfold isort
  by_cases h : l < r
  · obtain ⟨a', h1, h2, h3⟩ := isortLoop_ok hg (l := l) (r - 1 - l) l a (Nat.le_refl _) (by omega)
      (fun x y _ _ _ => by omega)
    have e : l + (r - 1 - l) + 1 = r := by omega
    rw [e] at h2 h3
    exact ⟨a', h1, h2, h3⟩
  · have e : r - 1 - l = 0 := by omega
    rw [e]
    exact ⟨a, rfl, .refl _ _ _, fun x y _ _ _ => by omega⟩

/-- Sorting both sides of a pivot sorts the whole segment. -/
theorem combine {gt : α → α → Bool} (hg : StrictWeak gt) {a b c : List α} {l p r : Nat}
    (hl : l ≤ p) (hp : p < r) (hr : r ≤ a.length)
    (hlo : ∀ x, l ≤ x → x < p → Lq gt a x p) (hhi : ∀ x, p < x → x < r → Lq gt a p x)
    (h1 : SegPerm l p a b) (s1 : Srt gt b l p) (h2 : SegPerm (p + 1) r b c)
    (s2 : Srt gt c (p + 1) r) : SegPerm l r a c ∧ Srt gt c l r := by
  have hb := h1.length
  have hc := h2.length
  refine ⟨(h1.mono (Nat.le_refl _) (by omega)).trans (h2.mono (by omega) (Nat.le_refl _)), ?_⟩
  have ecp : c[p]? = a[p]? := by rw [h2.outside p (by omega), h1.outside p (by omega)]
  have lo : ∀ x, l ≤ x → x < p → Lq gt c x p := by
    intro x hx hxp
    obtain ⟨y, hy1, hy2, hy3⟩ := h1.inside x ⟨hx, hxp⟩
    refine (hlo y hy1 hy2).congr ?_ ecp
    rw [h2.outside x (by omega), hy3]
  have hi : ∀ x, p < x → x < r → Lq gt c p x := by
    intro x hx hxr
    obtain ⟨y, hy1, hy2, hy3⟩ := h2.inside x ⟨by omega, hxr⟩
    refine (hhi y (by omega) hy2).congr ecp ?_
    rw [hy3, h1.outside y (by omega)]
  intro x y hx hxy hy
  by_cases hyp : y < p
  · exact (s1 x y hx hxy hyp).congr (h2.outside x (by omega)) (h2.outside y (by omega))
  · by_cases hxp : p < x
    · exact s2 x y (by omega) hxy hy
    · by_cases h3 : x = p
      · subst h3; exact hi y hxy hy
      · by_cases h4 : y = p
        · subst h4; exact lo x hx (by omega)
        · exact (lo x hx (by omega)).trans hg (hi y (by omega) hy) (by omega)

theorem qsort_ok {gt : α → α → Bool} (hg : StrictWeak gt) (f : Nat) :
    ∀ (a : List α) (l r : Nat), r ≤ a.length → r - l < f →
    ∃ a', qsort (lo gt) f a l r = .ok a' ∧ SegPerm l r a a' ∧ Srt gt a' l r := by
  induction f with
  | zero => intros; omega
  | succ f ih =>
    intro a l r hr hf
    rw [qsort]
    by_cases hrl : r ≤ l
    · rw [if_pos hrl]; exact ⟨a, rfl, .refl _ _ _, fun x y _ _ _ => by omega⟩
    rw [if_neg hrl]
    simp only
    generalize hp : l + (r - 1 - l) / 2 = p
    obtain ⟨a1, m1, p1, q1, d1⟩ := cswp_seg hg (a := a) (i := l) (j := p) (l := l) (r := r)
      (by omega) (by omega) hr
    rw [m1]; simp only [Res.ok_bind]
    obtain ⟨a2, m2, p2, q2, d2⟩ := cswp_seg hg (a := a1) (i := l) (j := r - 1) (l := l) (r := r)
      (by omega) (by omega) (by rw [p1.length]; exact hr)
    rw [m2]; simp only [Res.ok_bind]
    obtain ⟨a3, m3, p3, q3, d3⟩ := cswp_seg hg (a := a2) (i := p) (j := r - 1) (l := l) (r := r)
      (by omega) (by omega) (by rw [p2.length, p1.length]; exact hr)
    rw [m3]; simp only [Res.ok_bind]
    have e1 := p1.length
    have e2 := p2.length
    have e3 := p3.length
    have pall := (p1.trans p2).trans p3
    -- the median of three leaves value[l] <= value[p] <= value[r-1]
    have hlp2 : p < r - 1 → Lq gt a2 l p := by
      intro hpr
      rcases d2 with d2 | ⟨w, d2⟩
      · exact q1.congr (d2 _) (d2 _)
      · refine Lq.of_swapped d2 ?_
        rw [Equiv.swap_apply_left]
        by_cases hpl : p = l
        · have : p < l + 1 := by omega
          subst hpl
          rw [Equiv.swap_apply_left]
          intro u hu v hv
          simp only [Option.mem_def] at hu hv
          rw [hu] at hv
          simp only [Option.some.injEq] at hv
          subst hv
          by_contra hc
          have hc' : gt u u = true := by simpa using hc
          exact hc (hg.asymm u u hc')
        · rw [Equiv.swap_apply_of_ne_of_ne hpl (by omega)]
          exact w.trans hg q1 (by omega)
    have hlp3 : l < p → p < r - 1 → Lq gt a3 l p := by
      intro hlp hpr
      rcases d3 with d3 | ⟨w, d3⟩
      · exact (hlp2 hpr).congr (d3 _) (d3 _)
      · refine Lq.of_swapped d3 ?_
        rw [Equiv.swap_apply_left, Equiv.swap_apply_of_ne_of_ne (by omega) (by omega)]
        exact q2
    by_cases hsmall : r - 1 - l ≤ 2
    · rw [if_pos hsmall]
      refine ⟨a3, rfl, pall, fun x y hx hxy hy => ?_⟩
      by_cases h2 : r - 1 - l = 2
      · have hpl : p = l + 1 := by omega
        have hlp := hlp3 (by omega) (by omega)
        have hcase : (x = l ∧ y = p) ∨ (x = l ∧ y = r - 1) ∨ (x = p ∧ y = r - 1) := by omega
        rcases hcase with ⟨rfl, rfl⟩ | ⟨rfl, rfl⟩ | ⟨rfl, rfl⟩
        · exact hlp
        · exact hlp.trans hg q3 (by omega)
        · exact q3
      · have hpl : p = l := by omega
        have : x = p ∧ y = r - 1 := by omega
        obtain ⟨rfl, rfl⟩ := this
        exact q3
    · rw [if_neg hsmall]
      have hlp := hlp3 (by omega) (by omega)
      obtain ⟨b, p', k', b1, b2, b3, b4, b5, b6⟩ :=
        part_ok hg (l := l) (r := r) r a3 l (r - 1) p 0 (by omega) (Nat.le_refl _) (by omega)
          (by omega) (by omega) (by omega)
          (fun x h1 h2 => by have : x = l := by omega
                             subst this; exact hlp)
          (fun x h1 h2 => by have : x = r - 1 := by omega
                             subst this; exact q3)
      rw [b1]; simp only [Res.ok_bind]
      have eb := b2.length
      by_cases hk : k' = 0
      · rw [if_pos hk]
        obtain ⟨c, c1, c2, c3⟩ := isort_ok hg (a := b) (l := l) (r := p') (by omega)
        have ec := c2.length
        obtain ⟨d, f1, f2, f3⟩ := isort_ok hg (a := c) (l := p' + 1) (r := r) (by omega)
        rw [c1]; simp only [Res.ok_bind]
        have := combine hg b3 b4 (by omega) b5 b6 c2 c3 f2 f3
        exact ⟨d, f1, (pall.trans b2).trans this.1, this.2⟩
      · rw [if_neg hk]
        obtain ⟨c, c1, c2, c3⟩ := ih b l p' (by omega) (by omega)
        have ec := c2.length
        obtain ⟨d, f1, f2, f3⟩ := ih c (p' + 1) r (by omega) (by omega)
        rw [c1]; simp only [Res.ok_bind]
        have := combine hg b3 b4 (by omega) b5 b6 c2 c3 f2 f3
        exact ⟨d, f1, (pall.trans b2).trans this.1, this.2⟩

theorem Srt_pairwise {gt : α → α → Bool} {a : List α} (h : Srt gt a 0 a.length) :
    a.Pairwise (fun x y => gt x y = false) := by
  rw [List.pairwise_iff_getElem]
  intro i j hi hj hij
  exact h i j (Nat.zero_le _) hij hj _ (by simp [hi]) _ (by simp [hj])

end OP.SetFam.QS
