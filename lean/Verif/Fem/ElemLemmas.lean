import Verif.Fem.Elem
import Verif.Fem.PropsShape
import Mathlib.Algebra.BigOperators.Fin
import Mathlib.Algebra.BigOperators.Intervals
import Mathlib.Tactic.Module
/-!
# Lemmas on the shape functions of the elements
-/
namespace OP.Fem
variable {K : Type} [Field K] [LinearOrder K]

theorem store_append (a : Nat → SF K) (v w : List (Nat × SF K)) : store a (v ++ w) = store (store a v) w :=
  List.foldl_append

theorem store_of_notMem (a : Nat → SF K) (w : List (Nat × SF K)) {l : Nat} (h : ∀ v, (l, v) ∉ w) : store a w l = a l := by
  induction w generalizing a with
  | nil => rfl
  | cons p w ih =>
    rw [show store a (p :: w) = store (fun l => if l = p.1 then p.2 else a l) w from rfl,
      ih _ (fun v hv => h v (List.mem_cons_of_mem _ hv)), if_neg]
    rintro rfl
    exact h p.2 List.mem_cons_self

/-- A place written with one value only holds it afterwards. -/
theorem store_of_mem (a : Nat → SF K) (w : List (Nat × SF K)) {l : Nat} {v : SF K} (h : (l, v) ∈ w)
    (hu : ∀ v', (l, v') ∈ w → v' = v) : store a w l = v := by
  induction w generalizing a with
  | nil => cases h
  | cons p w ih =>
    rw [show store a (p :: w) = store (fun l => if l = p.1 then p.2 else a l) w from rfl]
    by_cases hw : (l, v) ∈ w
    · exact ih _ hw fun v' hv' => hu v' (List.mem_cons_of_mem _ hv')
    · have hp : (l, v) = p := (List.mem_cons.1 h).resolve_right hw
      rw [store_of_notMem, ← hp, if_pos rfl]
      intro v' hv'
      exact hw (hu v' (List.mem_cons_of_mem _ hv') ▸ hv')

/-- Corrections of places that are not read. -/
theorem adjust_apply (a : Nat → SF K) (ops : List (Nat × Nat × K)) (h : ∀ o ∈ ops, ∀ q ∈ ops, o.1 ≠ q.2.1) (l : Nat) :
    adjust a ops l = a l + (ops.map fun o => if o.1 = l then o.2.2 • a o.2.1 else 0).sum := by
  induction ops generalizing a with
  | nil => simp [adjust]
  | cons o ops ih =>
    rw [show adjust a (o :: ops) = adjust (fun l => if l = o.1 then a l + o.2.2 • a o.2.1 else a l) ops from rfl,
      ih _ (fun p hp q hq => h p (List.mem_cons_of_mem _ hp) q (List.mem_cons_of_mem _ hq)), List.map_cons, List.sum_cons,
      ← add_assoc]
    congr 1
    · by_cases e : l = o.1
      · rw [if_pos e, if_pos e.symm]
      · rw [if_neg e, if_neg (Ne.symm e), add_zero]
    · congr 1
      apply List.map_congr_left
      intro q hq
      rw [if_neg (c := q.2.1 = o.1)]
      exact fun e => h o List.mem_cons_self q (List.mem_cons_of_mem _ hq) e.symm

theorem sum_flatMap {α : Type} (l : List Nat) (g : Nat → List α) (f : α → SF K) :
    ((l.flatMap g).map f).sum = (l.map fun i => ((g i).map f).sum).sum := by
  induction l with
  | nil => rfl
  | cons i l ih => rw [List.flatMap_cons, List.map_append, List.sum_append, ih, List.map_cons, List.sum_cons]

/-! ## Numbering -/

theorem number_succ (nz : Nat) (p : Nat → Bool) (m : Nat) :
    ((List.range (m + 1)).filter p).length = ((List.range m).filter p).length + if p m then 1 else 0 := by
  rw [List.range_succ, List.filter_append, List.length_append]
  congr 1
  by_cases h : p m <;> simp [h]

theorem count_mono (p : Nat → Bool) {m n : Nat} (h : m ≤ n) :
    ((List.range m).filter p).length ≤ ((List.range n).filter p).length := by
  induction h with
  | refl => exact Nat.le_refl _
  | step _ ih => rw [number_succ 0]; omega

theorem number_lt {nz : Nat} {p : Nat → Bool} {m n : Nat} (hm : p m) (hn : p n) (h : m < n) :
    number nz p m < number nz p n := by
  have := count_mono p (Nat.succ_le_of_lt h)
  rw [number_succ 0, if_pos hm] at this
  unfold number
  rw [if_pos hm, if_pos hn]; omega

theorem number_inj {nz : Nat} {p : Nat → Bool} {m n : Nat} (hm : p m) (hn : p n) (h : number nz p m = number nz p n) :
    m = n := by
  rcases Nat.lt_trichotomy m n with e | e | e
  · have := number_lt (nz := nz) hm hn e; omega
  · exact e
  · have := number_lt (nz := nz) hn hm e; omega

theorem number_ge {nz : Nat} {p : Nat → Bool} {m : Nat} (hm : p m) : 4 * nz ≤ number nz p m := by
  unfold number; rw [if_pos hm]; omega

theorem number_zero {nz : Nat} (hz : 0 < nz) {p : Nat → Bool} {m : Nat} : number nz p m = 0 ↔ p m = false := by
  unfold number
  by_cases h : p m
  · rw [if_pos h]; simp [h]; omega
  · rw [if_neg h]; simp [h]

theorem sum_numbered (nz : Nat) (p : Nat → Bool) (f : Nat → SF K) (M : Nat) :
    ∑ n ∈ Finset.range (4 * nz + ((List.range M).filter p).length), f n =
      ∑ n ∈ Finset.range (4 * nz), f n + ∑ m ∈ Finset.range M, if p m then f (number nz p m) else 0 := by
  induction M with
  | zero => simp
  | succ M ih =>
    rw [number_succ 0, Finset.sum_range_succ _ M]
    by_cases h : p M
    · rw [if_pos h, if_pos h, ← Nat.add_assoc, Finset.sum_range_succ, ih, add_assoc]
      congr 2
      unfold number; rw [if_pos h]
    · rw [if_neg h, if_neg h, Nat.add_zero, add_zero, ih]

theorem sum_levels (nz : Nat) (f : Nat → SF K) :
    ∑ n ∈ Finset.range (4 * nz), f n = ∑ i ∈ Finset.range nz, (f (i * 4) + f (i * 4 + 1) + f (i * 4 + 2) + f (i * 4 + 3)) := by
  induction nz with
  | zero => rfl
  | succ n ih =>
    rw [show 4 * (n + 1) = 4 * n + 1 + 1 + 1 + 1 by omega, Finset.sum_range_succ, Finset.sum_range_succ,
      Finset.sum_range_succ, Finset.sum_range_succ, Finset.sum_range_succ _ n, ih, Nat.mul_comm n 4]
    abel

/-- All entries, level by level. -/
theorem sum_all (nz : Nat) (p : Nat → Bool) (f : Nat → SF K) :
    ∑ n ∈ Finset.range (nnd nz p), f n = ∑ i ∈ Finset.range nz,
      (f (i * 4) + f (i * 4 + 1) + f (i * 4 + 2) + f (i * 4 + 3)
        + ((if p (i * 4) then f (number nz p (i * 4)) else 0) + (if p (i * 4 + 1) then f (number nz p (i * 4 + 1)) else 0)
          + (if p (i * 4 + 2) then f (number nz p (i * 4 + 2)) else 0)
          + (if p (i * 4 + 3) then f (number nz p (i * 4 + 3)) else 0))
        + if p (4 * nz + i) then f (number nz p (4 * nz + i)) else 0) := by
  unfold nnd
  rw [sum_numbered, show 5 * nz = 4 * nz + nz by omega, Finset.sum_range_add, sum_levels,
    sum_levels nz fun m => if p m then f (number nz p m) else 0, ← add_assoc, ← Finset.sum_add_distrib,
    ← Finset.sum_add_distrib]

/-! ## What the first loop leaves -/

/-- A corner. -/
def corner (sz : Shape) (gx gy gz : K) (i l : Nat) : SF K := prod (cornerX l gx) (cornerY l gy) (shp sz i gz true)

/-- The middle of a side. -/
def side (sz : Shape) (gx gy gz : K) (i l : Nat) : SF K :=
  if l = 0 ∨ l = 3 then prod (cornerX l gx) (NA 1 gy, dNA 1 gy) (shp sz i gz true)
  else prod (NA 1 gx, dNA 1 gx) (cornerY l gy) (shp sz i gz true)

/-- The centre of a level. -/
def centre (sz : Shape) (gx gy gz : K) (i : Nat) : SF K :=
  prod (NA 1 gx, dNA 1 gx) (NA 1 gy, dNA 1 gy) (shp sz i gz true)

/-- Writes level by level: corners, sides, centre. -/
def levelWrites (nz : Nat) (mask : Nat → Nat) (c s : Nat → Nat → SF K) (m : Nat → SF K) : List (Nat × SF K) :=
  (List.range nz).flatMap fun i =>
    ((List.range 4).flatMap fun l => (i * 4 + l, c i l) :: if mask (i * 4 + l) = 0 then [] else [(mask (i * 4 + l), s i l)]) ++
    if mask (4 * nz + i) = 0 then [] else [(mask (4 * nz + i), m i)]

theorem variableWrites_eq (sz : Shape) (mask : Nat → Nat) (gx gy gz : K) :
    variableWrites sz mask gx gy gz =
      levelWrites (getn sz) mask (corner sz gx gy gz) (side sz gx gy gz) (centre sz gx gy gz) := by
  rfl

theorem mem_levelWrites {nz : Nat} {mask : Nat → Nat} {c s : Nat → Nat → SF K} {m : Nat → SF K} {n : Nat} {v : SF K} :
    (n, v) ∈ levelWrites nz mask c s m ↔ ∃ i < nz, (∃ l < 4, (n = i * 4 + l ∧ v = c i l) ∨
      (mask (i * 4 + l) ≠ 0 ∧ n = mask (i * 4 + l) ∧ v = s i l)) ∨ (mask (4 * nz + i) ≠ 0 ∧ n = mask (4 * nz + i) ∧ v = m i) := by
  unfold levelWrites
  simp only [List.mem_flatMap, List.mem_range, List.mem_append, List.mem_cons, Prod.mk.injEq]
  constructor
  · rintro ⟨i, hi, ⟨l, hl, h⟩ | h⟩
    · refine ⟨i, hi, .inl ⟨l, hl, h.imp_right fun h => ?_⟩⟩
      split_ifs at h with hm
      · simp at h
      · simpa [hm] using h
    · refine ⟨i, hi, .inr ?_⟩
      split_ifs at h with hm
      · simp at h
      · simpa [hm] using h
  · rintro ⟨i, hi, ⟨l, hl, h⟩ | ⟨h0, h⟩⟩
    · refine ⟨i, hi, .inl ⟨l, hl, h.imp_right fun h => ?_⟩⟩
      rw [if_neg h.1]; simpa using h.2
    · refine ⟨i, hi, .inr ?_⟩
      rw [if_neg h0]; simpa using h

section
variable {nz : Nat} (p : Nat → Bool) (c s : Nat → Nat → SF K) (m : Nat → SF K) (a : Nat → SF K)

theorem level_corner {i l : Nat} (hi : i < nz) (hl : l < 4) :
    store a (levelWrites nz (number nz p) c s m) (i * 4 + l) = c i l := by
  have hz : 0 < nz := by omega
  apply store_of_mem
  · exact mem_levelWrites.2 ⟨i, hi, .inl ⟨l, hl, .inl ⟨rfl, rfl⟩⟩⟩
  · intro v hv
    obtain ⟨i', hi', ⟨l', hl', ⟨h1, h2⟩ | ⟨h0, h1, h2⟩⟩ | ⟨h0, h1, h2⟩⟩ := mem_levelWrites.1 hv
    · have e1 : i = i' := by omega
      have e2 : l = l' := by omega
      subst e1 e2; exact h2
    · have hp : p (i' * 4 + l') = true := by
        by_contra hc; exact h0 ((number_zero hz).2 (by simpa using hc))
      have := number_ge (nz := nz) hp
      omega
    · have hp : p (4 * nz + i') = true := by
        by_contra hc; exact h0 ((number_zero hz).2 (by simpa using hc))
      have := number_ge (nz := nz) hp
      omega

theorem level_side {i l : Nat} (hi : i < nz) (hl : l < 4) (hp : p (i * 4 + l)) :
    store a (levelWrites nz (number nz p) c s m) (number nz p (i * 4 + l)) = s i l := by
  have hz : 0 < nz := by omega
  have h0 : number nz p (i * 4 + l) ≠ 0 := fun e => by rw [number_zero hz] at e; rw [e] at hp; cases hp
  have hg := number_ge (nz := nz) hp
  apply store_of_mem
  · exact mem_levelWrites.2 ⟨i, hi, .inl ⟨l, hl, .inr ⟨h0, rfl, rfl⟩⟩⟩
  · intro v hv
    obtain ⟨i', hi', ⟨l', hl', ⟨h1, h2⟩ | ⟨h0, h1, h2⟩⟩ | ⟨h0, h1, h2⟩⟩ := mem_levelWrites.1 hv
    · omega
    · have hp' : p (i' * 4 + l') = true := by
        by_contra hc; exact h0 ((number_zero hz).2 (by simpa using hc))
      have := number_inj hp hp' h1
      have e1 : i = i' := by omega
      have e2 : l = l' := by omega
      subst e1 e2; exact h2
    · have hp' : p (4 * nz + i') = true := by
        by_contra hc; exact h0 ((number_zero hz).2 (by simpa using hc))
      have := number_inj hp hp' h1
      omega

theorem level_centre {i : Nat} (hi : i < nz) (hp : p (4 * nz + i)) :
    store a (levelWrites nz (number nz p) c s m) (number nz p (4 * nz + i)) = m i := by
  have hz : 0 < nz := by omega
  have h0 : number nz p (4 * nz + i) ≠ 0 := fun e => by rw [number_zero hz] at e; rw [e] at hp; cases hp
  have hg := number_ge (nz := nz) hp
  apply store_of_mem
  · exact mem_levelWrites.2 ⟨i, hi, .inr ⟨h0, rfl, rfl⟩⟩
  · intro v hv
    obtain ⟨i', hi', ⟨l', hl', ⟨h1, h2⟩ | ⟨h0, h1, h2⟩⟩ | ⟨h0, h1, h2⟩⟩ := mem_levelWrites.1 hv
    · omega
    · have hp' : p (i' * 4 + l') = true := by
        by_contra hc; exact h0 ((number_zero hz).2 (by simpa using hc))
      have := number_inj hp hp' h1
      omega
    · have hp' : p (4 * nz + i') = true := by
        by_contra hc; exact h0 ((number_zero hz).2 (by simpa using hc))
      have := number_inj hp hp' h1
      have e1 : i = i' := by omega
      subst e1; exact h2
end

/-! ## The corrections -/

theorem sum_range_list (n : Nat) (f : Nat → SF K) : ((List.range n).map f).sum = ∑ l ∈ Finset.range n, f l := by
  rw [Finset.sum_range, ← List.sum_ofFn, List.ofFn_eq_map]
  congr 1
  apply List.ext_getElem <;> simp

theorem besideXY_lt {nz l : Nat} (h : l < 4 * nz) : besideXY l < 4 * nz := by
  unfold besideXY; split_ifs <;> omega

theorem cornerOps_mem {nz : Nat} {p : Nat → Bool} {o : Nat × Nat × K} (h : o ∈ cornerOps nz (number nz p)) :
    o.1 < 4 * nz ∧ 4 * nz ≤ o.2.1 := by
  unfold cornerOps at h
  obtain ⟨l, hl, h⟩ := List.mem_flatMap.1 h
  rw [List.mem_range] at hl
  have hz : 0 < nz := by omega
  have hge : ∀ m, number nz p m ≠ 0 → 4 * nz ≤ number nz p m := fun m hm =>
    number_ge (by by_contra hc; exact hm ((number_zero hz).2 (by simpa using hc)))
  simp only [List.mem_append] at h
  rcases h with (h | h) | h <;>
  · split_ifs at h with h0
    · rw [List.mem_singleton] at h; subst h; exact ⟨hl, hge _ h0⟩
    · cases h

theorem corner_adjust {nz : Nat} {p : Nat → Bool} (a : Nat → SF K) {n : Nat} (hn : n < 4 * nz) :
    adjust a (cornerOps nz (number nz p)) n = a n + (if p n then (-(1 / 2) : K) • a (number nz p n) else 0)
      + (if p (besideXY n) then (-(1 / 2) : K) • a (number nz p (besideXY n)) else 0)
      + if p (4 * nz + n / 4) then (1 / 4 : K) • a (number nz p (4 * nz + n / 4)) else 0 := by
  have hz : 0 < nz := by omega
  rw [adjust_apply _ _ fun o ho q hq => by
    have := cornerOps_mem ho; have := cornerOps_mem hq; omega]
  rw [cornerOps, sum_flatMap, sum_range_list, Finset.sum_eq_single n]
  · have key : ∀ (b : Bool) (q : Nat) (c : K), ((if b = true then [(n, q, c)] else []).map
        fun o : Nat × Nat × K => if o.1 = n then o.2.2 • a o.2.1 else 0).sum = if b then c • a q else 0 := by
      intro b q c; cases b <;> simp
    simp only [List.map_append, List.sum_append, ne_eq, number_zero hz, Bool.not_eq_false, key]
    simp only [add_assoc]
  · intro b _ hb
    apply List.sum_eq_zero
    intro v hv
    simp only [List.map_append, List.mem_append, List.mem_map] at hv
    rcases hv with (⟨o, ho, rfl⟩ | ⟨o, ho, rfl⟩) | ⟨o, ho, rfl⟩ <;>
    · split_ifs at ho with h0
      · rw [List.mem_singleton] at ho; subst ho; exact if_neg hb
      · cases ho
  · intro h; exact absurd (Finset.mem_range.2 hn) h

theorem corner_adjust_ge {nz : Nat} {p : Nat → Bool} (a : Nat → SF K) {n : Nat} (hn : 4 * nz ≤ n) :
    adjust a (cornerOps nz (number nz p)) n = a n := by
  rw [adjust_apply _ _ fun o ho q hq => by
    have := cornerOps_mem ho; have := cornerOps_mem hq; omega]
  rw [List.sum_eq_zero, add_zero]
  intro v hv
  obtain ⟨o, ho, rfl⟩ := List.mem_map.1 hv
  have := cornerOps_mem ho
  exact if_neg (by omega)

/-- Where a level has a node in its centre it has one on each side. -/
def Sided (nz : Nat) (p : Nat → Bool) : Prop := ∀ i < nz, p (4 * nz + i) → ∀ l < 4, p (i * 4 + l)

theorem sideOps_mem {nz : Nat} {p : Nat → Bool} (hs : Sided nz p) {o : Nat × Nat × K} (h : o ∈ sideOps nz (number nz p)) :
    ∃ l < 4 * nz, p l ∧ p (4 * nz + l / 4) ∧ o = (number nz p l, number nz p (4 * nz + l / 4), -(1 / 2)) := by
  unfold sideOps at h
  obtain ⟨l, hl, h⟩ := List.mem_flatMap.1 h
  rw [List.mem_range] at hl
  have hz : 0 < nz := by omega
  split_ifs at h with h0
  · rw [List.mem_singleton] at h
    have hc : p (4 * nz + l / 4) = true := by
      by_contra hc; exact h0 ((number_zero hz).2 (by simpa using hc))
    have := hs (l / 4) (by omega) hc (l % 4) (by omega)
    rw [show l / 4 * 4 + l % 4 = l by omega] at this
    exact ⟨l, hl, this, hc, h⟩
  · cases h

theorem side_read {nz : Nat} {p : Nat → Bool} (hs : Sided nz p) {o q : Nat × Nat × K} (ho : o ∈ sideOps nz (number nz p))
    (hq : q ∈ sideOps nz (number nz p)) : o.1 ≠ q.2.1 := by
  obtain ⟨l, hl, h1, _, rfl⟩ := sideOps_mem hs ho
  obtain ⟨l', hl', _, h2, rfl⟩ := sideOps_mem hs hq
  intro e
  have := number_inj h1 h2 e
  omega

theorem side_adjust_other {nz : Nat} {p : Nat → Bool} (hs : Sided nz p) (a : Nat → SF K) {n : Nat}
    (hn : ∀ l < 4 * nz, p l → number nz p l ≠ n) : adjust a (sideOps nz (number nz p)) n = a n := by
  rw [adjust_apply _ _ fun o ho q hq => side_read hs ho hq, List.sum_eq_zero, add_zero]
  intro v hv
  obtain ⟨o, ho, rfl⟩ := List.mem_map.1 hv
  obtain ⟨l, hl, h1, _, rfl⟩ := sideOps_mem hs ho
  exact if_neg (hn l hl h1)

theorem side_adjust {nz : Nat} {p : Nat → Bool} (hs : Sided nz p) (a : Nat → SF K) {n : Nat} (hn : n < 4 * nz) (hp : p n) :
    adjust a (sideOps nz (number nz p)) (number nz p n) =
      a (number nz p n) + if p (4 * nz + n / 4) then (-(1 / 2) : K) • a (number nz p (4 * nz + n / 4)) else 0 := by
  have hz : 0 < nz := by omega
  rw [adjust_apply _ _ fun o ho q hq => side_read hs ho hq, sideOps, sum_flatMap, sum_range_list, Finset.sum_eq_single n]
  · simp only [ne_eq, number_zero hz, Bool.not_eq_false]
    congr 1
    split_ifs
    · rw [List.map_singleton, List.sum_singleton, if_pos rfl]
    · rfl
  · intro b hb hne
    rw [Finset.mem_range] at hb
    apply List.sum_eq_zero
    intro v hv
    obtain ⟨o, ho, rfl⟩ := List.mem_map.1 hv
    have ho' : o ∈ sideOps nz (number nz p) := List.mem_flatMap.2 ⟨b, List.mem_range.2 hb, ho⟩
    split_ifs at ho with h0
    · rw [List.mem_singleton] at ho
      obtain ⟨l, hl, h1, _, h2⟩ := sideOps_mem hs ho'
      have hb' : p b = true := by
        have hc : p (4 * nz + b / 4) = true := by
          by_contra hc; exact h0 ((number_zero hz).2 (by simpa using hc))
        have := hs (b / 4) (by omega) hc (b % 4) (by omega)
        rwa [show b / 4 * 4 + b % 4 = b by omega] at this
      subst ho
      exact if_neg fun e => hne (number_inj hb' hp e)
    · cases ho
  · intro h; exact absurd (Finset.mem_range.2 hn) h

/-! ## The final entries of a variable element -/
section
variable {sz : Shape} {p : Nat → Bool} (hs : Sided (getn sz) p) (gx gy gz : K) (a : Nat → SF K)
include hs

theorem variable_corner {i l : Nat} (hi : i < getn sz) (hl : l < 4) :
    variableSF sz (number (getn sz) p) gx gy gz a (i * 4 + l) =
      corner sz gx gy gz i l + (if p (i * 4 + l) then (-(1 / 2) : K) • side sz gx gy gz i l else 0)
      + (if p (i * 4 + besideXY l) then (-(1 / 2) : K) • side sz gx gy gz i (besideXY l) else 0)
      + if p (4 * getn sz + i) then (1 / 4 : K) • centre sz gx gy gz i else 0 := by
  have hb : besideXY (i * 4 + l) = i * 4 + besideXY l := by unfold besideXY; split_ifs <;> omega
  have hb4 : besideXY l < 4 := by have := besideXY_lt (nz := 1) (l := l) (by omega); omega
  have hd : (i * 4 + l) / 4 = i := by omega
  unfold variableSF
  rw [side_adjust_other hs _ fun m _ hm => by have := number_ge (nz := getn sz) hm; omega,
    corner_adjust _ (by omega), hb, hd, variableWrites_eq, level_corner _ _ _ _ _ hi hl]
  congr 1
  · congr 1
    · congr 1
      split_ifs with h
      · rw [level_side _ _ _ _ _ hi hl h]
      · rfl
    · split_ifs with h
      · rw [level_side _ _ _ _ _ hi hb4 h]
      · rfl
  · split_ifs with h
    · rw [level_centre _ _ _ _ _ hi h]
    · rfl

theorem variable_side {i l : Nat} (hi : i < getn sz) (hl : l < 4) (hp : p (i * 4 + l)) :
    variableSF sz (number (getn sz) p) gx gy gz a (number (getn sz) p (i * 4 + l)) =
      side sz gx gy gz i l + if p (4 * getn sz + i) then (-(1 / 2) : K) • centre sz gx gy gz i else 0 := by
  have hd : (i * 4 + l) / 4 = i := by omega
  unfold variableSF
  rw [side_adjust hs _ (by omega) hp, corner_adjust_ge _ (number_ge hp), hd, variableWrites_eq,
    level_side _ _ _ _ _ hi hl hp]
  congr 1
  split_ifs with h
  · rw [corner_adjust_ge _ (number_ge h), level_centre _ _ _ _ _ hi h]
  · rfl

theorem variable_centre {i : Nat} (hi : i < getn sz) (hp : p (4 * getn sz + i)) :
    variableSF sz (number (getn sz) p) gx gy gz a (number (getn sz) p (4 * getn sz + i)) = centre sz gx gy gz i := by
  unfold variableSF
  rw [side_adjust_other hs _ fun m hm hpm e => by have := number_inj hpm hp e; omega,
    corner_adjust_ge _ (number_ge hp), variableWrites_eq, level_centre _ _ _ _ _ hi hp]
end

end OP.Fem
