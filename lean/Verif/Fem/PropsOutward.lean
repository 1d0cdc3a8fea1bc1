import Verif.Fem.Outward
import Verif.Fem.PropsRegion
import Mathlib.Data.Rat.Floor
import Mathlib.Algebra.BigOperators.Group.List.Basic
/-!
# C120: the elements of a mesh fill the space under the loads, once
-/
namespace OP.Fem.Outward
open OP.Fem.Region

/-- The point is in the element; of the faces those with the smaller coordinate, and the upper one, belong to it. -/
def covers (b : Block) (x y z : ℚ) : Bool :=
  decide ((b.x1 : ℚ) ≤ x) && decide (x < b.x2) && decide ((b.y1 : ℚ) ≤ y) && decide (y < b.y2)
    && decide ((b.slab.top : ℚ) ≤ z) && decide (z < b.slab.bot)

/-- The point of the plane is in one of the regions. -/
def Over (l : List Region) (x y : ℚ) : Prop :=
  ∃ r ∈ l, (∃ a ∈ r.xs, (a : ℚ) ≤ x) ∧ (∃ a ∈ r.xs, x < a) ∧ (∃ a ∈ r.ys, (a : ℚ) ≤ y) ∧ (∃ a ∈ r.ys, y < a)

/-! ## The same in units -/

def hasXY (b : Block) (p q : Int) : Bool :=
  decide (b.x1 ≤ p) && decide (p < b.x2) && decide (b.y1 ≤ q) && decide (q < b.y2)

def hasZ (s : Slab) (w : Int) : Bool := decide (s.top ≤ w) && decide (w < s.bot)

def InR (r : Region) (p q : Int) : Prop := (r.xm ≤ p ∧ p < r.xp) ∧ (r.ym ≤ q ∧ q < r.yp)

instance (r : Region) (p q : Int) : Decidable (InR r p q) := by unfold InR; infer_instance

def InL (l : List Region) (p q : Int) : Prop := ∃ r ∈ l, InR r p q

instance (l : List Region) (p q : Int) : Decidable (InL l p q) := by unfold InL; infer_instance

theorem covers_eq (b : Block) (x y z : ℚ) :
    covers b x y z = (hasXY b ⌊x⌋ ⌊y⌋ && hasZ b.slab ⌊z⌋) := by
  unfold covers hasXY hasZ
  have e1 : ∀ (a : Int) (t : ℚ), decide ((a : ℚ) ≤ t) = decide (a ≤ ⌊t⌋) := by
    intro a t; exact decide_eq_decide.mpr Int.le_floor.symm
  have e2 : ∀ (a : Int) (t : ℚ), decide (t < (a : ℚ)) = decide (⌊t⌋ < a) := by
    intro a t; exact decide_eq_decide.mpr Int.floor_lt.symm
  simp only [e1, e2, Bool.and_assoc]

theorem over_iff {l : List Region} (hl : ∀ r ∈ l, Sound r) (x y : ℚ) : Over l x y ↔ InL l ⌊x⌋ ⌊y⌋ := by
  have key : ∀ l : List Int, l.Pairwise (· < ·) → 2 ≤ l.length → ∀ t : ℚ,
      ((∃ a ∈ l, (a : ℚ) ≤ t) ∧ (∃ a ∈ l, t < a)) ↔ (first l ≤ ⌊t⌋ ∧ ⌊t⌋ < last l) := by
    intro l hs h2 t
    have hne := two_ne h2
    rw [Int.le_floor, Int.floor_lt]
    constructor
    · rintro ⟨⟨a, ha, h⟩, b, hb, k⟩
      have h1 : ((first l : Int) : ℚ) ≤ a := by exact_mod_cast first_le hs ha
      have h2 : (b : ℚ) ≤ ((last l : Int) : ℚ) := by exact_mod_cast le_last hs hb
      exact ⟨h1.trans h, k.trans_le h2⟩
    · rintro ⟨h, k⟩
      exact ⟨⟨_, first_mem hne, h⟩, _, last_mem hne, k⟩
  unfold Over InL InR
  refine exists_congr fun r => and_congr_right fun hr => ?_
  have k1 := key r.xs (hl r hr).xs_sorted (hl r hr).xs_two x
  have k2 := key r.ys (hl r hr).ys_sorted (hl r hr).ys_two y
  unfold Region.xm Region.xp Region.ym Region.yp
  rw [← k1, ← k2]
  tauto

/-! ## The cells of a region -/

theorem pairs_nil : pairs [] = [] := rfl
theorem pairs_one (a : Int) : pairs [a] = [] := rfl
theorem pairs_cons (a b : Int) (l : List Int) : pairs (a :: b :: l) = (a, b) :: pairs (b :: l) := rfl

theorem last_cons_cons (a b : Int) (l : List Int) : last (a :: b :: l) = last (b :: l) := by
  simp [last]

/-- A list of sorted stops is cut into intervals. -/
theorem pairs_count (l : List Int) (hs : l.Pairwise (· < ·)) (p : Int) :
    (pairs l).countP (fun x => decide (x.1 ≤ p) && decide (p < x.2)) = if first l ≤ p ∧ p < last l then 1 else 0 := by
  induction l with
  | nil => simp [pairs_nil, first, last]
  | cons a l ih =>
    cases l with
    | nil => simp [pairs_one, first, last]
    | cons b l =>
      have hs' := List.pairwise_cons.mp hs
      have hab : a < b := hs'.1 b (by simp)
      have hbl : b ≤ last (b :: l) := le_last hs'.2 (by simp)
      rw [pairs_cons, List.countP_cons, ih hs'.2, last_cons_cons]
      have e1 : first (b :: l) = b := rfl
      have e2 : first (a :: b :: l) = a := rfl
      rw [e1, e2]
      by_cases h1 : b ≤ p
      · have h2 : ¬ p < b := by omega
        have h3 : a ≤ p := by omega
        simp [h1, h2, h3]
      · have h2 : p < b := by omega
        have h3 : p < last (b :: l) := by omega
        by_cases h4 : a ≤ p <;> simp [h1, h2, h3, h4]

theorem pairs_mem {l : List Int} (hs : l.Pairwise (· < ·)) {u v : Int} (h : (u, v) ∈ pairs l) :
    u < v ∧ u ∈ l ∧ v ∈ l ∧ ∀ a ∈ l, a ≤ u ∨ v ≤ a := by
  induction l with
  | nil => simp [pairs_nil] at h
  | cons a l ih =>
    cases l with
    | nil => simp [pairs_one] at h
    | cons b l =>
      have hs' := List.pairwise_cons.mp hs
      rw [pairs_cons] at h
      rcases List.mem_cons.mp h with h | h
      · obtain ⟨rfl, rfl⟩ := Prod.mk.inj h
        refine ⟨hs'.1 _ (by simp), by simp, by simp, ?_⟩
        intro c hc
        rcases List.mem_cons.mp hc with rfl | hc
        · exact Or.inl le_rfl
        · rcases List.mem_cons.mp hc with rfl | hc
          · exact Or.inr le_rfl
          · exact Or.inr ((List.pairwise_cons.mp hs'.2).1 c hc).le
      · obtain ⟨h1, h2, h3, h4⟩ := ih hs'.2 h
        refine ⟨h1, List.mem_cons_of_mem _ h2, List.mem_cons_of_mem _ h3, ?_⟩
        intro c hc
        rcases List.mem_cons.mp hc with rfl | hc
        · exact Or.inl (hs'.1 u h2).le
        · exact h4 c hc

theorem listMeets_iff (l : List Region) (x1 y1 x2 y2 : Int) :
    listMeets l x1 y1 x2 y2 = true ↔ ∃ r ∈ l, (x1 < r.xp ∧ x2 > r.xm) ∧ (y1 < r.yp ∧ y2 > r.ym) := by
  rw [C111_list_meets]
  refine exists_congr fun r => and_congr_right fun _ => ?_
  simp [Region.meets, and_assoc]

/-- What is filled lies within what is being filled, with all its stops; and no two of those overlap. -/
structure Fits (filled filling : List Region) : Prop where
  sound : ∀ r ∈ filling, Sound r
  sound' : ∀ r ∈ filled, Sound r
  within : ∀ f ∈ filled, ∃ r ∈ filling, Within f r
  apart : filling.Pairwise (fun a b => touches a b = false)

theorem within_box {f r : Region} (hf : Sound f) (hr : Sound r) (h : Within f r) :
    r.xm ≤ f.xm ∧ f.xp ≤ r.xp ∧ r.ym ≤ f.ym ∧ f.yp ≤ r.yp :=
  ⟨first_le hr.xs_sorted (h.1 (first_mem (two_ne hf.xs_two))), le_last hr.xs_sorted (h.1 (last_mem (two_ne hf.xs_two))),
    first_le hr.ys_sorted (h.2 (first_mem (two_ne hf.ys_two))), le_last hr.ys_sorted (h.2 (last_mem (two_ne hf.ys_two)))⟩

theorem apart_eq {l : List Region} (h : l.Pairwise (fun a b => touches a b = false)) {r s : Region} (hr : r ∈ l) (hs : s ∈ l)
    (ho : (r.xm < s.xp ∧ r.xp > s.xm) ∧ (r.ym < s.yp ∧ r.yp > s.ym)) : r = s := by
  induction l with
  | nil => simp at hr
  | cons a l ih =>
    have h' := List.pairwise_cons.mp h
    have no : ∀ b ∈ l, ¬ ((a.xm < b.xp ∧ a.xp > b.xm) ∧ (a.ym < b.yp ∧ a.yp > b.ym)) := by
      intro b hb k
      have := h'.1 b hb
      have e : a.overlaps b = true := by
        simp only [Region.overlaps, Bool.and_eq_true, decide_eq_true_eq]
        omega
      simp [touches, e] at this
    rcases List.mem_cons.mp hr with rfl | hr' <;> rcases List.mem_cons.mp hs with rfl | hs'
    · rfl
    · exact absurd ho (no s hs')
    · exact absurd (by omega) (no r hr')
    · exact ih h'.2 hr' hs'

/-- A cell of what is being filled is filled already or not at all. -/
theorem cell_filled {filled filling : List Region} (H : Fits filled filling) {r : Region} (hr : r ∈ filling)
    {x y : Int × Int} (hx : x ∈ pairs r.xs) (hy : y ∈ pairs r.ys) {p q : Int} (hp : x.1 ≤ p ∧ p < x.2)
    (hq : y.1 ≤ q ∧ q < y.2) : listMeets filled x.1 y.1 x.2 y.2 = true ↔ InL filled p q := by
  rw [listMeets_iff]
  obtain ⟨x1, x2⟩ := x
  obtain ⟨y1, y2⟩ := y
  dsimp only at hp hq ⊢
  have sr := H.sound r hr
  obtain ⟨a1, a2, a3, a4⟩ := pairs_mem sr.xs_sorted hx
  obtain ⟨b1, b2, b3, b4⟩ := pairs_mem sr.ys_sorted hy
  have a5 : r.xm ≤ x1 := first_le sr.xs_sorted a2
  have a6 : x2 ≤ r.xp := le_last sr.xs_sorted a3
  have b5 : r.ym ≤ y1 := first_le sr.ys_sorted b2
  have b6 : y2 ≤ r.yp := le_last sr.ys_sorted b3
  unfold InL InR
  refine exists_congr fun f => and_congr_right fun hf => ?_
  constructor
  · rintro ⟨h1, h2⟩
    obtain ⟨m, hm, hw⟩ := H.within f hf
    have sf := H.sound' f hf
    have wb := within_box sf (H.sound m hm) hw
    have e : r = m := apart_eq H.apart hr hm (by omega)
    subst e
    have c1 := a4 f.xm (hw.1 (first_mem (two_ne sf.xs_two)))
    have c2 := a4 f.xp (hw.1 (last_mem (two_ne sf.xs_two)))
    have c3 := b4 f.ym (hw.2 (first_mem (two_ne sf.ys_two)))
    have c4 := b4 f.yp (hw.2 (last_mem (two_ne sf.ys_two)))
    omega
  · intro h
    omega

/-! ## How many elements of a round cover a place -/

theorem sum_ite {α : Type} (l : List α) (P : α → Bool) (n : Nat) :
    (l.map (fun a => if P a then n else 0)).sum = l.countP P * n := by
  induction l with
  | nil => simp
  | cons a l ih =>
    rw [List.map_cons, List.sum_cons, ih, List.countP_cons]
    by_cases h : P a <;> simp [h, Nat.add_mul, Nat.add_comm]

theorem count_flatMap {α β : Type} {l : List α} {f : α → List β} {P : β → Bool} {g : α → Nat}
    (h : ∀ a ∈ l, (f a).countP P = g a) : (l.flatMap f).countP P = (l.map g).sum := by
  rw [List.countP_flatMap]
  exact congrArg List.sum (List.map_congr_left h)

theorem over_region {filled filling : List Region} (H : Fits filled filling) {r : Region} (hr : r ∈ filling) (zi : Nat)
    (s : Slab) (p q : Int) :
    (((pairs r.xs).flatMap fun x => (pairs r.ys).flatMap fun y =>
      if listMeets filled x.1 y.1 x.2 y.2 && decide (s.level < zi) then [] else [(⟨x.1, x.2, y.1, y.2, s⟩ : Block)]).countP
        (fun b => hasXY b p q)) =
      if InR r p q ∧ ¬ (InL filled p q ∧ s.level < zi) then 1 else 0 := by
  have sr := H.sound r hr
  have inner : ∀ x ∈ pairs r.xs, (((pairs r.ys).flatMap fun y =>
      if listMeets filled x.1 y.1 x.2 y.2 && decide (s.level < zi) then [] else [(⟨x.1, x.2, y.1, y.2, s⟩ : Block)]).countP
        (fun b => hasXY b p q)) = if (decide (x.1 ≤ p) && decide (p < x.2)) then
          (if (r.ym ≤ q ∧ q < r.yp) ∧ ¬ (InL filled p q ∧ s.level < zi) then 1 else 0) else 0 := by
    intro x hx
    have cell : ∀ y ∈ pairs r.ys, List.countP (fun b => hasXY b p q)
        (if listMeets filled x.1 y.1 x.2 y.2 && decide (s.level < zi) then [] else [(⟨x.1, x.2, y.1, y.2, s⟩ : Block)]) =
        if (decide (y.1 ≤ q) && decide (q < y.2)) then
          (if (x.1 ≤ p ∧ p < x.2) ∧ ¬ (InL filled p q ∧ s.level < zi) then 1 else 0) else 0 := by
      intro y hy
      by_cases h1 : x.1 ≤ p ∧ p < x.2
      · by_cases h2 : y.1 ≤ q ∧ q < y.2
        · have := cell_filled H hr hx hy h1 h2
          by_cases h3 : InL filled p q
          · have e := this.mpr h3
            by_cases h4 : s.level < zi <;> simp [h1, h2, h3, h4, e, hasXY]
          · have e : listMeets filled x.1 y.1 x.2 y.2 = false := by
              rw [← Bool.not_eq_true]; exact fun h => h3 (this.mp h)
            simp [h1, h2, h3, e, hasXY]
        · have e1 : (decide (y.1 ≤ q) && decide (q < y.2)) = false := by
            rw [← Bool.not_eq_true]; simpa using h2
          rw [e1]
          split
          · simp
          · simp only [List.countP_cons, List.countP_nil, hasXY, Bool.and_assoc, e1]
            simp
      · have e1 : (decide (x.1 ≤ p) && decide (p < x.2)) = false := by
          rw [← Bool.not_eq_true]; simpa using h1
        rw [if_neg (show ¬ ((x.1 ≤ p ∧ p < x.2) ∧ _) from fun h => h1 h.1)]
        split
        · simp
        · simp only [List.countP_cons, List.countP_nil, hasXY, e1]
          simp
    rw [count_flatMap cell, sum_ite (P := fun y : Int × Int => decide (y.1 ≤ q) && decide (q < y.2)), pairs_count _ sr.ys_sorted]
    unfold Region.ym Region.yp
    by_cases h1 : first r.ys ≤ q ∧ q < last r.ys <;> by_cases h2 : x.1 ≤ p ∧ p < x.2 <;>
      by_cases h3 : InL filled p q ∧ s.level < zi <;> simp [h1, h2, h3]
  rw [count_flatMap inner, sum_ite (P := fun x : Int × Int => decide (x.1 ≤ p) && decide (p < x.2)), pairs_count _ sr.xs_sorted]
  unfold InR Region.xm Region.xp
  by_cases h1 : first r.xs ≤ p ∧ p < last r.xs <;> by_cases h2 : r.ym ≤ q ∧ q < r.yp <;>
    by_cases h3 : InL filled p q ∧ s.level < zi <;> simp [h1, h2, h3]

theorem sum_apart {l : List Region} (h : l.Pairwise (fun a b => touches a b = false)) (p q : Int) (P : Prop) [Decidable P] :
    (l.map (fun r => if InR r p q ∧ P then 1 else 0)).sum = if InL l p q ∧ P then 1 else 0 := by
  induction l with
  | nil => simp [InL]
  | cons a l ih =>
    have h' := List.pairwise_cons.mp h
    rw [List.map_cons, List.sum_cons, ih h'.2]
    by_cases hP : P
    · by_cases ha : InR a p q
      · have hl : ¬ InL l p q := by
          rintro ⟨b, hb, k⟩
          have := h'.1 b hb
          have e : a.overlaps b = true := by
            unfold InR at ha k
            simp only [Region.overlaps, Bool.and_eq_true, decide_eq_true_eq]
            omega
          simp [touches, e] at this
        have : InL (a :: l) p q := ⟨a, by simp, ha⟩
        simp [hP, ha, hl, this]
      · have : InL (a :: l) p q ↔ InL l p q := by
          unfold InL
          constructor
          · rintro ⟨b, hb, k⟩
            rcases List.mem_cons.mp hb with rfl | hb
            · exact absurd k ha
            · exact ⟨b, hb, k⟩
          · rintro ⟨b, hb, k⟩
            exact ⟨b, List.mem_cons_of_mem _ hb, k⟩
        simp [hP, ha, this]
    · simp [hP]

/-- In a round a place is covered once per stop if it is in what is being filled, unless it was filled before. -/
theorem over_count {filled filling : List Region} (H : Fits filled filling) (zi : Nat) (s : Slab) (p q : Int) :
    (over filled filling zi s).countP (fun b => hasXY b p q) =
      if InL filling p q ∧ ¬ (InL filled p q ∧ s.level < zi) then 1 else 0 := by
  unfold over
  rw [count_flatMap (fun r hr => over_region H hr zi s p q), sum_apart H.apart]

/-! ## The stops that a round reaches -/

/-- The level of the stop below depth `w`. -/
def levelAt : Int → List (Int × Nat) → Int → Option Nat
  | _, [], _ => none
  | top, (z, l) :: rest, w => if top ≤ w ∧ w < z then some l else levelAt z rest w

theorem levelAt_mem {top : Int} {below : List (Int × Nat)} {w : Int} {l : Nat} (h : levelAt top below w = some l) :
    ∃ z, (z, l) ∈ below := by
  induction below generalizing top with
  | nil => simp [levelAt] at h
  | cons a below ih =>
    obtain ⟨z, m⟩ := a
    rw [levelAt] at h
    by_cases hw : top ≤ w ∧ w < z
    · rw [if_pos hw] at h
      obtain rfl : m = l := Option.some.inj h
      exact ⟨z, by simp⟩
    · rw [if_neg hw] at h
      obtain ⟨z', h'⟩ := ih h
      exact ⟨z', by simp [h']⟩

theorem levelAt_none {top : Int} {below : List (Int × Nat)} {w : Int} (hs : (top :: below.map Prod.fst).Pairwise (· < ·))
    (h : w < top) : levelAt top below w = none := by
  induction below generalizing top with
  | nil => rfl
  | cons a below ih =>
    obtain ⟨z, m⟩ := a
    rw [List.map_cons] at hs
    have hs' := List.pairwise_cons.mp hs
    have : top < z := hs'.1 z (by simp)
    rw [levelAt, if_neg (show ¬ (top ≤ w ∧ w < z) by omega)]
    exact ih hs'.2 (by omega)

/-- Between the first and the last stop every depth has a level, and elsewhere none. -/
theorem levelAt_some {top : Int} {below : List (Int × Nat)} {w : Int} (hs : (top :: below.map Prod.fst).Pairwise (· < ·)) :
    (levelAt top below w).isSome = true ↔ top ≤ w ∧ w < last (top :: below.map Prod.fst) := by
  induction below generalizing top with
  | nil => simp [levelAt, last]
  | cons a below ih =>
    obtain ⟨z, m⟩ := a
    rw [List.map_cons] at hs ⊢
    have hs' := List.pairwise_cons.mp hs
    have h1 : top < z := hs'.1 z (by simp)
    have h2 : z ≤ last (z :: below.map Prod.fst) := le_last hs'.2 (by simp)
    dsimp only at h1 h2 ⊢
    rw [levelAt, last_cons_cons]
    by_cases hw : top ≤ w ∧ w < z
    · rw [if_pos hw]
      simp only [Option.isSome_some, true_iff]
      omega
    · have i := ih (top := z) hs'.2
      rw [if_neg hw, i]
      omega

theorem slabs_level {bots : List Int} {zi i j : Nat} {top : Int} {below : List (Int × Nat)} {sl : List Slab}
    (h : slabs bots zi i j top below = .ok sl) {s : Slab} (hs : s ∈ sl) : s.level ≤ zi := by
  induction below generalizing i j top sl with
  | nil =>
    obtain rfl : [] = sl := by simpa [slabs] using h
    simp at hs
  | cons a below ih =>
    obtain ⟨z, l⟩ := a
    rw [slabs] at h
    by_cases hl : l ≤ zi
    · rw [if_pos hl] at h
      dsimp only at h
      split at h
      · obtain ⟨s', h1, h2⟩ := Res.bind_eq_ok.mp h
        obtain rfl := Res.ok.inj h2
        rcases List.mem_cons.mp hs with rfl | hs
        · exact hl
        · exact ih h1 hs
      · exact absurd h (by simp)
    · rw [if_neg hl] at h
      obtain rfl : [] = sl := by simpa using h
      simp at hs

/-- With levels that do not decrease a round reaches exactly the stops up to its number. -/
theorem slabs_at {bots : List Int} {zi i j : Nat} {top : Int} {below : List (Int × Nat)} {sl : List Slab}
    (h : slabs bots zi i j top below = .ok sl) (hs : (top :: below.map Prod.fst).Pairwise (· < ·))
    (hl : (below.map Prod.snd).Pairwise (· ≤ ·)) (w : Int) :
    (∀ l, levelAt top below w = some l → l ≤ zi → ∃ s, s.level = l ∧ sl.filter (fun s => hasZ s w) = [s]) ∧
    ((∀ l, levelAt top below w = some l → zi < l) → sl.filter (fun s => hasZ s w) = []) := by
  induction below generalizing i j top sl with
  | nil =>
    obtain rfl : [] = sl := by simpa [slabs] using h
    simp [levelAt]
  | cons a below ih =>
    obtain ⟨z, l⟩ := a
    rw [List.map_cons] at hs hl
    have hs' := List.pairwise_cons.mp hs
    have hl' := List.pairwise_cons.mp hl
    have htz : top < z := hs'.1 z (by simp)
    rw [slabs] at h
    rw [levelAt]
    by_cases hz : l ≤ zi
    · rw [if_pos hz] at h
      dsimp only at h
      split at h
      · obtain ⟨s', h1, h2⟩ := Res.bind_eq_ok.mp h
        obtain rfl := Res.ok.inj h2
        obtain ⟨i1, i2⟩ := ih h1 hs'.2 hl'.2
        by_cases hw : top ≤ w ∧ w < z
        · have e : s'.filter (fun s => hasZ s w) = [] := by
            refine i2 ?_
            rw [levelAt_none hs'.2 hw.2]
            simp
          rw [if_pos hw]
          constructor
          · intro m hm _
            obtain rfl : l = m := Option.some.inj hm
            refine ⟨⟨j, l, top, z, i + ((bots.drop i).takeWhile (fun b => decide (z > b))).length⟩, rfl, ?_⟩
            rw [List.filter_cons, if_pos (by simpa [hasZ] using hw), e]
          · intro k
            exact absurd (k l rfl) (by omega)
        · rw [if_neg hw, List.filter_cons, if_neg (by simpa [hasZ] using hw)]
          exact ⟨i1, i2⟩
      · exact absurd h (by simp)
    · rw [if_neg hz] at h
      obtain rfl : [] = sl := by simpa using h
      refine ⟨?_, fun _ => rfl⟩
      intro m hm hmz
      exfalso
      by_cases hw : top ≤ w ∧ w < z
      · rw [if_pos hw] at hm
        obtain rfl : l = m := Option.some.inj hm
        exact hz hmz
      · rw [if_neg hw] at hm
        obtain ⟨z', hz'⟩ := levelAt_mem hm
        have : l ≤ m := hl'.1 m (List.mem_map.mpr ⟨_, hz', rfl⟩)
        omega

theorem slabs_count {filled filling : List Region} (zi : Nat) (sl : List Slab) (p q w : Int) :
    (sl.flatMap (over filled filling zi)).countP (fun b => hasXY b p q && hasZ b.slab w) =
      ((sl.filter (fun s => hasZ s w)).map fun s => (over filled filling zi s).countP (fun b => hasXY b p q)).sum := by
  have slab : ∀ s, ∀ b ∈ over filled filling zi s, b.slab = s := by
    intro s b hb
    simp only [over, List.mem_flatMap] at hb
    obtain ⟨r, -, x, -, y, -, hb⟩ := hb
    split at hb
    · simp at hb
    · rw [List.mem_singleton.mp hb]
  induction sl with
  | nil => simp
  | cons s sl ih =>
    rw [List.flatMap_cons, List.countP_append, ih, List.filter_cons]
    by_cases hs : hasZ s w = true
    · rw [if_pos hs, List.map_cons, List.sum_cons]
      congr 1
      refine List.countP_congr fun b hb => ?_
      rw [slab s b hb, hs, Bool.and_true]
    · rw [if_neg hs]
      have : (over filled filling zi s).countP (fun b => hasXY b p q && hasZ b.slab w) = 0 := by
        rw [List.countP_eq_zero]
        intro b hb
        rw [slab s b hb]
        simp [hs]
      rw [this, Nat.zero_add]

/-! ## From round to round -/

theorem coarsen_sublist (l : List Int) : (coarsen l).Sublist l := by
  induction l using coarsen.induct with
  | case1 => simp [coarsen]
  | case2 a => simp [coarsen]
  | case3 a b l ih => rw [coarsen]; exact (ih.cons b).cons_cons a

theorem coarsen_sound {r : Region} (hr : Sound r) (hx : r.xs.length % 2 = 1) (hy : r.ys.length % 2 = 1) :
    Sound ⟨coarsen r.xs, coarsen r.ys⟩ := by
  have h1 := hr.xs_two
  have h2 := hr.ys_two
  refine ⟨hr.xs_sorted.sublist (coarsen_sublist _), hr.ys_sorted.sublist (coarsen_sublist _), ?_, ?_⟩
  · have := (C111_coarsen r.xs).2.1
    dsimp only; omega
  · have := (C111_coarsen r.ys).2.1
    dsimp only; omega

/-- Removing stops changes no region. -/
theorem thinOut_ok {edge delta : Int} {l l' : List Region} {d : Int} (hl : ∀ r ∈ l, Sound r)
    (h : thinOut edge delta l = .ok (l', d)) :
    (∀ r ∈ l', Sound r) ∧ l'.length = l.length ∧ (∀ p q, InL l' p q ↔ InL l p q) ∧ (0 < delta → 0 < d) := by
  unfold thinOut at h
  by_cases hi : isInside edge l = true
  · rw [if_pos hi] at h
    by_cases ha : l.all (fun r => r.xs.length % 2 == 1 && r.ys.length % 2 == 1) = true
    · rw [if_pos ha] at h
      obtain ⟨rfl, rfl⟩ := Prod.mk.inj (Res.ok.inj h)
      simp only [List.all_eq_true, Bool.and_eq_true, beq_iff_eq] at ha
      refine ⟨?_, by simp, ?_, by omega⟩
      · intro r hr
        obtain ⟨s, hs, rfl⟩ := List.mem_map.mp hr
        exact coarsen_sound (hl s hs) (ha s hs).1 (ha s hs).2
      · intro p q
        have key : ∀ s ∈ l, (InR ⟨coarsen s.xs, coarsen s.ys⟩ p q ↔ InR s p q) := by
          intro s hs
          unfold InR Region.xm Region.xp Region.ym Region.yp
          dsimp only
          obtain ⟨e1, e2⟩ := (C111_coarsen s.xs).2.2 (ha s hs).1
          obtain ⟨e3, e4⟩ := (C111_coarsen s.ys).2.2 (ha s hs).2
          rw [e1, e2, e3, e4]
        constructor
        · rintro ⟨r, hr, k⟩
          obtain ⟨s, hs, rfl⟩ := List.mem_map.mp hr
          exact ⟨s, hs, (key s hs).mp k⟩
        · rintro ⟨s, hs, k⟩
          exact ⟨_, List.mem_map.mpr ⟨s, hs, rfl⟩, (key s hs).mpr k⟩
    · rw [if_neg ha] at h
      exact absurd h (by simp)
  · rw [if_neg hi] at h
    obtain ⟨rfl, rfl⟩ := Prod.mk.inj (Res.ok.inj h)
    exact ⟨hl, rfl, fun _ _ => Iff.rfl, id⟩

theorem grow_sub {step dx edge : Int} {l l' : List Int} (h : grow step dx edge l = .ok l') : l ⊆ l' := by
  unfold grow at h
  dsimp only at h
  split at h
  · exact absurd h (by simp)
  · split at h
    · exact absurd h (by simp)
    · obtain rfl := Res.ok.inj h
      intro a ha
      simp only [mem_stops, List.mem_append]
      exact Or.inl (Or.inl ha)

theorem grow_sorted {step dx edge : Int} {l l' : List Int} (h : grow step dx edge l = .ok l') : l'.Pairwise (· < ·) := by
  unfold grow at h
  dsimp only at h
  split at h
  · exact absurd h (by simp)
  · split at h
    · exact absurd h (by simp)
    · obtain rfl := Res.ok.inj h
      exact stops_sorted _

theorem grow_two {step dx edge : Int} {l l' : List Int} (h : grow step dx edge l = .ok l') (hl : l.Pairwise (· < ·))
    (h2 : 2 ≤ l.length) : 2 ≤ l'.length := by
  have hn : l.Nodup := hl.imp (by intro a b h; omega)
  exact h2.trans (List.Subperm.length_le (List.subperm_of_subset hn (grow_sub h)))

/-- Every region grows. -/
theorem growAll_ok {step dx edge : Int} {l l' : List Region} (h : growAll step dx edge l = .ok l') :
    l'.length = l.length ∧ ((∀ r ∈ l, Sound r) → ∀ r ∈ l', Sound r) ∧ ∀ f ∈ l, ∃ r ∈ l', Within f r := by
  induction l generalizing l' with
  | nil =>
    obtain rfl := Res.ok.inj h
    simp
  | cons a l ih =>
    rw [growAll] at h
    obtain ⟨xs, h1, h⟩ := Res.bind_eq_ok.mp h
    obtain ⟨ys, h2, h⟩ := Res.bind_eq_ok.mp h
    obtain ⟨rest, h3, h⟩ := Res.bind_eq_ok.mp h
    obtain rfl := Res.ok.inj h
    obtain ⟨i1, i2, i3⟩ := ih h3
    refine ⟨by simp [i1], ?_, ?_⟩
    · intro hs r hr
      have ha := hs a (by simp)
      rcases List.mem_cons.mp hr with rfl | hr
      · exact ⟨grow_sorted h1, grow_sorted h2, grow_two h1 ha.xs_sorted ha.xs_two, grow_two h2 ha.ys_sorted ha.ys_two⟩
      · exact i2 (fun r hr => hs r (by simp [hr])) r hr
    · intro f hf
      rcases List.mem_cons.mp hf with rfl | hf
      · exact ⟨⟨xs, ys⟩, by simp, grow_sub h1, grow_sub h2⟩
      · obtain ⟨r, hr, k⟩ := i3 f hf
        exact ⟨r, by simp [hr], k⟩

theorem merge_apart {l : List Region} (h : l.length ≤ 2) : (merge l).Pairwise (fun a b => touches a b = false) := by
  match l, h with
  | [], _ => simp [merge]
  | [r], _ => simp [merge, absorb]
  | [r, s], _ => exact C111_two r s

theorem round_ok {c : Setup} {s s' : State} (h : round c s = .ok s') :
    ∃ sl grown, slabs c.bots s.zi 0 1 c.top c.below = .ok sl ∧ thinOut c.edge s.delta s.filling = .ok (s'.filled, s'.delta) ∧
      growAll c.step s'.delta c.edge s'.filled = .ok grown ∧ s'.filling = merge grown ∧ s'.zi = s.zi + 1 ∧
      s'.mesh = s.mesh ++ sl.flatMap (over s.filled s.filling s.zi) := by
  unfold round at h
  obtain ⟨sl, h1, h⟩ := Res.bind_eq_ok.mp h
  obtain ⟨⟨f, d⟩, h2, h⟩ := Res.bind_eq_ok.mp h
  obtain ⟨g, h3, h⟩ := Res.bind_eq_ok.mp h
  obtain rfl := Res.ok.inj h
  exact ⟨sl, g, h1, h2, h3, rfl, rfl, rfl⟩

/-- Two regions at most, and what is filled fits into them. -/
structure Good (s : State) : Prop where
  fits : Fits s.filled s.filling
  few : s.filling.length ≤ 2

theorem round_good {c : Setup} {s s' : State} (H : Good s) (h : round c s = .ok s') :
    Good s' ∧ (∀ p q, InL s'.filled p q ↔ InL s.filling p q) := by
  obtain ⟨sl, g, h1, h2, h3, h4, h5, h6⟩ := round_ok h
  obtain ⟨t1, t2, t3, -⟩ := thinOut_ok H.fits.sound h2
  obtain ⟨g1, g2, g3⟩ := growAll_ok h3
  obtain ⟨m1, -, -, m4⟩ := C111_merge g
  have hg : g.length ≤ 2 := by rw [g1, t2]; exact H.few
  refine ⟨⟨⟨?_, t1, ?_, ?_⟩, ?_⟩, t3⟩
  · rw [h4]; exact m4 (g2 t1)
  · intro f hf
    obtain ⟨r, hr, k⟩ := g3 f hf
    obtain ⟨t, ht, k'⟩ := m1 r hr
    exact ⟨t, by rw [h4]; exact ht, k.trans k'⟩
  · rw [h4]; exact merge_apart hg
  · rw [h4]; exact (merge_length g).trans hg

theorem fits_sub {filled filling : List Region} (H : Fits filled filling) {p q : Int} (h : InL filled p q) :
    InL filling p q := by
  obtain ⟨f, hf, k⟩ := h
  obtain ⟨r, hr, w⟩ := H.within f hf
  have := within_box (H.sound' f hf) (H.sound r hr) w
  refine ⟨r, hr, ?_⟩
  unfold InR at k ⊢
  omega

/-- The number of elements at a place. -/
def cnt (s : State) (p q w : Int) : Nat := s.mesh.countP (fun b => hasXY b p q && hasZ b.slab w)

/-- Whether it ought to be one. -/
def Due (c : Setup) (s : State) (p q w : Int) : Prop := InL s.filled p q ∧ ∃ l, levelAt c.top c.below w = some l ∧ l < s.zi

/-- The stops go down and their levels do not go up. -/
structure Ordered (c : Setup) : Prop where
  stops : (c.top :: c.below.map Prod.fst).Pairwise (· < ·)
  levels : (c.below.map Prod.snd).Pairwise (· ≤ ·)

open Classical in
theorem round_cnt {c : Setup} (hc : Ordered c) {s s' : State} (H : Good s) (h : round c s = .ok s') {p q w : Int}
    (hn : cnt s p q w = if Due c s p q w then 1 else 0) : cnt s' p q w = if Due c s' p q w then 1 else 0 := by
  obtain ⟨-, hf⟩ := round_good H h
  obtain ⟨sl, g, h1, -, -, -, h5, h6⟩ := round_ok h
  have sa := slabs_at h1 hc.stops hc.levels w
  have e : cnt s' p q w = cnt s p q w +
      ((sl.filter (fun s => hasZ s w)).map fun t => (over s.filled s.filling s.zi t).countP (fun b => hasXY b p q)).sum := by
    unfold cnt
    rw [h6, List.countP_append, slabs_count]
  rw [e, hn]
  unfold Due
  rw [hf, h5]
  cases hl : levelAt c.top c.below w with
  | none =>
    rw [sa.2 (by rw [hl]; simp)]
    simp
  | some l =>
    simp only [Option.some.injEq, exists_eq_left']
    by_cases hlz : l ≤ s.zi
    · obtain ⟨t, ht, hfl⟩ := sa.1 l hl hlz
      rw [hfl, List.map_singleton, List.sum_singleton, over_count H.fits, ht]
      have sub : InL s.filled p q → InL s.filling p q := fits_sub H.fits
      by_cases a : InL s.filled p q
      · have b := sub a
        have hlt : l < s.zi + 1 := by omega
        by_cases d : l < s.zi <;> simp [a, b, d, hlt]
      · have hlt : l < s.zi + 1 := by omega
        simp [a, hlt]
    · rw [sa.2 (by rw [hl]; intro m hm; obtain rfl := Option.some.inj hm; omega)]
      have a : ¬ l < s.zi := by omega
      have b : ¬ l < s.zi + 1 := by omega
      simp [a, b]

open Classical in
theorem run_cnt {c : Setup} (hc : Ordered c) {fuel : Nat} {s s' : State} (H : Good s) (h : run c fuel s = some (.ok s'))
    {p q w : Int} (hn : cnt s p q w = if Due c s p q w then 1 else 0) :
    (cnt s' p q w = if Due c s' p q w then 1 else 0) ∧ Good s' ∧ goesOn c s' = false := by
  induction fuel generalizing s with
  | zero => simp [run] at h
  | succ n ih =>
    rw [run] at h
    by_cases hg : goesOn c s = true
    · rw [if_pos hg] at h
      cases hr : round c s with
      | ok t =>
        rw [hr] at h
        exact ih (round_good H hr).1 h (round_cnt hc H hr hn)
      | throw => rw [hr] at h; simp at h
      | ub => rw [hr] at h; simp at h
    · rw [if_neg hg] at h
      obtain rfl := Res.ok.inj (Option.some.inj h)
      exact ⟨hn, H, by simpa using hg⟩

/-- Nothing is filled yet. -/
structure Fresh (s : State) : Prop where
  sound : ∀ r ∈ s.filling, Sound r
  few : s.filling.length ≤ 2
  apart : s.filling.Pairwise (fun a b => touches a b = false)
  filled : s.filled = []
  zi : s.zi = 0
  mesh : s.mesh = []

theorem Fresh.good {s : State} (h : Fresh s) : Good s :=
  ⟨⟨h.sound, by simp [h.filled], by simp [h.filled], h.apart⟩, h.few⟩

theorem due_end {c : Setup} (hc : Ordered c) {s : State} (hg : goesOn c s = false) {p q w : Int} :
    Due c s p q w ↔ InL s.filled p q ∧ c.top ≤ w ∧ w < last (c.top :: c.below.map Prod.fst) := by
  unfold Due
  rw [← levelAt_some hc.stops, Option.isSome_iff_exists]
  refine and_congr_right fun _ => exists_congr fun l => ⟨fun h => h.1, fun h => ⟨h, ?_⟩⟩
  obtain ⟨z, hz⟩ := levelAt_mem h
  have hz' : (c.below.getLastD (0, 0)).2 < s.zi := by
    simp only [goesOn, Bool.or_eq_false_iff, decide_eq_false_iff_not, not_le] at hg
    exact hg.1
  have hne : c.below ≠ [] := List.ne_nil_of_mem hz
  have : l ≤ (c.below.getLastD (0, 0)).2 := by
    rw [List.getLastD_eq_getLast?, List.getLast?_eq_getLast_of_ne_nil hne]
    simp only [Option.getD_some]
    have hl := hc.levels
    obtain ⟨i, hi, he⟩ := List.getElem_of_mem hz
    rw [List.getLast_eq_getElem]
    by_cases hlast : i = c.below.length - 1
    · subst hlast; rw [he]
    · have := List.pairwise_iff_getElem.mp hl i (c.below.length - 1) (by simpa using hi) (by simp; omega) (by omega)
      simpa [he] using this
  omega

/-- **C120** The elements fill the space: when the loop ends, every point over the filled regions, from the first stop down to
the last, is in exactly one element, and no other point is in any. -/
theorem C120_once {c : Setup} (hc : Ordered c) {s s' : State} (h0 : Fresh s) {fuel : Nat}
    (h : run c fuel s = some (.ok s')) (x y z : ℚ) :
    (Over s'.filled x y ∧ (c.top : ℚ) ≤ z ∧ (∃ a ∈ c.below, z < (a.1 : ℚ)) → s'.mesh.countP (fun b => covers b x y z) = 1) ∧
    (¬ (Over s'.filled x y ∧ (c.top : ℚ) ≤ z ∧ (∃ a ∈ c.below, z < (a.1 : ℚ))) →
      s'.mesh.countP (fun b => covers b x y z) = 0) := by
  classical
  have start : cnt s ⌊x⌋ ⌊y⌋ ⌊z⌋ = if Due c s ⌊x⌋ ⌊y⌋ ⌊z⌋ then 1 else 0 := by
    simp [cnt, h0.mesh, Due, h0.filled, InL]
  obtain ⟨k1, k2, k3⟩ := run_cnt hc h0.good h start
  have e : s'.mesh.countP (fun b => covers b x y z) = cnt s' ⌊x⌋ ⌊y⌋ ⌊z⌋ := by
    unfold cnt
    exact List.countP_congr fun b _ => by rw [covers_eq]
  have d : Due c s' ⌊x⌋ ⌊y⌋ ⌊z⌋ ↔ (Over s'.filled x y ∧ (c.top : ℚ) ≤ z ∧ (∃ a ∈ c.below, z < (a.1 : ℚ))) := by
    rw [due_end hc k3, over_iff k2.fits.sound', Int.le_floor]
    refine and_congr_right fun _ => and_congr_right fun hz => ?_
    rw [Int.floor_lt]
    constructor
    · intro hl
      have hm := last_mem (l := c.top :: c.below.map Prod.fst) (by simp)
      rcases List.mem_cons.mp hm with hm | hm
      · rw [hm] at hl; exact absurd hl (not_lt.mpr hz)
      · obtain ⟨a, ha, he⟩ := List.mem_map.mp hm
        exact ⟨a, ha, by rw [he]; exact hl⟩
    · rintro ⟨a, ha, hl⟩
      have := le_last hc.stops (List.mem_cons_of_mem _ (List.mem_map.mpr ⟨a, ha, rfl⟩))
      exact hl.trans_le (by exact_mod_cast this)
  rw [e, k1]
  constructor
  · intro k; rw [if_pos (d.mpr k)]
  · intro k; rw [if_neg (fun hh => k (d.mp hh))]

end OP.Fem.Outward
