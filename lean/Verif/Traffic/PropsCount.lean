import Verif.Traffic.PropsStr
import Mathlib.Algebra.Order.Floor.Semiring
import Mathlib.Data.Rat.Floor
import Mathlib.Tactic.FieldSimp
import Mathlib.Tactic.Push
/-!
# C56: every accepted vehicle is counted exactly once
-/
namespace OP.Traffic

/-! ## Specification -/

/-- Consecutive groups `(first, size)` of axles from `a` up to `b`. -/
def Consecutive : Nat → List (Nat × Nat) → Nat → Prop
  | a, [], b => a = b
  | a, (s, n) :: gs, b => s = a ∧ 0 < n ∧ Consecutive (a + n) gs b

/-- The groups are the maximal runs of axles at most `lim` apart. -/
def Bogeys (lim : ℚ) (na : Nat) (AS : Nat → ℚ) (gs : List (Nat × Nat)) : Prop :=
  Consecutive 0 gs na ∧ ∀ g ∈ gs, (∀ i, 0 < i → i < g.2 → AS (g.1 + i) ≤ lim) ∧ (g.1 ≠ 0 → lim < AS g.1)

/-- The bins: one tonne each, the last one open. -/
def loadBin (w : ℚ) : Nat := min 20 ⌊w⌋₊

/-- What a group is counted as: axle type and bin.  Up to three axles count once with their mean weight, more one by one. -/
def entries (fl : ℚ → ℚ) (na : Nat) (AW : Nat → ℚ) (g : Nat × Nat) : List (Nat × Nat) :=
  if 3 < g.2 then (List.range g.2).map fun i => (4, loadBin (AW (g.1 + i)))
  else [(if g.2 = 1 then (if g.1 = 0 ∧ 1 < na then 0 else 1) else g.2, loadBin (fl (groupSum fl AW g.1 g.2 / g.2)))]

/-- `d'` differs from `d` in the axle counts of lane `il` by the given entries, and perhaps in the axle spacings. -/
def AxlesAdded (il : Nat) (es : List (Nat × Nat)) (d d' : Day) : Prop :=
  d'.day = d.day ∧ d'.SV = d.SV ∧ d'.LVPL = d.LVPL ∧ d'.HVPL = d.HVPL ∧
    ∀ a t l, d'.WG a t l = d.WG a t l + if a = il then es.count (t, l) else 0

/-! ## Lemmas -/

theorem bin_eq (w : ℚ) (k l : Nat) (hl : l ≤ ⌊w⌋₊) : bin w k l = min (l + k) ⌊w⌋₊ := by
  induction k generalizing l with
  | zero => simp [bin, hl]
  | succ k ih =>
    have e : (((10 * (l + 1) : Nat) : ℚ) / 10) = ((l + 1 : Nat) : ℚ) := by push_cast; ring
    simp only [bin, e]
    have h1 : w < ((l + 1 : Nat) : ℚ) ↔ ⌊w⌋₊ < l + 1 := (Nat.floor_lt' (by omega)).symm
    by_cases h : w < ((l + 1 : Nat) : ℚ)
    · rw [if_pos h]
      have := h1.1 h
      omega
    · rw [if_neg h]
      have : ¬ ⌊w⌋₊ < l + 1 := fun x => h (h1.2 x)
      rw [ih (l + 1) (by omega)]
      congr 1
      omega

theorem bin_loadBin (w : ℚ) : bin w 20 0 = loadBin w := by
  rw [bin_eq w 20 0 (Nat.zero_le _), loadBin]

theorem bogey_spec (lim : ℚ) (na : Nat) (AS : Nat → ℚ) (ia k ib : Nat) (h : ia + ib ≤ na) (hk : na ≤ k + ia + ib) :
    ib ≤ bogey lim na AS ia k ib ∧ ia + bogey lim na AS ia k ib ≤ na ∧
      (∀ i, ib ≤ i → i < bogey lim na AS ia k ib → AS (ia + i) ≤ lim) ∧
      (ia + bogey lim na AS ia k ib < na → lim < AS (ia + bogey lim na AS ia k ib)) := by
  induction k generalizing ib with
  | zero =>
    simp only [bogey]
    exact ⟨le_refl _, h, fun i h1 h2 => absurd h2 (by omega), fun h' => absurd h' (by omega)⟩
  | succ k ih =>
    simp only [bogey]
    by_cases hc : ia + ib < na ∧ AS (ia + ib) ≤ lim
    · rw [if_pos hc]
      obtain ⟨h1, h2, h3, h4⟩ := ih (ib + 1) (by omega) (by omega)
      refine ⟨by omega, h2, fun i hi hi' => ?_, h4⟩
      by_cases e : i = ib
      · subst e; exact hc.2
      · exact h3 i (by omega) hi'
    · rw [if_neg hc]
      refine ⟨le_refl _, h, fun i h1 h2 => absurd h2 (by omega), fun h' => ?_⟩
      by_contra hx
      exact hc ⟨h', not_lt.1 hx⟩

theorem AxlesAdded.refl (il : Nat) (d : Day) : AxlesAdded il [] d d := ⟨rfl, rfl, rfl, rfl, fun _ _ _ => by simp⟩

theorem AxlesAdded.trans {il : Nat} {es es' : List (Nat × Nat)} {a b c : Day} (h : AxlesAdded il es a b)
    (h' : AxlesAdded il es' b c) : AxlesAdded il (es ++ es') a c := by
  obtain ⟨h1, h2, h3, h4, h5⟩ := h
  obtain ⟨k1, k2, k3, k4, k5⟩ := h'
  refine ⟨k1.trans h1, k2.trans h2, k3.trans h3, k4.trans h4, fun x t l => ?_⟩
  rw [k5, h5, List.count_append]
  split_ifs <;> omega

theorem added_inc (il t l : Nat) (d : Day) : AxlesAdded il [(t, l)] d (d.incWG il t l) := by
  refine ⟨rfl, rfl, rfl, rfl, fun a t' l' => ?_⟩
  simp only [Day.incWG]
  by_cases ha : a = il
  · by_cases ht : t' = t ∧ l' = l
    · obtain ⟨rfl, rfl⟩ := ht
      simp [ha]
    · rw [if_neg (fun h => ht h.2)]
      have : (t, l) ≠ (t', l') := fun h => ht ⟨(Prod.mk.inj h).1.symm, (Prod.mk.inj h).2.symm⟩
      simp [ha, List.count_singleton, this]
  · simp [ha]

theorem added_fold {α : Type} (il : Nat) (f : α → Nat × Nat) (xs : List α) (d : Day) :
    AxlesAdded il (xs.map f) d (xs.foldl (fun d i => d.incWG il (f i).1 (f i).2) d) := by
  induction xs generalizing d with
  | nil => exact AxlesAdded.refl il d
  | cons x xs ih => exact (added_inc il (f x).1 (f x).2 d).trans (ih _)

theorem added_AAS {α : Type} (il : Nat) (g : Day → α → Day) (hg : ∀ d x, AxlesAdded il [] d (g d x)) (xs : List α) (d : Day) :
    AxlesAdded il [] d (xs.foldl g d) := by
  induction xs generalizing d with
  | nil => exact AxlesAdded.refl il d
  | cons x xs ih => exact (hg d x).trans (ih _)

theorem added_group (fl : ℚ → ℚ) (il na : Nat) (AW AS : Nat → ℚ) (ia ib : Nat) (hib : 0 < ib) (d : Day) :
    AxlesAdded il (entries fl na AW (ia, ib)) d (countGroup fl il na AW AS ia ib d) := by
  simp only [countGroup, entries, bin_loadBin]
  by_cases h : 3 < ib
  · have e : axleType na ia ib = 4 := by simp [axleType, h]
    rw [if_pos e, if_pos h]
    simp only [e]
    exact added_fold il (fun i => (4, loadBin (AW (ia + i)))) (List.range ib) d
  · have e4 : axleType na ia ib ≠ 4 := by
      simp only [axleType]
      split_ifs <;> omega
    have e : axleType na ia ib = if ib = 1 then (if ia = 0 ∧ 1 < na then 0 else 1) else ib := by
      simp only [axleType]
      split_ifs <;> omega
    rw [if_neg e4, if_neg h]
    rw [← e]
    refine AxlesAdded.trans (es' := []) (added_inc il _ _ d) ?_
    refine added_AAS il _ (fun d x => ?_) _ _
    exact ⟨rfl, rfl, rfl, rfl, fun _ _ _ => by simp [Day.addAAS]⟩

theorem axles_spec (fl : ℚ → ℚ) (il na : Nat) (AW AS : Nat → ℚ) (k ia : Nat) (hia : ia ≤ na) (hk : na ≤ k + ia)
    (hsep : ia ≠ 0 → ia < na → fl (17 / 10) < AS ia) (d : Day) :
    ∃ gs, Consecutive ia gs na ∧
      (∀ g ∈ gs, (∀ i, 0 < i → i < g.2 → AS (g.1 + i) ≤ fl (17 / 10)) ∧ (g.1 ≠ 0 → fl (17 / 10) < AS g.1)) ∧
      AxlesAdded il (gs.flatMap (entries fl na AW)) d (axles fl il na AW AS k ia d) := by
  induction k generalizing ia d with
  | zero =>
    have : ia = na := by omega
    exact ⟨[], this, by simp, AxlesAdded.refl il d⟩
  | succ k ih =>
    simp only [axles]
    by_cases h : ia < na
    · rw [if_pos h]
      obtain ⟨h1, h2, h3, h4⟩ := bogey_spec (fl (17 / 10)) na AS ia na 1 (by omega) (by omega)
      generalize bogey (fl (17 / 10)) na AS ia na 1 = ib at *
      obtain ⟨gs, g1, g2, g3⟩ := ih (ia + ib) h2 (by omega) (fun _ => h4) (countGroup fl il na AW AS ia ib d)
      refine ⟨(ia, ib) :: gs, ⟨rfl, by omega, g1⟩, ?_, ?_⟩
      · intro g hg
        rcases List.mem_cons.1 hg with rfl | hg
        · exact ⟨fun i hi hi' => h3 i (by omega) hi', fun h0 => hsep h0 h⟩
        · exact g2 g hg
      · rw [List.flatMap_cons]
        exact (added_group fl il na AW AS ia ib (by omega) d).trans g3
    · rw [if_neg h]
      have : ia = na := by omega
      exact ⟨[], this, by simp, AxlesAdded.refl il d⟩

theorem fields_ok (f : Nat → Res Int) (v : Nat → Int) (n i : Nat) (h : ∀ j, i ≤ j → j < i + n → f j = .ok (v j)) :
    fields f n i = .ok ((List.range n).map fun j => v (i + j)) := by
  induction n generalizing i with
  | zero => rfl
  | succ n ih =>
    rw [fields, h i (le_refl _) (by omega), Res.ok_bind, ih (i + 1) (fun j h1 h2 => h j (by omega) (by omega)), Res.ok_bind,
      List.range_succ_eq_map]
    simp [Function.comp_def, Nat.add_assoc, Nat.add_comm 1]

theorem field_ok (buf : List Int) (hlen : 256 ≤ buf.length) (o w : Nat) (ho : o + w ≤ 256) (hw : w ≤ 9) :
    ∃ v, str2int (some (buf.drop o)) w = .ok v := C55_total _ w (by simp; omega) hw

theorem time_ok (mktime : Int × Int × Int → Int) (buf : List Int) (hlen : 256 ≤ buf.length) :
    ∃ t, str2time mktime (some (buf.drop 5)) = .ok t := by
  obtain ⟨v, hv⟩ := field_ok buf hlen 5 6 (by norm_num) (by norm_num)
  have hv' : str2int (some (buf.drop 5)) 6 = .ok v := hv
  simp only [str2time, str2date, hv', Res.ok_bind]
  split_ifs <;> exact ⟨_, rfl⟩

/-! ## Theorems -/

/-- The vehicle in a record: day, lane, length, number of axles, weights (tonnes) and spacings (metres) as the fixed-width
fields of the record give them. -/
structure Vehicle where
  time : Int
  lane : Int
  length : ℚ
  na : Int
  weight : Nat → ℚ
  spacing : Nat → ℚ

/-- The record `buf` holds vehicle `v`. -/
def Holds (fl : ℚ → ℚ) (mktime : Int × Int × Int → Int) (buf : List Int) (v : Vehicle) : Prop :=
  str2time mktime (some (buf.drop 5)) = .ok v.time ∧ str2int (some (buf.drop 24)) 2 = .ok v.lane ∧
  (∃ n, str2int (some (buf.drop 33)) 4 = .ok n ∧ v.length = fl (fl (1 / 100) * n)) ∧
  str2int (some (buf.drop 51)) 2 = .ok v.na ∧
  (∀ i, i < 15 → ∃ n, str2int (some (buf.drop (54 + i * 9))) 3 = .ok n ∧ v.weight i = fl (fl (1 / 10) * n)) ∧
  v.spacing 0 = 0 ∧
  ∀ i, 0 < i → i < 15 → ∃ n, str2int (some (buf.drop (49 + i * 9))) 4 = .ok n ∧ v.spacing i = fl (fl (1 / 100) * n)

/-- Gross mass. -/
def Vehicle.mass (fl : ℚ → ℚ) (v : Vehicle) : ℚ := (List.range v.na.toNat).foldl (fun g i => fl (g + v.weight i)) 0

/-- Every record holds a vehicle, whatever its characters. -/
theorem holds_exists (fl : ℚ → ℚ) (mktime : Int × Int × Int → Int) (buf : List Int) (hlen : 256 ≤ buf.length) :
    ∃ v, Holds fl mktime buf v := by
  obtain ⟨t, ht⟩ := time_ok mktime buf hlen
  obtain ⟨il, hil⟩ := field_ok buf hlen 24 2 (by norm_num) (by norm_num)
  obtain ⟨n, hn⟩ := field_ok buf hlen 33 4 (by norm_num) (by norm_num)
  obtain ⟨na, hna⟩ := field_ok buf hlen 51 2 (by norm_num) (by norm_num)
  have hw : ∀ i, ∃ n, i < 15 → str2int (some (buf.drop (54 + i * 9))) 3 = .ok n := fun i => by
    by_cases h : i < 15
    · obtain ⟨n, hn⟩ := field_ok buf hlen (54 + i * 9) 3 (by omega) (by norm_num)
      exact ⟨n, fun _ => hn⟩
    · exact ⟨0, fun h' => absurd h' h⟩
  have hs : ∀ i, ∃ n, i < 15 → str2int (some (buf.drop (49 + i * 9))) 4 = .ok n := fun i => by
    by_cases h : i < 15
    · obtain ⟨n, hn⟩ := field_ok buf hlen (49 + i * 9) 4 (by omega) (by norm_num)
      exact ⟨n, fun _ => hn⟩
    · exact ⟨0, fun h' => absurd h' h⟩
  choose ws hws using hw
  choose ss hss using hs
  exact ⟨⟨t, il, fl (fl (1 / 100) * n), na, fun i => fl (fl (1 / 10) * ws i),
    fun i => if i = 0 then 0 else fl (fl (1 / 100) * ss i)⟩, ht, hil, ⟨n, hn, rfl⟩, hna,
    fun i hi => ⟨ws i, hws i hi, rfl⟩, rfl, fun i hi hi' => ⟨ss i, hss i hi', by simp [show i ≠ 0 by omega]⟩⟩

theorem foldl_congr' {α β : Type} (f g : β → α → β) (xs : List α) (b : β) (h : ∀ b, ∀ x ∈ xs, f b x = g b x) :
    xs.foldl f b = xs.foldl g b := by
  induction xs generalizing b with
  | nil => rfl
  | cons x xs ih =>
    rw [List.foldl_cons, List.foldl_cons, h b x (by simp), ih _ fun b y hy => h b y (by simp [hy])]

theorem groupSum_congr (fl : ℚ → ℚ) (A B : Nat → ℚ) (ia n : Nat) (h : ∀ i, i < n → A (ia + i) = B (ia + i)) :
    groupSum fl A ia n = groupSum fl B ia n := by
  induction n with
  | zero => rfl
  | succ n ih => rw [groupSum, groupSum, ih fun i hi => h i (by omega), h n (by omega)]

theorem consecutive_le {a b : Nat} {gs : List (Nat × Nat)} (h : Consecutive a gs b) : ∀ g ∈ gs, a ≤ g.1 ∧ g.1 + g.2 ≤ b := by
  have hab : ∀ (gs : List (Nat × Nat)) a, Consecutive a gs b → a ≤ b := by
    intro gs
    induction gs with
    | nil => intro a h; exact le_of_eq h
    | cons g gs ih => intro a h; have := ih _ h.2.2; omega
  induction gs generalizing a with
  | nil => simp
  | cons g gs ih =>
    obtain ⟨h1, h2, h3⟩ := h
    intro g' hg
    rcases List.mem_cons.1 hg with rfl | hg
    · have := hab _ _ h3
      exact ⟨h1.ge, by rw [h1]; exact this⟩
    · have := ih h3 g' hg
      omega

theorem entries_congr (fl : ℚ → ℚ) (na : Nat) (A B : Nat → ℚ) (g : Nat × Nat) (h : ∀ i, i < g.2 → A (g.1 + i) = B (g.1 + i)) :
    entries fl na A g = entries fl na B g := by
  simp only [entries]
  rw [groupSum_congr fl A B g.1 g.2 h]
  split_ifs
  · refine List.map_congr_left fun i hi => ?_
    rw [h i (List.mem_range.1 hi)]
  all_goals rfl

/-- The mass below which a vehicle of so many axles is light, and the length (`none`: no limit), from no axles on. -/
def lightLimits (fl : ℚ → ℚ) : List (Option ℚ × Option ℚ) :=
  [(none, none), (some 2, some (17 / 2)), (some (7 / 2), some (fl (54 / 5))), (some (11 / 2), none), (some 7, none)]

/-- A light vehicle: no more than four axles, and below the limits for their number. -/
def Light (fl : ℚ → ℚ) (na : Nat) (mass length : ℚ) : Prop :=
  ∃ lim, (lightLimits fl)[na]? = some lim ∧ (∀ m ∈ lim.1, mass < m) ∧ ∀ l ∈ lim.2, length < l

/-- The scale of the weights of a car that the scale took for a truck: two axles no more than 2.9 m apart and a mass of three
tonnes or more are brought to two and a half tonnes. -/
def CarWeighedAsTruck (fl : ℚ → ℚ) (na : Nat) (spacing : Nat → ℚ) (mass : ℚ) : Prop :=
  na = 2 ∧ spacing 1 ≤ fl (29 / 10) ∧ 3 ≤ mass

open Classical in
/-- The mass after the correction. -/
noncomputable def massUsed (fl : ℚ → ℚ) (v : Vehicle) : ℚ :=
  if CarWeighedAsTruck fl v.na.toNat v.spacing (v.mass fl) then 5 / 2 else v.mass fl

open Classical in
/-- The weights after the correction. -/
noncomputable def weightUsed (fl : ℚ → ℚ) (v : Vehicle) (i : Nat) : ℚ :=
  if CarWeighedAsTruck fl v.na.toNat v.spacing (v.mass fl) ∧ i < 2 then fl (v.weight i * fl (5 / 2 / v.mass fl)) else v.weight i

theorem isLight_iff (fl : ℚ → ℚ) (na : Nat) (mass length : ℚ) : isLight fl na mass length ↔ Light fl na mass length := by
  have e : (54 / 5 : ℚ) = 108 / 10 := by norm_num
  unfold isLight Light lightLimits
  rw [e]
  rcases na with _ | _ | _ | _ | _ | n <;> simp

theorem correct_used (fl : ℚ → ℚ) (v : Vehicle) :
    correct fl v.na.toNat v.spacing v.weight (v.mass fl) = (massUsed fl v, weightUsed fl v) := by
  unfold correct massUsed weightUsed
  by_cases h : CarWeighedAsTruck fl v.na.toNat v.spacing (v.mass fl)
  · rw [if_pos (show v.na.toNat = 2 ∧ v.spacing 1 ≤ fl (29 / 10) ∧ v.mass fl ≥ 3 from h), if_pos h]
    refine congrArg (Prod.mk _) (funext fun i => ?_)
    by_cases hi : i < 2
    · rw [if_pos hi, if_pos ⟨h, hi⟩]
    · rw [if_neg hi, if_neg (fun h => hi h.2)]
  · rw [if_neg (show ¬ (v.na.toNat = 2 ∧ v.spacing 1 ≤ fl (29 / 10) ∧ v.mass fl ≥ 3) from h), if_neg h]
    refine congrArg (Prod.mk _) (funext fun i => ?_)
    rw [if_neg (fun h' => h h'.1)]

theorem counted (fl : ℚ → ℚ) (mktime : Int × Int × Int → Int) (buf : List Int) (v : Vehicle)
    (hv : Holds fl mktime buf v) (d : Day) :
    (v.time ≠ d.day ∨ v.lane < 1 ∨ 6 < v.lane → addVehicle fl mktime buf d = .ok (false, d)) ∧
    (v.time = d.day → 1 ≤ v.lane → v.lane ≤ 6 →
      (v.length < 5 / 2 → addVehicle fl mktime buf d = .ok (true, { d with SV := d.SV + 1 })) ∧
      (5 / 2 ≤ v.length →
        (v.na < 0 ∨ 15 < v.na → addVehicle fl mktime buf d = .ok (false, d)) ∧
        (0 ≤ v.na → v.na ≤ 15 →
          let il := (v.lane - 1).toNat
          let c := correct fl v.na.toNat v.spacing v.weight (v.mass fl)
          (isLight fl v.na.toNat c.1 v.length → addVehicle fl mktime buf d = .ok (true, { d with LVPL := inc d.LVPL il })) ∧
          (¬ isLight fl v.na.toNat c.1 v.length → ∃ d' gs, addVehicle fl mktime buf d = .ok (true, d') ∧
            Bogeys (fl (17 / 10)) v.na.toNat v.spacing gs ∧
            AxlesAdded il (gs.flatMap (entries fl v.na.toNat c.2)) { d with HVPL := inc d.HVPL il } d')))) := by
  obtain ⟨ht, hil, ⟨n, hn, hL⟩, hna, hw, hs0, hs⟩ := hv
  have hpre : ∀ (R : Res (Bool × Day)), (if v.time ≠ d.day then .ok (false, d) else
      if v.lane - 1 < 0 ∨ v.lane - 1 ≥ 6 then .ok (false, d) else R) = addVehicle fl mktime buf d →
      (v.time ≠ d.day ∨ v.lane < 1 ∨ 6 < v.lane → addVehicle fl mktime buf d = .ok (false, d)) ∧
      (v.time = d.day → 1 ≤ v.lane → v.lane ≤ 6 → addVehicle fl mktime buf d = R) := by
    intro R hR
    rw [← hR]
    constructor
    · intro h
      by_cases h1 : v.time ≠ d.day
      · rw [if_pos h1]
      · rw [if_neg h1, if_pos]
        rcases h with h | h | h
        · exact absurd h h1
        · left; omega
        · right; omega
    · intro h1 h2 h3
      rw [if_neg (by simpa using h1), if_neg (by omega)]
  have hdef : addVehicle fl mktime buf d = addVehicle fl mktime buf d := rfl
  conv_rhs at hdef => simp only [addVehicle, ht, Res.ok_bind, hil, hn, hna]
  obtain ⟨hrej, hacc⟩ := hpre _ hdef.symm
  refine ⟨hrej, fun h1 h2 h3 => ?_⟩
  have hR := hacc h1 h2 h3
  rw [← hL] at hR
  refine ⟨fun h => by rw [hR, if_pos h], fun h => ?_⟩
  rw [if_neg (not_lt.2 h)] at hR
  refine ⟨fun h' => by rw [hR, if_pos h'], fun ha hb => ?_⟩
  rw [if_neg (by omega)] at hR
  have hnat : v.na.toNat ≤ 15 := by omega
  generalize hN : v.na.toNat = N at *
  choose! ws hws hws' using hw
  choose! ss hss hss' using hs
  have hf1 : fields (fun ia => str2int (some (buf.drop (54 + ia * 9))) 3) N 0 = .ok ((List.range N).map fun j => ws (0 + j)) :=
    fields_ok _ ws N 0 fun j _ hj => hws j (by omega)
  have hf2 : fields (fun ia => str2int (some (buf.drop (49 + ia * 9))) 4) (N - 1) 1 = .ok ((List.range (N - 1)).map fun j => ss (1 + j)) :=
    fields_ok _ ss (N - 1) 1 fun j hj hj' => hss j (by omega) (by omega)
  simp only [hf1, hf2, Res.ok_bind] at hR
  -- the arrays agree with the vehicle for the axles that exist
  generalize hAW : (fun i => fl (fl (1 / 10) * ((((List.range N).map fun j => ws (0 + j)).getD i 0 : Int) : ℚ))) = AW at hR
  generalize hAS : (fun i => if i = 0 then (0 : ℚ) else fl (fl (1 / 100) * ((((List.range (N - 1)).map fun j => ss (1 + j)).getD (i - 1) 0 : Int) : ℚ))) = AS at hR
  have eW : ∀ i, i < N → AW i = v.weight i := by
    intro i hi
    rw [← hAW, hws' i (by omega)]
    simp [List.getD, hi]
  have eS : ∀ i, i < N → AS i = v.spacing i := by
    intro i hi
    rw [← hAS]
    by_cases h0 : i = 0
    · subst h0; simp [hs0]
    · rw [hss' i (by omega) (by omega)]
      have : i - 1 < N - 1 := by omega
      have e1 : 1 + (i - 1) = i := by omega
      simp [List.getD, this, h0, e1]
  have eG : (List.range N).foldl (fun g i => fl (g + AW i)) 0 = v.mass fl := by
    rw [Vehicle.mass, hN]
    exact foldl_congr' _ _ _ _ fun b x hx => by rw [eW x (List.mem_range.1 hx)]
  have eG' : (List.range N).foldl (fun g i => fl (g + fl (fl (1 / 10) * ((((List.range N).map fun j => ws (0 + j)).getD i 0 : Int) : ℚ)))) 0 =
      v.mass fl := by rw [← eG, ← hAW]
  rw [eG'] at hR
  have eC : (correct fl N AS AW (v.mass fl)).1 = (correct fl N v.spacing v.weight (v.mass fl)).1 ∧
      ∀ i, i < N → (correct fl N AS AW (v.mass fl)).2 i = (correct fl N v.spacing v.weight (v.mass fl)).2 i := by
    simp only [correct]
    by_cases h2 : N = 2
    · rw [eS 1 (by omega)]
      split_ifs
      · exact ⟨rfl, fun i hi => by simp only []; rw [eW i hi]⟩
      · exact ⟨rfl, eW⟩
    · rw [if_neg (fun h => h2 h.1), if_neg (fun h => h2 h.1)]
      exact ⟨rfl, eW⟩
  rw [eC.1] at hR
  refine ⟨fun hl => by rw [hR, if_pos hl], fun hl => ?_⟩
  rw [if_neg hl] at hR
  obtain ⟨gs, g1, g2, g3⟩ := axles_spec fl (v.lane - 1).toNat N (correct fl N AS AW (v.mass fl)).2 AS N 0 (Nat.zero_le _) (by omega)
    (fun h => absurd rfl h) { d with HVPL := inc d.HVPL (v.lane - 1).toNat }
  refine ⟨_, gs, hR, ⟨g1, fun g hg => ?_⟩, ?_⟩
  · have hle := consecutive_le g1 g hg
    obtain ⟨k1, k2⟩ := g2 g hg
    refine ⟨fun i hi hi' => ?_, fun h0 => ?_⟩
    · rw [← eS _ (by omega)]; exact k1 i hi hi'
    · by_cases hz : g.2 = 0
      · exfalso
        have : ∀ (gs : List (Nat × Nat)) a, Consecutive a gs N → ∀ g ∈ gs, 0 < g.2 := by
          intro gs
          induction gs with
          | nil => simp
          | cons x xs ih =>
            intro a h g hg
            rcases List.mem_cons.1 hg with rfl | hg
            · exact h.2.1
            · exact ih _ h.2.2 g hg
        have := this gs 0 g1 g hg
        omega
      · rw [← eS _ (by omega)]; exact k2 h0
  · have : gs.flatMap (entries fl N (correct fl N AS AW (v.mass fl)).2) =
        gs.flatMap (entries fl N (correct fl N v.spacing v.weight (v.mass fl)).2) := by
      rw [List.flatMap, List.flatMap]
      congr 1
      refine List.map_congr_left fun g hg => entries_congr fl N _ _ g fun i hi => eC.2 _ ?_
      have := consecutive_le g1 g hg
      omega
    rw [← this]
    exact g3

/-- **C56**: for any record, any rounding and any day's counts:
* a vehicle of another day, lane or (if it is long enough) number of axles is rejected without changes;
* otherwise it is accepted, and exactly one of the short vehicles, the light vehicles of its lane or the heavy vehicles of its
  lane grows by one;
* the axle counts change only for a heavy vehicle and only in its lane: its axles are partitioned into the maximal runs of
  axles at most 1.7 m apart, and each is counted in the bin of its type and weight. -/
theorem C56_counted (fl : ℚ → ℚ) (mktime : Int × Int × Int → Int) (buf : List Int) (v : Vehicle)
    (hv : Holds fl mktime buf v) (d : Day) :
    (v.time ≠ d.day ∨ v.lane < 1 ∨ 6 < v.lane → addVehicle fl mktime buf d = .ok (false, d)) ∧
    (v.time = d.day → 1 ≤ v.lane → v.lane ≤ 6 →
      (v.length < 5 / 2 → addVehicle fl mktime buf d = .ok (true, { d with SV := d.SV + 1 })) ∧
      (5 / 2 ≤ v.length →
        (v.na < 0 ∨ 15 < v.na → addVehicle fl mktime buf d = .ok (false, d)) ∧
        (0 ≤ v.na → v.na ≤ 15 →
          let il := (v.lane - 1).toNat
          (Light fl v.na.toNat (massUsed fl v) v.length → addVehicle fl mktime buf d = .ok (true, { d with LVPL := inc d.LVPL il })) ∧
          (¬ Light fl v.na.toNat (massUsed fl v) v.length → ∃ d' gs, addVehicle fl mktime buf d = .ok (true, d') ∧
            Bogeys (fl (17 / 10)) v.na.toNat v.spacing gs ∧
            AxlesAdded il (gs.flatMap (entries fl v.na.toNat (weightUsed fl v))) { d with HVPL := inc d.HVPL il } d')))) := by
  have h := counted fl mktime buf v hv d
  simpa only [correct_used, isLight_iff] using h


theorem bogeys_unique_aux (lim : ℚ) (na : Nat) (AS : Nat → ℚ) : ∀ (gs gs' : List (Nat × Nat)) (a : Nat),
    Consecutive a gs na → Consecutive a gs' na →
    (∀ g ∈ gs, (∀ i, 0 < i → i < g.2 → AS (g.1 + i) ≤ lim) ∧ (g.1 ≠ 0 → lim < AS g.1)) →
    (∀ g ∈ gs', (∀ i, 0 < i → i < g.2 → AS (g.1 + i) ≤ lim) ∧ (g.1 ≠ 0 → lim < AS g.1)) → gs = gs' := by
  have hlt : ∀ (a n n' : Nat) (gs gs' : List (Nat × Nat)), Consecutive a ((a, n) :: gs) na → Consecutive a ((a, n') :: gs') na →
      (∀ g ∈ (a, n) :: gs, (∀ i, 0 < i → i < g.2 → AS (g.1 + i) ≤ lim) ∧ (g.1 ≠ 0 → lim < AS g.1)) →
      (∀ g ∈ (a, n') :: gs', (∀ i, 0 < i → i < g.2 → AS (g.1 + i) ≤ lim) ∧ (g.1 ≠ 0 → lim < AS g.1)) → ¬ n < n' := by
    intro a n n' gs gs' h h' hg hg' hn
    have hle := (consecutive_le h' (a, n') (by simp)).2
    have h3 : Consecutive (a + n) gs na := h.2.2
    cases gs with
    | nil =>
      have : a + n = na := h3
      simp only at hle
      omega
    | cons g gs =>
      have e : g.1 = a + n := h3.1
      have h1 := (hg g (by simp)).2 (by have := h.2.1; omega)
      have h2 := (hg' (a, n') (by simp)).1 n h.2.1 hn
      rw [e] at h1
      exact absurd h2 (not_le.2 h1)
  intro gs
  induction gs with
  | nil =>
    intro gs' a h h' _ _
    cases gs' with
    | nil => rfl
    | cons g gs' =>
      have h1 : a = na := h
      have := (consecutive_le h' g (by simp)).2
      have h2 := h'.1
      have h3 := h'.2.1
      omega
  | cons g gs ih =>
    intro gs' a h h' hg hg'
    cases gs' with
    | nil =>
      have h1 : a = na := h'
      have := (consecutive_le h g (by simp)).2
      have h2 := h.1
      have h3 := h.2.1
      omega
    | cons g' gs' =>
      obtain ⟨s, n⟩ := g
      obtain ⟨s', n'⟩ := g'
      obtain rfl : s = a := h.1
      obtain rfl : s' = s := h'.1
      have h1 := hlt s' n n' gs gs' h h' hg hg'
      have h2 := hlt s' n' n gs' gs h' h hg' hg
      obtain rfl : n = n' := by omega
      rw [ih gs' (s' + n) h.2.2 h'.2.2 (fun g hx => hg g (by simp [hx])) fun g hx => hg' g (by simp [hx])]

/-- The groups are determined by the spacings. -/
theorem C56_groups_unique (lim : ℚ) (na : Nat) (AS : Nat → ℚ) (gs gs' : List (Nat × Nat)) (h : Bogeys lim na AS gs)
    (h' : Bogeys lim na AS gs') : gs = gs' := bogeys_unique_aux lim na AS gs gs' 0 h.1 h'.1 h.2 h'.2

/-- **C56**, bins: every entry of a group belongs to an existing axle type and load bin, and a group of up to three axles has one
entry, a longer one an entry for each axle. -/
theorem C56_bins (fl : ℚ → ℚ) (na : Nat) (AW : Nat → ℚ) (g : Nat × Nat) (hg : 0 < g.2) :
    (∀ e ∈ entries fl na AW g, e.1 < 5 ∧ e.2 < 21) ∧ (entries fl na AW g).length = if 3 < g.2 then g.2 else 1 := by
  have hb : ∀ w, loadBin w < 21 := fun w => by simp only [loadBin]; omega
  simp only [entries]
  split_ifs with h h1 h2
  · refine ⟨fun e he => ?_, by simp⟩
    obtain ⟨i, _, rfl⟩ := List.mem_map.1 he
    exact ⟨by norm_num, hb _⟩
  all_goals
    refine ⟨fun e he => ?_, rfl⟩
    rw [List.mem_singleton] at he
    subst he
    exact ⟨by dsimp only; omega, hb _⟩

/-- A five axle truck: length 18 m, weights 6, 8, 8, 7, 7 t, spacings 3.5, 1.3, 6, 1.3 m. -/
def truck : List Int := blank 25 ++ chars [1] ++ blank 7 ++ chars [1, 8, 0, 0] ++ blank 15 ++ chars [5] ++ blank 1 ++ chars [0, 6, 0] ++
  blank 1 ++ chars [0, 3, 5, 0] ++ blank 1 ++ chars [0, 8, 0] ++ blank 1 ++ chars [0, 1, 3, 0] ++ blank 1 ++ chars [0, 8, 0] ++
  blank 1 ++ chars [0, 6, 0, 0] ++ blank 1 ++ chars [0, 7, 0] ++ blank 1 ++ chars [0, 1, 3, 0] ++ blank 1 ++ chars [0, 7, 0] ++ blank 163

/-- Two tandems in bins 8 and 7 and a steering axle in bin 6. -/
example : truck.length = 256 ∧ (match addVehicle id (fun _ => 0) truck (Day.clear (-1)) with
    | .ok (true, d) => decide (d.HVPL 0 = 1 ∧ d.WG 0 0 6 = 1 ∧ d.WG 0 2 8 = 1 ∧ d.WG 0 2 7 = 1 ∧ d.SV = 0)
    | _ => false) = true := by
  decide +kernel

end OP.Traffic
