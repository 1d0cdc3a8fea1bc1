import Verif.Traffic.PropsCount
import Mathlib.Algebra.BigOperators.Intervals
/-!
# C127: the totals of a day
-/
namespace OP.Traffic
open Finset

/-! ## The functions -/

/-- `TLV` (src/traffic.h:102-107). -/
def Day.TLV (d : Day) : Nat := (List.range 6).foldl (fun s l => s + d.LVPL l) 0

/-- `THV` (src/traffic.h:109-114). -/
def Day.THV (d : Day) : Nat := (List.range 6).foldl (fun s l => s + d.HVPL l) 0

/-- `TV` (src/traffic.h:98-100). -/
def Day.TV (d : Day) : Nat := d.TLV + d.THV

/-- `VPL` (src/traffic.h:116-118). -/
def Day.VPL (d : Day) (l : Nat) : Nat := d.LVPL l + d.HVPL l

/-- `TAC` (src/traffic.h:120-125). -/
def Day.TAC (d : Day) (l : Nat) : Nat := (List.range 5).foldl (fun s t => s + d.AC l t) 0

/-! ## Specification -/

/-- The axles behind the counts: a tandem has two, a tridem three; steering axles, single axles and the axles of larger groups are counted one by one. -/
def Day.axlesSeen (d : Day) : Nat := d.AxC 0 + d.AxC 1 + 2 * d.AxC 2 + 3 * d.AxC 3 + d.AxC 4

/-- The records of a file, one after another, and how many of them were accepted. -/
def addAll (fl : ℚ → ℚ) (mktime : Int × Int × Int → Int) : List (List Int) → Day → Res (Nat × Day)
  | [], d => .ok (0, d)
  | b :: bs, d => addVehicle fl mktime b d >>= fun r => addAll fl mktime bs r.2 >>= fun s => .ok ((if r.1 then 1 else 0) + s.1, s.2)

/-! ## Lemmas -/

theorem foldl_sum (f : Nat → Nat) (n : Nat) : (List.range n).foldl (fun s l => s + f l) 0 = ∑ l ∈ range n, f l := by
  induction n with
  | zero => rfl
  | succ n ih => rw [List.range_succ, List.foldl_append, ih, sum_range_succ]; rfl

theorem AC_eq (d : Day) (l t : Nat) : d.AC l t = ∑ i ∈ range 21, d.WG l t i := foldl_sum _ _
theorem AxC_eq (d : Day) (t : Nat) : d.AxC t = ∑ l ∈ range 6, ∑ i ∈ range 21, d.WG l t i := by
  rw [Day.AxC, foldl_sum]; exact sum_congr rfl fun l _ => AC_eq d l t
theorem TAC_eq (d : Day) (l : Nat) : d.TAC l = ∑ t ∈ range 5, ∑ i ∈ range 21, d.WG l t i := by
  rw [Day.TAC, foldl_sum]; exact sum_congr rfl fun t _ => AC_eq d l t
theorem TLV_eq (d : Day) : d.TLV = ∑ l ∈ range 6, d.LVPL l := foldl_sum _ _
theorem THV_eq (d : Day) : d.THV = ∑ l ∈ range 6, d.HVPL l := foldl_sum _ _

theorem sum_inc (f : Nat → Nat) {i n : Nat} (h : i < n) : ∑ l ∈ range n, inc f i l = (∑ l ∈ range n, f l) + 1 := by
  have : ∀ l ∈ range n, inc f i l = f l + if l = i then 1 else 0 := fun l _ => by unfold inc; split <;> rfl
  rw [sum_congr rfl this, sum_add_distrib, sum_ite_eq' (range n) i, if_pos (mem_range.2 h)]

/-- The entries of a type. -/
theorem count_type (N : Nat) (es : List (Nat × Nat)) (h : ∀ e ∈ es, e.2 < N) (t : Nat) : ∑ i ∈ range N, es.count (t, i) = (es.filter fun e => e.1 = t).length := by
  induction es with
  | nil => simp
  | cons e es ih =>
    have h1 := ih fun x hx => h x (List.mem_cons_of_mem _ hx)
    have h2 := h e List.mem_cons_self
    simp only [List.count_cons, sum_add_distrib, h1]
    by_cases ht : e.1 = t
    · rw [List.filter_cons_of_pos (by simpa using ht), List.length_cons]
      refine Nat.add_left_cancel_iff.2 ?_
      rw [sum_eq_single e.2]
      · rw [if_pos (by rw [← ht]; simp)]
      · intro i _ hi
        rw [if_neg (by simp only [beq_iff_eq, Prod.ext_iff, not_and]; exact fun _ hh => hi hh.symm)]
      · intro hn; exact absurd (mem_range.2 h2) hn
    · rw [List.filter_cons_of_neg (by simpa using ht)]
      rw [sum_eq_zero, Nat.add_zero]
      intro i _
      rw [if_neg (by simp only [beq_iff_eq, Prod.ext_iff, not_and]; exact fun hh => absurd hh ht)]

theorem AxC_added {il : Nat} (hil : il < 6) {es : List (Nat × Nat)} (h : ∀ e ∈ es, e.2 < 21) {d d' : Day} (ha : AxlesAdded il es d d') (t : Nat) :
    d'.AxC t = d.AxC t + (es.filter fun e => e.1 = t).length := by
  rw [AxC_eq, AxC_eq, ← count_type 21 es h t]
  simp only [ha.2.2.2.2, sum_add_distrib]
  refine Nat.add_left_cancel_iff.2 ?_
  rw [sum_eq_single il]
  · simp
  · intro l _ hl
    simp [hl]
  · intro hn; exact absurd (mem_range.2 hil) hn

/-- The axles of a list of entries. -/
def axlesOf (es : List (Nat × Nat)) : Nat := (es.map fun e => if e.1 = 2 then 2 else if e.1 = 3 then 3 else 1).sum

theorem axlesOf_append (a b : List (Nat × Nat)) : axlesOf (a ++ b) = axlesOf a + axlesOf b := by simp [axlesOf]

theorem axlesOf_types (es : List (Nat × Nat)) (h : ∀ e ∈ es, e.1 < 5) : axlesOf es = (es.filter fun e => e.1 = 0).length + (es.filter fun e => e.1 = 1).length +
    2 * (es.filter fun e => e.1 = 2).length + 3 * (es.filter fun e => e.1 = 3).length + (es.filter fun e => e.1 = 4).length := by
  induction es with
  | nil => rfl
  | cons e es ih =>
    have h1 := ih fun x hx => h x (List.mem_cons_of_mem _ hx)
    have h2 := h e List.mem_cons_self
    have h3 : axlesOf (e :: es) = (if e.1 = 2 then 2 else if e.1 = 3 then 3 else 1) + axlesOf es := rfl
    rw [h3, h1]
    simp only [List.filter_cons, decide_eq_true_eq]
    have : e.1 = 0 ∨ e.1 = 1 ∨ e.1 = 2 ∨ e.1 = 3 ∨ e.1 = 4 := by omega
    rcases this with q | q | q | q | q <;> rw [q] <;> simp <;> omega

theorem axlesOf_entries (fl : ℚ → ℚ) (na : Nat) (AW : Nat → ℚ) (g : Nat × Nat) (hg : 0 < g.2) : axlesOf (entries fl na AW g) = g.2 := by
  unfold entries
  by_cases h : 3 < g.2
  · rw [if_pos h]
    unfold axlesOf
    rw [List.map_map]
    have : ((fun e : Nat × Nat => if e.1 = 2 then 2 else if e.1 = 3 then 3 else 1) ∘ fun i => (4, loadBin (AW (g.1 + i)))) = fun _ : Nat => 1 := by
      funext i; simp
    rw [this]
    simp
  · rw [if_neg h]
    have : g.2 = 1 ∨ g.2 = 2 ∨ g.2 = 3 := by omega
    rcases this with q | q | q
    · rw [q, if_pos rfl]
      unfold axlesOf
      by_cases h1 : g.1 = 0 ∧ 1 < na <;> simp [h1]
    · simp [q, axlesOf]
    · simp [q, axlesOf]

theorem axlesOf_groups (fl : ℚ → ℚ) (na : Nat) (AW : Nat → ℚ) : ∀ (gs : List (Nat × Nat)) (a b : Nat), Consecutive a gs b →
    a + axlesOf (gs.flatMap (entries fl na AW)) = b ∧ ∀ e ∈ gs.flatMap (entries fl na AW), e.1 < 5 ∧ e.2 < 21
  | [], a, b, h => ⟨h, fun e he => by simp at he⟩
  | (s, n) :: gs, a, b, h => by
    obtain ⟨h1, h2⟩ := axlesOf_groups fl na AW gs (a + n) b h.2.2
    rw [List.flatMap_cons, axlesOf_append, axlesOf_entries fl na AW (s, n) h.2.1]
    refine ⟨by dsimp only; omega, fun e he => ?_⟩
    rcases List.mem_append.1 he with he | he
    · exact (C56_bins fl na AW (s, n) h.2.1).1 e he
    · exact h2 e he

/-! ## Theorems -/

/-- **C127**, agreement: the vehicles of all lanes are the light and the heavy ones, and the axle counts summed by lane and by type are the same. -/
theorem C127_agree (d : Day) : d.TV = ∑ l ∈ range 6, d.VPL l ∧ d.TV = (∑ l ∈ range 6, d.LVPL l) + ∑ l ∈ range 6, d.HVPL l ∧
    (∀ t, d.AxC t = ∑ l ∈ range 6, d.AC l t) ∧ (∀ l, d.TAC l = ∑ t ∈ range 5, d.AC l t) ∧ (∀ l t, d.AC l t = ∑ i ∈ range 21, d.WG l t i) ∧
    ∑ l ∈ range 6, d.TAC l = ∑ t ∈ range 5, d.AxC t := by
  refine ⟨?_, ?_, fun t => foldl_sum _ _, fun l => foldl_sum _ _, AC_eq d, ?_⟩
  · rw [Day.TV, TLV_eq, THV_eq, ← sum_add_distrib]; rfl
  · rw [Day.TV, TLV_eq, THV_eq]
  · simp only [TAC_eq, AxC_eq]
    exact sum_comm

/-- **C127**, surveys: the totals of a sum of days are the sums of the totals. -/
theorem C127_add (fl : ℚ → ℚ) (a b : Day) : (a.add fl b).TV = a.TV + b.TV ∧ (∀ l, (a.add fl b).VPL l = a.VPL l + b.VPL l) ∧
    (∀ l, (a.add fl b).TAC l = a.TAC l + b.TAC l) ∧ (∀ t, (a.add fl b).AxC t = a.AxC t + b.AxC t) ∧ (a.add fl b).axlesSeen = a.axlesSeen + b.axlesSeen := by
  have h : ∀ t, (a.add fl b).AxC t = a.AxC t + b.AxC t := fun t => by simp only [AxC_eq, Day.add, sum_add_distrib]
  refine ⟨?_, fun l => ?_, fun l => ?_, h, ?_⟩
  · simp only [Day.TV, TLV_eq, THV_eq, Day.add, sum_add_distrib]; omega
  · simp only [Day.VPL, Day.add]; omega
  · simp only [TAC_eq, Day.add, sum_add_distrib]
  · simp only [Day.axlesSeen, h]; omega

/-- **C127**, one record: it either changes nothing, or it adds one vehicle to the short ones or to the total; a heavy one adds all of its axles to the counts and others add none. -/
theorem C127_vehicle (fl : ℚ → ℚ) (mktime : Int × Int × Int → Int) (buf : List Int) (v : Vehicle) (hv : Holds fl mktime buf v) (d : Day) :
    ∃ ok d', addVehicle fl mktime buf d = .ok (ok, d') ∧ (ok = false → d' = d) ∧
      (ok = true → d'.SV + d'.TV = d.SV + d.TV + 1 ∧ d.SV ≤ d'.SV ∧ d.TLV ≤ d'.TLV ∧ d.THV ≤ d'.THV ∧
        d'.axlesSeen = d.axlesSeen + (d'.THV - d.THV) * v.na.toNat) := by
  obtain ⟨h1, h2⟩ := C56_counted fl mktime buf v hv d
  by_cases hr : v.time ≠ d.day ∨ v.lane < 1 ∨ 6 < v.lane
  · exact ⟨false, d, h1 hr, fun _ => rfl, fun h => by simp at h⟩
  obtain ⟨h3, h4⟩ := h2 (by by_contra h; exact hr (.inl h)) (by omega) (by omega)
  by_cases hL : v.length < 5 / 2
  · refine ⟨true, _, h3 hL, fun h => by simp at h, fun _ => ⟨?_, ?_, le_rfl, le_rfl, ?_⟩⟩
    · simp only [Day.TV, Day.TLV, Day.THV]; omega
    · dsimp only; omega
    · have : ({ d with SV := d.SV + 1 } : Day).THV = d.THV := rfl
      rw [this, Nat.sub_self, Nat.zero_mul]
      rfl
  obtain ⟨h5, h6⟩ := h4 (not_lt.1 hL)
  by_cases hn : v.na < 0 ∨ 15 < v.na
  · exact ⟨false, d, h5 hn, fun _ => rfl, fun h => by simp at h⟩
  obtain ⟨h7, h8⟩ := h6 (by omega) (by omega)
  have hil : (v.lane - 1).toNat < 6 := by omega
  by_cases hl : Light fl v.na.toNat (massUsed fl v) v.length
  · refine ⟨true, _, h7 hl, fun h => by simp at h, fun _ => ?_⟩
    have e1 : ({ d with LVPL := inc d.LVPL (v.lane - 1).toNat } : Day).TLV = d.TLV + 1 := by
      rw [TLV_eq, TLV_eq]; exact sum_inc _ hil
    have e2 : ({ d with LVPL := inc d.LVPL (v.lane - 1).toNat } : Day).THV = d.THV := rfl
    refine ⟨?_, le_rfl, by omega, e2.ge, ?_⟩
    · simp only [Day.TV, e1, e2]; omega
    · rw [e2, Nat.sub_self, Nat.zero_mul]; rfl
  · obtain ⟨d', gs, e, hb, ha⟩ := h8 hl
    obtain ⟨g1, g2⟩ := axlesOf_groups fl v.na.toNat (weightUsed fl v) gs 0 _ hb.1
    refine ⟨true, d', e, fun h => by simp at h, fun _ => ?_⟩
    have e1 : d'.THV = d.THV + 1 := by
      rw [THV_eq, THV_eq, ha.2.2.2.1]; exact sum_inc _ hil
    have e2 : d'.TLV = d.TLV := by rw [TLV_eq, TLV_eq, ha.2.2.1]
    have e3 : d'.SV = d.SV := ha.2.1
    have e4 := AxC_added hil (fun e he => (g2 e he).2) ha
    have e5 : ∀ t, ({ d with HVPL := inc d.HVPL (v.lane - 1).toNat } : Day).AxC t = d.AxC t := fun t => rfl
    have e6 := axlesOf_types _ fun e he => (g2 e he).1
    refine ⟨by simp only [Day.TV, e1, e2, e3]; omega, e3.ge, e2.ge, by omega, ?_⟩
    rw [e1, Nat.add_sub_cancel_left, Nat.one_mul]
    simp only [Day.axlesSeen, e4, e5]
    omega

/-- **C127**, a file: of any number of records of the length that is read, as many are counted as are accepted, each once. -/
theorem C127_file (fl : ℚ → ℚ) (mktime : Int × Int × Int → Int) : ∀ (bufs : List (List Int)) (d : Day), (∀ b ∈ bufs, 256 ≤ b.length) →
    ∃ n d', addAll fl mktime bufs d = .ok (n, d') ∧ n ≤ bufs.length ∧ d'.SV + d'.TV = d.SV + d.TV + n ∧ d.axlesSeen ≤ d'.axlesSeen ∧
      d'.axlesSeen ≤ d.axlesSeen + 15 * (d'.THV - d.THV) ∧ d.THV ≤ d'.THV
  | [], d, _ => ⟨0, d, rfl, le_rfl, rfl, le_rfl, by omega, le_rfl⟩
  | b :: bs, d, hb => by
    obtain ⟨v, hv⟩ := holds_exists fl mktime b (hb b List.mem_cons_self)
    obtain ⟨ok, d1, e1, h1, h2⟩ := C127_vehicle fl mktime b v hv d
    obtain ⟨n, d', e2, h3, h4, h5, h6, h7⟩ := C127_file fl mktime bs d1 fun x hx => hb x (List.mem_cons_of_mem _ hx)
    refine ⟨(if ok then 1 else 0) + n, d', by rw [addAll, e1, Res.ok_bind, e2, Res.ok_bind], ?_⟩
    cases ok with
    | false =>
      have := h1 rfl
      subst this
      rw [List.length_cons]
      exact ⟨by simp; omega, by simp; omega, h5, h6, h7⟩
    | true =>
      obtain ⟨g1, g2, g3, g4, g5⟩ := h2 rfl
      have hle : (d1.THV - d.THV) * v.na.toNat ≤ 15 * (d1.THV - d.THV) := by
        have h8 := (C56_counted fl mktime b v hv d)
        by_cases hna : v.na.toNat ≤ 15
        · rw [Nat.mul_comm]; exact Nat.mul_le_mul_right _ hna
        · have : d1.THV = d.THV := by
            by_cases hr : v.time ≠ d.day ∨ v.lane < 1 ∨ 6 < v.lane
            · have := h8.1 hr; rw [e1] at this; simp at this
            · obtain ⟨h9, h10⟩ := h8.2 (by by_contra h; exact hr (.inl h)) (by omega) (by omega)
              by_cases hL : v.length < 5 / 2
              · have := h9 hL; rw [e1] at this
                have : d1 = { d with SV := d.SV + 1 } := by injection this with h; exact (Prod.ext_iff.1 h).2
                rw [this]; rfl
              · have := (h10 (not_lt.1 hL)).1 (by omega); rw [e1] at this; simp at this
          rw [this]; simp
      rw [List.length_cons]
      refine ⟨by simp; omega, by simp; omega, by omega, ?_, by omega⟩
      have : d'.THV - d.THV = (d'.THV - d1.THV) + (d1.THV - d.THV) := by omega
      rw [this]
      omega

/-- The truck of C56, twice, and a record that is not one: two heavy vehicles with five axles each. -/
example : (match addAll id (fun _ => 0) [truck, blank 256, truck] (Day.clear (-1)) with
    | .ok (n, d) => decide (n = 2 ∧ d.THV = 2 ∧ d.TV = 2 ∧ d.TAC 0 = 6 ∧ d.AxC 2 = 4 ∧ d.axlesSeen = 10)
    | _ => false) = true := by
  decide +kernel

end OP.Traffic
