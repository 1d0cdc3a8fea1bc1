import Verif.Traffic.PropsCount
import Verif.Traffic.PropsLine
/-!
# C57, C74: surveys
-/
namespace OP.Traffic

/-! ## Specification -/

/-- The counters of a day: short vehicles, light and heavy vehicles of a lane, axles of a lane, type and bin. -/
inductive Counter where
  | short
  | light (l : Nat)
  | heavy (l : Nat)
  | axles (l t i : Nat)

def Day.get (d : Day) : Counter → Nat
  | .short => d.SV
  | .light l => d.LVPL l
  | .heavy l => d.HVPL l
  | .axles l t i => d.WG l t i

/-- The days a survey sums. -/
def Survey.covers (s : Survey) (t : Int) : Prop := s.start ≤ t ∧ t ≤ s.fin

instance (s : Survey) (t : Int) : Decidable (s.covers t) := by unfold Survey.covers; infer_instance

/-- The sum of a counter over the days in range. -/
def total (s : Survey) (c : Counter) (f : List Day) : Nat := ((f.filter fun d => s.covers d.day).map fun d => d.get c).sum

/-! ## C57 -/

theorem get_add (fl : ℚ → ℚ) (a b : Day) (c : Counter) : (a.add fl b).get c = a.get c + b.get c := by
  cases c <;> rfl

/-- **C57**, addition: day totals add componentwise. -/
theorem C57_add (fl : ℚ → ℚ) (a b : Day) (c : Counter) : (a.add fl b).get c = a.get c + b.get c := get_add fl a b c

theorem addIf_range (fl : ℚ → ℚ) (s : Survey) (d : Day) : (s.addIf fl d).start = s.start ∧ (s.addIf fl d).fin = s.fin := by
  unfold Survey.addIf; split_ifs <;> exact ⟨rfl, rfl⟩

theorem addIf_get (fl : ℚ → ℚ) (s : Survey) (d : Day) (c : Counter) :
    (s.addIf fl d).tot.get c = s.tot.get c + if s.covers d.day then d.get c else 0 := by
  by_cases h : s.covers d.day
  · rw [if_pos h, Survey.addIf, if_pos (show s.start ≤ d.day ∧ s.fin ≥ d.day from h)]
    exact get_add fl _ _ c
  · rw [if_neg h, Survey.addIf, if_neg (show ¬ (s.start ≤ d.day ∧ s.fin ≥ d.day) from h), Nat.add_zero]

theorem readLoop_get (fl : ℚ → ℚ) (f : List Day) (d : Day) (s : Survey) (c : Counter) :
    (readLoop fl f d s).tot.get c = s.tot.get c + total s c f + if s.covers (f.getLastD d).day then (f.getLastD d).get c else 0 := by
  induction f generalizing d s with
  | nil => simp [readLoop, addIf_get, total]
  | cons r rs ih =>
    obtain ⟨h1, h2⟩ := addIf_range fl s r
    have hc : ∀ t, (s.addIf fl r).covers t ↔ s.covers t := fun t => by simp [Survey.covers, h1, h2]
    have ht : total (s.addIf fl r) c rs = total s c rs := by
      simp only [total]
      congr 2
      refine List.filter_congr fun x _ => ?_
      simp [hc]
    rw [readLoop, ih, addIf_get, ht, List.getLastD_cons]
    simp only [hc]
    have : total s c (r :: rs) = (if s.covers r.day then r.get c else 0) + total s c rs := by
      simp only [total, List.filter_cons]
      split_ifs with h h' h'
      · simp
      · exact absurd (by simpa using h) h'
      · exact absurd (by simpa using h') h
      · simp
    rw [this]
    omega

/-- **C57** if the last day of the file is not in range: reading adds each day in range exactly once. -/
theorem C57_read_partial (fl : ℚ → ℚ) (s : Survey) (f : List Day) (last : Day) (hl : ¬ s.covers last.day) (c : Counter) :
    (s.read fl (f ++ [last])).tot.get c = s.tot.get c + total s c (f ++ [last]) := by
  rw [Survey.read, readLoop_get]
  have : (f ++ [last]).getLastD (Day.clear (-1)) = last := by simp
  rw [this, if_neg hl, Nat.add_zero]

/-- **C57** fails for every file whose last day is in range: that day is added twice. -/
theorem C57_read_fails (fl : ℚ → ℚ) (s : Survey) (f : List Day) (last : Day) (hl : s.covers last.day) (c : Counter) :
    (s.read fl (f ++ [last])).tot.get c = s.tot.get c + total s c (f ++ [last]) + last.get c := by
  rw [Survey.read, readLoop_get]
  have : (f ++ [last]).getLastD (Day.clear (-1)) = last := by simp
  rw [this, if_pos hl]

theorem addIf_none (fl : ℚ → ℚ) (s : Survey) (d : Day) (t : Nat) (h : s.tot.AAS t = none) : (s.addIf fl d).tot.AAS t = none := by
  unfold Survey.addIf
  split_ifs
  · simp only [Day.add, average, h, Option.bind_none]
    split_ifs <;> rfl
  · exact h

theorem readLoop_none (fl : ℚ → ℚ) (f : List Day) (d : Day) (s : Survey) (t : Nat) (h : s.tot.AAS t = none) :
    (readLoop fl f d s).tot.AAS t = none := by
  induction f generalizing d s with
  | nil => exact addIf_none fl s d t h
  | cons r rs ih => exact ih r _ (addIf_none fl s r t h)

/-- **C57** fails for the axle spacings: if neither the survey so far nor the first day has axles of a type, the average spacing of
that type is not a number from then on, whatever follows. -/
theorem C57_spacing_fails (fl : ℚ → ℚ) (s : Survey) (r : Day) (f : List Day) (t : Nat) (hr : s.covers r.day)
    (h1 : s.tot.AxC t = 0) (h2 : r.AxC t = 0) : (s.read fl (r :: f)).tot.AAS t = none := by
  rw [Survey.read, readLoop]
  refine readLoop_none fl f r _ t ?_
  have : s.start ≤ r.day ∧ s.fin ≥ r.day := hr
  simp only [Survey.addIf, if_pos this, Day.add, average, h1, h2]
  rfl

/-- A day with one steering axle, and a survey of all days. -/
def demoDay : Day := ((Day.clear 5).incWG 0 0 6)

def demoSurvey : Survey := { tot := Day.clear 0, start := 0, fin := 10 }

/-- One short vehicle on one day becomes two in the survey; the spacing of dual axles is not a number. -/
example : demoSurvey.covers 5 ∧ (demoSurvey.read id [{ demoDay with SV := 1 }]).tot.SV = 2 ∧
    demoSurvey.tot.AxC 1 = 0 ∧ demoDay.AxC 1 = 0 ∧ (demoSurvey.read id [demoDay]).tot.AAS 1 = none := by
  refine ⟨by decide, rfl, rfl, rfl, rfl⟩

example : ¬ demoSurvey.covers (Day.clear 11).day := by decide

/-- **C57** fails for the spacings even where they are numbers: they are sums that are never divided by the number of axles.  A day
with the truck of C56, whose two tandems are both 1.3 m long, has an average tandem spacing of 2.6 m. -/
theorem C57_spacing_sum : (match addVehicle id (fun _ => 0) truck (Day.clear (-1)) with
    | .ok (true, d) => decide (d.AxC 2 = 2 ∧ d.AAS 2 = some (26 / 10) ∧
        (({ tot := Day.clear 0, start := -1, fin := 10 } : Survey).read id [d]).tot.AAS 2 = some (26 / 10))
    | _ => false) = true := by
  decide +kernel

/-! ## C74 -/

/-- The lines of a file, split at the line ends; after the last line end there is one more, maybe empty, line. -/
def lines : List Int → List (List Int)
  | [] => [[]]
  | c :: r => if c = 10 then [] :: lines r else
    match lines r with
    | [] => [[c]]
    | l :: ls => (c :: l) :: ls

/-- The buffers read from a file with the given lines: each line cleaned and cut to 255 characters; the last one gets a space. -/
def bufs : List (List Int) → List (List Int)
  | [] => []
  | [l] => [stored 256 (l.map clean ++ [32])]
  | l :: l' :: ls => stored 256 (l.map clean) :: bufs (l' :: ls)

/-- The vehicle records of a file: lines starting with `13` after the first line starting with `H9`, up to one with `H0`. -/
def records (bytes : List Int) : List (List Int) :=
  ((((bufs (lines bytes)).dropWhile fun b => !starts 72 57 b).tail).takeWhile fun b => !starts 72 48 b).filter
    fun b => starts 49 51 b

/-- The day of a record. -/
def dateOf (mktime : Int × Int × Int → Int) (buf : List Int) : Int :=
  match str2time mktime (some (buf.drop 5)) with
  | .ok t => t
  | _ => 0

/-- What a record adds to a counter, on its own. -/
def contribution (fl : ℚ → ℚ) (mktime : Int × Int × Int → Int) (c : Counter) (buf : List Int) : Nat :=
  match addVehicle fl mktime buf (Day.clear (dateOf mktime buf)) with
  | .ok (_, d) => d.get c
  | _ => 0

/-! ### Lemmas -/

theorem get_axles {il : Nat} {es : List (Nat × Nat)} {d d' : Day} (h : AxlesAdded il es d d') (c : Counter) :
    d'.get c = d.get c + match c with | .axles l t i => (if l = il then es.count (t, i) else 0) | _ => 0 := by
  obtain ⟨_, h2, h3, h4, h5⟩ := h
  cases c with
  | short => simp [Day.get, h2]
  | light l => simp [Day.get, h3]
  | heavy l => simp [Day.get, h4]
  | axles l t i => simp [Day.get, h5]

/-- What a record adds does not depend on the counts so far. -/
theorem addVehicle_get {fl : ℚ → ℚ} {mktime : Int × Int × Int → Int} {buf : List Int} (hlen : 256 ≤ buf.length) (d e : Day)
    (hde : d.day = e.day) : ∃ a b d' e', addVehicle fl mktime buf d = .ok (a, d') ∧ addVehicle fl mktime buf e = .ok (b, e') ∧
      d'.day = d.day ∧ ∀ c, d'.get c + e.get c = e'.get c + d.get c := by
  obtain ⟨v, hv⟩ := holds_exists fl mktime buf hlen
  obtain ⟨h1, h2⟩ := C56_counted fl mktime buf v hv d
  obtain ⟨k1, k2⟩ := C56_counted fl mktime buf v hv e
  rw [← hde] at k1 k2
  by_cases ha : v.time ≠ d.day ∨ v.lane < 1 ∨ 6 < v.lane
  · exact ⟨_, _, _, _, h1 ha, k1 ha, rfl, fun c => Nat.add_comm _ _⟩
  · push Not at ha
    obtain ⟨h3, h4⟩ := h2 ha.1 ha.2.1 ha.2.2
    obtain ⟨k3, k4⟩ := k2 ha.1 ha.2.1 ha.2.2
    by_cases hl : v.length < 5 / 2
    · refine ⟨_, _, _, _, h3 hl, k3 hl, rfl, fun c => ?_⟩
      cases c <;> simp only [Day.get] <;> omega
    · obtain ⟨h5, h6⟩ := h4 (not_lt.1 hl)
      obtain ⟨k5, k6⟩ := k4 (not_lt.1 hl)
      by_cases hn : v.na < 0 ∨ 15 < v.na
      · exact ⟨_, _, _, _, h5 hn, k5 hn, rfl, fun c => Nat.add_comm _ _⟩
      · push Not at hn
        obtain ⟨h7, h8⟩ := h6 hn.1 hn.2
        obtain ⟨k7, k8⟩ := k6 hn.1 hn.2
        by_cases hli : Light fl v.na.toNat (massUsed fl v) v.length
        · refine ⟨_, _, _, _, h7 hli, k7 hli, rfl, fun c => ?_⟩
          cases c <;> simp only [Day.get, inc] <;> (try split_ifs) <;> omega
        · obtain ⟨d', gs, h9, h10, h11⟩ := h8 hli
          obtain ⟨e', gs', k9, k10, k11⟩ := k8 hli
          obtain rfl := C56_groups_unique _ _ _ _ _ h10 k10
          refine ⟨_, _, d', e', h9, k9, h11.1, fun c => ?_⟩
          rw [get_axles h11, get_axles k11]
          cases c <;> simp only [Day.get, inc] <;> (try split_ifs) <;> omega

theorem contribution_get {fl : ℚ → ℚ} {mktime : Int × Int × Int → Int} {buf : List Int} (hlen : 256 ≤ buf.length) (d : Day)
    (hd : d.day = dateOf mktime buf) : ∃ a d', addVehicle fl mktime buf d = .ok (a, d') ∧ d'.day = d.day ∧
      ∀ c, d'.get c = d.get c + contribution fl mktime c buf := by
  obtain ⟨a, b, d', e', h1, h2, h3, h4⟩ := addVehicle_get (fl := fl) (mktime := mktime) hlen d (Day.clear (dateOf mktime buf)) hd
  refine ⟨a, d', h1, h3, fun c => ?_⟩
  have := h4 c
  simp only [contribution, h2]
  have h0 : (Day.clear (dateOf mktime buf)).get c = 0 := by cases c <;> rfl
  omega

/-! ### Lines -/

theorem bufs_length {ls : List (List Int)} : ∀ b ∈ bufs ls, b.length = 256 := by
  have hs : ∀ t, (stored 256 t).length = 256 := fun t => by
    simp only [stored, List.length_append, List.length_replicate, List.length_take]; omega
  induction ls with
  | nil => simp [bufs]
  | cons l ls ih =>
    cases ls with
    | nil => simp [bufs, hs]
    | cons l' ls =>
      intro b hb
      rcases List.mem_cons.1 hb with rfl | hb
      · exact hs _
      · exact ih b hb

/-- The file with the given lines. -/
def joined (ls : List (List Int)) : List Int := [(10 : Int)].intercalate ls

theorem joined_one (l : List Int) : joined [l] = l := by simp [joined]

theorem joined_cons (l l' : List Int) (ls : List (List Int)) : joined (l :: l' :: ls) = l ++ 10 :: joined (l' :: ls) := by
  simp [joined, List.intercalate_cons_cons]

theorem joined_length (ls : List (List Int)) : ls.length ≤ (joined ls).length + 1 := by
  induction ls with
  | nil => simp
  | cons l ls ih =>
    cases ls with
    | nil => simp
    | cons l' ls => rw [joined_cons]; simp at ih ⊢; omega

theorem lines_spec (bytes : List Int) : (∀ l ∈ lines bytes, (10 : Int) ∉ l) ∧ joined (lines bytes) = bytes ∧ lines bytes ≠ [] := by
  induction bytes with
  | nil => simp [lines, joined]
  | cons c r ih =>
    obtain ⟨h1, h2, h3⟩ := ih
    cases hl : lines r with
    | nil => exact absurd hl h3
    | cons l ls =>
      rw [hl] at h1 h2
      simp only [lines, hl]
      by_cases hc : c = 10
      · rw [if_pos hc]
        refine ⟨?_, ?_, by simp⟩
        · intro x hx
          rcases List.mem_cons.1 hx with rfl | hx
          · simp
          · exact h1 x hx
        · rw [joined_cons, h2, hc]; rfl
      · rw [if_neg hc]
        refine ⟨?_, ?_, by simp⟩
        · intro x hx
          rcases List.mem_cons.1 hx with rfl | hx
          · have := h1 l (by simp)
            simp only [List.mem_cons, not_or]
            exact ⟨fun h => hc h.symm, this⟩
          · exact h1 x (by simp [hx])
        · cases ls with
          | nil => rw [joined_one] at h2 ⊢; rw [h2]
          | cons l' ls => rw [joined_cons] at h2 ⊢; rw [← h2]; rfl

theorem fgetln_one (l : List Int) (h : (10 : Int) ∉ l) :
    fgetln 256 { rest := joined [l] } = (stored 256 (l.map clean ++ [32]), { rest := [], eof := true }) := by
  rw [joined_one]; exact C73_last 256 (by norm_num) l h

theorem fgetln_cons (l l' : List Int) (ls : List (List Int)) (h : (10 : Int) ∉ l) :
    fgetln 256 { rest := joined (l :: l' :: ls) } = (stored 256 (l.map clean), { rest := joined (l' :: ls) }) := by
  rw [joined_cons]; exact C73_line_partial 256 (by norm_num) l _ h

/-- After the header: either the end was reached, or the lines after the header are left. -/
theorem toData_spec (ls : List (List Int)) (h : ∀ l ∈ ls, (10 : Int) ∉ l) (hne : ls ≠ []) (k : Nat) (hk : ls.length ≤ k) :
    ((toData k { rest := joined ls }).eof = true ∧ ((bufs ls).dropWhile fun b => !starts 72 57 b).tail = []) ∨
    ∃ ls', ls' ≠ [] ∧ (∀ l ∈ ls', (10 : Int) ∉ l) ∧ toData k { rest := joined ls } = { rest := joined ls' } ∧
      ((bufs ls).dropWhile fun b => !starts 72 57 b).tail = bufs ls' := by
  induction ls generalizing k with
  | nil => exact absurd rfl hne
  | cons l ls ih =>
    obtain ⟨k, rfl⟩ : ∃ k', k = k' + 1 := ⟨k - 1, by simp at hk; omega⟩
    cases ls with
    | nil =>
      left
      simp only [toData, Bool.false_eq_true, if_false, fgetln_one l (h l (by simp))]
      refine ⟨?_, ?_⟩
      · split_ifs
        · rfl
        · cases k <;> simp [toData]
      · simp only [bufs, List.dropWhile]
        split <;> rfl
    | cons l' ls =>
      simp only [toData, Bool.false_eq_true, if_false, fgetln_cons l l' ls (h l (by simp))]
      by_cases hs : starts 72 57 (stored 256 (l.map clean)) = true
      · right
        refine ⟨l' :: ls, by simp, fun x hx => h x (by simp [hx]), by rw [if_pos hs], ?_⟩
        simp [bufs, List.dropWhile, hs]
      · rw [if_neg hs]
        have := ih (fun x hx => h x (by simp [hx])) (by simp) k (by simpa using hk)
        have e : ((bufs (l :: l' :: ls)).dropWhile fun b => !starts 72 57 b) = ((bufs (l' :: ls)).dropWhile fun b => !starts 72 57 b) := by
          rw [bufs, List.dropWhile_cons_of_pos]
          simpa using hs
        rw [e]
        exact this

/-- One vehicle record. -/
def recordStep (fl : ℚ → ℚ) (mktime : Int × Int × Int → Int) (p : Proc) (b : List Int) : Res Proc :=
  str2time mktime (some (b.drop 5)) >>= fun t =>
  let p := if t ≠ p.cur.day then
    { out := p.out ++ [p.cur], sur := p.sur.addIf fl p.cur, cur := Day.clear t } else p
  addVehicle fl mktime b p.cur >>= fun r => .ok { p with cur := r.2 }

def recordSteps (fl : ℚ → ℚ) (mktime : Int × Int × Int → Int) : List (List Int) → Proc → Res Proc
  | [], p => .ok p
  | b :: bs, p => recordStep fl mktime p b >>= recordSteps fl mktime bs

theorem res_assoc {α β γ : Type} (x : Res α) (f : α → Res β) (g : β → Res γ) : ((x >>= f) >>= g) = (x >>= fun a => f a >>= g) := by
  cases x <;> rfl

theorem dataLoop_spec (fl : ℚ → ℚ) (mktime : Int × Int × Int → Int) (ls : List (List Int)) (h : ∀ l ∈ ls, (10 : Int) ∉ l)
    (hne : ls ≠ []) (k : Nat) (hk : ls.length + 1 ≤ k) (p : Proc) :
    dataLoop fl mktime k { rest := joined ls } p =
      recordSteps fl mktime (((bufs ls).takeWhile fun b => !starts 72 48 b).filter fun b => starts 49 51 b) p := by
  induction ls generalizing k p with
  | nil => exact absurd rfl hne
  | cons l ls ih =>
    obtain ⟨k, rfl⟩ : ∃ k', k = k' + 1 := ⟨k - 1, by simp at hk; omega⟩
    cases ls with
    | nil =>
      obtain ⟨k, rfl⟩ : ∃ k', k = k' + 1 := ⟨k - 1, by simp at hk; omega⟩
      have hend : ∀ p, dataLoop fl mktime (k + 1) { rest := [], eof := true } p = .ok p := fun p => by simp [dataLoop]
      simp only [dataLoop, Bool.false_eq_true, if_false, fgetln_one l (h l (by simp)), bufs]
      generalize stored 256 (l.map clean ++ [32]) = b
      by_cases h0 : starts 72 48 b = true
      · simp [h0, recordSteps]
      · by_cases h1 : starts 49 51 b = true
        · simp only [h0, h1, Bool.false_eq_true, if_false, if_true, List.takeWhile, Bool.not_false, List.filter, recordSteps, recordStep, hend,
            res_assoc, Res.ok_bind]
        · simp only [h0, h1, Bool.false_eq_true, if_false, List.takeWhile, Bool.not_false, List.filter, hend, recordSteps, if_true]
    | cons l' ls =>
      have ih' := fun k hk p => ih (fun x hx => h x (by simp [hx])) (by simp) k hk p
      simp only [dataLoop, Bool.false_eq_true, if_false, fgetln_cons l l' ls (h l (by simp)), bufs]
      generalize stored 256 (l.map clean) = b
      have hk' : (l' :: ls).length + 1 ≤ k := by simpa using hk
      by_cases h0 : starts 72 48 b = true
      · simp [h0, recordSteps]
      · by_cases h1 : starts 49 51 b = true
        · simp only [h0, h1, Bool.false_eq_true, if_false, if_true, List.takeWhile, Bool.not_false, List.filter, recordSteps, recordStep,
            res_assoc, Res.ok_bind, ih' k hk']
        · simp only [h0, h1, Bool.false_eq_true, if_false, List.takeWhile, Bool.not_false, List.filter]
          exact ih' k hk' p

theorem processFile_spec (fl : ℚ → ℚ) (mktime : Int × Int × Int → Int) (bytes : List Int) (p : Proc) :
    (processFile fl mktime bytes p >>= fun r => Res.ok r.2) = recordSteps fl mktime (records bytes) p := by
  obtain ⟨h1, h2, h3⟩ := lines_spec bytes
  have hlen := joined_length (lines bytes)
  rw [h2] at hlen
  have := toData_spec (lines bytes) h1 h3 (bytes.length + 2) (by omega)
  rw [h2] at this
  simp only [processFile, records]
  rcases this with ⟨he, hb⟩ | ⟨ls', hn, hl, hf, hb⟩
  · rw [if_pos he, hb]
    rfl
  · rw [hf, hb]
    simp only [Bool.false_eq_true, if_false]
    have hj := joined_length ls'
    rw [dataLoop_spec fl mktime ls' hl hn _ (by omega)]
    generalize recordSteps fl mktime _ p = r
    cases r <;> rfl

/-! ### The theorem -/

theorem recordSteps_get (fl : ℚ → ℚ) (mktime : Int × Int × Int → Int) (bs : List (List Int)) (hb : ∀ b ∈ bs, 256 ≤ b.length) (p : Proc) :
    ∃ q, recordSteps fl mktime bs p = .ok q ∧ q.sur.start = p.sur.start ∧ q.sur.fin = p.sur.fin ∧ ∀ c,
      q.sur.tot.get c + (if p.sur.covers q.cur.day then q.cur.get c else 0) =
        p.sur.tot.get c + (if p.sur.covers p.cur.day then p.cur.get c else 0) +
          (bs.map fun b => if p.sur.covers (dateOf mktime b) then contribution fl mktime c b else 0).sum ∧
      (q.out.map fun d => d.get c).sum + q.cur.get c =
        (p.out.map fun d => d.get c).sum + p.cur.get c + (bs.map fun b => contribution fl mktime c b).sum := by
  induction bs generalizing p with
  | nil => exact ⟨p, rfl, rfl, rfl, fun c => by simp⟩
  | cons b bs ih =>
    have hlen := hb b (by simp)
    obtain ⟨t, ht⟩ := time_ok mktime b hlen
    have hdate : dateOf mktime b = t := by simp [dateOf, ht]
    -- the state after a possible change of day
    obtain ⟨p1, hp1, hday, hst, hfi, hget, hout⟩ : ∃ p1 : Proc, p1 = (if t ≠ p.cur.day then
        { out := p.out ++ [p.cur], sur := p.sur.addIf fl p.cur, cur := Day.clear t } else p) ∧ p1.cur.day = t ∧
        p1.sur.start = p.sur.start ∧ p1.sur.fin = p.sur.fin ∧
        (∀ c, p1.sur.tot.get c + (if p.sur.covers t then p1.cur.get c else 0) =
          p.sur.tot.get c + (if p.sur.covers p.cur.day then p.cur.get c else 0)) ∧
        ∀ c, (p1.out.map fun d => d.get c).sum + p1.cur.get c = (p.out.map fun d => d.get c).sum + p.cur.get c := by
      refine ⟨_, rfl, ?_⟩
      by_cases hd : t ≠ p.cur.day
      · rw [if_pos hd]
        obtain ⟨r1, r2⟩ := addIf_range fl p.sur p.cur
        have h0 : ∀ c, (Day.clear t).get c = 0 := fun c => by cases c <;> rfl
        exact ⟨rfl, r1, r2, fun c => by simp [addIf_get, h0], fun c => by simp [h0]⟩
      · rw [if_neg hd]
        have : t = p.cur.day := by simpa using hd
        exact ⟨this.symm, rfl, rfl, fun c => by rw [this], fun c => rfl⟩
    obtain ⟨a, d', h1, h2, h3⟩ := contribution_get (fl := fl) (mktime := mktime) hlen p1.cur (hday.trans hdate.symm)
    have hstep : recordStep fl mktime p b = .ok { p1 with cur := d' } := by
      simp only [recordStep, ht, Res.ok_bind, ← hp1, h1]
    obtain ⟨q, hq, q1, q2, q3⟩ := ih (fun x hx => hb x (by simp [hx])) { p1 with cur := d' }
    refine ⟨q, by rw [recordSteps, hstep, Res.ok_bind, hq], q1.trans hst, q2.trans hfi, fun c => ?_⟩
    have hcov : ∀ x, p1.sur.covers x ↔ p.sur.covers x := fun x => by simp [Survey.covers, hst, hfi]
    obtain ⟨e1, e2⟩ := q3 c
    simp only [hcov] at e1
    have hg := hget c
    have ho := hout c
    rw [h2, hday, h3 c] at e1
    rw [h3 c] at e2
    simp only [List.map_cons, List.sum_cons, hdate]
    constructor
    · by_cases hc : p.sur.covers t
      · simp only [hc, if_true] at e1 hg ⊢
        omega
      · simp only [hc, if_false] at e1 hg ⊢
        omega
    · dsimp only at e2
      omega

/-- **C74**: processing any files, whatever they contain, terminates without undefined behaviour, and each counter of the survey
grows by the sum, over all vehicle records of the files whose day the survey covers, of what that record adds on its own;
`p.cur` is the day being counted when the processing starts.  The days written sum to the contributions of all records. -/
theorem C74_files (fl : ℚ → ℚ) (mktime : Int × Int × Int → Int) (fs : List (List Int)) (p : Proc) :
    ∃ q, processFiles fl mktime fs p = .ok q ∧ ∀ c,
      q.sur.tot.get c = p.sur.tot.get c + (if p.sur.covers p.cur.day then p.cur.get c else 0) +
        ((fs.flatMap records).map fun b => if p.sur.covers (dateOf mktime b) then contribution fl mktime c b else 0).sum ∧
      (q.out.map fun d => d.get c).sum = (p.out.map fun d => d.get c).sum + p.cur.get c +
        ((fs.flatMap records).map fun b => contribution fl mktime c b).sum := by
  induction fs generalizing p with
  | nil =>
    refine ⟨_, rfl, fun c => ?_⟩
    simp [addIf_get]
  | cons f fs ih =>
    have hrec : ∀ b ∈ records f, 256 ≤ b.length := by
      intro b hb
      have h1 := List.mem_of_mem_filter hb
      have h2 := List.mem_of_mem_tail ((List.takeWhile_prefix _).subset h1)
      exact (bufs_length b ((List.dropWhile_suffix _).subset h2)).ge
    obtain ⟨q1, h1, h2, h3, h4⟩ := recordSteps_get fl mktime (records f) hrec p
    obtain ⟨q, hq, hg⟩ := ih q1
    have hp : (processFile fl mktime f p >>= fun r => processFiles fl mktime fs r.2) = .ok q := by
      have hs := processFile_spec fl mktime f p
      rw [h1] at hs
      cases hr : processFile fl mktime f p with
      | ok r =>
        rw [hr] at hs
        have : r.2 = q1 := by simpa using hs
        simp only [Res.ok_bind, this, hq]
      | throw => rw [hr] at hs; simp at hs
      | ub => rw [hr] at hs; simp at hs
    refine ⟨q, hp, fun c => ?_⟩
    have hcov : ∀ x, q1.sur.covers x ↔ p.sur.covers x := fun x => by simp [Survey.covers, h2, h3]
    obtain ⟨e1, e2⟩ := hg c
    obtain ⟨e3, e4⟩ := h4 c
    simp only [hcov] at e1
    rw [List.flatMap_cons, List.map_append, List.map_append, List.sum_append, List.sum_append]
    constructor <;> omega

/-- A file with a header, the truck of C56 and a line after the end of the data. -/
def demoFile : List Int := [72, 57, 10] ++ ([49, 51] ++ truck.drop 2) ++ [10, 72, 48, 10] ++ ([49, 51] ++ truck.drop 2)

/-- It holds one record, which counts one heavy vehicle in lane 0. -/
example : (records demoFile).length = 1 ∧ (records demoFile).map (contribution id (fun _ => 0) (.heavy 0)) = [1] := by
  decide +kernel

end OP.Traffic
