import Verif.Libop.PropsLe
/-!
# C105: the call for CalME

`OP_LE_Calc_CalME`, libop/libop.cpp:186-254: `OP_LE_Calc` with moduli and pressures in other units, loads given by pressure and
radius, and nine of the results written to rows of 150 numbers.
-/
namespace OP.Libop
open OP.Pave

variable {K L R Q : Type} [Field K] [LinearOrder K]

/-- The nine results written, in the order of the code, with their rows (libop/libop.cpp:232-241). -/
inductive Item
  | syy | szz | sxz | exx | eyy | ezz | e1 | e2 | e3
  deriving DecidableEq

def Item.row : Item → Nat
  | .syy => 1
  | .szz => 2
  | .sxz => 4
  | .exx => 15
  | .eyy => 16
  | .ezz => 17
  | .e1 => 9
  | .e2 => 10
  | .e3 => 11

/-- Stresses are divided by 1000 (libop/libop.cpp:233-235). -/
def Item.unit : Item → K
  | .syy | .szz | .sxz => 1000
  | _ => 1

def Item.list : List Item := [.syy, .szz, .sxz, .exx, .eyy, .ezz, .e1, .e2, .e3]

/-- `res[row*150+i] = -d.result(...)/unit;` -/
def put (get : Item → R → K) (i : Nat) (d : R) (m : Nat → K) (t : Item) : Nat → K :=
  fun a => if a = t.row * 150 + i then -get t d / t.unit else m a

/-- The loop over the points from the `i`th on (libop/libop.cpp:230-242). -/
def putAll (get : Item → R → K) : Nat → List R → (Nat → K) → Nat → K
  | _, [], m => m
  | i, d :: ds, m => putAll get (i + 1) ds (Item.list.foldl (put get i d) m)

section
variable (num : Num K L R Q) (zero : R) (nullQ : Q)

/-- `OP_LE_Calc_CalME` (libop/libop.cpp:186-254).  `load x y p r` is `load2d` with the force 0.  `pl[i]-1` is 2^32-1 for 0, as the
default of `addpoint`, so the points are those of `OP_LE_Calc`.  When an exception is thrown no result has been written, since
`result` throws at the first point if at all (the state of the calculation does not change between points). -/
def calME (load : P2 K → K → K → L) (get : Item → R → K) (flags : Nat) (ys : List (Layer K)) (xs : List (P2 K × K × K))
    (ps : List (P3 K × Nat)) (m : Nat → K) : Res (Bool × (Nat → K)) :=
  leCalc num zero nullQ flags (ys.map fun y => { y with E := y.E * 1000 }) (xs.map fun x => load x.1 (x.2.1 * 1000) x.2.2) ps >>=
    fun r => .ok (r.1, match r.2 with
      | none => m
      | some ds => putAll get 0 (ds.map (·.2)) m)

end

theorem put_other (get : Item → R → K) (i : Nat) (d : R) (m : Nat → K) (l : List Item) (a : Nat)
    (h : ∀ t ∈ l, a ≠ t.row * 150 + i) : l.foldl (put get i d) m a = m a := by
  induction l generalizing m with
  | nil => rfl
  | cons t l ih =>
    rw [List.foldl_cons, ih _ fun u hu => h u (by simp [hu]), put, if_neg (h t (by simp))]

theorem put_here (get : Item → R → K) (i : Nat) (d : R) (m : Nat → K) (t : Item) :
    Item.list.foldl (put get i d) m (t.row * 150 + i) = -get t d / t.unit := by
  cases t <;> simp [Item.list, put, Item.row]

theorem item_all (t : Item) : t ∈ Item.list := by cases t <;> simp [Item.list]

theorem row_inj {t u : Item} (h : t.row = u.row) : t = u := by cases t <;> cases u <;> simp [Item.row] at h ⊢

/-- With at most 150 points nothing is written twice. -/
theorem putAll_ok (get : Item → R → K) (ds : List R) (n : Nat) (m : Nat → K) (h : n + ds.length ≤ 150) :
    (∀ (i : Nat) (d : R) (t : Item), ds[i]? = some d → putAll get n ds m (t.row * 150 + (n + i)) = -get t d / t.unit) ∧
    (∀ a, (∀ t : Item, ∀ i, n ≤ i → i < n + ds.length → a ≠ t.row * 150 + i) → putAll get n ds m a = m a) := by
  induction ds generalizing n m with
  | nil => exact ⟨by simp, fun a _ => rfl⟩
  | cons d ds ih =>
    simp only [List.length_cons] at h
    obtain ⟨h1, h2⟩ := ih (n + 1) (Item.list.foldl (put get n d) m) (by omega)
    constructor
    · intro i d' t hi
      cases i with
      | zero =>
        simp only [List.getElem?_cons_zero, Option.some.injEq] at hi
        subst hi
        rw [putAll, h2 _ ?_, Nat.add_zero, put_here]
        intro u j hj1 hj2
        omega
      | succ i =>
        simp only [List.getElem?_cons_succ] at hi
        have := h1 i d' t hi
        rw [putAll, ← this]
        congr 1; omega
    · intro a ha
      simp only [List.length_cons] at ha
      rw [putAll, h2 a fun t i h3 h4 => ha t i (by omega) (by omega)]
      exact put_other _ _ _ _ _ _ fun t _ => ha t n (le_refl _) (by omega)

section
variable (num : Num K L R Q) (zero : R) (nullQ : Q) (load : P2 K → K → K → L) (get : Item → R → K)

/-- **C105**: for up to 150 points the call ends, and if it returns success each of the nine numbers of the `i`th point is in its
row at place `i`, and belongs to a point with the coordinates and layer asked for, calculated for the moduli and pressures times
1000.  Numbers outside these places keep their value. -/
theorem C105_results_partial (flags : Nat) (ys : List (Layer K)) (xs : List (P2 K × K × K)) (ps : List (P3 K × Nat)) (m : Nat → K)
    (hp : ps.length ≤ 150) :
    ∃ st m', calME num zero nullQ load get flags ys xs ps m = .ok (st, m') ∧
      (st = false → ∃ pts : List (PP K), (∀ q ∈ pts, ∃ p ∈ ps, q.toP3 = p.1) ∧
        ∀ (i : Nat) (p : P3 K × Nat), ps[i]? = some p → ∃ q ∈ pts, q.toP3 = p.1 ∧ (p.2 ≠ 0 → q.il = some (p.2 - 1)) ∧
          q.il ≠ none ∧ ∀ t : Item, m' (t.row * 150 + i) =
            -get t (num (kind flags).1 nullQ ⟨ys.map (·.h), pts, [xs.map fun x => load x.1 (x.2.1 * 1000) x.2.2]⟩
              (ys.map fun y => (y.E * 1000, y.v, y.s)) (xs.map fun x => load x.1 (x.2.1 * 1000) x.2.2) q) / t.unit) ∧
      (st = false → ∀ a, (∀ t : Item, ∀ i < ps.length, a ≠ t.row * 150 + i) → m' a = m a) := by
  obtain ⟨st, ds, h1, h2⟩ := C81_calc num zero nullQ flags (ys.map fun y => { y with E := y.E * 1000 })
    (xs.map fun x => load x.1 (x.2.1 * 1000) x.2.2) ps
  refine ⟨st, _, by rw [calME, h1]; rfl, ?_, ?_⟩
  · intro hst
    obtain ⟨ds', rfl, hlen, pts, hp1, hp2⟩ := h2 hst
    refine ⟨pts, hp1, fun i p hpi => ?_⟩
    have hi : i < ds'.length := by rw [hlen]; exact (List.getElem?_eq_some_iff.1 hpi).1
    obtain ⟨g1, g2, g3, g4, g5⟩ := hp2 i p ds'[i] hpi (List.getElem?_eq_getElem hi)
    refine ⟨_, g1, g2, g3, g4, fun t => ?_⟩
    have := (putAll_ok get (ds'.map (·.2)) 0 m (by simp; omega)).1 i (ds'[i]).2 t (by simp [hi])
    simp only [Nat.zero_add] at this
    dsimp only
    rw [this, g5]
    simp only [List.map_map, Function.comp_def]
  · intro hst a ha
    obtain ⟨ds', rfl, hlen, -⟩ := h2 hst
    exact (putAll_ok get (ds'.map (·.2)) 0 m (by simp; omega)).2 a fun t i _ hi => ha t i (by simp at hi; omega)

/-- Points after the 150th write over the results of earlier points. -/
theorem putAll_later (ds : List R) (n : Nat) (m : Nat → K) (d : R) (h0 : n ≤ 150) (hd : ds[150 - n]? = some d) :
    putAll get n ds m 300 = -get .syy d / 1000 := by
  have key : ∀ (ds : List R) (n : Nat) (m : Nat → K), 150 < n → putAll get n ds m 300 = m 300 := by
    intro ds
    induction ds with
    | nil => intro n m _; rfl
    | cons d ds ih =>
      intro n m hn
      rw [putAll, ih _ _ (by omega)]
      refine put_other _ _ _ _ _ _ fun t _ => ?_
      have : 1 ≤ t.row := by cases t <;> simp [Item.row]
      omega
  induction ds generalizing n m with
  | nil => simp at hd
  | cons e ds ih =>
    rw [putAll]
    by_cases hn : n = 150
    · subst hn
      simp only [Nat.sub_self, List.getElem?_cons_zero, Option.some.injEq] at hd
      subst hd
      rw [key _ _ _ (by omega)]
      exact put_here get 150 e m .syy
    · obtain ⟨j, hj⟩ : ∃ j, 150 - n = j + 1 := ⟨149 - n, by omega⟩
      rw [hj, List.getElem?_cons_succ] at hd
      exact ih (n + 1) _ (by omega) (by rwa [show 150 - (n + 1) = j by omega])

/-- **C105**: with more than 150 points the vertical stress of the first point (row 2, place 0) is lost, whatever the results are:
the place holds the stress along y of the 151st point.  Nothing refuses so many points. -/
theorem C105_overlap_wrong (flags : Nat) (ys : List (Layer K)) (xs : List (P2 K × K × K)) (ps : List (P3 K × Nat)) (m : Nat → K)
    (hp : 150 < ps.length) (m' : Nat → K) (h : calME num zero nullQ load get flags ys xs ps m = .ok (false, m')) :
    ∃ ds : List (PP K × R), ds.length = ps.length ∧ ∃ d, ds[150]? = some d ∧ (∀ p, ps[150]? = some p → d.1.toP3 = p.1) ∧
      m' (Item.szz.row * 150 + 0) = -get .syy d.2 / 1000 := by
  obtain ⟨st, ds, h1, h2⟩ := C81_calc num zero nullQ flags (ys.map fun y => { y with E := y.E * 1000 })
    (xs.map fun x => load x.1 (x.2.1 * 1000) x.2.2) ps
  rw [calME, h1] at h
  simp only [Res.ok_bind, Res.ok.injEq, Prod.mk.injEq] at h
  obtain ⟨rfl, rfl⟩ := h
  obtain ⟨ds', rfl, hlen, pts, hp1, hp2⟩ := h2 rfl
  have hi : 150 < ds'.length := by omega
  refine ⟨ds', hlen, ds'[150], List.getElem?_eq_getElem hi, fun p hpi => ?_, ?_⟩
  · exact (hp2 150 p _ hpi (List.getElem?_eq_getElem hi)).2.1
  · have := putAll_later get (ds'.map (·.2)) 0 m (ds'[150]).2 (by omega) (by simp [hi])
    exact this

end

/-- A calculation that succeeds with two points, in which both rows are filled. -/
example : (match calME echo (none, 0) 0 (fun _ _ _ => ()) (fun t r => match t with | .syy => (r.2 : Rat) | _ => 1) 0
    [⟨1, 100, 1 / 3, 1⟩, ⟨0, 50, 1 / 3, 1⟩] [(⟨0, 0⟩, 1, 1)] [(⟨⟨0, 0⟩, 1⟩, 2), (⟨⟨0, 0⟩, 1⟩, 1)] (fun _ => 7) with
    | .ok (st, m') => !st && m' 301 == -1 / 1000 && m' 2551 == -1 && m' 0 == 7
    | _ => false) = true := by
  decide +kernel

/-- Nothing refuses 151 points. -/
example : (match calME echo (none, 0) 0 (fun _ _ _ => ()) (fun _ _ => (1 : Rat)) 0
    [⟨1, 100, 1 / 3, 1⟩, ⟨0, 50, 1 / 3, 1⟩] [(⟨0, 0⟩, 1, 1)] ((List.range 151).map fun i => (⟨⟨i, 0⟩, 1⟩, 1)) (fun _ => 7) with
    | .ok (st, _) => !st
    | _ => false) = true := by
  decide +kernel

end OP.Libop
