import Verif.Traffic.PropsSurvey
import Verif.Traffic.RSADate
/-!
# C124: the date of a record file is that of its first vehicle

`records` (C74) are the records of a file that `ProcessRSAFile` counts and `dateOf` the day of one, which is the one
`ProcessRSAFile` counts it under.
-/
namespace OP.Traffic

/-- All lines after the header, as they are read. -/
def body (bytes : List Int) : List (List Int) := ((bufs (lines bytes)).dropWhile fun b => !starts 72 57 b).tail

theorem toVehicle_spec (ls : List (List Int)) (h : ∀ l ∈ ls, (10 : Int) ∉ l) (hne : ls ≠ []) (k : Nat) (hk : ls.length + 1 ≤ k)
    (b : List Int) :
    (((bufs ls).dropLast.find? fun b => starts 49 51 b) = none ∧ (toVehicle k { rest := joined ls } b).2.eof = true) ∨
    ∃ v, ((bufs ls).dropLast.find? fun b => starts 49 51 b) = some v ∧
      (toVehicle k { rest := joined ls } b).1 = v ∧ (toVehicle k { rest := joined ls } b).2.eof = false := by
  induction ls generalizing k b with
  | nil => exact absurd rfl hne
  | cons l ls ih =>
    obtain ⟨k, rfl⟩ : ∃ k', k = k' + 1 := ⟨k - 1, by simp at hk; omega⟩
    cases ls with
    | nil =>
      left
      simp only [toVehicle, Bool.false_eq_true, if_false, fgetln_one l (h l (by simp))]
      refine ⟨by simp [bufs], ?_⟩
      by_cases hs : starts 49 51 (stored 256 (l.map clean ++ [32])) = true
      · rw [if_pos hs]
      · rw [if_neg hs]
        cases k <;> simp [toVehicle]
    | cons l' ls =>
      have hb : bufs (l' :: ls) ≠ [] := by cases ls <;> simp [bufs]
      simp only [toVehicle, Bool.false_eq_true, if_false, fgetln_cons l l' ls (h l (by simp)), bufs, List.dropLast_cons_of_ne_nil hb]
      by_cases hs : starts 49 51 (stored 256 (l.map clean)) = true
      · right
        rw [if_pos hs]
        exact ⟨_, by rw [List.find?_cons_of_pos hs], rfl, rfl⟩
      · rw [if_neg hs, List.find?_cons_of_neg hs]
        exact ih (fun x hx => h x (by simp [hx])) (by simp) k (by simpa using hk) _

/-- What is returned, for every file: the day of the first line starting with `13` among the lines after the header that end,
and `-1` if there is none. -/
theorem C124_exact (mktime : Int × Int × Int → Int) (buf bytes : List Int) :
    getRSADate mktime buf (some bytes) =
      .ok (match (body bytes).dropLast.find? fun b => starts 49 51 b with | none => -1 | some v => dateOf mktime v) := by
  obtain ⟨h1, h2, h3⟩ := lines_spec bytes
  have hlen := joined_length (lines bytes)
  rw [h2] at hlen
  have := toData_spec (lines bytes) h1 h3 (bytes.length + 2) (by omega)
  rw [h2] at this
  simp only [getRSADate, body]
  rcases this with ⟨he, hb⟩ | ⟨ls', hn, hl, hf, hb⟩
  · rw [hb]
    simp [toVehicle, he]
  · rw [hf, hb]
    have hj := joined_length ls'
    rcases toVehicle_spec ls' hl hn ((joined ls').length + 2) (by omega) buf with ⟨e, q⟩ | ⟨v, e, q, r⟩
    · rw [e]
      simp only [q, if_true]
    · rw [e]
      simp only [q, r, Bool.false_eq_true, if_false]
      have hv : v ∈ bufs ls' := List.dropLast_subset _ (List.mem_of_find?_eq_some e)
      obtain ⟨t, ht⟩ := time_ok mktime v (by rw [bufs_length v hv])
      simp [dateOf, ht]

theorem lines_snoc (t : List Int) : lines (t ++ [10]) = lines t ++ [[]] := by
  induction t with
  | nil => rfl
  | cons c t ih =>
    obtain ⟨-, -, h⟩ := lines_spec t
    simp only [List.cons_append, lines, ih]
    by_cases hc : c = 10
    · simp [hc]
    · simp only [if_neg hc]
      cases hl : lines t with
      | nil => exact absurd hl h
      | cons l ls => rfl

theorem bufs_last (ls : List (List Int)) : bufs (ls ++ [[]]) = (ls.map fun l => stored 256 (l.map clean)) ++ [stored 256 [32]] := by
  induction ls with
  | nil => rfl
  | cons l ls ih =>
    cases hl : ls ++ [[]] with
    | nil => simp at hl
    | cons l' ls' =>
      rw [List.cons_append, hl, bufs, ← hl, ih]; rfl

theorem starts_blank (b : Int) (h : b ≠ 32) (c : Int) : starts b c (stored 256 [32]) = false := by
  have : (stored 256 [32]).take 2 = [32, 0] := by decide +kernel
  simp [starts, this, h.symm]

theorem tail_dropLast_find (xs : List (List Int)) (e : List Int) (p q : List Int → Bool) (hq : q e = false) :
    ((((xs ++ [e]).dropWhile p).tail.dropLast).find? q) = (((xs ++ [e]).dropWhile p).tail.find? q) := by
  have key : ∀ ys : List (List Int), (ys ++ [e]).dropLast.find? q = (ys ++ [e]).find? q := by
    intro ys
    rw [List.dropLast_concat, List.find?_append]
    simp [hq]
  induction xs with
  | nil =>
    by_cases h : p e = true <;> simp [List.dropWhile, h]
  | cons x xs ih =>
    by_cases h : p x = true
    · rw [List.cons_append, List.dropWhile_cons_of_pos h, ih]
    · rw [List.cons_append, List.dropWhile_cons_of_neg h, List.tail_cons, key]

/-- **C124** for a file whose text ends with a line end and in which no line starting with `H0` comes before the first vehicle
after the header: the date is that of the first vehicle counted, and `-1` if none is. -/
theorem C124_date_partial (mktime : Int × Int × Int → Int) (buf text : List Int)
    (h0 : ∀ a b, body (text ++ [10]) = a ++ b → (∀ x ∈ a, starts 49 51 x = false) → (∃ x ∈ b, starts 49 51 x = true) →
      ∀ x ∈ a, starts 72 48 x = false) :
    getRSADate mktime buf (some (text ++ [10])) =
      .ok (match (records (text ++ [10])).head? with | none => -1 | some v => dateOf mktime v) := by
  rw [C124_exact]
  have e1 : (body (text ++ [10])).dropLast.find? (fun b => starts 49 51 b) = (body (text ++ [10])).find? (fun b => starts 49 51 b) := by
    simp only [body, lines_snoc, bufs_last]
    exact tail_dropLast_find _ _ _ _ (starts_blank 49 (by norm_num) 51)
  have e2 : (records (text ++ [10])).head? = (body (text ++ [10])).find? (fun b => starts 49 51 b) := by
    have hr : records (text ++ [10]) = ((body (text ++ [10])).takeWhile fun b => !starts 72 48 b).filter fun b => starts 49 51 b := rfl
    rw [hr, List.head?_filter]
    clear e1 hr
    generalize body (text ++ [10]) = xs at h0
    induction xs with
    | nil => rfl
    | cons x xs ih =>
      by_cases hs : starts 49 51 x = true
      · have h1 : starts 72 48 x = false := by
          simp only [starts, beq_iff_eq] at hs
          simp [starts, hs]
        rw [List.takeWhile_cons_of_pos (by simp [h1]), List.find?_cons_of_pos hs, List.find?_cons_of_pos hs]
      · have hs' : starts 49 51 x = false := by simpa using hs
        rw [List.find?_cons_of_neg hs]
        by_cases h2 : starts 72 48 x = true
        · rw [List.takeWhile_cons_of_neg (by simp [h2])]
          symm
          rw [List.find?_nil, List.find?_eq_none]
          intro y hy hy'
          have := h0 [x] xs rfl (by simp [hs']) ⟨y, hy, hy'⟩ x (by simp)
          rw [h2] at this
          exact absurd this (by simp)
        · rw [List.takeWhile_cons_of_pos (by simp [h2]), List.find?_cons_of_neg hs]
          refine ih fun a b hab ha hb z hz => ?_
          refine h0 (x :: a) b (by rw [hab]; rfl) ?_ hb z (by simp [hz])
          intro w hw
          rcases List.mem_cons.1 hw with rfl | hw
          · exact hs'
          · exact ha w hw
  rw [e1, e2]

/-- **C124** fails for a vehicle in a last line without an end: it is counted, but no date is returned, whatever the
vehicle is. -/
theorem C124_last_wrong (mktime : Int × Int × Int → Int) (buf v : List Int) (hv : (10 : Int) ∉ v) :
    records ([72, 57, 10] ++ 49 :: 51 :: v) = [stored 256 ((49 :: 51 :: v).map clean ++ [32])] ∧
    getRSADate mktime buf (some ([72, 57, 10] ++ 49 :: 51 :: v)) = .ok (-1) := by
  have hl : ∀ v : List Int, (10 : Int) ∉ v → lines v = [v] := by
    intro v
    induction v with
    | nil => intro; rfl
    | cons c v ih =>
      intro h
      have : c ≠ 10 := fun h' => h (by simp [h'])
      rw [lines, if_neg this, ih fun h' => h (by simp [h'])]
  have e : lines ([72, 57, 10] ++ 49 :: 51 :: v) = [[72, 57], 49 :: 51 :: v] := by
    have := hl (49 :: 51 :: v) (by simp [hv])
    simp [lines, hl v hv]
  have b : body ([72, 57, 10] ++ 49 :: 51 :: v) = [stored 256 ((49 :: 51 :: v).map clean ++ [32])] := by
    rw [body, e, bufs, bufs, List.dropWhile_cons_of_neg (by decide)]
    rfl
  refine ⟨?_, ?_⟩
  · have hr : records ([72, 57, 10] ++ 49 :: 51 :: v) =
      ((body ([72, 57, 10] ++ 49 :: 51 :: v)).takeWhile fun b => !starts 72 48 b).filter fun b => starts 49 51 b := rfl
    have s1 : starts 72 48 (stored 256 ((49 :: 51 :: v).map clean ++ [32])) = false := by
      simp [starts, stored, clean, isprint]
    have s2 : starts 49 51 (stored 256 ((49 :: 51 :: v).map clean ++ [32])) = true := by
      simp [starts, stored, clean, isprint]
    rw [hr, b, List.takeWhile_cons_of_pos (by rw [s1]; rfl), List.takeWhile_nil, List.filter_cons_of_pos s2, List.filter_nil]
  · rw [C124_exact, b]
    rfl

/-- **C124** fails for a vehicle after a line starting with `H0`: it is not counted, but its date is returned. -/
theorem C124_trailer_wrong (mktime : Int × Int × Int → Int) (buf : List Int) :
    let bytes : List Int := [72, 57, 10, 72, 48, 10, 49, 51, 32, 57, 48, 32, 57, 57, 48, 49, 48, 50, 32, 10]
    records bytes = [] ∧ getRSADate mktime buf (some bytes) =
      .ok (dateOf mktime (stored 256 [49, 51, 32, 57, 48, 32, 57, 57, 48, 49, 48, 50, 32])) := by
  refine ⟨by decide +kernel, ?_⟩
  rw [C124_exact]
  have : (body [72, 57, 10, 72, 48, 10, 49, 51, 32, 57, 48, 32, 57, 57, 48, 49, 48, 50, 32, 10]).dropLast.find? (fun b => starts 49 51 b) =
      some (stored 256 [49, 51, 32, 57, 48, 32, 57, 57, 48, 49, 48, 50, 32]) := by decide +kernel
  rw [this]

/-- No file, no date. -/
theorem C124_none (mktime : Int × Int × Int → Int) (buf : List Int) : getRSADate mktime buf none = .ok (-1) := rfl

/-- A header and a vehicle of 2 January 1999 meet the hypotheses. -/
example : (∀ a b, body ([72, 57, 10, 49, 51, 32, 57, 48, 32, 57, 57, 48, 49, 48, 50, 32] ++ [10]) = a ++ b →
      (∀ x ∈ a, starts 49 51 x = false) → (∃ x ∈ b, starts 49 51 x = true) → ∀ x ∈ a, starts 72 48 x = false) ∧
    (records ([72, 57, 10, 49, 51, 32, 57, 48, 32, 57, 57, 48, 49, 48, 50, 32] ++ [10])).length = 1 := by
  refine ⟨?_, by decide +kernel⟩
  intro a b h _ _ x hx
  have hm : x ∈ body ([72, 57, 10, 49, 51, 32, 57, 48, 32, 57, 57, 48, 49, 48, 50, 32] ++ [10]) := by rw [h]; simp [hx]
  have hall : ∀ x ∈ body ([72, 57, 10, 49, 51, 32, 57, 48, 32, 57, 57, 48, 49, 48, 50, 32] ++ [10]), starts 72 48 x = false := by
    decide +kernel
  exact hall x hm

end OP.Traffic
