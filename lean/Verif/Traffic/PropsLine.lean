import Verif.Traffic.PropsStr
/-!
# C72, C73: dates and lines
-/
namespace OP.Traffic

/-! ## C72: dates -/

/-- **C72**: the field `YYMMDD` decodes to its year since 1900, month from zero and day; `69`-`99` are years of the 20th century
and `00`-`68` of the 21st.  Only `000000` is no date. -/
theorem C72_date (y1 y2 m1 m2 d1 d2 : Nat) (rest : List Int) (h : ∀ d ∈ [y1, y2, m1, m2, d1, d2], d < 10) :
    str2date (some (chars [y1, y2, m1, m2, d1, d2] ++ rest)) = .ok (
      if 10 * y1 + y2 = 0 ∧ 10 * m1 + m2 = 0 ∧ 10 * d1 + d2 = 0 then none
      else some (if 10 * y1 + y2 < 69 then 100 + (10 * y1 + y2) else (10 * y1 + y2), (10 * m1 + m2) - 1, 10 * d1 + d2)) := by
  have hv : value [y1, y2, m1, m2, d1, d2] = 10000 * (10 * y1 + y2) + 100 * (10 * m1 + m2) + (10 * d1 + d2) := by
    simp only [value_cons, List.length_cons, List.length_nil]
    simp [value]
    ring
  have hlt := value_lt h
  have hf := C55_value_partial 0 [y1, y2, m1, m2, d1, d2] rest 6 h (by simp) (by simp at hlt; omega) (Or.inl (by simp))
  simp only [blank, List.replicate_zero, List.nil_append] at hf
  simp only [List.mem_cons, List.not_mem_nil, or_false, forall_eq_or_imp, forall_eq] at h
  obtain ⟨h1, h2, h3, h4, h5, h6⟩ := h
  have hf' : str2int (some (chars [y1, y2, m1, m2, d1, d2] ++ rest)) 6 = .ok (value [y1, y2, m1, m2, d1, d2]) := hf
  simp only [str2date, hf', Res.ok_bind, hv]
  generalize hy : 10 * y1 + y2 = y
  generalize hm : 10 * m1 + m2 = m
  generalize hd : 10 * d1 + d2 = d
  have hm' : m < 100 := by omega
  have hd' : d < 100 := by omega
  have hy1 : (10 * (y1 : Int) + y2) = y := by omega
  have hm1 : (10 * (m1 : Int) + m2) = m := by omega
  have hd1 : (10 * (d1 : Int) + d2) = d := by omega
  have hy2 : (100 + (10 * (y1 : Int) + y2)) = 100 + y := by omega
  simp only [hm1, hd1, hy1, reduceCtorEq, false_or]
  by_cases h0 : y = 0 ∧ m = 0 ∧ d = 0
  · obtain ⟨rfl, rfl, rfl⟩ := h0
    simp
  · have hn : ¬ (((10000 * y + 100 * m + d : Nat) : Int) = 0) := by omega
    rw [if_neg hn, if_neg h0]
    have hc : (((10000 * y + 100 * m + d : Nat) : Int) < 690000) ↔ y < 69 := by omega
    refine congrArg (fun x => Res.ok (some x)) ?_
    by_cases h69 : y < 69
    · rw [if_pos (hc.2 h69), if_pos h69]
      have e1 : ((((10000 * y + 100 * m + d : Nat) : Int) + 1000000).tdiv 10000) = 100 + y := by
        rw [Int.tdiv_eq_ediv_of_nonneg (by omega)]; omega
      have e2 : (((10000 * y + 100 * m + d : Nat) : Int) + 1000000 - (100 + y) * 10000) = 100 * m + d := by push_cast; ring
      rw [e1, e2]
      have e3 : ((100 * (m : Int) + d).tdiv 100) = m := by rw [Int.tdiv_eq_ediv_of_nonneg (by omega)]; omega
      rw [e3]
      simp
      ring
    · rw [if_neg (fun h => h69 (hc.1 h)), if_neg h69]
      have e1 : (((10000 * y + 100 * m + d : Nat) : Int).tdiv 10000) = y := by
        rw [Int.tdiv_eq_ediv_of_nonneg (by omega)]; omega
      have e2 : (((10000 * y + 100 * m + d : Nat) : Int) - y * 10000) = 100 * m + d := by push_cast; ring
      rw [e1, e2]
      have e3 : ((100 * (m : Int) + d).tdiv 100) = m := by rw [Int.tdiv_eq_ediv_of_nonneg (by omega)]; omega
      rw [e3]
      simp
      ring

/-- 1 February 1997 and 31 December 2005. -/
example : str2date (some (chars [9, 7, 0, 2, 0, 1])) = .ok (some (97, 1, 1)) ∧
    str2date (some (chars [0, 5, 1, 2, 3, 1])) = .ok (some (105, 11, 31)) := by
  constructor <;> rfl

/-! ## C73: lines -/

/-- What is stored for a character. -/
def clean (c : Int) : Int := if isprint c then c else 32

/-- A buffer of `l` characters holding as much of a text as fits, terminated and padded with zeros. -/
def stored (l : Nat) (t : List Int) : List Int := t.take (l - 1) ++ List.replicate (l - (t.take (l - 1)).length) 0

theorem readln_line (line tail : List Int) (hn : (10 : Int) ∉ line) (l : Nat) (hl : 1 ≤ l) (out : List Int) (k : Nat)
    (hk : line.length + 1 ≤ k) :
    readln k l out { rest := line ++ 10 :: tail } = (out ++ (line.map clean).take (l - 1), { rest := tail }) := by
  induction line generalizing k l out with
  | nil =>
    obtain ⟨k', rfl⟩ : ∃ k', k = k' + 1 := ⟨k - 1, by omega⟩
    simp [readln, File.getc]
  | cons c line ih =>
    obtain ⟨k', rfl⟩ : ∃ k', k = k' + 1 := ⟨k - 1, by omega⟩
    have hc : c ≠ 10 := fun h => hn (by simp [h])
    have hn' : (10 : Int) ∉ line := fun h => hn (by simp [h])
    have hk' : line.length + 1 ≤ k' := by simpa using hk
    simp only [readln, Bool.false_eq_true, if_false, List.cons_append, File.getc, if_neg hc]
    by_cases h1 : l > 1
    · rw [if_pos h1, ih hn' (l - 1) (by omega) _ k' hk']
      obtain ⟨m, rfl⟩ : ∃ m, l = m + 2 := ⟨l - 2, by omega⟩
      simp [clean, hc]
      by_cases h : isprint c = true <;> simp [h]
    · rw [if_neg h1, ih hn' l hl _ k' hk']
      have : l = 1 := by omega
      subst this
      simp [hc]

theorem readln_last (line : List Int) (hn : (10 : Int) ∉ line) (l : Nat) (hl : 1 ≤ l) (out : List Int) (k : Nat)
    (hk : line.length + 2 ≤ k) :
    readln k l out { rest := line } = (out ++ (line.map clean ++ [32]).take (l - 1), { rest := [], eof := true }) := by
  induction line generalizing k l out with
  | nil =>
    obtain ⟨k', rfl⟩ : ∃ k', k = k' + 2 := ⟨k - 2, by simp at hk; omega⟩
    simp only [readln, Bool.false_eq_true, if_false, File.getc]
    by_cases h1 : l > 1
    · obtain ⟨m, rfl⟩ : ∃ m, l = m + 2 := ⟨l - 2, by omega⟩
      simp [isprint]
    · have : l = 1 := by omega
      subst this
      simp
  | cons c line ih =>
    obtain ⟨k', rfl⟩ : ∃ k', k = k' + 1 := ⟨k - 1, by omega⟩
    have hc : c ≠ 10 := fun h => hn (by simp [h])
    have hn' : (10 : Int) ∉ line := fun h => hn (by simp [h])
    have hk' : line.length + 2 ≤ k' := by simpa using hk
    simp only [readln, Bool.false_eq_true, if_false, File.getc, if_neg hc]
    by_cases h1 : l > 1
    · rw [if_pos h1, ih hn' (l - 1) (by omega) _ k' hk']
      obtain ⟨m, rfl⟩ : ∃ m, l = m + 2 := ⟨l - 2, by omega⟩
      simp [clean, hc]
      by_cases h : isprint c = true <;> simp [h]
    · rw [if_neg h1, ih hn' l hl _ k' hk']
      have : l = 1 := by omega
      subst this
      simp [hc]

/-- **C73** for a line that ends: exactly that line is read, cleaned, cut to the buffer, terminated and padded, whatever its
length. -/
theorem C73_line_partial (l : Nat) (hl : 1 ≤ l) (line tail : List Int) (hn : (10 : Int) ∉ line) :
    fgetln l { rest := line ++ 10 :: tail } = (stored l (line.map clean), { rest := tail }) := by
  have h := readln_line line tail hn l hl [] ((line ++ 10 :: tail).length + 2) (by simp; omega)
  simp only [fgetln, h, List.nil_append, stored]

/-- **C73** fails for a last line without an end: a space is added to it. -/
theorem C73_last (l : Nat) (hl : 1 ≤ l) (line : List Int) (hn : (10 : Int) ∉ line) :
    fgetln l { rest := line } = (stored l (line.map clean ++ [32]), { rest := [], eof := true }) := by
  have h := readln_last line hn l hl [] (line.length + 2) (le_refl _)
  simp only [fgetln, h, List.nil_append, stored]

/-- At the end of the file an empty line is read. -/
theorem fgetln_eof (l : Nat) (rest : List Int) : fgetln l { rest := rest, eof := true } = (List.replicate l 0, { rest := rest, eof := true }) := by
  simp [fgetln, readln]

/-- **C73**, buffer: exactly the `l` characters of the buffer are written and the last is the terminator, for any file. -/
theorem C73_buffer (l : Nat) (hl : 1 ≤ l) (f : File) :
    (fgetln l f).1.length = l ∧ (fgetln l f).1[l - 1]? = some 0 ∧ ∀ c ∈ (fgetln l f).1, c = 0 ∨ isprint c = true := by
  have hclean : ∀ c, isprint (clean c) = true := by
    intro c
    by_cases h : isprint c = true
    · simpa [clean, h] using h
    · rw [clean, if_neg h]; rfl
  have key : ∀ t : List Int, (∀ c ∈ t, isprint c = true) →
      (stored l t).length = l ∧ (stored l t)[l - 1]? = some 0 ∧ ∀ c ∈ stored l t, c = 0 ∨ isprint c = true := by
    intro t ht
    have h1 : (t.take (l - 1)).length ≤ l - 1 := by simp
    refine ⟨by simp only [stored, List.length_append, List.length_replicate]; omega, ?_, ?_⟩
    · rw [stored, List.getElem?_append_right h1, List.getElem?_replicate, if_pos (by omega)]
    · intro c hc
      simp only [stored, List.mem_append, List.mem_replicate] at hc
      rcases hc with hc | hc
      · exact Or.inr (ht c (List.mem_of_mem_take hc))
      · exact Or.inl hc.2
  obtain ⟨rest, eof⟩ := f
  cases eof with
  | true =>
    rw [fgetln_eof]
    have := key [] (by simp)
    simpa [stored] using this
  | false =>
    by_cases hn : (10 : Int) ∈ rest
    · obtain ⟨a, b, hab, hna⟩ := List.eq_append_cons_of_mem hn
      subst hab
      rw [C73_line_partial l hl a b hna]
      exact key _ (by intro c hc; obtain ⟨d, _, rfl⟩ := List.mem_map.1 hc; exact hclean d)
    · rw [C73_last l hl rest hn]
      refine key _ ?_
      intro c hc
      rcases List.mem_append.1 hc with hc | hc
      · obtain ⟨d, _, rfl⟩ := List.mem_map.1 hc; exact hclean d
      · have : c = 32 := by simpa using hc
        subst this; rfl

/-- Reading `ab␍⏎c` line by line. -/
example : fgetln 8 { rest := [97, 98, 13, 10, 99] } = ([97, 98, 32, 0, 0, 0, 0, 0], { rest := [99] }) ∧
    fgetln 8 { rest := [99] } = ([99, 32, 0, 0, 0, 0, 0, 0], { rest := [], eof := true }) := by
  constructor <;> rfl

end OP.Traffic
