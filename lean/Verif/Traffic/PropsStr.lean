import Verif.Traffic.Traffic
import Mathlib.Data.Nat.Digits.Defs
import Mathlib.Tactic.Linarith
import Mathlib.Tactic.Ring
import Mathlib.Tactic.NormNum
/-!
# C55, C72: fixed-width numbers, dates and lines
-/
namespace OP.Traffic

/-! ## Specification -/

/-- The characters of decimal digits. -/
def chars (ds : List Nat) : List Int := ds.map fun d : Nat => 48 + (d : Int)

/-- The value of decimal digits, most significant first. -/
def value (ds : List Nat) : Nat := Nat.ofDigits 10 ds.reverse

/-- Padding. -/
def blank (n : Nat) : List Int := List.replicate n 32

/-! ## Lemmas -/

theorem int_ok {n : Int} (h1 : -2147483648 ≤ n) (h2 : n ≤ 2147483647) : int n = .ok n := if_pos ⟨h1, h2⟩

theorem value_cons (d : Nat) (ds : List Nat) : value (d :: ds) = d * 10 ^ ds.length + value ds := by
  simp [value, Nat.ofDigits_append, mul_comm, add_comm]

theorem value_lt {ds : List Nat} (h : ∀ d ∈ ds, d < 10) : value ds < 10 ^ ds.length := by
  rw [value, ← List.length_reverse (as := ds)]
  exact Nat.ofDigits_lt_base_pow_length (by norm_num) (by simpa using h)

theorem skip_blank (n : Nat) (w : Nat) (l : List Int) : skip (n + w) (blank n ++ l) = skip w l := by
  induction n with
  | zero => simp [blank]
  | succ n ih =>
    have : n + 1 + w = (n + w) + 1 := by omega
    rw [this]
    simpa [blank, List.replicate_succ, skip, isspace] using ih

theorem skip_stop {w : Nat} {c : Int} {l : List Int} (h : isspace c = false) : skip (w + 1) (c :: l) = .ok (w + 1, c :: l) := by
  simp [skip, h]

theorem digits_step {w : Nat} {d : Nat} (hd : d < 10) {l : List Int} {n : Bool} {r : Int}
    (h1 : -200000000 ≤ r) (h2 : r * 10 + d + 48 ≤ 2147483647) :
    digits (w + 1) ((48 + (d : Int)) :: l) n r = digits w l n (r * 10 + d) := by
  have hne : ¬ (r = 0 ∧ (48 + (d : Int)) = 45) := by omega
  have hdig : isdigit (48 + (d : Int)) = true := by simp [isdigit]; omega
  simp only [digits, if_neg hne, hdig, not_true, if_false]
  rw [int_ok (by omega) (by omega)]
  simp only [Res.ok_bind]
  rw [int_ok (by omega) (by omega)]
  simp only [Res.ok_bind]
  rw [int_ok (by omega) (by omega)]
  simp only [Res.ok_bind]
  congr 1
  omega

theorem digits_run (ds : List Nat) (hd : ∀ d ∈ ds, d < 10) (w : Nat) (l : List Int) (n : Bool) (r : Nat)
    (hb : r * 10 ^ ds.length + value ds + 48 ≤ 2147483647) :
    digits (ds.length + w) (chars ds ++ l) n r = digits w l n ((r * 10 ^ ds.length + value ds : Nat) : Int) := by
  induction ds generalizing r with
  | nil => simp [chars, value]
  | cons d ds ih =>
    have e : (d :: ds).length + w = (ds.length + w) + 1 := by simp; omega
    have hd0 : d < 10 := hd d (by simp)
    have hb' : (r * 10 + d) * 10 ^ ds.length + value ds + 48 ≤ 2147483647 := by
      rw [value_cons, List.length_cons, pow_succ] at hb
      have : (r * 10 + d) * 10 ^ ds.length + value ds = r * (10 ^ ds.length * 10) + (d * 10 ^ ds.length + value ds) := by ring
      omega
    have hpos : 1 ≤ 10 ^ ds.length := Nat.one_le_pow _ _ (by norm_num)
    have hle : r * 10 + d ≤ (r * 10 + d) * 10 ^ ds.length := Nat.le_mul_of_pos_right _ hpos
    have hs : digits (ds.length + w + 1) (chars (d :: ds) ++ l) n r = digits (ds.length + w) (chars ds ++ l) n ((r * 10 + d : Nat) : Int) := by
      have := digits_step (w := ds.length + w) hd0 (l := chars ds ++ l) (n := n) (r := (r : Int)) (by omega) (by omega)
      simpa [chars] using this
    rw [e, hs, ih (fun x hx => hd x (by simp [hx])) (r * 10 + d) hb']
    congr 2
    rw [value_cons, List.length_cons, pow_succ]
    ring

theorem digits_neg (ds : List Nat) (hd : ∀ d ∈ ds, d < 10) (w : Nat) (l : List Int) (n : Bool) (r : Int) (hr : r < 0)
    (hb : -200000000 * 10 ≤ r * 10 ^ ds.length) :
    digits (ds.length + w) (chars ds ++ l) n r = digits w l n (r * 10 ^ ds.length + value ds) := by
  induction ds generalizing r with
  | nil => simp [chars, value]
  | cons d ds ih =>
    have e : (d :: ds).length + w = (ds.length + w) + 1 := by simp; omega
    have hd0 : d < 10 := hd d (by simp)
    have hpos : (1 : Int) ≤ 10 ^ ds.length := one_le_pow₀ (by norm_num)
    have hb1 : -200000000 ≤ r * 10 ^ ds.length := by
      rw [List.length_cons, pow_succ] at hb
      linarith
    have hb2 : -200000000 ≤ r := by nlinarith
    have hs : digits (ds.length + w + 1) (chars (d :: ds) ++ l) n r = digits (ds.length + w) (chars ds ++ l) n (r * 10 + d) := by
      have := digits_step (w := ds.length + w) hd0 (l := chars ds ++ l) (n := n) (r := r) hb2 (by omega)
      simpa [chars] using this
    rw [e, hs, ih (fun x hx => hd x (by simp [hx])) (r * 10 + d) (by omega) ?_]
    · congr 1
      rw [value_cons, List.length_cons, pow_succ]
      push_cast
      ring
    · rw [List.length_cons, pow_succ] at hb
      have : (0 : Int) ≤ d * 10 ^ ds.length := by positivity
      linarith

theorem digits_take (w : Nat) (l : List Int) (hw : w ≤ l.length) (n : Bool) (r : Int) : digits w l n r = digits w (l.take w) n r := by
  induction w generalizing l n r with
  | zero => simp [digits]
  | succ w ih =>
    cases l with
    | nil => simp at hw
    | cons c l =>
      have hl : w ≤ l.length := by simpa using hw
      simp only [List.take_succ_cons, digits]
      simp only [fun n r => ih l hl n r]

theorem skip_take (w : Nat) (l : List Int) (hw : w ≤ l.length) :
    (skip w l >>= fun x => digits x.1 x.2 false 0) = (skip w (l.take w) >>= fun x => digits x.1 x.2 false 0) := by
  induction w generalizing l with
  | zero => simp [skip, digits]
  | succ w ih =>
    cases l with
    | nil => simp at hw
    | cons c l =>
      have hl : w ≤ l.length := by simpa using hw
      simp only [List.take_succ_cons, skip]
      by_cases hc : isspace c
      · simp only [hc, if_true]; exact ih l hl
      · simp only [hc]
        rw [← List.take_succ_cons]
        exact digits_take (w + 1) (c :: l) hw false 0

theorem digits_ok (w k : Nat) (hk : w + k ≤ 9) (l : List Int) (hl : w ≤ l.length) (n : Bool) (r : Int)
    (h1 : -(10 ^ k : Int) < r) (h2 : r < 10 ^ k) : ∃ v, digits w l n r = .ok v := by
  induction w generalizing k l n r with
  | zero =>
    have : (10 ^ k : Int) ≤ 10 ^ 9 := pow_le_pow_right₀ (by norm_num) (by omega)
    refine ⟨_, int_ok ?_ ?_⟩ <;> split_ifs <;> norm_num at this <;> omega
  | succ w ih =>
    cases l with
    | nil => simp at hl
    | cons c l =>
      have hl' : w ≤ l.length := by simpa using hl
      have hp : (10 ^ k : Int) ≤ 10 ^ 8 := pow_le_pow_right₀ (by norm_num) (by omega)
      norm_num at hp
      have hs : (10 ^ (k + 1) : Int) = 10 * 10 ^ k := by ring
      have step : ∀ n, (45 ≤ c ∧ c ≤ 57) → (r = 0 ∧ c = 45 ∨ 48 ≤ c) → ∃ v, (int (r * 10) >>= fun x => int (x + c) >>= fun x => int (x - 48) >>= fun x => digits w l n x) = .ok v := by
        intro n hc hc'
        rw [int_ok (by omega) (by omega)]
        simp only [Res.ok_bind]
        rw [int_ok (by omega) (by omega)]
        simp only [Res.ok_bind]
        rw [int_ok (by omega) (by omega)]
        simp only [Res.ok_bind]
        have hp1 : (1 : Int) ≤ 10 ^ k := one_le_pow₀ (by norm_num)
        exact ih (k + 1) (by omega) l hl' n _ (by omega) (by omega)
      simp only [digits]
      by_cases h45 : r = 0 ∧ c = 45
      · rw [if_pos h45]
        exact step true (by omega) (Or.inl h45)
      · rw [if_neg h45]
        by_cases hd : isdigit c
        · simp only [hd]
          simp only [isdigit, Bool.and_eq_true, decide_eq_true_eq] at hd
          exact step n (by omega) (Or.inr hd.1)
        · simp only [hd]
          refine ⟨_, int_ok ?_ ?_⟩ <;> split_ifs <;> omega

theorem skip_ok (w : Nat) (l : List Int) (hl : w ≤ l.length) : ∃ w' l', skip w l = .ok (w', l') ∧ w' ≤ w ∧ w' ≤ l'.length := by
  induction w generalizing l with
  | zero => exact ⟨0, l, rfl, le_refl _, Nat.zero_le _⟩
  | succ w ih =>
    cases l with
    | nil => simp at hl
    | cons c l =>
      by_cases hc : isspace c
      · obtain ⟨w', l', h, h1, h2⟩ := ih l (by simpa using hl)
        exact ⟨w', l', by simp [skip, hc, h], by omega, h2⟩
      · exact ⟨w + 1, c :: l, by simp [skip, hc], le_refl _, hl⟩

/-! ## C55 -/

/-- **C55**, reads: for any contents, only the first `w` characters matter. -/
theorem C55_reads (l : List Int) (w : Nat) (hw : w ≤ l.length) : str2int (some l) w = str2int (some (l.take w)) w := by
  simp only [str2int]
  split_ifs with h
  · rfl
  · simpa using skip_take w l hw

/-- **C55**, totality: a field of up to nine characters always gives a number, without overflow, whatever it contains. -/
theorem C55_total (l : List Int) (w : Nat) (hw : w ≤ l.length) (h9 : w ≤ 9) : ∃ v, str2int (some l) w = .ok v := by
  simp only [str2int]
  split_ifs with h
  · exact ⟨0, rfl⟩
  · obtain ⟨w', l', h, h1, h2⟩ := skip_ok w l hw
    simp only [Int.toNat_natCast, h, Res.ok_bind]
    exact digits_ok w' 0 (by omega) l' h2 false 0 (by norm_num) (by norm_num)

/-- **C55** for numbers without a sign: a padded number that fills the field, or is followed in it by a character that is not a
digit, gives its value; the value must fit an `int` with room for a character.  (A minus sign counts as a digit after zeros.) -/
theorem C55_value_partial (s : Nat) (ds : List Nat) (rest : List Int) (w : Nat) (hd : ∀ d ∈ ds, d < 10) (hne : ds ≠ [])
    (hb : value ds + 48 ≤ 2147483647)
    (hw : w = s + ds.length ∨ s + ds.length < w ∧ ∃ c t, rest = c :: t ∧ isdigit c = false ∧ (c ≠ 45 ∨ value ds ≠ 0)) :
    str2int (some (blank s ++ chars ds ++ rest)) w = .ok (value ds) := by
  have hpos : 0 < ds.length := List.length_pos_iff.2 hne
  obtain ⟨k, rfl⟩ : ∃ k, w = s + (ds.length + k) := ⟨w - s - ds.length, by omega⟩
  have hw0 : ¬ (((s + (ds.length + k) : Nat) : Int) ≤ 0) := by omega
  have hskip : skip (s + (ds.length + k)) (blank s ++ chars ds ++ rest) = .ok (ds.length + k, chars ds ++ rest) := by
    rw [List.append_assoc, skip_blank]
    cases ds with
    | nil => exact absurd rfl hne
    | cons d ds =>
      have : isspace (48 + (d : Int)) = false := by simp [isspace]; omega
      have e : (d :: ds).length + k = (ds.length + k) + 1 := by simp; omega
      rw [e]
      exact skip_stop this
  simp only [str2int, if_neg hw0, Int.toNat_natCast, hskip, Res.ok_bind]
  have hrun := digits_run ds hd k rest false 0 (by simpa using hb)
  rw [Nat.cast_zero] at hrun
  rw [hrun]
  simp only [Nat.zero_mul, Nat.zero_add]
  rcases hw with hw | ⟨hlt, c, t, rfl, hc, hz⟩
  · have : k = 0 := by omega
    subst this
    simp only [digits, Bool.false_eq_true, if_false]
    exact int_ok (by omega) (by omega)
  · obtain ⟨k', rfl⟩ : ∃ k', k = k' + 1 := ⟨k - 1, by omega⟩
    have h45 : ¬ (((value ds : Nat) : Int) = 0 ∧ c = 45) := by
      rintro ⟨h1, h2⟩
      rcases hz with hz | hz
      · exact hz h2
      · exact hz (by exact_mod_cast h1)
    simp only [digits, if_neg h45, hc, Bool.false_eq_true, not_false_eq_true, if_true, if_false]
    exact int_ok (by omega) (by omega)

/-- A blank field is `0`. -/
theorem C55_blank (w : Nat) (rest : List Int) : str2int (some (blank w ++ rest)) w = .ok 0 := by
  simp only [str2int]
  split_ifs with h
  · rfl
  · have := skip_blank w 0 rest
    rw [Nat.add_zero] at this
    simp only [Int.toNat_natCast, this, skip, Res.ok_bind, digits, Bool.false_eq_true, if_false]
    exact int_ok (by norm_num) (by norm_num)

/-- **C55** fails for every negative number: the field `-d…d` with `k ≤ 8` digits of value `v` gives `3·10ᵏ - v`, which is
positive. -/
theorem C55_negative (s : Nat) (ds : List Nat) (rest : List Int) (hd : ∀ d ∈ ds, d < 10) (h8 : ds.length ≤ 8) :
    str2int (some (blank s ++ (45 :: chars ds) ++ rest)) ((s + (ds.length + 1) : Nat) : Int) = .ok (3 * 10 ^ ds.length - value ds) ∧
      (2 * 10 ^ ds.length : Int) < 3 * 10 ^ ds.length - value ds := by
  have hp : (10 ^ ds.length : Int) ≤ 10 ^ 8 := pow_le_pow_right₀ (by norm_num) h8
  norm_num at hp
  have hv : (value ds : Int) < 10 ^ ds.length := by exact_mod_cast value_lt hd
  refine ⟨?_, by linarith⟩
  have hw0 : ¬ (((s + (ds.length + 1) : Nat) : Int) ≤ 0) := by omega
  have hskip : skip (s + (ds.length + 1)) (blank s ++ (45 :: chars ds) ++ rest) = .ok (ds.length + 1, 45 :: (chars ds ++ rest)) := by
    rw [List.append_assoc, skip_blank]
    exact skip_stop (by decide)
  simp only [str2int, if_neg hw0, Int.toNat_natCast, hskip, Res.ok_bind]
  have h1 : digits (ds.length + 1) (45 :: (chars ds ++ rest)) false 0 = digits ds.length (chars ds ++ rest) true (-3) := by
    simp [digits, int]
  rw [h1]
  have h2 := digits_neg ds hd 0 rest true (-3) (by norm_num) (by linarith)
  rw [Nat.add_zero] at h2
  rw [h2]
  simp only [digits, if_true]
  rw [int_ok]
  · congr 1; ring
  · omega
  · omega

/-- **C55** fails: `-5` is read as `25`, and `0-5` as `25` too. -/
theorem C55_negative_fails : str2int (some [45, 53]) 2 = .ok 25 ∧ str2int (some [48, 45, 53]) 3 = .ok 25 := by
  constructor <;> rfl

/-- The hypotheses hold for `"  12,"` and for `"  7"`. -/
example : str2int (some (blank 2 ++ chars [1, 2] ++ [44])) 5 = .ok 12 :=
  C55_value_partial 2 [1, 2] [44] 5 (by decide) (by decide) (by decide) (Or.inr ⟨by decide, 44, [], rfl, by decide, Or.inl (by decide)⟩)

example : str2int (some (blank 2 ++ chars [7] ++ [])) 3 = .ok 7 :=
  C55_value_partial 2 [7] [] 3 (by decide) (by decide) (by decide) (Or.inl rfl)

end OP.Traffic
