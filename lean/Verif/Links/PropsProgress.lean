import Verif.Links.Progress
import Mathlib.Tactic.Linarith
import Mathlib.Tactic.FieldSimp
import Mathlib.Tactic.Ring
/-!
# Property C26: nested progress events
-/
namespace OP.Links

/-! ## Specification -/

/-- The fraction of the whole work done, given (maximum, mark) from the outermost bar inwards: each inner bar
divides one unit of the bar around it. -/
def frac : List (Int × Int) → Option ℚ
  | [] => some 0
  | (M, m) :: r => if M = 0 then none else (frac r).map fun x => ((m : ℚ) + x) / M

/-- The bars that are open, outermost first, after an event, and what is reported; only the three outermost
bars are drawn when updated. -/
def PEv.spec (B : List (Int × Int)) : PEv → List (Int × Int) × POut
  | .start m => (B ++ [(m, 0)], .bar (B.length, some 0))
  | .update m => match B.getLast? with
    | none => (B, .rejected)
    | some b => if B.length ≤ 3 then (B.dropLast ++ [(b.1, m)], .bar (B.length - 1, frac (B.dropLast ++ [(b.1, m)]))) else (B, .quiet)
  | .stop => (B.dropLast, .bar (B.length - 1, some 1))
  | .other => (B, .rejected)

def pspec : List (Int × Int) → List PEv → List (Int × Int) × List POut
  | B, [] => (B, [])
  | B, e :: es => ((pspec (e.spec B).1 es).1, (e.spec B).2 :: (pspec (e.spec B).1 es).2)

/-- With `n` bars open at first, no bar is stopped that was not started. -/
def Balanced : Nat → List PEv → Prop
  | _, [] => True
  | n, .start _ :: es => Balanced (n + 1) es
  | 0, .stop :: _ => False
  | n + 1, .stop :: es => Balanced n es
  | n, .update _ :: es => Balanced n es
  | n, .other :: es => Balanced n es

/-! ## Proofs -/

/-- The static arrays hold the outermost three bars. -/
structure PRep (s : Prog) (B : List (Int × Int)) : Prop where
  level : s.level = (B.length : Int) - 1
  lmax : s.max.length = 3
  lmark : s.mark.length = 3
  val : ∀ i, i < 3 → ∀ b, B[i]? = some b → s.max[i]? = some b.1 ∧ s.mark[i]? = some b.2

theorem aget_ok {a : List Int} {i : Nat} {v : Int} (h : a[i]? = some v) : aget a i = .ok v := by
  simp [aget, h]

theorem qadd_none (x : Option ℚ) : qadd x none = none := by cases x <;> rfl
theorem none_qadd (x : Option ℚ) : qadd none x = none := by cases x <;> rfl

/-- The loop and the last line together compute the nested fraction. -/
theorem frac_ok {s : Prog} : ∀ (C : List (Int × Int)) (b : Int × Int) (i : Nat) (p m : Option ℚ),
    (∀ j c, C[j]? = some c → s.max[i + j]? = some c.1 ∧ s.mark[i + j]? = some c.2) →
    ∃ p' m', fracLoop s C.length i p m = .ok (p', m') ∧
      qadd p' (qdiv (qmul m' (some (b.2 : ℚ))) (some (b.1 : ℚ))) = qadd p (qmul m (frac (C ++ [b])))
  | [], b, i, p, m, _ => by
    refine ⟨p, m, rfl, ?_⟩
    cases m with
    | none => rfl
    | some m =>
      congr 1
      by_cases hb : b.1 = 0
      · simp [frac, hb, qdiv, qmul]
      · have : (b.1 : ℚ) ≠ 0 := by exact_mod_cast hb
        simp [frac, hb, qdiv, qmul]
        ring
  | (M, k) :: C, b, i, p, m, h => by
    obtain ⟨h1, h2⟩ := h 0 (M, k) rfl
    obtain ⟨p', m', h3, h4⟩ := frac_ok C b (i + 1) (qadd p (qdiv (qmul m (some (k : ℚ))) (some (M : ℚ)))) (qmul m (qdiv (some 1) (some (M : ℚ))))
      (fun j c hj => by
        have := h (j + 1) c (by simpa using hj)
        rw [show i + 1 + j = i + (j + 1) by omega]; exact this)
    refine ⟨p', m', ?_, ?_⟩
    · simp only [Nat.add_zero] at h1 h2
      simp only [List.length_cons, fracLoop, aget_ok h1, aget_ok h2, Res.ok_bind]
      exact h3
    · rw [h4]
      cases p with
      | none => simp [none_qadd]
      | some p =>
        cases m with
        | none => simp [qmul, qdiv, qadd]
        | some m =>
          by_cases hM : M = 0
          · simp [frac, hM, qmul, qdiv, qadd]
          · have : (M : ℚ) ≠ 0 := by exact_mod_cast hM
            cases hf : frac (C ++ [b]) with
            | none => simp [frac, hM, hf, qmul, qdiv, qadd]
            | some x =>
              simp only [List.cons_append, frac, if_neg hM, hf, Option.map_some, qmul, qdiv, if_neg this, qadd, Option.some.injEq]
              field_simp
              ring

theorem set_get {a : List Int} (i j : Nat) (v : Int) (hi : i < a.length) : (a.set i v)[j]? = if j = i then some v else a[j]? := by
  rw [List.getElem?_set]
  by_cases h : i = j
  · subst h; simp [hi]
  · simp [h, Ne.symm h]

theorem pstep_ok {s : Prog} {B : List (Int × Int)} (h : PRep s B) (e : PEv) (hs : e = .stop → B ≠ []) :
    ∃ s', (prun s [e]) = .ok (s', [(e.spec B).2]) ∧ PRep s' (e.spec B).1 := by
  obtain ⟨hl, h1, h2, hv⟩ := h
  cases e with
  | start m =>
    by_cases h3 : B.length < 3
    · have hlt : s.level + 1 < 3 := by omega
      have ht : (s.level + 1).toNat = B.length := by omega
      have hc1 : 0 ≤ s.level + 1 ∧ s.level + 1 < (s.max.length : Int) := by omega
      have hc2 : 0 ≤ s.level + 1 ∧ s.level + 1 < (s.mark.length : Int) := by omega
      refine ⟨⟨s.level + 1, s.max.set B.length m, s.mark.set B.length 0⟩, ?_, ?_⟩
      · simp only [prun, Prog.step, if_pos hlt, aput, if_pos hc1, if_pos hc2, Res.ok_bind, ht, PEv.spec]
        rw [hl]; simp
      · refine ⟨by simp [PEv.spec]; omega, by simp [h1], by simp [h2], fun i hi b hb => ?_⟩
        simp only [PEv.spec] at hb
        rw [set_get _ _ _ (by omega), set_get _ _ _ (by omega)]
        rw [List.getElem?_append] at hb
        by_cases hiB : i < B.length
        · rw [if_pos hiB] at hb
          rw [if_neg (by omega), if_neg (by omega)]
          exact hv i hi b hb
        · rw [if_neg hiB] at hb
          have : i = B.length := by
            by_contra hc
            rw [List.getElem?_eq_none (by simp; omega)] at hb; cases hb
          subst this
          simp at hb; subst hb; simp
    · have hlt : ¬ s.level + 1 < 3 := by omega
      refine ⟨{ s with level := s.level + 1 }, ?_, ?_⟩
      · simp only [prun, Prog.step, if_neg hlt, Res.ok_bind, PEv.spec]
        rw [hl]; simp
      · refine ⟨by simp [PEv.spec]; omega, h1, h2, fun i hi b hb => ?_⟩
        simp only [PEv.spec] at hb
        rw [List.getElem?_append_left (by omega)] at hb
        exact hv i hi b hb
  | update m =>
    rcases List.eq_nil_or_concat B with rfl | ⟨C, b, rfl⟩
    · simp at hl
      exact ⟨s, by simp [prun, Prog.step, hl, PEv.spec], ⟨by simpa [PEv.spec] using hl, h1, h2, by simpa [PEv.spec] using hv⟩⟩
    · simp only [List.concat_eq_append] at *
      have hnl : ¬ s.level < 0 := by simp at hl; omega
      have hC : s.level = C.length := by simp at hl; omega
      by_cases h3 : C.length < 3
      · have hlt : s.level < 3 := by omega
        have hc2 : 0 ≤ s.level ∧ s.level < (s.mark.length : Int) := by omega
        have ht : s.level.toNat = C.length := by omega
        obtain ⟨p', m', f1, f2⟩ := frac_ok (s := { s with mark := s.mark.set C.length m }) C (b.1, m) 0 (some 0) (some 1)
          (fun j c hj => by
            have hjC : j < C.length := by
              by_contra hc
              rw [List.getElem?_eq_none (by omega)] at hj; cases hj
            have := hv j (by omega) c (by rw [List.getElem?_append_left hjC]; exact hj)
            rw [Nat.zero_add]
            refine ⟨this.1, ?_⟩
            show (s.mark.set C.length m)[j]? = _
            rw [set_get _ _ _ (by omega), if_neg (by omega)]
            exact this.2)
        obtain ⟨hb1, hb2⟩ := hv C.length h3 b (by simp)
        have hspec : PEv.spec (C ++ [b]) (.update m) = (C ++ [(b.1, m)], .bar ((C.length : Int), frac (C ++ [(b.1, m)]))) := by
          have : (C ++ [b]).length ≤ 3 := by simp; omega
          simp only [PEv.spec, List.getLast?_append, List.getLast?_singleton, Option.some_or, if_pos this, List.dropLast_concat]
          simp
        have hmk : aget (s.mark.set C.length m) (C.length : Int) = .ok m :=
          aget_ok (by rw [set_get _ _ _ (by omega)]; simp)
        have hmx : aget s.max (C.length : Int) = .ok b.1 := aget_ok hb1
        refine ⟨{ s with mark := s.mark.set C.length m }, ?_, ?_⟩
        · rw [hspec]
          simp only [prun, Prog.step, if_neg hnl, if_pos hlt, aput, if_pos hc2, Res.ok_bind, ht, f1]
          rw [hC, hmk, hmx]
          simp only [Res.ok_bind, f2]
          cases frac (C ++ [(b.1, m)]) <;> simp [qadd, qmul]
        · rw [hspec]
          refine ⟨by simpa using hl, h1, by simp [h2], fun i hi c hc => ?_⟩
          show s.max[i]? = _ ∧ (s.mark.set C.length m)[i]? = _
          rw [set_get _ _ _ (by omega)]
          by_cases hiC : i < C.length
          · rw [List.getElem?_append_left hiC] at hc
            rw [if_neg (by omega)]
            exact hv i hi c (by rw [List.getElem?_append_left hiC]; exact hc)
          · have : i = C.length := by
              by_contra hcc
              rw [List.getElem?_eq_none (by simp; omega)] at hc; cases hc
            subst this
            simp at hc; subst hc
            simp [hb1]
      · have hlt : ¬ s.level < 3 := by omega
        have hspec : PEv.spec (C ++ [b]) (.update m) = (C ++ [b], .quiet) := by
          have : ¬ (C ++ [b]).length ≤ 3 := by simp; omega
          simp only [PEv.spec, List.getLast?_append, List.getLast?_singleton, Option.some_or, if_neg this]
        refine ⟨s, ?_, ?_⟩
        · rw [hspec]; simp only [prun, Prog.step, if_neg hnl, if_neg hlt, Res.ok_bind]
        · rw [hspec]; exact ⟨hl, h1, h2, hv⟩
  | stop =>
    have hB : B ≠ [] := hs rfl
    have hpos : 0 < B.length := List.length_pos_iff.2 hB
    have keep : ∀ i, i < B.length - 1 → ∀ b, B.dropLast[i]? = some b → B[i]? = some b := by
      intro i hi b hb
      rw [List.getElem?_dropLast] at hb
      simpa [hi] using hb
    by_cases h3 : B.length ≤ 3
    · have hlt : s.level < 3 := by omega
      have ht : s.level.toNat = B.length - 1 := by omega
      have hc1 : 0 ≤ s.level ∧ s.level < (s.max.length : Int) := by omega
      have hc2 : 0 ≤ s.level ∧ s.level < (s.mark.length : Int) := by omega
      refine ⟨⟨s.level - 1, s.max.set (B.length - 1) 0, s.mark.set (B.length - 1) 0⟩, ?_, ?_⟩
      · simp only [prun, Prog.step, if_pos hlt, aput, if_pos hc1, if_pos hc2, Res.ok_bind, ht, PEv.spec]
        rw [hl]
      · refine ⟨by simp [PEv.spec]; omega, by simp [h1], by simp [h2], fun i hi b hb => ?_⟩
        simp only [PEv.spec] at hb
        have hiB : i < B.length - 1 := by
          by_contra hc
          rw [List.getElem?_eq_none (by simp; omega)] at hb; cases hb
        rw [set_get _ _ _ (by omega), set_get _ _ _ (by omega), if_neg (by omega), if_neg (by omega)]
        exact hv i hi b (keep i hiB b hb)
    · have hlt : ¬ s.level < 3 := by omega
      refine ⟨{ s with level := s.level - 1 }, ?_, ?_⟩
      · simp only [prun, Prog.step, if_neg hlt, Res.ok_bind, PEv.spec]
        rw [hl]
      · refine ⟨by simp [PEv.spec]; omega, h1, h2, fun i hi b hb => ?_⟩
        simp only [PEv.spec] at hb
        have hiB : i < B.length - 1 := by
          by_contra hc
          rw [List.getElem?_eq_none (by simp; omega)] at hb; cases hb
        exact hv i hi b (keep i hiB b hb)
  | other => exact ⟨s, by simp [prun, Prog.step, PEv.spec], ⟨hl, h1, h2, hv⟩⟩

theorem prun_cons (s : Prog) (e : PEv) (es : List PEv) :
    prun s (e :: es) = (prun s [e] >>= fun r => prun r.1 es >>= fun q => .ok (q.1, r.2 ++ q.2)) := by
  simp only [prun]
  cases s.step e with
  | ok r => obtain ⟨s, b⟩ := r; rfl
  | throw => rfl
  | ub => rfl

theorem spec_length (B : List (Int × Int)) (e : PEv) : (e.spec B).1.length = match e with
    | .start _ => B.length + 1
    | .stop => B.length - 1
    | _ => B.length := by
  cases e <;> simp [PEv.spec]
  rename_i m
  rcases List.eq_nil_or_concat B with rfl | ⟨C, b, rfl⟩
  · simp
  · simp only [List.concat_eq_append, List.getLast?_append, List.getLast?_singleton, Option.some_or]
    split <;> simp

theorem prun_ok : ∀ {es : List PEv} {s : Prog} {B : List (Int × Int)}, PRep s B → Balanced B.length es →
    ∃ s', prun s es = .ok (s', (pspec B es).2) ∧ PRep s' (pspec B es).1
  | [], s, B, h, _ => ⟨s, rfl, h⟩
  | e :: es, s, B, h, hb => by
    have hne : e = .stop → B ≠ [] := by
      rintro rfl rfl
      exact hb
    obtain ⟨s1, h1, h2⟩ := pstep_ok h e hne
    have hb' : Balanced (e.spec B).1.length es := by
      rw [spec_length]
      cases e with
      | start m => exact hb
      | update m => cases hn : B.length <;> rw [hn] at hb <;> exact hb
      | other => cases hn : B.length <;> rw [hn] at hb <;> exact hb
      | stop =>
        cases hn : B.length with
        | zero => rw [hn] at hb; exact hb.elim
        | succ n => rw [hn] at hb; exact hb
    obtain ⟨s2, h3, h4⟩ := prun_ok h2 hb'
    exact ⟨s2, by rw [prun_cons, h1]; simp [h3, pspec], h4⟩

theorem init_prep : PRep Prog.init [] := ⟨rfl, rfl, rfl, by simp⟩

/-- **C26** (partial: an unbalanced stop is not ignored, see below).  Every sequence of progress events in which
no bar is stopped that was not started, however deeply nested, stays inside the three-element tables, and what is
reported is the start, the fraction of the work done according to the nesting, and the end of each bar; an
update without a bar and an unknown event are rejected. -/
theorem C26_progress_partial (es : List PEv) (h : Balanced 0 es) :
    ∃ s, prun Prog.init es = .ok (s, (pspec [] es).2) := by
  obtain ⟨s, h1, -⟩ := prun_ok init_prep h
  exact ⟨s, h1⟩

/-- The reported fraction is between 0 and 1 when the marks are within their bars. -/
theorem C26_fraction_bounds : ∀ (B : List (Int × Int)) (M m : Int), (∀ b ∈ B, 0 ≤ b.2 ∧ b.2 < b.1) → 0 < M → 0 ≤ m → m ≤ M →
    ∃ x, frac (B ++ [(M, m)]) = some x ∧ 0 ≤ x ∧ x ≤ 1
  | [], M, m, _, hM, h0, h1 => by
    have hM' : (0 : ℚ) < M := by exact_mod_cast hM
    refine ⟨(m : ℚ) / M, by simp [frac, hM.ne'], ?_, ?_⟩
    · exact div_nonneg (by exact_mod_cast h0) hM'.le
    · rw [div_le_one hM']; exact_mod_cast h1
  | (N, n) :: B, M, m, hB, hM, h0, h1 => by
    obtain ⟨x, hx, hx0, hx1⟩ := C26_fraction_bounds B M m (fun b hb => hB b (by simp [hb])) hM h0 h1
    obtain ⟨hn0, hn1⟩ := hB (N, n) (by simp)
    simp only at hn0 hn1
    have hN : 0 < N := by omega
    have hN' : (0 : ℚ) < N := by exact_mod_cast hN
    have hn0' : (0 : ℚ) ≤ n := by exact_mod_cast hn0
    have hn1' : (n : ℚ) + 1 ≤ N := by exact_mod_cast hn1
    refine ⟨((n : ℚ) + x) / N, by simp [frac, hN.ne', hx], ?_, ?_⟩
    · exact div_nonneg (by linarith) hN'.le
    · rw [div_le_one hN']; linarith

/-- Every sequence with a stop too many writes before the tables. -/
theorem C26_unbalanced_stop_wrong (es : List PEv) (h : ¬ Balanced 0 es) : prun Prog.init es = .ub := by
  suffices ∀ (es : List PEv) (s : Prog) (B : List (Int × Int)), PRep s B → ¬ Balanced B.length es → prun s es = .ub from
    this es _ [] init_prep h
  intro es
  induction es with
  | nil => intro s B _ hb; exact absurd trivial hb
  | cons e es ih =>
    intro s B hr hb
    by_cases hs : e = .stop ∧ B = []
    · obtain ⟨rfl, rfl⟩ := hs
      have := hr.level
      simp at this
      simp [prun, Prog.step, this, aput]
    · obtain ⟨s1, h1, h2⟩ := pstep_ok hr e (fun he hB => hs ⟨he, hB⟩)
      have hb' : ¬ Balanced (e.spec B).1.length es := by
        rw [spec_length]
        cases e with
        | start m => exact hb
        | update m => cases hn : B.length <;> rw [hn] at hb <;> exact hb
        | other => cases hn : B.length <;> rw [hn] at hb <;> exact hb
        | stop =>
          cases hn : B.length with
          | zero => exact absurd ⟨rfl, List.length_eq_zero_iff.1 hn⟩ hs
          | succ n => rw [hn] at hb; exact hb
      rw [prun_cons, h1]
      simp [ih s1 _ h2 hb']

/-- Four bars nested, the third updated; an update before any start; and a stop too many. -/
example : Balanced 0 [.update 1, .start 4, .update 1, .start 10, .update 5, .start 2, .update 1, .start 3, .update 1, .stop, .stop, .stop, .stop] ∧
    (pspec [] [.update 1, .start 4, .update 1, .start 10, .update 5, .start 2, .update 1, .start 3, .update 1, .stop, .stop]).2 =
      [.rejected, .bar (0, some 0), .bar (0, some (1 / 4)), .bar (1, some 0), .bar (1, some (3 / 8)), .bar (2, some 0), .bar (2, some (31 / 80)),
       .bar (3, some 0), .quiet, .bar (3, some 1), .bar (2, some 1)] ∧
    ¬ Balanced 0 [.start 4, .stop, .stop, .start 3] := by
  refine ⟨trivial, by decide +kernel, fun h => h⟩

end OP.Links
