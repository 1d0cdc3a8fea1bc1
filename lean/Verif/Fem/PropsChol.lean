import Verif.Fem.Chol
import Verif.Fem.PropsSparseUse
import Mathlib.Algebra.BigOperators.Intervals
import Mathlib.Tactic.Ring
import Mathlib.Tactic.FinCases
import Mathlib.Tactic.FieldSimp
import Mathlib.Tactic.LinearCombination
import Mathlib.Algebra.Order.Field.Basic
import Mathlib.Data.Fin.VecNotation
/-!
# C89: the preconditioner of the finite element solver
-/
namespace OP.Fem

variable {K : Type} [Field K]

/-! ## Specification -/

/-- The block of a column in row `q`, if any. -/
def look (l : List (Nat × Blk K)) (q : Nat) : Blk K :=
  match l.find? (fun x => x.1 = q) with
  | none => 0
  | some x => x.2

/-- The triangular block whose stored diagonal is inverted. -/
def upper (D : Blk K) : Blk K := fun a b => if a = b then 1 / D a a else if a < b then D a b else 0

/-- The triangular matrix that the columns stand for. -/
def factor (F : Fac K) (q n : Nat) : Blk K := if q = n then upper (F n).1 else if q < n then look (F n).2 q else 0

/-- The nodes of the columns are in the order of the rows, which are above the diagonal. -/
def Fac.Sorted (F : Fac K) (nnd : Nat) : Prop := ∀ n < nnd, ((F n).2.map Prod.fst).Pairwise (· < ·) ∧ ∀ q ∈ (F n).2.map Prod.fst, q < n

/-! ## Blocks -/

theorem look_nil (q : Nat) : look ([] : List (Nat × Blk K)) q = 0 := rfl

theorem look_cons (x : Nat × Blk K) (l : List (Nat × Blk K)) (q : Nat) : look (x :: l) q = if x.1 = q then x.2 else look l q := by
  unfold look
  rw [List.find?_cons]
  by_cases h : x.1 = q <;> simp [h]

theorem look_none {l : List (Nat × Blk K)} {q : Nat} (h : q ∉ l.map Prod.fst) : look l q = 0 := by
  induction l with
  | nil => rfl
  | cons x l ih =>
    simp only [List.map_cons, List.mem_cons, not_or] at h
    rw [look_cons, if_neg (Ne.symm h.1), ih h.2]

theorem look_append_left {l m : List (Nat × Blk K)} {q : Nat} (h : q ∉ m.map Prod.fst) : look (l ++ m) q = look l q := by
  induction l with
  | nil => rw [List.nil_append, look_none h, look_nil]
  | cons x l ih => rw [List.cons_append, look_cons, look_cons, ih]

theorem look_append_right {l m : List (Nat × Blk K)} {q : Nat} (h : q ∉ l.map Prod.fst) : look (l ++ m) q = look m q := by
  induction l with
  | nil => rfl
  | cons x l ih =>
    simp only [List.map_cons, List.mem_cons, not_or] at h
    rw [List.cons_append, look_cons, if_neg (Ne.symm h.1), ih h.2]

theorem tmul_zero (t : Blk K) : tmul t 0 = 0 := by funext a b; simp [tmul]
theorem zero_tmul (t : Blk K) : tmul 0 t = 0 := by funext a b; simp [tmul]

theorem offDiag_eq (D p : Blk K) (j : Fin 3) : offDiag D p 0 j = p 0 j * D 0 0 ∧
    offDiag D p 1 j = (p 1 j - D 0 1 * (p 0 j * D 0 0)) * D 1 1 ∧
    offDiag D p 2 j = (p 2 j - D 0 2 * (p 0 j * D 0 0) - D 1 2 * ((p 1 j - D 0 1 * (p 0 j * D 0 0)) * D 1 1)) * D 2 2 := by
  have e0 : (List.finRange 3).filter (· < (0 : Fin 3)) = [] := by decide
  have e1 : (List.finRange 3).filter (· < (1 : Fin 3)) = [0] := by decide
  have e2 : (List.finRange 3).filter (· < (2 : Fin 3)) = [0, 1] := by decide
  have e : List.finRange 3 = [(0 : Fin 3), 1, 2] := by decide
  unfold offDiag
  simp only [e] at e0 e1 e2 ⊢
  simp only [List.foldl_cons, List.foldl_nil, e0, e1, e2]
  fin_cases j <;> simp [put]

/-- The loops solve the system with the transposed triangular block. -/
theorem offDiag_spec {D : Blk K} (hD : ∀ i, D i i ≠ 0) (p : Blk K) : tmul (upper D) (offDiag D p) = p := by
  have h0 := hD 0; have h1 := hD 1; have h2 := hD 2
  funext a b
  obtain ⟨e0, e1, e2⟩ := offDiag_eq D p b
  unfold tmul
  rw [Fin.sum_univ_three, e0, e1, e2]
  fin_cases a <;> simp [upper] <;> field_simp <;> ring

theorem upper_zero {D : Blk K} {a b : Fin 3} (h : b < a) : upper D a b = 0 := by
  unfold upper; rw [if_neg (by omega), if_neg (by omega)]

/-! ## Columns -/

theorem merge_spec (N : Nat) : ∀ (pi pj : List (Nat × Blk K)) (acc : Blk K), (pi.map Prod.fst).Pairwise (· < ·) →
    (pj.map Prod.fst).Pairwise (· < ·) → (∀ q ∈ pi.map Prod.fst, q < N) →
    merge pi pj acc = acc - ∑ q ∈ Finset.range N, tmul (look pi q) (look pj q) := by
  intro pi pj acc
  induction pi, pj, acc using merge.induct with
  | case1 pj acc => intro _ _ _; simp [merge, look_nil, zero_tmul]
  | case2 a pi acc => intro _ _ _; simp [merge, look_nil, tmul_zero]
  | case3 a pi b pj acc h ih =>
    intro h1 h2 h3
    rw [merge, if_pos h, ih h1 (List.pairwise_cons.1 h2).2 h3]
    congr 1
    refine Finset.sum_congr rfl fun q _ => ?_
    rw [look_cons b]
    by_cases hq : b.1 = q
    · have : q ∉ (a :: pi).map Prod.fst := by
        intro hm
        rcases List.mem_cons.1 hm with hm | hm
        · omega
        · have := (List.pairwise_cons.1 h1).1 q hm; omega
      rw [look_none this, zero_tmul, zero_tmul]
    · rw [if_neg hq]
  | case4 a pi b pj acc h h' ih =>
    intro h1 h2 h3
    rw [merge, if_neg h, if_pos h', ih (List.pairwise_cons.1 h1).2 h2 fun q hq => h3 q (List.mem_cons_of_mem _ hq)]
    congr 1
    refine Finset.sum_congr rfl fun q _ => ?_
    rw [look_cons a]
    by_cases hq : a.1 = q
    · have : q ∉ (b :: pj).map Prod.fst := by
        intro hm
        rcases List.mem_cons.1 hm with hm | hm
        · omega
        · have := (List.pairwise_cons.1 h2).1 q hm; omega
      rw [look_none this, tmul_zero, tmul_zero]
    · rw [if_neg hq]
  | case5 a pi b pj acc h h' ih =>
    intro h1 h2 h3
    rw [merge, if_neg h, if_neg h', ih (List.pairwise_cons.1 h1).2 (List.pairwise_cons.1 h2).2 fun q hq => h3 q (List.mem_cons_of_mem _ hq),
      sub_sub]
    congr 1
    have hab : a.1 = b.1 := by omega
    have e : ∀ q, tmul (look (a :: pi) q) (look (b :: pj) q) = (if a.1 = q then tmul a.2 b.2 else 0) + tmul (look pi q) (look pj q) := by
      intro q
      rw [look_cons, look_cons, ← hab]
      by_cases hq : a.1 = q
      · have : q ∉ pi.map Prod.fst := fun hm => by have := (List.pairwise_cons.1 h1).1 q hm; omega
        rw [if_pos hq, if_pos hq, if_pos hq, look_none this, zero_tmul, add_zero]
      · rw [if_neg hq, if_neg hq, if_neg hq, zero_add]
    simp only [e]
    rw [Finset.sum_add_distrib, Finset.sum_ite_eq, if_pos (Finset.mem_range.2 (h3 a.1 (by simp)))]

theorem offLoop_spec {F : Fac K} {n : Nat} (hF : F.Sorted n) (hD : ∀ m < n, ∀ i, (F m).1 i i ≠ 0) : ∀ (rest done : List (Nat × Blk K)) (D : Blk K),
    ((done ++ rest).map Prod.fst).Pairwise (· < ·) → (∀ q ∈ rest.map Prod.fst, q < n) →
    ∃ out, offLoop F D done rest = (D - (out.map fun x => tmul x.2 x.2).sum, done ++ out) ∧ out.map Prod.fst = rest.map Prod.fst ∧
      ∀ m ∈ rest.map Prod.fst, tmul (upper (F m).1) (look out m) =
        look rest m - ∑ q ∈ Finset.range m, tmul (look (F m).2 q) (look (done ++ out) q) := by
  intro rest
  induction rest with
  | nil => intro done D _ _; exact ⟨[], by simp [offLoop], rfl, by simp⟩
  | cons p rest ih =>
    intro done D hs hn
    have hp : p.1 < n := hn p.1 (by simp)
    obtain ⟨v, hv⟩ : ∃ v, v = offDiag (F p.1).1 (merge (F p.1).2 (done ++ p :: rest) p.2) := ⟨_, rfl⟩
    have hs' : ((done ++ [(p.1, v)] ++ rest).map Prod.fst).Pairwise (· < ·) := by simpa using hs
    obtain ⟨out, e1, e2, e3⟩ := ih (done ++ [(p.1, v)]) (D - tmul v v) hs' fun q hq => hn q (by simp [hq])
    have hsp : ((p :: rest).map Prod.fst).Pairwise (· < ·) := by
      rw [List.map_append] at hs; exact (List.pairwise_append.1 hs).2.1
    have hgt : ∀ q ∈ rest.map Prod.fst, p.1 < q := (List.pairwise_cons.1 hsp).1
    have hpo : p.1 ∉ out.map Prod.fst := by
      rw [e2]; intro h; have := hgt _ h; omega
    refine ⟨(p.1, v) :: out, ?_, by simp [e2], ?_⟩
    · rw [offLoop, ← hv, e1, List.map_cons, List.sum_cons, sub_sub]
      simp
    · intro m hm
      have happ : done ++ (p.1, v) :: out = done ++ [(p.1, v)] ++ out := by simp
      rcases List.mem_cons.1 hm with rfl | hm
      · rw [look_cons, if_pos rfl, look_cons, if_pos rfl]
        have hv' : tmul (upper (F p.1).1) v = p.2 - ∑ q ∈ Finset.range p.1, tmul (look (F p.1).2 q) (look (done ++ p :: rest) q) := by
          rw [hv, offDiag_spec (hD _ hp), merge_spec p.1 _ _ _ (hF _ hp).1 hs (hF _ hp).2]
        dsimp only
        rw [hv']
        congr 1
        refine Finset.sum_congr rfl fun q hq => ?_
        have hq := Finset.mem_range.1 hq
        have h1 : q ∉ (p :: rest).map Prod.fst := by
          intro h
          rcases List.mem_cons.1 h with h | h
          · omega
          · have := hgt q h; omega
        have h2 : q ∉ (((p.1, v) :: out).map Prod.fst) := by
          rw [List.map_cons, e2]; exact h1
        rw [look_append_left h1, look_append_left h2]
      · have hne : p.1 ≠ m := by have := hgt m hm; omega
        rw [look_cons, if_neg hne, look_cons, if_neg hne, e3 m hm, happ]

theorem sum_squares {n : Nat} : ∀ (l : List (Nat × Blk K)), (l.map Prod.fst).Pairwise (· < ·) → (∀ q ∈ l.map Prod.fst, q < n) →
    (l.map fun x => tmul x.2 x.2).sum = ∑ q ∈ Finset.range n, tmul (look l q) (look l q) := by
  intro l
  induction l with
  | nil => intro _ _; simp [look_nil, zero_tmul]
  | cons x l ih =>
    intro h1 h2
    have e : ∀ q, tmul (look (x :: l) q) (look (x :: l) q) = (if x.1 = q then tmul x.2 x.2 else 0) + tmul (look l q) (look l q) := by
      intro q
      rw [look_cons]
      by_cases hq : x.1 = q
      · have : q ∉ l.map Prod.fst := fun hm => by have := (List.pairwise_cons.1 h1).1 q hm; omega
        rw [if_pos hq, if_pos hq, look_none this, zero_tmul, add_zero]
      · rw [if_neg hq, if_neg hq, zero_add]
    simp only [e]
    rw [Finset.sum_add_distrib, Finset.sum_ite_eq, if_pos (Finset.mem_range.2 (h2 x.1 (by simp))), List.map_cons, List.sum_cons,
      ih (List.pairwise_cons.1 h1).2 fun q hq => h2 q (List.mem_cons_of_mem _ hq)]

/-! ## Diagonal blocks -/

section Diag
variable [LinearOrder K] [IsStrictOrderedRing K]

/-- What is asked of the square root. -/
def IsSqrt (sqrt : K → K) : Prop := ∀ x, 0 < x → 0 < sqrt x ∧ sqrt x * sqrt x = x

omit [IsStrictOrderedRing K] in
theorem diagStep0 (eps : K) (sqrt : K → K) (D : Blk K) : diagStep eps sqrt D 0 = if D 0 0 < eps then .throw else
    .ok (![![1 / sqrt (D 0 0), D 0 1 * (1 / sqrt (D 0 0)), D 0 2 * (1 / sqrt (D 0 0))], ![0, D 1 1, D 1 2], ![0, D 2 1, D 2 2]]) := by
  have e0 : (List.finRange 3).filter (· < (0 : Fin 3)) = [] := by decide
  have e1 : (List.finRange 3).filter ((0 : Fin 3) < ·) = [1, 2] := by decide
  unfold diagStep
  simp only [e0, e1, List.foldl_cons, List.foldl_nil]
  split
  · rfl
  · congr 1
    funext a b
    fin_cases a <;> fin_cases b <;> simp [put]

omit [IsStrictOrderedRing K] in
theorem diagStep1 (eps : K) (sqrt : K → K) (D : Blk K) : diagStep eps sqrt D 1 = if D 1 1 - D 0 1 * D 0 1 < eps then .throw else
    .ok (![![D 0 0, D 0 1, D 0 2], ![D 1 0, 1 / sqrt (D 1 1 - D 0 1 * D 0 1), (D 1 2 - D 0 1 * D 0 2) * (1 / sqrt (D 1 1 - D 0 1 * D 0 1))],
      ![D 2 0, 0, D 2 2]]) := by
  have e0 : (List.finRange 3).filter (· < (1 : Fin 3)) = [0] := by decide
  have e1 : (List.finRange 3).filter ((1 : Fin 3) < ·) = [2] := by decide
  unfold diagStep
  simp only [e0, e1, List.foldl_cons, List.foldl_nil]
  have e : put D 1 1 (D 1 1 - D 0 1 * D 0 1) 1 1 = D 1 1 - D 0 1 * D 0 1 := by simp [put]
  rw [e]
  split
  · rfl
  · congr 1
    funext a b
    fin_cases a <;> fin_cases b <;> simp [put]

omit [IsStrictOrderedRing K] in
theorem diagStep2 (eps : K) (sqrt : K → K) (D : Blk K) : diagStep eps sqrt D 2 =
    if D 2 2 - D 0 2 * D 0 2 - D 1 2 * D 1 2 < eps then .throw else
    .ok (![![D 0 0, D 0 1, D 0 2], ![D 1 0, D 1 1, D 1 2], ![D 2 0, D 2 1, 1 / sqrt (D 2 2 - D 0 2 * D 0 2 - D 1 2 * D 1 2)]]) := by
  have e0 : (List.finRange 3).filter (· < (2 : Fin 3)) = [0, 1] := by decide
  have e1 : (List.finRange 3).filter ((2 : Fin 3) < ·) = [] := by decide
  unfold diagStep
  simp only [e0, e1, List.foldl_cons, List.foldl_nil]
  have e : put (put D 2 2 (D 2 2 - D 0 2 * D 0 2)) 2 2 ((put D 2 2 (D 2 2 - D 0 2 * D 0 2)) 2 2 -
      (put D 2 2 (D 2 2 - D 0 2 * D 0 2)) 1 2 * (put D 2 2 (D 2 2 - D 0 2 * D 0 2)) 1 2) 2 2 =
      D 2 2 - D 0 2 * D 0 2 - D 1 2 * D 1 2 := by simp [put]
  rw [e]
  split
  · rfl
  · congr 1
    funext a b
    fin_cases a <;> fin_cases b <;> simp [put]

/-- The loops decompose the upper triangle of a block. -/
theorem diagChol_spec {eps : K} {sqrt : K → K} (he : 0 < eps) (hs : IsSqrt sqrt) {D G : Blk K} (h : diagChol eps sqrt D = .ok G) :
    (∀ i, 0 < G i i) ∧ ∀ a b, a ≤ b → tmul (upper G) (upper G) a b = D a b := by
  have e : List.finRange 3 = [(0 : Fin 3), 1, 2] := by decide
  unfold diagChol at h
  rw [e] at h
  simp only [List.foldl_cons, List.foldl_nil, Res.ok_bind] at h
  rw [diagStep0] at h
  split at h
  · simp [bind, Res.bind] at h
  rename_i h0
  rw [Res.ok_bind, diagStep1] at h
  split at h
  · simp [bind, Res.bind] at h
  rename_i h1
  rw [Res.ok_bind, diagStep2] at h
  split at h
  · simp at h
  rename_i h2
  injection h with h
  subst h
  simp only [Matrix.cons_val_zero, Matrix.cons_val_one, Matrix.cons_val] at h1 h2 ⊢
  obtain ⟨p0, q0⟩ := hs (D 0 0) (lt_of_lt_of_le he (not_lt.1 h0))
  obtain ⟨x0, hx0⟩ : ∃ x, x = sqrt (D 0 0) := ⟨_, rfl⟩
  rw [← hx0] at p0 q0 h1 h2 ⊢
  obtain ⟨p1, q1⟩ := hs _ (lt_of_lt_of_le he (not_lt.1 h1))
  obtain ⟨x1, hx1⟩ : ∃ x, x = sqrt (D 1 1 - D 0 1 * (1 / x0) * (D 0 1 * (1 / x0))) := ⟨_, rfl⟩
  rw [← hx1] at p1 q1 h2 ⊢
  obtain ⟨p2, q2⟩ := hs _ (lt_of_lt_of_le he (not_lt.1 h2))
  obtain ⟨x2, hx2⟩ : ∃ x, x = sqrt (D 2 2 - D 0 2 * (1 / x0) * (D 0 2 * (1 / x0)) -
    (D 1 2 - D 0 1 * (1 / x0) * (D 0 2 * (1 / x0))) * (1 / x1) * ((D 1 2 - D 0 1 * (1 / x0) * (D 0 2 * (1 / x0))) * (1 / x1))) := ⟨_, rfl⟩
  rw [← hx2] at p2 q2 ⊢
  have n0 := p0.ne'; have n1 := p1.ne'; have n2 := p2.ne'
  refine ⟨fun i => by fin_cases i <;> simp [p0, p1, p2], ?_⟩
  intro a b hab
  unfold tmul
  rw [Fin.sum_univ_three]
  fin_cases a <;> fin_cases b <;> simp [upper] at hab ⊢
  · exact q0
  · field_simp
  · field_simp
  · linear_combination q1
  · field_simp; ring
  · linear_combination q2

end Diag

/-! ## The decomposition -/

theorem factor_diag (F : Fac K) (n : Nat) : factor F n n = upper (F n).1 := by rw [factor, if_pos rfl]

theorem factor_above (F : Fac K) {q n : Nat} (h : q < n) : factor F q n = look (F n).2 q := by
  rw [factor, if_neg (by omega), if_pos h]

theorem factor_below (F : Fac K) {q n : Nat} (h : n < q) : factor F q n = 0 := by
  rw [factor, if_neg (by omega), if_neg (by omega)]

theorem factor_congr {F G : Fac K} {n : Nat} (h : F n = G n) (q : Nat) : factor F q n = factor G q n := by
  unfold factor; rw [h]

section Decomp
variable [LinearOrder K] [IsStrictOrderedRing K]

/-- What the decomposition of a column gives. -/
def ColOk (F G : Fac K) (n : Nat) : Prop :=
  (G n).2.map Prod.fst = (F n).2.map Prod.fst ∧ (∀ i, 0 < (G n).1 i i) ∧
    (∀ m ∈ (F n).2.map Prod.fst, ∑ q ∈ Finset.range (m + 1), tmul (factor G q m) (factor G q n) = look (F n).2 m) ∧
    ∀ a b, a ≤ b → (∑ q ∈ Finset.range (n + 1), tmul (factor G q n) (factor G q n)) a b = (F n).1 a b

theorem incchol_spec {eps : K} {sqrt : K → K} (he : 0 < eps) (hs : IsSqrt sqrt) {F : Fac K} {nnd : Nat} (hF : F.Sorted nnd) :
    ∀ k ≤ nnd, ∀ G, incchol eps sqrt F k = .ok G → (∀ n, k ≤ n → G n = F n) ∧ ∀ n < k, ColOk F G n := by
  intro k
  induction k with
  | zero =>
    intro _ G h
    simp only [incchol, List.range_zero, List.foldl_nil] at h
    injection h with h
    subst h
    exact ⟨fun _ _ => rfl, fun n hn => absurd hn (by omega)⟩
  | succ k ih =>
    intro hk G h
    have hinc : incchol eps sqrt F (k + 1) = incchol eps sqrt F k >>= fun F => cholCol eps sqrt F k := by
      unfold incchol; rw [List.range_succ, List.foldl_append]; rfl
    rw [hinc] at h
    obtain ⟨H, hH, h⟩ := Res.bind_eq_ok.1 h
    obtain ⟨i1, i2⟩ := ih (by omega) H hH
    unfold cholCol at h
    have hHs : H.Sorted k := by
      intro n hn
      rw [(i2 n hn).1]
      exact hF n (by omega)
    obtain ⟨s1, s2⟩ := hF k (by omega)
    rw [i1 k (le_refl k)] at h
    obtain ⟨out, e1, e2, e3⟩ := offLoop_spec hHs (fun m hm i => ((i2 m hm).2.1 i).ne') (F k).2 [] (F k).1 (by simpa using s1) s2
    rw [e1] at h
    obtain ⟨D, hD, h⟩ := Res.bind_eq_ok.1 h
    injection h with h
    rw [List.nil_append] at h
    have hGk : G k = (D, out) := by rw [← h]; simp
    have hGn : ∀ n, n ≠ k → G n = H n := by intro n hn; rw [← h]; simp [hn]
    obtain ⟨d1, d2⟩ := diagChol_spec he hs hD
    have hfac : ∀ n, n ≠ k → ∀ q, factor G q n = factor H q n := fun n hn => factor_congr (hGn n hn)
    refine ⟨fun n hn => by rw [hGn n (by omega), i1 n (by omega)], fun n hn => ?_⟩
    by_cases hnk : n = k
    · subst hnk
      have hout : ∀ q, q < n → factor G q n = look out q := fun q hq => by rw [factor_above G hq, hGk]
      refine ⟨by rw [hGk, e2], fun i => by rw [hGk]; exact d1 i, fun m hm => ?_, fun a b hab => ?_⟩
      · have hmn := s2 m hm
        have h3 := e3 m hm
        rw [List.nil_append] at h3
        have := sub_eq_iff_eq_add'.1 h3.symm
        rw [this, Finset.sum_range_succ, factor_diag, hout m hmn, hGn m (by omega)]
        congr 1
        refine Finset.sum_congr rfl fun q hq => ?_
        have hq := Finset.mem_range.1 hq
        rw [factor_above G hq, hout q (by omega), hGn m (by omega)]
      · have h2 := d2 a b hab
        rw [sum_squares (n := n) out (by rw [e2]; exact s1) (by rw [e2]; exact s2)] at h2
        rw [Finset.sum_range_succ, factor_diag, hGk]
        have hsum : ∑ q ∈ Finset.range n, tmul (factor G q n) (factor G q n) = ∑ q ∈ Finset.range n, tmul (look out q) (look out q) :=
          Finset.sum_congr rfl fun q hq => by rw [hout q (Finset.mem_range.1 hq)]
        rw [hsum]
        show _ + tmul (upper D) (upper D) a b = _
        rw [h2]
        show _ + ((F n).1 a b - _) = _
        ring
    · obtain ⟨c1, c2, c3, c4⟩ := i2 n (by omega)
      refine ⟨by rw [hGn n hnk, c1], fun i => by rw [hGn n hnk]; exact c2 i, fun m hm => ?_, fun a b hab => ?_⟩
      · have hmn := (hF n (by omega)).2 m hm
        rw [← c3 m hm]
        exact Finset.sum_congr rfl fun q _ => by rw [hfac m (by omega), hfac n hnk]
      · rw [← c4 a b hab]
        have : ∑ q ∈ Finset.range (n + 1), tmul (factor G q n) (factor G q n) = ∑ q ∈ Finset.range (n + 1), tmul (factor H q n) (factor H q n) :=
          Finset.sum_congr rfl fun q _ => by rw [hfac n hnk]
        rw [this]

end Decomp

/-! ## Substitution -/

theorem mv_tmul (s t : Blk K) (v : Fin 3 → K) : mv (tr s) (mv t v) = mv (tmul s t) v := by
  funext a
  simp only [mv, tr, tmul, Fin.sum_univ_three]
  ring

theorem mv_sub (t : Blk K) (v w : Fin 3 → K) : mv t (v - w) = mv t v - mv t w := by
  funext a
  simp only [mv, Pi.sub_apply, Fin.sum_univ_three]
  ring

theorem mv_vadd (t : Blk K) (v w : Fin 3 → K) : mv t (v + w) = mv t v + mv t w := by
  funext a
  simp only [mv, Pi.add_apply, Fin.sum_univ_three]
  ring

theorem mv_vzero (t : Blk K) : mv t 0 = 0 := by
  funext a
  simp [mv]

theorem mv_fsum (t : Blk K) (s : Finset Nat) (f : Nat → Fin 3 → K) : mv t (∑ q ∈ s, f q) = ∑ q ∈ s, mv t (f q) := by
  classical
  induction s using Finset.induction_on with
  | empty => simp [mv_vzero]
  | insert x s h ih => rw [Finset.sum_insert h, Finset.sum_insert h, mv_vadd, ih]

theorem fsum_mv (s : Finset Nat) (f : Nat → Blk K) (v : Fin 3 → K) : mv (∑ q ∈ s, f q) v = ∑ q ∈ s, mv (f q) v := by
  classical
  induction s using Finset.induction_on with
  | empty => simp [mv_zero]
  | insert x s h ih => rw [Finset.sum_insert h, Finset.sum_insert h, mv_add, ih]

theorem fwdDiag_spec {D : Blk K} (hD : ∀ i, D i i ≠ 0) (t : Fin 3 → K) : mv (tr (upper D)) (fwdDiag D t) = t := by
  have h0 := hD 0; have h1 := hD 1; have h2 := hD 2
  have e0 : (List.finRange 3).filter (· < (0 : Fin 3)) = [] := by decide
  have e1 : (List.finRange 3).filter (· < (1 : Fin 3)) = [0] := by decide
  have e2 : (List.finRange 3).filter (· < (2 : Fin 3)) = [0, 1] := by decide
  have e : List.finRange 3 = [(0 : Fin 3), 1, 2] := by decide
  have k : fwdDiag D t = ![t 0 * D 0 0, (t 1 - t 0 * D 0 0 * D 0 1) * D 1 1,
      (t 2 - t 0 * D 0 0 * D 0 2 - (t 1 - t 0 * D 0 0 * D 0 1) * D 1 1 * D 1 2) * D 2 2] := by
    unfold fwdDiag
    simp only [e] at e0 e1 e2 ⊢
    simp only [List.foldl_cons, List.foldl_nil, e0, e1, e2]
    funext a
    fin_cases a <;> simp [Function.update]
  rw [k]
  funext a
  unfold mv tr
  rw [Fin.sum_univ_three]
  fin_cases a <;> simp [upper] <;> field_simp <;> ring

theorem backDiag_spec {D : Blk K} (hD : ∀ i, D i i ≠ 0) (t : Fin 3 → K) : mv (upper D) (backDiag D t) = t := by
  have h0 := hD 0; have h1 := hD 1; have h2 := hD 2
  have e0 : (List.finRange 3).filter ((0 : Fin 3) < ·) = [1, 2] := by decide
  have e1 : (List.finRange 3).filter ((1 : Fin 3) < ·) = [2] := by decide
  have e2 : (List.finRange 3).filter ((2 : Fin 3) < ·) = [] := by decide
  have e : (List.finRange 3).reverse = [(2 : Fin 3), 1, 0] := by decide
  have k : backDiag D t = ![(t 0 - (t 1 - t 2 * D 2 2 * D 1 2) * D 1 1 * D 0 1 - t 2 * D 2 2 * D 0 2) * D 0 0,
      (t 1 - t 2 * D 2 2 * D 1 2) * D 1 1, t 2 * D 2 2] := by
    unfold backDiag
    simp only [e, List.foldl_cons, List.foldl_nil, e0, e1, e2]
    funext a
    fin_cases a <;> simp [Function.update]
  rw [k]
  funext a
  unfold mv
  rw [Fin.sum_univ_three]
  fin_cases a <;> simp [upper] <;> field_simp <;> ring

/-- A sum over the nodes of a column as a sum over the rows. -/
theorem sum_look {n : Nat} (f : Nat → Blk K → Fin 3 → K) (hf : ∀ q, f q 0 = 0) : ∀ (l : List (Nat × Blk K)), (l.map Prod.fst).Pairwise (· < ·) →
    (∀ q ∈ l.map Prod.fst, q < n) → (l.map fun x => f x.1 x.2).sum = ∑ q ∈ Finset.range n, f q (look l q) := by
  intro l
  induction l with
  | nil => intro _ _; simp [look_nil, hf]
  | cons x l ih =>
    intro h1 h2
    have e : ∀ q, f q (look (x :: l) q) = (if x.1 = q then f x.1 x.2 else 0) + f q (look l q) := by
      intro q
      rw [look_cons]
      by_cases hq : x.1 = q
      · have : q ∉ l.map Prod.fst := fun hm => by have := (List.pairwise_cons.1 h1).1 q hm; omega
        rw [if_pos hq, if_pos hq, look_none this, hf, add_zero, hq]
      · rw [if_neg hq, if_neg hq, zero_add]
    simp only [e]
    rw [Finset.sum_add_distrib, Finset.sum_ite_eq, if_pos (Finset.mem_range.2 (h2 x.1 (by simp))), List.map_cons, List.sum_cons,
      ih (List.pairwise_cons.1 h1).2 fun q hq => h2 q (List.mem_cons_of_mem _ hq)]

theorem fold_sub (l : List (Nat × Blk K)) (f : Nat × Blk K → Fin 3 → K) (t : Fin 3 → K) :
    l.foldl (fun t p => t - f p) t = t - (l.map f).sum := by
  induction l generalizing t with
  | nil => simp
  | cons x l ih => rw [List.foldl_cons, ih, List.map_cons, List.sum_cons, sub_sub]

theorem forward_spec {F : Fac K} {nnd : Nat} (hF : F.Sorted nnd) (hD : ∀ m < nnd, ∀ i, (F m).1 i i ≠ 0) (R V : SVec K) :
    ∀ k ≤ nnd, ∀ n < k, ∑ q ∈ Finset.range (n + 1), mv (tr (factor F q n)) (forward F k R V q) = R n := by
  intro k
  induction k with
  | zero => intro _ n hn; omega
  | succ k ih =>
    intro hk n hn
    have hfwd : forward F (k + 1) R V = Function.update (forward F k R V) k
        (fwdDiag (F k).1 ((F k).2.foldl (fun t p => t - mv (tr p.2) (forward F k R V p.1)) (R k))) := by
      unfold forward; rw [List.range_succ, List.foldl_append]; rfl
    have hlow : ∀ q, q ≠ k → forward F (k + 1) R V q = forward F k R V q := by
      intro q hq; rw [hfwd, Function.update_of_ne hq]
    by_cases hnk : n = k
    · subst hnk
      rw [Finset.sum_range_succ, factor_diag, hfwd, Function.update_self, fwdDiag_spec (hD _ (by omega)), ← hfwd,
        fold_sub _ (fun p => mv (tr p.2) (forward F n R V p.1)),
        sum_look (n := n) (fun q t => mv (tr t) (forward F n R V q)) (fun q => mv_zero _) _ (hF n (by omega)).1 (hF n (by omega)).2]
      have : ∑ q ∈ Finset.range n, mv (tr (factor F q n)) (forward F (n + 1) R V q) =
          ∑ q ∈ Finset.range n, mv (tr (look (F n).2 q)) (forward F n R V q) :=
        Finset.sum_congr rfl fun q hq => by
          have hq := Finset.mem_range.1 hq
          rw [hlow q (by omega), factor_above F hq]
      rw [this]
      exact add_sub_cancel _ _
    · rw [← ih (by omega) n (by omega)]
      refine Finset.sum_congr rfl fun q hq => ?_
      have hq := Finset.mem_range.1 hq
      rw [hlow q (by omega)]

/-- One step of the second loop. -/
def backStep (F : Fac K) (V : SVec K) (n : Nat) : SVec K :=
  let t := backDiag (F n).1 (V n)
  (F n).2.foldl (fun V p => Function.update V p.1 (V p.1 - mv p.2 t)) (Function.update V n t)

theorem scatter (t : Fin 3 → K) : ∀ (l : List (Nat × Blk K)) (V : SVec K), (l.map Prod.fst).Pairwise (· < ·) → ∀ q,
    l.foldl (fun (V : SVec K) p => Function.update V p.1 (V p.1 - mv p.2 t)) V q = V q - mv (look l q) t := by
  intro l
  induction l with
  | nil => intro V _ q; simp [look_nil, mv_zero]
  | cons x l ih =>
    intro V h q
    rw [List.foldl_cons, ih _ (List.pairwise_cons.1 h).2, look_cons]
    by_cases hq : x.1 = q
    · have : q ∉ l.map Prod.fst := fun hm => by have := (List.pairwise_cons.1 h).1 q hm; omega
      rw [if_pos hq, look_none this, mv_zero, sub_zero, hq, Function.update_self]
    · rw [if_neg hq, Function.update_of_ne (Ne.symm hq)]

theorem backStep_spec {F : Fac K} {n : Nat} (h1 : ((F n).2.map Prod.fst).Pairwise (· < ·)) (h2 : ∀ q ∈ (F n).2.map Prod.fst, q < n)
    (V : SVec K) : backStep F V n n = backDiag (F n).1 (V n) ∧ (∀ q, n < q → backStep F V n q = V q) ∧
      ∀ q < n, backStep F V n q = V q - mv (factor F q n) (backDiag (F n).1 (V n)) := by
  have hn : ∀ q, n ≤ q → look (F n).2 q = 0 := fun q hq => look_none fun h => by have := h2 q h; omega
  unfold backStep
  refine ⟨?_, fun q hq => ?_, fun q hq => ?_⟩
  · rw [scatter _ _ _ h1, hn n (le_refl n), mv_zero, sub_zero, Function.update_self]
  · rw [scatter _ _ _ h1, hn q (by omega), mv_zero, sub_zero, Function.update_of_ne (by omega)]
  · rw [scatter _ _ _ h1, Function.update_of_ne (by omega), factor_above F hq]

theorem backward_spec {F : Fac K} {nnd : Nat} (hF : F.Sorted nnd) (hD : ∀ m < nnd, ∀ i, (F m).1 i i ≠ 0) :
    ∀ k ≤ nnd, ∀ (Y V : SVec K), (∀ q, k ≤ q → q < nnd → ∑ n ∈ Finset.Ico q nnd, mv (factor F q n) (V n) = Y q) →
      (∀ q < k, V q = Y q - ∑ n ∈ Finset.Ico k nnd, mv (factor F q n) (V n)) →
      ∀ q < nnd, ∑ n ∈ Finset.Ico q nnd, mv (factor F q n) (backward F k V n) = Y q := by
  intro k
  induction k with
  | zero => intro _ Y V h _ q hq; exact h q (by omega) hq
  | succ k ih =>
    intro hk Y V h1 h2
    have hb : backward F (k + 1) V = backward F k (backStep F V k) := by
      unfold backward; rw [List.range_succ, List.reverse_append, List.reverse_singleton, List.singleton_append, List.foldl_cons]; rfl
    rw [hb]
    obtain ⟨s1, s2, s3⟩ := backStep_spec (hF k (by omega)).1 (hF k (by omega)).2 V
    have hup : ∀ q, ∑ n ∈ Finset.Ico (k + 1) nnd, mv (factor F q n) (backStep F V k n) =
        ∑ n ∈ Finset.Ico (k + 1) nnd, mv (factor F q n) (V n) := fun q =>
      Finset.sum_congr rfl fun n hn => by rw [s2 n (by have := Finset.mem_Ico.1 hn; omega)]
    refine ih (by omega) Y _ (fun q hq hqn => ?_) fun q hq => ?_
    · by_cases hqk : q = k
      · subst hqk
        rw [Finset.sum_eq_sum_Ico_succ_bot hqn, hup, s1, factor_diag, backDiag_spec (hD _ hqn), h2 q (by omega)]
        exact sub_add_cancel _ _
      · rw [← h1 q (by omega) hqn]
        exact Finset.sum_congr rfl fun n hn => by rw [s2 n (by have := Finset.mem_Ico.1 hn; omega)]
    · rw [s3 q hq, h2 q (by omega), Finset.sum_eq_sum_Ico_succ_bot (by omega : k < nnd), hup, s1]
      rw [sub_sub, add_comm]

/-- The product of the transposed triangular matrix and itself. -/
def square (F : Fac K) (nnd a b : Nat) : Blk K := ∑ q ∈ Finset.range nnd, tmul (factor F q a) (factor F q b)

theorem subst_spec {F : Fac K} {nnd : Nat} (hF : F.Sorted nnd) (hD : ∀ m < nnd, ∀ i, (F m).1 i i ≠ 0) (R V : SVec K) :
    ∀ a < nnd, ∑ b ∈ Finset.range nnd, mv (square F nnd a b) (backward F nnd (forward F nnd R V) b) = R a := by
  intro a ha
  obtain ⟨X, hX⟩ : ∃ X, X = backward F nnd (forward F nnd R V) := ⟨_, rfl⟩
  have h1 := forward_spec hF hD R V nnd (le_refl _)
  have h2 := backward_spec hF hD nnd (le_refl _) (forward F nnd R V) (forward F nnd R V) (fun q hq hqn => absurd hqn (by omega))
    fun q _ => by simp
  rw [← hX] at h2 ⊢
  have hY : ∀ q < nnd, ∑ n ∈ Finset.range nnd, mv (factor F q n) (X n) = forward F nnd R V q := by
    intro q hq
    rw [← h2 q hq, Finset.range_eq_Ico, ← Finset.sum_Ico_consecutive _ (Nat.zero_le q) (le_of_lt hq)]
    have : ∑ n ∈ Finset.Ico 0 q, mv (factor F q n) (X n) = 0 :=
      Finset.sum_eq_zero fun n hn => by rw [factor_below F (Finset.mem_Ico.1 hn).2, mv_zero]
    rw [this, zero_add]
  have e1 : ∀ b, mv (square F nnd a b) (X b) = ∑ q ∈ Finset.range nnd, mv (tr (factor F q a)) (mv (factor F q b) (X b)) := by
    intro b
    unfold square
    rw [fsum_mv]
    exact Finset.sum_congr rfl fun q _ => (mv_tmul _ _ _).symm
  simp only [e1]
  rw [Finset.sum_comm]
  have e2 : ∀ q ∈ Finset.range nnd, ∑ b ∈ Finset.range nnd, mv (tr (factor F q a)) (mv (factor F q b) (X b)) =
      mv (tr (factor F q a)) (forward F nnd R V q) := by
    intro q hq
    rw [← mv_fsum, hY q (Finset.mem_range.1 hq)]
  rw [Finset.sum_congr rfl e2, ← h1 a ha]
  refine (Finset.sum_subset (Finset.range_mono (by omega)) fun q _ hq => ?_).symm
  rw [factor_below F (by have := Finset.mem_range.not.1 hq; omega)]
  exact mv_zero _

end OP.Fem
