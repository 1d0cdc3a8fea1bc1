import Verif.Fem.PropsChol
import Mathlib.Algebra.Field.Rat
import Mathlib.Tactic.Linarith
import Mathlib.Tactic.Positivity
import Mathlib.Tactic.IntervalCases
import Mathlib.Analysis.SpecialFunctions.Sqrt
/-!
# C89: the preconditioner of the finite element solver
-/
namespace OP.Fem

variable {K : Type} [Field K]

/-! ## The columns of a matrix -/

theorem good_cols {B : SMat K} (g : B.Good) (n : Nat) : ∃ c, B.cols n = .ok c ∧ (c.2.map Prod.fst).Pairwise (· < ·) ∧
    (∀ q ∈ c.2.map Prod.fst, q < n) ∧ c.1 = B.entry n n ∧ (∀ q < n, look c.2 q = B.entry q n) ∧
    ∀ q, q ∈ c.2.map Prod.fst ↔ (B n).has q := by
  obtain ⟨l, h1, h2, h3⟩ := chain_has g n
  have em : (l.map fun p => (p.i, p.val)).map Prod.fst = l.map SNode.i := by rw [List.map_map]; rfl
  refine ⟨((B n).val, l.map fun p => (p.i, p.val)), ?_, ?_, ?_, ?_, ?_, ?_⟩
  · unfold SMat.cols; rw [h1]; rfl
  · dsimp only; rw [em]; exact List.pairwise_map.2 h2
  · dsimp only; rw [em]; intro q hq; exact has_lt g ((h3 q).1 hq)
  · unfold SMat.entry; rw [if_pos rfl]
  · intro q hq
    have hr := good_read g q n
    unfold SMat.read at hr
    rw [if_neg (by omega), show max q n = n from by omega, show min q n = q from by omega, h1, Res.ok_bind] at hr
    injection hr with hr
    rw [← hr]
    unfold look
    rw [List.find?_map]
    cases hf : l.find? (fun n => decide (n.i = q)) with
    | none =>
      have : l.find? ((fun x : Nat × Blk K => decide (x.1 = q)) ∘ fun p => (p.i, p.val)) = none := hf
      rw [this]; rfl
    | some x =>
      have : l.find? ((fun x : Nat × Blk K => decide (x.1 = q)) ∘ fun p => (p.i, p.val)) = some x := hf
      rw [this]
      show x.val = if q < n then x.val else tr x.val
      rw [if_pos hq]
  · intro q; dsimp only; rw [em]; exact h3 q

theorem allCols_spec {B : SMat K} (g : B.Good) (nnd : Nat) : ∃ F, B.allCols nnd = .ok F ∧ ∀ n < nnd, B.cols n = .ok (F n) := by
  induction nnd with
  | zero => exact ⟨_, rfl, fun n hn => absurd hn (by omega)⟩
  | succ k ih =>
    obtain ⟨F, h1, h2⟩ := ih
    obtain ⟨c, hc, -⟩ := good_cols g k
    refine ⟨Function.update F k c, ?_, fun n hn => ?_⟩
    · unfold SMat.allCols at h1 ⊢
      rw [List.range_succ, List.foldl_append, h1, List.foldl_cons, List.foldl_nil, Res.ok_bind, hc, Res.ok_bind]
    · by_cases hk : n = k
      · subst hk; rw [Function.update_self, hc]
      · rw [Function.update_of_ne hk, h2 n (by omega)]

/-- Terms below the diagonal are zero. -/
theorem square_eq (G : Fac K) {nnd m n : Nat} (hm : m < nnd) :
    square G nnd m n = ∑ q ∈ Finset.range (m + 1), tmul (factor G q m) (factor G q n) := by
  unfold square
  refine (Finset.sum_subset (Finset.range_mono (by omega)) fun q _ hq => ?_).symm
  rw [factor_below G (by have := Finset.mem_range.not.1 hq; omega), zero_tmul]

variable [LinearOrder K] [IsStrictOrderedRing K]

theorem precond_good {A : SMat K} (g : A.Good) {nnd : Nat}
    (hn : ∀ c < nnd, ∀ l : List Nat, l.Nodup → (∀ q ∈ l, (A c).has q ∨ Adds A c q) → l.length ≤ 65535)
    {eps : K} {sqrt : K → K} (he : 0 < eps) (hs : IsSqrt sqrt) {G : Fac K} (hG : A.precond eps sqrt nnd = .ok G) :
    G.Sorted nnd ∧ (∀ n < nnd, ∀ i, 0 < (G n).1 i i) ∧ (∀ n < nnd, ∀ m, m ∈ (G n).2.map Prod.fst ↔ (A n).has m ∨ Adds A n m) ∧
      (∀ n < nnd, ∀ m < n, ((A n).has m ∨ Adds A n m) → square G nnd m n = A.entry m n) ∧
      ∀ n < nnd, ∀ a b, a ≤ b → square G nnd n n a b = A.entry n n a b := by
  obtain ⟨B, f1, f2, -, f4, f5⟩ := good_fillin g hn
  obtain ⟨F, c1, c2⟩ := allCols_spec f2 nnd
  unfold SMat.precond at hG
  rw [f1, Res.ok_bind, c1, Res.ok_bind] at hG
  have hcol : ∀ n < nnd, ((F n).2.map Prod.fst).Pairwise (· < ·) ∧
      (∀ q ∈ (F n).2.map Prod.fst, q < n) ∧ (F n).1 = B.entry n n ∧ (∀ q < n, look (F n).2 q = B.entry q n) ∧
      ∀ q, q ∈ (F n).2.map Prod.fst ↔ (B n).has q := by
    intro n hn
    obtain ⟨c, hc, h⟩ := good_cols f2 n
    have : c = F n := by
      have := hc.symm.trans (c2 n hn)
      injection this
    rw [← this]; exact h
  have hF : F.Sorted nnd := fun n hn => ⟨(hcol n hn).1, (hcol n hn).2.1⟩
  obtain ⟨-, hok⟩ := incchol_spec he hs hF nnd (le_refl _) G hG
  refine ⟨?_, fun n hn => (hok n hn).2.1, ?_, ?_, ?_⟩
  · intro n hn
    rw [(hok n hn).1]; exact hF n hn
  · intro n hn m
    rw [(hok n hn).1, (hcol n hn).2.2.2.2, f5 n hn]
  · intro n hn m hm hp
    rw [square_eq G (by omega), (hok n hn).2.2.1 m (((hcol n hn).2.2.2.2 m).2 ((f5 n hn m).2 hp)), (hcol n hn).2.2.2.1 m hm,
      f4 m (by omega) n hn]
  · intro n hn a b hab
    rw [square_eq G hn, (hok n hn).2.2.2 a b hab, (hcol n hn).2.2.1, f4 n hn n hn]

omit [LinearOrder K] [IsStrictOrderedRing K] in
/-- The columns have at most 65535 nodes, as tidying needs (C88). -/
def Small (ops : List (Nat × Nat × Blk K)) (nnd : Nat) : Prop :=
  ∀ c < nnd, ∀ l : List Nat, l.Nodup → (∀ q ∈ l, q < c ∧ Level1 ops q c) → l.length ≤ 65535

omit [LinearOrder K] [IsStrictOrderedRing K] in
theorem small_of {ops : List (Nat × Nat × Blk K)} {nnd : Nat} (h : nnd ≤ 65536) : Small ops nnd := by
  intro c hc l hl hq
  have := (List.subperm_of_subset hl (l₂ := List.range c) fun q h => List.mem_range.2 (hq q h).1).length_le
  rw [List.length_range] at this
  omega

omit [LinearOrder K] [IsStrictOrderedRing K] in
theorem build_good {ops : List (Nat × Nat × Blk K)} {A : SMat K} (h : build ops = .ok A) : A.Good ∧
    (∀ a b, A.entry a b = total ops a b) ∧ ∀ c q, ((A c).has q ∨ Adds A c q) ↔ q < c ∧ Level1 ops q c := by
  obtain ⟨A', e1, e2, e3, e4⟩ := good_appends (good_new (0 : K)) ops
  have : A' = A := by
    have := e1.symm.trans h
    injection this
  subst this
  have e4' : ∀ c x, (A' c).has x ↔ x < c ∧ Touched ops x c := by
    intro c x; rw [e4]; simp [SMat.new, SCol.has, Touched]
  refine ⟨e2, fun a b => by rw [e3, entry_new, zero_add], fun c q => ?_⟩
  unfold Adds Level1
  simp only [e4']
  constructor
  · rintro (h | ⟨h1, -, p, ⟨-, h3⟩, h4, h5⟩)
    · exact ⟨h.1, Or.inl h.2⟩
    · exact ⟨h1, Or.inr ⟨p, h4, h5, h3⟩⟩
  · rintro ⟨h1, h2 | ⟨p, h2, h3, h4⟩⟩
    · exact Or.inl ⟨h1, h2⟩
    · by_cases ht : Touched ops q c
      · exact Or.inl ⟨h1, ht⟩
      · exact Or.inr ⟨h1, fun h => ht h.2, p, ⟨by omega, h4⟩, h2, h3⟩

theorem precond_ops {ops : List (Nat × Nat × Blk K)} {A : SMat K} (h : build ops = .ok A) {nnd : Nat} (hn : Small ops nnd)
    {eps : K} {sqrt : K → K} (he : 0 < eps) (hs : IsSqrt sqrt) {G : Fac K} (hG : A.precond eps sqrt nnd = .ok G) :
    G.Sorted nnd ∧ (∀ n < nnd, ∀ i, 0 < (G n).1 i i) ∧ (∀ n < nnd, ∀ m, m ∈ (G n).2.map Prod.fst ↔ m < n ∧ Level1 ops m n) ∧
      (∀ n < nnd, ∀ m < n, Level1 ops m n → square G nnd m n = total ops m n) ∧
      ∀ n < nnd, ∀ a b, a ≤ b → square G nnd n n a b = total ops n n a b := by
  obtain ⟨g, ge, gl⟩ := build_good h
  obtain ⟨p1, p2, p3, p4, p5⟩ := precond_good g (fun c hc l hl hq => hn c hc l hl fun q h => (gl c q).1 (hq q h)) he hs hG
  refine ⟨p1, p2, fun n hn m => (p3 n hn m).trans (gl n m), fun n hn m hm hl => ?_, fun n hn a b hab => ?_⟩
  · rw [p4 n hn m hm ((gl n m).2 ⟨hm, hl⟩), ge]
  · rw [p5 n hn a b hab, ge]

/-- C89: the preconditioner is a triangular matrix with a positive diagonal and blocks only where there are blocks after fill
in; there, and on the diagonal, the product of its transpose and itself is the matrix. -/
theorem C89_factor {ops : List (Nat × Nat × Blk K)} {A : SMat K} (h : build ops = .ok A) {nnd : Nat} (hn : Small ops nnd)
    {eps : K} {sqrt : K → K} (he : 0 < eps) (hs : IsSqrt sqrt) {G : Fac K} (hG : A.precond eps sqrt nnd = .ok G) :
    (∀ n < nnd, (∀ i, 0 < factor G n n i i) ∧ ∀ i j, j < i → factor G n n i j = 0) ∧
      (∀ n < nnd, ∀ m, n < m ∨ m < n ∧ ¬Level1 ops m n → factor G m n = 0) ∧
      (∀ n < nnd, ∀ m < n, Level1 ops m n → square G nnd m n = total ops m n) ∧
      ∀ n < nnd, ∀ a b, a ≤ b → square G nnd n n a b = total ops n n a b := by
  obtain ⟨-, p2, p3, p4, p5⟩ := precond_ops h hn he hs hG
  refine ⟨fun n hn => ⟨fun i => ?_, fun i j hij => ?_⟩, fun n hn m hm => ?_, p4, p5⟩
  · rw [factor_diag, upper, if_pos rfl]; exact one_div_pos.2 (p2 n hn i)
  · rw [factor_diag, upper_zero hij]
  · rcases hm with hm | ⟨hm, hl⟩
    · exact factor_below G hm
    · rw [factor_above G hm]
      exact look_none fun hmem => hl ((p3 n hn m).1 hmem).2

omit [LinearOrder K] [IsStrictOrderedRing K] in
theorem square_symm (G : Fac K) (nnd a b : Nat) : square G nnd b a = tr (square G nnd a b) := by
  have ht : ∀ s t : Blk K, tmul t s = tr (tmul s t) := by
    intro s t; funext x y; simp [tmul, tr, mul_comm]
  unfold square
  have : ∀ s : Finset Nat, tr (∑ q ∈ s, tmul (factor G q a) (factor G q b)) = ∑ q ∈ s, tr (tmul (factor G q a) (factor G q b)) := by
    classical
    intro s
    induction s using Finset.induction_on with
    | empty => rfl
    | insert x s h ih => rw [Finset.sum_insert h, Finset.sum_insert h, tr_add, ih]
  rw [this]
  exact Finset.sum_congr rfl fun q _ => ht _ _

omit [LinearOrder K] [IsStrictOrderedRing K] in
theorem total_symm (ops : List (Nat × Nat × Blk K)) {a b : Nat} (h : a ≠ b) : total ops b a = tr (total ops a b) := by
  unfold total
  induction ops with
  | nil => rfl
  | cons op ops ih =>
    rw [List.map_cons, List.map_cons, List.sum_cons, List.sum_cons, tr_add, ih]
    congr 1
    unfold contribution
    by_cases h1 : op.1 = a ∧ op.2.1 = b
    · rw [if_neg (by omega), if_pos (by omega), if_pos h1]
    · by_cases h2 : op.1 = b ∧ op.2.1 = a
      · rw [if_pos h2, if_neg h1, if_pos h2, tr_tr]
      · rw [if_neg h2, if_neg h1, if_neg h1, if_neg h2]; rfl

omit [LinearOrder K] [IsStrictOrderedRing K] in
theorem total_untouched {ops : List (Nat × Nat × Blk K)} {a b : Nat} (h : ¬Touched ops a b) : total ops a b = 0 := by
  unfold total
  induction ops with
  | nil => rfl
  | cons op ops ih =>
    have h' : ¬Touched ops a b := fun ⟨o, ho, hx⟩ => h ⟨o, List.mem_cons_of_mem _ ho, hx⟩
    have h0 : ¬((a = op.1 ∧ b = op.2.1) ∨ (a = op.2.1 ∧ b = op.1)) := fun hx => h ⟨op, by simp, hx⟩
    rw [List.map_cons, List.sum_cons, ih h', add_zero]
    unfold contribution
    rw [if_neg (by omega), if_neg (by omega)]

/-- C89: if elimination makes no further blocks non-zero, the decomposition is complete. -/
theorem C89_exact {ops : List (Nat × Nat × Blk K)} {A : SMat K} (h : build ops = .ok A) {nnd : Nat} (hn : Small ops nnd)
    {eps : K} {sqrt : K → K} (he : 0 < eps) (hs : IsSqrt sqrt) {G : Fac K} (hG : A.precond eps sqrt nnd = .ok G)
    (hd : ∀ n < nnd, tr (total ops n n) = total ops n n)
    (hc : ∀ p m n, p < m → m < n → n < nnd → Level1 ops p m → Level1 ops p n → Level1 ops m n) :
    ∀ a < nnd, ∀ b < nnd, square G nnd a b = total ops a b := by
  obtain ⟨-, f2, f3, f4⟩ := C89_factor h hn he hs hG
  have hlt : ∀ n < nnd, ∀ m < n, square G nnd m n = total ops m n := by
    intro n hn m hm
    by_cases hl : Level1 ops m n
    · exact f3 n hn m hm hl
    · rw [total_untouched fun ht => hl (Or.inl ht)]
      unfold square
      refine Finset.sum_eq_zero fun q _ => ?_
      rcases Nat.lt_trichotomy q m with hq | hq | hq
      · by_cases h1 : Level1 ops q m
        · have h2 : ¬Level1 ops q n := fun h2 => hl (hc q m n hq hm hn h1 h2)
          rw [f2 n hn q (Or.inr ⟨by omega, h2⟩), tmul_zero]
        · rw [f2 m (by omega) q (Or.inr ⟨hq, h1⟩), zero_tmul]
      · rw [hq, f2 n hn m (Or.inr ⟨hm, hl⟩), tmul_zero]
      · rw [f2 m (by omega) q (Or.inl hq), zero_tmul]
  intro a ha b hb
  rcases Nat.lt_trichotomy a b with hab | rfl | hab
  · exact hlt b hb a hab
  · funext i j
    rcases le_total i j with hij | hij
    · exact f4 a ha i j hij
    · have e1 : square G nnd a a i j = square G nnd a a j i := by
        conv_lhs => rw [square_symm]
        rfl
      have e2 : total ops a a i j = total ops a a j i := by
        conv_lhs => rw [← hd a ha]
        rfl
      rw [e1, e2, f4 a ha j i hij]
  · rw [square_symm, hlt a ha b hab, ← total_symm ops (by omega)]

/-- C89: forward and backward substitution solve the system of the preconditioner. -/
theorem C89_solve {ops : List (Nat × Nat × Blk K)} {A : SMat K} (h : build ops = .ok A) {nnd : Nat} (hn : Small ops nnd)
    {eps : K} {sqrt : K → K} (he : 0 < eps) (hs : IsSqrt sqrt) {G : Fac K} (hG : A.precond eps sqrt nnd = .ok G) (R V : SVec K) :
    ∀ a < nnd, ∑ b ∈ Finset.range nnd, mv (square G nnd a b) (backward G nnd (forward G nnd R V) b) = R a := by
  obtain ⟨p1, p2, -⟩ := precond_ops h hn he hs hG
  exact subst_spec p1 (fun m hm i => (p2 m hm i).ne') R V

/-! ## Where it fails -/

/-- The number as a diagonal block. -/
def scalar (x : K) : Blk K := fun a b => if a = b then x else 0

theorem one_node (eps x : K) (sqrt : K → K) : ∃ (A : SMat K) (F : Fac K), build [(0, 0, scalar x)] = .ok A ∧ F 0 = (scalar x, []) ∧
    A.precond eps sqrt 1 = diagChol eps sqrt (scalar x) >>= fun D => .ok (Function.update F 0 (D, [])) := by
  obtain ⟨A, e1, e2, e3, e4⟩ := good_appends (good_new (0 : K)) [(0, 0, scalar x)]
  obtain ⟨-, ge, gl⟩ := build_good e1
  obtain ⟨B, f1, f2, -, f4, -⟩ := good_fillin e2 (nnd := 1) fun c hc l hl hq =>
    small_of (ops := [(0, 0, scalar x)]) (nnd := 1) (by omega) c hc l hl fun q h => (gl c q).1 (hq q h)
  obtain ⟨F, c1, c2⟩ := allCols_spec f2 1
  obtain ⟨c, hc, -, h2, h3, -, -⟩ := good_cols f2 0
  have hF : c = F 0 := by
    have := hc.symm.trans (c2 0 (by omega))
    injection this
  subst hF
  have hnil : (F 0).2 = [] := by
    cases hl : (F 0).2 with
    | nil => rfl
    | cons y l => have := h2 y.1 (by rw [hl]; simp); omega
  have hval : (F 0).1 = scalar x := by
    rw [h3, f4 0 (by omega) 0 (by omega), ge]
    simp [total, contribution]
  refine ⟨A, F, e1, Prod.ext hval hnil, ?_⟩
  unfold SMat.precond
  rw [f1, Res.ok_bind, c1, Res.ok_bind]
  unfold incchol
  rw [List.range_one, List.foldl_cons, List.foldl_nil, Res.ok_bind]
  unfold cholCol
  rw [hnil, hval]
  unfold offLoop
  rfl

/-- C89, the code: the pivots are compared with a fixed number, so that a matrix with small entries is refused whatever it is;
a node on its own is accepted exactly if its stiffness is not below that number. -/
theorem C89_scale_wrong {eps : K} {sqrt : K → K} (he : 0 < eps) (hs : IsSqrt sqrt) (x : K) :
    ∃ A, build [(0, 0, scalar x)] = .ok A ∧ (x < eps → A.precond eps sqrt 1 = .throw) ∧
      (eps ≤ x → ∃ G, A.precond eps sqrt 1 = .ok G) := by
  obtain ⟨A, F, h1, -, h3⟩ := one_node eps x sqrt
  have e : List.finRange 3 = [(0 : Fin 3), 1, 2] := by decide
  refine ⟨A, h1, fun hx => ?_, fun hx => ?_⟩
  · rw [h3]
    unfold diagChol
    rw [e]
    simp only [List.foldl_cons, List.foldl_nil, Res.ok_bind]
    rw [diagStep0, if_pos (show scalar x 0 0 < eps from by simpa [scalar] using hx)]
    rfl
  · rw [h3]
    unfold diagChol
    rw [e]
    simp only [List.foldl_cons, List.foldl_nil, Res.ok_bind]
    rw [diagStep0, if_neg (by simpa [scalar] using hx), Res.ok_bind, diagStep1, if_neg (by simpa [scalar] using hx), Res.ok_bind,
      diagStep2, if_neg (by simpa [scalar] using hx), Res.ok_bind]
    exact ⟨_, rfl⟩

/-- The square root of fractions with square numerator and denominator. -/
def ratSqrt (x : ℚ) : ℚ := (Nat.sqrt x.num.toNat : ℚ) / Nat.sqrt x.den

/-- A chain of five nodes with blocks at a distance. -/
def breakOps : List (Nat × Nat × Blk ℚ) :=
  [(0, 0, scalar 1), (0, 1, scalar 1), (0, 2, scalar 1), (1, 1, scalar 2), (1, 3, scalar 1), (2, 2, scalar 3), (2, 4, scalar 4),
    (3, 3, scalar 5), (3, 4, scalar 4), (4, 4, scalar 17)]

/-- C89, the code: a matrix that is positive definite by far can be refused, as blocks that elimination makes non-zero twice
over are left out. -/
theorem C89_break_wrong : (∀ X : SVec ℚ, (∃ a < 5, X a ≠ 0) →
      0 < ∑ a ∈ Finset.range 5, ∑ b ∈ Finset.range 5, ∑ i, X a i * mv (total breakOps a b) (X b) i) ∧
    (build breakOps >>= fun A => A.precond (1 / 2 ^ 52) ratSqrt 5 >>= fun _ => .ok ()) = .throw := by
  refine ⟨fun X hX => ?_, by decide +kernel⟩
  have e : ∀ i : Fin 3, ∀ x0 x1 x2 x3 x4 : ℚ, 0 ≤ (x0 + x1 + x2) ^ 2 + (x1 - x2 + x3) ^ 2 + (x2 + x3 + 4 * x4) ^ 2 + 3 * x3 ^ 2 + x4 ^ 2 := by
    intros; positivity
  have tot : ∀ a < 5, ∀ b < 5, total breakOps a b = scalar (([[1, 1, 1, 0, 0], [1, 2, 0, 1, 0], [1, 0, 3, 0, 4],
      [0, 1, 0, 5, 4], [0, 0, 4, 4, 17]].getD a []).getD b 0) := by
    intro a ha b hb
    interval_cases a <;> interval_cases b <;> (funext i j; revert i j; decide +kernel)
  have ms : ∀ (x : ℚ) (v : Fin 3 → ℚ) i, mv (scalar x) v i = x * v i := by
    intro x v i
    simp [mv, scalar]
  have key : ∑ a ∈ Finset.range 5, ∑ b ∈ Finset.range 5, ∑ i, X a i * mv (total breakOps a b) (X b) i =
      ∑ i, ((X 0 i + X 1 i + X 2 i) ^ 2 + (X 1 i - X 2 i + X 3 i) ^ 2 + (X 2 i + X 3 i + 4 * X 4 i) ^ 2 + 3 * X 3 i ^ 2 + X 4 i ^ 2) := by
    rw [Finset.sum_congr rfl fun a ha => Finset.sum_congr rfl fun b hb => Finset.sum_congr rfl fun i _ => by
      rw [tot a (Finset.mem_range.1 ha) b (Finset.mem_range.1 hb), ms]]
    simp [Finset.sum_range_succ, Fin.sum_univ_three]
    ring
  rw [key]
  by_contra hcon
  have hz : ∀ i, (X 0 i + X 1 i + X 2 i) ^ 2 + (X 1 i - X 2 i + X 3 i) ^ 2 + (X 2 i + X 3 i + 4 * X 4 i) ^ 2 + 3 * X 3 i ^ 2 + X 4 i ^ 2 = 0 := by
    intro i
    have := (Finset.sum_eq_zero_iff_of_nonneg fun i _ => e i _ _ _ _ _).1
      (le_antisymm (not_lt.1 hcon) (Finset.sum_nonneg fun i _ => e i _ _ _ _ _)) i (Finset.mem_univ i)
    exact this
  obtain ⟨a, ha, hne⟩ := hX
  apply hne
  have h4 : ∀ i, X 4 i = 0 := fun i => by
    have := hz i
    have : X 4 i ^ 2 = 0 := by nlinarith [sq_nonneg (X 0 i + X 1 i + X 2 i), sq_nonneg (X 1 i - X 2 i + X 3 i), sq_nonneg (X 2 i + X 3 i + 4 * X 4 i), sq_nonneg (X 3 i), sq_nonneg (X 4 i)]
    exact pow_eq_zero_iff (two_ne_zero) |>.1 this
  have h3 : ∀ i, X 3 i = 0 := fun i => by
    have := hz i
    have : X 3 i ^ 2 = 0 := by nlinarith [sq_nonneg (X 0 i + X 1 i + X 2 i), sq_nonneg (X 1 i - X 2 i + X 3 i), sq_nonneg (X 2 i + X 3 i + 4 * X 4 i), sq_nonneg (X 3 i), sq_nonneg (X 4 i)]
    exact pow_eq_zero_iff (two_ne_zero) |>.1 this
  have h2 : ∀ i, X 2 i = 0 := fun i => by
    have := hz i
    rw [h3, h4] at this
    have : X 2 i ^ 2 = 0 := by nlinarith [sq_nonneg (X 0 i + X 1 i + X 2 i), sq_nonneg (X 1 i - X 2 i + 0), sq_nonneg (X 2 i)]
    exact pow_eq_zero_iff (two_ne_zero) |>.1 this
  have h1 : ∀ i, X 1 i = 0 := fun i => by
    have := hz i
    rw [h3, h4, h2] at this
    have : X 1 i ^ 2 = 0 := by nlinarith [sq_nonneg (X 0 i + X 1 i + 0), sq_nonneg (X 1 i)]
    exact pow_eq_zero_iff (two_ne_zero) |>.1 this
  have h0 : ∀ i, X 0 i = 0 := fun i => by
    have := hz i
    rw [h3, h4, h2, h1] at this
    have : X 0 i ^ 2 = 0 := by nlinarith
    exact pow_eq_zero_iff (two_ne_zero) |>.1 this
  funext i
  interval_cases a
  · exact h0 i
  · exact h1 i
  · exact h2 i
  · exact h3 i
  · exact h4 i

/-! ## Cases -/

/-- Three nodes in a row. -/
def cholOps : List (Nat × Nat × Blk ℚ) :=
  [(0, 0, scalar 4), (1, 0, fun a b => if b ≤ a then 2 else 0),
    (1, 1, fun a b => (if a ≤ b then a.1 + 1 else b.1 + 1) + if a = b then 4 else 0),
    (2, 1, fun a b => if a = 0 ∧ b = 2 then 6 else 0), (2, 2, fun a b => if a = b then (if a = 0 then 10 else 1) else 0)]

example : (build cholOps >>= fun A => A.precond (1 / 2 ^ 52) ratSqrt 3 >>= fun G =>
      .ok ((G 0).1 0 0, (look (G 1).2 0 0 2, look (G 1).2 0 2 0), (G 1).1 1 1, look (G 2).2 1 2 0, (G 2).1 0 0)) =
    .ok (1 / 2, (1, 0), 1 / 2, 3, 1) := by
  decide +kernel

example : IsSqrt Real.sqrt := fun _ h => ⟨Real.sqrt_pos.2 h, Real.mul_self_sqrt h.le⟩

/-- The hypotheses of the theorems are met. -/
example : ∃ A G, build [(0, 0, scalar (4 : ℝ))] = .ok A ∧ Small [(0, 0, scalar (4 : ℝ))] 1 ∧ A.precond (1 / 2 ^ 52) Real.sqrt 1 = .ok G := by
  obtain ⟨A, h1, -, h3⟩ := C89_scale_wrong (eps := (1 / 2 ^ 52 : ℝ)) (by norm_num)
    (fun _ h => ⟨Real.sqrt_pos.2 h, Real.mul_self_sqrt h.le⟩ : IsSqrt Real.sqrt) 4
  obtain ⟨G, h⟩ := h3 (by norm_num)
  exact ⟨A, G, h1, small_of (by omega), h⟩

end OP.Fem
