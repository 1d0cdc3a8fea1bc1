import Verif.Fem.PropsSparse
import Mathlib.Algebra.BigOperators.Ring.Finset
import Mathlib.Algebra.Field.Rat
/-!
# C88: products with the sparse matrix, fill in
-/
namespace OP.Fem

variable {K : Type} [Field K]

/-! ## Products -/

theorem mv_add (s t : Blk K) (v : Fin 3 → K) : mv (s + t) v = mv s v + mv t v := by
  funext a; simp [mv, add_mul, Finset.sum_add_distrib]

theorem mv_zero (v : Fin 3 → K) : mv (0 : Blk K) v = 0 := by funext a; simp [mv]

theorem mv_sum (l : List (SNode K)) (f : SNode K → Blk K) (v : Fin 3 → K) :
    mv (l.map f).sum v = (l.map fun n => mv (f n) v).sum := by
  induction l with
  | nil => simp [mv_zero]
  | cons n l ih => simp [mv_add, ih]

theorem tr_sum (l : List (SNode K)) (f : SNode K → Blk K) : tr (l.map f).sum = (l.map fun n => tr (f n)).sum := by
  induction l with
  | nil => rfl
  | cons n l ih => simp [tr_add, ih]

/-- The loops over the nodes of a column. -/
theorem spread (i : Nat) (u v : SNode K → Fin 3 → K) (l : List (SNode K)) (hl : ∀ n ∈ l, n.i ≠ i) (W : SVec K) (a : Nat) :
    l.foldl (fun W p =>
      let W := Function.update W i (W i + u p)
      Function.update W p.i (W p.i + v p)) W a =
    if a = i then W i + (l.map u).sum else W a + (l.map fun n => if n.i = a then v n else 0).sum := by
  induction l generalizing W with
  | nil => by_cases h : a = i <;> simp [h]
  | cons n l ih =>
    have hn := hl n (by simp)
    rw [List.foldl_cons, ih fun m hm => hl m (by simp [hm])]
    by_cases h : a = i
    · rw [if_pos h, if_pos h, Function.update_of_ne (Ne.symm hn), Function.update_self, List.map_cons, List.sum_cons, add_assoc]
    · rw [if_neg h, if_neg h, List.map_cons, List.sum_cons]
      by_cases hna : a = n.i
      · subst hna
        rw [Function.update_self, Function.update_of_ne hn, if_pos rfl, add_assoc]
      · rw [Function.update_of_ne hna, Function.update_of_ne h, if_neg (Ne.symm hna), zero_add]

theorem sum_rows {n : Nat} (l : List (SNode K)) (hl : ∀ m ∈ l, m.i < n) (f : SNode K → Nat → Fin 3 → K) :
    (l.map fun m => f m m.i).sum = ∑ b ∈ Finset.range n, (l.map fun m => if m.i = b then f m b else 0).sum := by
  induction l with
  | nil => simp
  | cons m l ih =>
    simp only [List.map_cons, List.sum_cons, Finset.sum_add_distrib]
    rw [ih fun x hx => hl x (by simp [hx]), Finset.sum_ite_eq, if_pos (Finset.mem_range.2 (hl m (by simp)))]

theorem off_above {A : SMat K} {n : Nat} (g : A.Good) (P : SVec K) :
    ((A n).nodes.map fun p => mv (tr p.val) (P p.i)).sum = ∑ b ∈ Finset.range n, mv (A.entry n b) (P b) := by
  rw [sum_rows (n := n) _ (g n).2 fun p b => mv (tr p.val) (P b)]
  refine Finset.sum_congr rfl fun b hb => ?_
  have hb := Finset.mem_range.1 hb
  rw [SMat.entry, if_neg (by omega), if_neg (by omega), SCol.at, tr_sum, mv_sum]
  congr 1
  refine List.map_congr_left fun m _ => ?_
  by_cases h : m.i = b
  · rw [if_pos h, if_pos h]
  · rw [if_neg h, if_neg h]; exact (mv_zero _).symm

theorem off_below {A : SMat K} {n a : Nat} (h : a < n) (v : Fin 3 → K) :
    ((A n).nodes.map fun p => if p.i = a then mv p.val v else 0).sum = mv (A.entry a n) v := by
  rw [SMat.entry, if_neg (by omega), if_pos h, SCol.at, mv_sum]
  congr 1
  refine List.map_congr_left fun m _ => ?_
  by_cases h : m.i = a
  · rw [if_pos h, if_pos h]
  · rw [if_neg h, if_neg h]; exact (mv_zero _).symm

theorem good_mul {A : SMat K} (g : A.Good) {nnd : Nat} (ht : ∀ c < nnd, (A c).Tidy) (P W : SVec K) :
    ∃ W', A.mul nnd P W = .ok W' ∧ (∀ a < nnd, W' a = ∑ b ∈ Finset.range nnd, mv (A.entry a b) (P b)) ∧ ∀ a, nnd ≤ a → W' a = W a := by
  induction nnd with
  | zero => exact ⟨W, rfl, by omega, fun _ _ => rfl⟩
  | succ n ih =>
    obtain ⟨V, e1, e2, e3⟩ := ih fun c hc => ht c (by omega)
    have hl : ∀ m ∈ (A n).nodes, m.i ≠ n := fun m hm => by have := (g n).2 m hm; omega
    obtain ⟨W', hW'⟩ : ∃ W', mulCol A P V n = .ok W' := by
      unfold mulCol; rw [(ht n (by omega)).1]; exact ⟨_, rfl⟩
    refine ⟨W', ?_, ?_, ?_⟩
    · unfold SMat.mul at e1 ⊢
      rw [List.range_succ, List.foldl_append, e1]
      simpa using hW'
    · intro a ha
      unfold mulCol at hW'
      rw [(ht n (by omega)).1, Res.ok_bind] at hW'
      injection hW' with hW'
      rw [← hW', spread n (fun p => mv (tr p.val) (P p.i)) (fun p => mv p.val (P n)) _ hl, Finset.sum_range_succ]
      by_cases han : a = n
      · subst han
        rw [if_pos rfl, Function.update_self, off_above g, add_comm]
        congr 1
        rw [SMat.entry, if_pos rfl]
      · rw [if_neg han, Function.update_of_ne han, e2 a (by omega), off_below (by omega)]
    · intro a ha
      unfold mulCol at hW'
      rw [(ht n (by omega)).1, Res.ok_bind] at hW'
      injection hW' with hW'
      rw [← hW', spread n (fun p => mv (tr p.val) (P p.i)) (fun p => mv p.val (P n)) _ hl, if_neg (by omega),
        Function.update_of_ne (by omega), e3 a (by omega)]
      have : ((A n).nodes.map fun p => if p.i = a then mv p.val (P n) else 0) = (A n).nodes.map fun _ => (0 : Fin 3 → K) := by
        refine List.map_congr_left fun m hm => ?_
        have := (g n).2 m hm
        rw [if_neg (by omega)]
      rw [this]; simp

theorem good_residual {A : SMat K} (g : A.Good) {nnd : Nat} (ht : ∀ c < nnd, (A c).Tidy) (F U R : SVec K) :
    ∃ R', A.residual nnd F U R = .ok R' ∧ (∀ a < nnd, R' a = F a - ∑ b ∈ Finset.range nnd, mv (A.entry a b) (U b)) ∧
      ∀ a, nnd ≤ a → R' a = R a := by
  induction nnd with
  | zero => exact ⟨R, rfl, by omega, fun _ _ => rfl⟩
  | succ n ih =>
    obtain ⟨V, e1, e2, e3⟩ := ih fun c hc => ht c (by omega)
    have hl : ∀ m ∈ (A n).nodes, m.i ≠ n := fun m hm => by have := (g n).2 m hm; omega
    obtain ⟨W', hW'⟩ : ∃ W', resCol A F U V n = .ok W' := by
      unfold resCol; rw [(ht n (by omega)).1]; exact ⟨_, rfl⟩
    have hval : ∀ a, W' a = if a = n then (F n - mv (A n).val (U n)) + ((A n).nodes.map fun p => -mv (tr p.val) (U p.i)).sum
        else V a + ((A n).nodes.map fun p => if p.i = a then -mv p.val (U n) else 0).sum := by
      intro a
      have := hW'
      unfold resCol at this
      rw [(ht n (by omega)).1, Res.ok_bind] at this
      injection this with this
      simp only [sub_eq_add_neg] at this
      rw [← this, spread n (fun p => -mv (tr p.val) (U p.i)) (fun p => -mv p.val (U n)) _ hl]
      by_cases h : a = n
      · rw [if_pos h, if_pos h, Function.update_self, sub_eq_add_neg]
      · rw [if_neg h, if_neg h, Function.update_of_ne h]
    have neg : ∀ l : List (SNode K), ∀ f : SNode K → Fin 3 → K, (l.map fun p => -f p).sum = -(l.map f).sum := by
      intro l f
      induction l with
      | nil => simp
      | cons m l ih => simp only [List.map_cons, List.sum_cons, ih]; rw [neg_add]
    refine ⟨W', ?_, ?_, ?_⟩
    · unfold SMat.residual at e1 ⊢
      rw [List.range_succ, List.foldl_append, e1]
      simpa using hW'
    · intro a ha
      rw [hval a, Finset.sum_range_succ]
      by_cases han : a = n
      · subst han
        rw [if_pos rfl, neg, off_above g]
        have : A.entry a a = (A a).val := by rw [SMat.entry, if_pos rfl]
        rw [this, ← sub_eq_add_neg, sub_sub, add_comm]
      · rw [if_neg han, e2 a (by omega)]
        have : ((A n).nodes.map fun p => if p.i = a then -mv p.val (U n) else 0) =
            (A n).nodes.map fun p => -(if p.i = a then mv p.val (U n) else 0) := by
          refine List.map_congr_left fun m _ => ?_
          by_cases h : m.i = a <;> simp [h]
        rw [this, neg (A n).nodes, off_below (by omega), ← sub_eq_add_neg, sub_sub]
    · intro a ha
      rw [hval a, if_neg (by omega), e3 a (by omega)]
      have : ((A n).nodes.map fun p => if p.i = a then -mv p.val (U n) else 0) = (A n).nodes.map fun _ => (0 : Fin 3 → K) := by
        refine List.map_congr_left fun m hm => ?_
        have := (g n).2 m hm
        rw [if_neg (by omega)]
      rw [this]; simp

/-- C88: after tidying, the product is that of the whole symmetric matrix with the vector, whatever was in the result before, and
the residual is what is left of the right hand side. -/
theorem C88_product {ops : List (Nat × Nat × Blk K)} {A B : SMat K} (h : build ops = .ok A) {nnd : Nat} (hB : A.tidy nnd = .ok B)
    (F P W : SVec K) :
    (∃ W', B.mul nnd P W = .ok W' ∧ ∀ a < nnd, W' a = ∑ b ∈ Finset.range nnd, mv (total ops a b) (P b)) ∧
    ∃ R', B.residual nnd F P W = .ok R' ∧ ∀ a < nnd, R' a = F a - ∑ b ∈ Finset.range nnd, mv (total ops a b) (P b) := by
  obtain ⟨A', e1, e2, e3, -⟩ := good_appends (good_new (0 : K)) ops
  have : A' = A := by
    have := e1.symm.trans h
    injection this
  subst this
  have hn : ∀ c < nnd, (A' c).nodes.length ≤ 65535 := by
    intro c hc
    by_contra hcon
    exact C88_tidy_wrong hc (by omega) B hB
  obtain ⟨B', f1, f2, f3, f4, -⟩ := good_tidy e2 hn
  have : B' = B := by
    have := f1.symm.trans hB
    injection this
  subst this
  have he : ∀ a b, B'.entry a b = total ops a b := fun a b => by rw [f4, e3, entry_new, zero_add]
  obtain ⟨W', g1, g2, -⟩ := good_mul f2 f3 P W
  obtain ⟨R', g3, g4, -⟩ := good_residual f2 f3 F P W
  refine ⟨⟨W', g1, fun a ha => ?_⟩, ⟨R', g3, fun a ha => ?_⟩⟩
  · rw [g2 a ha]; simp only [he]
  · rw [g4 a ha]; simp only [he]

/-! ## Fill in -/

instance (d : SCol K) (r : Nat) : Decidable (d.has r) := inferInstanceAs (Decidable (r ∈ d.nodes.map SNode.i))

/-- The columns before `n` that have a node in row `r`, the last first. -/
def rowsBefore (A : SMat K) (n r : Nat) : List Nat := ((List.range n).filter fun c => (A c).has r).reverse

theorem rowsBefore_succ (A : SMat K) (n r : Nat) :
    rowsBefore A (n + 1) r = if (A n).has r then n :: rowsBefore A n r else rowsBefore A n r := by
  unfold rowsBefore
  rw [List.range_succ, List.filter_append]
  by_cases h : (A n).has r <;> simp [h]

theorem mem_rowsBefore {A : SMat K} {n r c : Nat} : c ∈ rowsBefore A n r ↔ c < n ∧ (A c).has r := by
  simp [rowsBefore]

theorem has_lt {A : SMat K} (g : A.Good) {c r : Nat} (h : (A c).has r) : r < c := by
  obtain ⟨n, hn, rfl⟩ := List.mem_map.1 h
  exact (g c).2 n hn

theorem push_rows (n : Nat) (l : List (SNode K)) (h : l.Pairwise fun a b => a.i < b.i) (rows : Nat → List Nat) (r : Nat) :
    l.foldl (fun (rows : Nat → List Nat) p => Function.update rows p.i (n :: rows p.i)) rows r = if r ∈ l.map SNode.i then n :: rows r else rows r := by
  induction l generalizing rows with
  | nil => simp
  | cons p l ih =>
    obtain ⟨h1, h2⟩ := List.pairwise_cons.1 h
    rw [List.foldl_cons, ih h2]
    by_cases hr : r = p.i
    · subst hr
      have : p.i ∉ l.map SNode.i := by
        intro hm
        obtain ⟨m, hm, e⟩ := List.mem_map.1 hm
        have := h1 m hm; omega
      rw [if_neg this, Function.update_self, if_pos (by simp)]
    · rw [Function.update_of_ne hr]
      refine if_congr ?_ rfl rfl
      simp [hr]

theorem chain_has {A : SMat K} (g : A.Good) (c : Nat) : ∃ l, (A c).chain = .ok l ∧ l.Pairwise (fun n m => n.i < m.i) ∧
    ∀ r, r ∈ l.map SNode.i ↔ (A c).has r := by
  obtain ⟨l, h1, h2, h3⟩ := good_chain (g c)
  exact ⟨l, h1, h3, fun r => (h2.map _).mem_iff⟩

theorem rowLists_spec {A : SMat K} (g : A.Good) (nnd : Nat) : rowLists A nnd = .ok (rowsBefore A nnd) := by
  induction nnd with
  | zero => rfl
  | succ n ih =>
    obtain ⟨l, h1, h2, h3⟩ := chain_has g n
    unfold rowLists at ih ⊢
    rw [List.range_succ, List.foldl_append, ih]
    simp only [List.foldl_cons, List.foldl_nil, Res.ok_bind, h1]
    congr 1
    funext r
    rw [push_rows n l h2, rowsBefore_succ]
    exact if_congr (h3 r) rfl rfl

/-- A node in row `q` is to be added to column `n`. -/
def Adds (A : SMat K) (n q : Nat) : Prop := q < n ∧ ¬(A n).has q ∧ ∃ p, (A n).has p ∧ (A q).has p

theorem set_marks (n : Nat) (r : List Nat) (m : Nat → Int) (hr : ∀ c ∈ r, c < n) (q : Nat) (hq : q < n) :
    r.foldl (fun m c => Function.update m (n - c - 1) (-1)) m (n - q - 1) = if q ∈ r then -1 else m (n - q - 1) := by
  induction r generalizing m with
  | nil => simp
  | cons c r ih =>
    rw [List.foldl_cons, ih _ fun x hx => hr x (by simp [hx])]
    have hc := hr c (by simp)
    by_cases h : q = c
    · subst h; simp
    · rw [Function.update_of_ne (by omega)]
      refine if_congr ?_ rfl rfl
      simp [h]

theorem set_marks_out (n : Nat) (r : List Nat) (m : Nat → Int) (hr : ∀ c ∈ r, c < n) (i : Nat) (hi : n ≤ i) :
    r.foldl (fun m c => Function.update m (n - c - 1) (-1)) m i = m i := by
  induction r generalizing m with
  | nil => simp
  | cons c r ih =>
    have hc := hr c (by simp)
    rw [List.foldl_cons, ih _ fun x hx => hr x (by simp [hx]), Function.update_of_ne (by omega)]

theorem fillNodes_spec {A : SMat K} (g : A.Good) (n : Nat) (l : List (SNode K)) : ∀ (done : List Nat) (s : Fill),
    l.Pairwise (fun a b => a.i < b.i) → (∀ x ∈ l, (A n).has x.i) → (∀ q ∈ done, ∀ x ∈ l, q < x.i) →
    (∀ x ∈ l, s.rows x.i = n :: rowsBefore A n x.i) →
    (∀ q < n, s.mark (n - q - 1) = if q ∈ done then 1 else if ∃ p ∈ done, (A q).has p then -1 else 0) →
    (∀ i, n ≤ i → s.mark i = 0) →
    ∃ s', l.foldl (fun R p => R >>= fun s => fillNode n s p.i) (.ok s) = .ok s' ∧
      (∀ r, s'.rows r = if r ∈ l.map SNode.i then rowsBefore A n r else s.rows r) ∧
      (∀ q < n, s'.mark (n - q - 1) = if q ∈ done ++ l.map SNode.i then 1 else
        if ∃ p ∈ done ++ l.map SNode.i, (A q).has p then -1 else 0) ∧ ∀ i, n ≤ i → s'.mark i = 0 := by
  induction l with
  | nil => intro done s _ _ _ _ h5 h6; exact ⟨s, rfl, by simp, by simpa using h5, h6⟩
  | cons x l ih =>
    intro done s h1 h2 h3 h4 h5 h6
    obtain ⟨a1, a2⟩ := List.pairwise_cons.1 h1
    have hx := h4 x (by simp)
    have hxn : x.i < n := has_lt g (h2 x (by simp))
    have hrb : ∀ c ∈ rowsBefore A n x.i, c < n := fun c hc => (mem_rowsBefore.1 hc).1
    obtain ⟨s', e1, e2, e3, e4⟩ := ih (done ++ [x.i])
      ⟨Function.update s.rows x.i (rowsBefore A n x.i),
        (rowsBefore A n x.i).foldl (fun m c => Function.update m (n - c - 1) (-1)) (Function.update s.mark (n - x.i - 1) 1)⟩
      a2 (fun y hy => h2 y (by simp [hy]))
      (by
        intro q hq y hy
        rcases List.mem_append.1 hq with hq | hq
        · exact h3 q hq y (by simp [hy])
        · rw [List.mem_singleton.1 hq]; exact a1 y hy)
      (by
        intro y hy
        have := a1 y hy
        dsimp only
        rw [Function.update_of_ne (by omega)]
        exact h4 y (by simp [hy]))
      (by
        intro q hq
        dsimp only
        rw [set_marks n _ _ hrb q hq]
        by_cases hb : q ∈ rowsBefore A n x.i
        · have hqx := (mem_rowsBefore.1 hb).2
          have hlt := has_lt g hqx
          have hnd : q ∉ done ++ [x.i] := by
            intro h
            rcases List.mem_append.1 h with h | h
            · have := h3 q h x (by simp); omega
            · rw [List.mem_singleton.1 h] at hlt; omega
          rw [if_pos hb, if_neg hnd, if_pos ⟨x.i, by simp, hqx⟩]
        · have hnx : ¬(A q).has x.i := fun h => hb (mem_rowsBefore.2 ⟨hq, h⟩)
          rw [if_neg hb]
          by_cases hqx : q = x.i
          · subst hqx; rw [Function.update_self, if_pos (by simp)]
          · rw [Function.update_of_ne (by omega), h5 q hq]
            refine if_congr (by simp [hqx]) rfl (if_congr ?_ rfl rfl)
            constructor
            · rintro ⟨p, hp, h⟩; exact ⟨p, by simp [hp], h⟩
            · rintro ⟨p, hp, h⟩
              rcases List.mem_append.1 hp with hp | hp
              · exact ⟨p, hp, h⟩
              · rw [List.mem_singleton.1 hp] at h; exact absurd h hnx)
      (by
        intro i hi
        dsimp only
        rw [set_marks_out n _ _ hrb i hi, Function.update_of_ne (by omega), h6 i hi])
    refine ⟨s', ?_, ?_, ?_, e4⟩
    · rw [List.foldl_cons, Res.ok_bind, ← e1]
      congr 1
      unfold fillNode
      rw [hx]
    · intro r
      rw [e2]
      dsimp only
      by_cases hr : r = x.i
      · subst hr
        rw [Function.update_self, if_pos (by simp : x.i ∈ (x :: l).map SNode.i)]
        split_ifs <;> rfl
      · rw [Function.update_of_ne hr]
        refine if_congr ?_ rfl rfl
        simp [hr]
    · intro q hq
      rw [show done ++ (x :: l).map SNode.i = done ++ [x.i] ++ l.map SNode.i by simp]
      exact e3 q hq

theorem fillCol_spec {A B : SMat K} (g : A.Good) {n : Nat} (hB : B n = A n) {s : Fill} (hr : ∀ r, s.rows r = rowsBefore A (n + 1) r)
    (hm : ∀ i, s.mark i = 0) :
    ∃ new s', fillCol B s n = .ok (Function.update B n { A n with nodes := (A n).nodes ++ new }, s') ∧
      (∀ r, s'.rows r = rowsBefore A n r) ∧ (∀ i, s'.mark i = 0) ∧ (∀ x ∈ new, x.val = 0) ∧
      (∀ q, q ∈ new.map SNode.i ↔ Adds A n q) ∧ (new.Pairwise fun a b => a.i < b.i) := by
  classical
  obtain ⟨l, h1, h2, h3⟩ := chain_has g n
  unfold fillCol
  rw [hB, h1, Res.ok_bind]
  have hnone : ∀ r, ¬(A n).has r → rowsBefore A (n + 1) r = rowsBefore A n r := fun r h => by rw [rowsBefore_succ, if_neg h]
  cases l with
  | nil =>
    have hno : ∀ r, ¬(A n).has r := fun r h => by have := (h3 r).2 h; simp at this
    refine ⟨[], s, ?_, fun r => by rw [hr, hnone r (hno r)], hm, by simp, ?_, by simp⟩
    · simp only [List.append_nil]
      congr 2
      rw [← hB]; exact (Function.update_eq_self n B).symm
    · intro q
      refine ⟨by simp, ?_⟩
      rintro ⟨-, -, p, hp, -⟩
      exact absurd hp (hno p)
  | cons x l =>
    have hhas : ∀ y ∈ x :: l, (A n).has y.i := fun y hy => (h3 _).1 (List.mem_map_of_mem hy)
    obtain ⟨s', e1, e2, e3, e4⟩ := fillNodes_spec g n (x :: l) [] s h2 hhas (by simp)
      (fun y hy => by rw [hr, rowsBefore_succ, if_pos (hhas y hy)]) (fun q _ => by rw [hm]; simp) (fun i _ => hm i)
    dsimp only
    rw [e1, Res.ok_bind]
    have hxn : x.i < n := has_lt g (hhas x (by simp))
    have hmin : ∀ p, (A n).has p → x.i ≤ p := by
      intro p hp
      rcases List.mem_cons.1 (show p ∈ x.i :: l.map SNode.i from (h3 p).2 hp) with h | h
      · omega
      · obtain ⟨y, hy, rfl⟩ := List.mem_map.1 h
        have := (List.pairwise_cons.1 h2).1 y hy; omega
    have hmark : ∀ q < n, s'.mark (n - q - 1) = if (A n).has q then 1 else if ∃ p, (A n).has p ∧ (A q).has p then -1 else 0 := by
      intro q hq
      rw [e3 q hq, List.nil_append]
      refine if_congr (h3 q) rfl (if_congr ?_ rfl rfl)
      constructor
      · rintro ⟨p, hp, h⟩; exact ⟨p, (h3 p).1 hp, h⟩
      · rintro ⟨p, hp, h⟩; exact ⟨p, (h3 p).2 hp, h⟩
    have hadd : ∀ q, Adds A n q ↔ q < n ∧ s'.mark (n - q - 1) = -1 := by
      intro q
      unfold Adds
      refine and_congr_right fun hq => ?_
      rw [hmark q hq]
      by_cases hh : (A n).has q
      · simp [hh]
      · by_cases hp : ∃ p, (A n).has p ∧ (A q).has p
        · simp [hh, hp]
        · simp [hh, hp]
    refine ⟨_, _, rfl, ?_, ?_, ?_, ?_, ?_⟩
    · intro r
      rw [e2]
      by_cases hh : (A n).has r
      · rw [if_pos ((h3 r).2 hh)]
      · rw [if_neg fun h => hh ((h3 r).1 h), hr, hnone r hh]
    · intro i
      dsimp only
      by_cases hi : i < n - x.i
      · rw [if_pos hi]
      · rw [if_neg hi]
        by_cases hin : i < n
        · obtain ⟨q, rfl⟩ : ∃ q, i = n - q - 1 := ⟨n - i - 1, by omega⟩
          have hq : q < n ∨ n ≤ q := by omega
          rcases hq with hq | hq
          · rw [hmark q hq, if_neg, if_neg]
            · rintro ⟨p, hp, h⟩
              have a1 := hmin p hp
              have a2 := has_lt g h
              omega
            · intro h
              have := hmin q h; omega
          · have : n - q - 1 = n - (n - 1) - 1 := by omega
            rw [this, hmark (n - 1) (by omega), if_neg, if_neg]
            · rintro ⟨p, hp, h⟩
              have a1 := hmin p hp
              have a2 := has_lt g h
              omega
            · intro h
              have := hmin _ h; omega
        · exact e4 i (by omega)
    · intro y hy
      obtain ⟨i, -, rfl⟩ := List.mem_map.1 hy
      rfl
    · intro q
      rw [hadd]
      simp only [List.map_map, List.mem_map, List.mem_reverse, List.mem_filter, List.mem_range, decide_eq_true_eq, Function.comp_apply]
      constructor
      · rintro ⟨i, ⟨h4, h5⟩, rfl⟩
        refine ⟨by omega, ?_⟩
        rw [← h5]; congr 1; omega
      · rintro ⟨hq, h⟩
        refine ⟨n - q - 1, ⟨?_, h⟩, by omega⟩
        rw [hmark q hq] at h
        by_cases hh : (A n).has q
        · rw [if_pos hh] at h; omega
        · rw [if_neg hh] at h
          by_cases hp : ∃ p, (A n).has p ∧ (A q).has p
          · obtain ⟨p, hp, h'⟩ := hp
            have a1 := hmin p hp
            have a2 := has_lt g h'
            omega
          · rw [if_neg hp] at h; omega
    · rw [List.pairwise_map, List.pairwise_reverse]
      refine List.Pairwise.imp_of_mem ?_ (List.Pairwise.filter _ List.pairwise_lt_range)
      intro i j hi hj hij
      have h1 := List.mem_range.1 (List.mem_filter.1 hi).1
      have h2 := List.mem_range.1 (List.mem_filter.1 hj).1
      dsimp only
      omega

theorem fill_loop {A : SMat K} (g : A.Good) (nnd : Nat) : ∀ k ≤ nnd, ∃ B s,
    (((List.range nnd).reverse).take k).foldl (fun R n => R >>= fun s => fillCol s.1 s.2 n) (.ok (A, (⟨rowsBefore A nnd, fun _ => 0⟩ : Fill))) =
      .ok (B, s) ∧ (∀ r, s.rows r = rowsBefore A (nnd - k) r) ∧ (∀ i, s.mark i = 0) ∧
      (∀ c < nnd - k, B c = A c) ∧ (∀ c, nnd ≤ c → B c = A c) ∧
      ∀ c, nnd - k ≤ c → c < nnd → ∃ new, B c = { A c with nodes := (A c).nodes ++ new } ∧ (∀ x ∈ new, x.val = 0) ∧
        (∀ q, q ∈ new.map SNode.i ↔ Adds A c q) ∧ (new.Pairwise fun a b => a.i < b.i) := by
  intro k
  induction k with
  | zero => intro _; exact ⟨A, _, rfl, fun _ => rfl, fun _ => rfl, fun _ _ => rfl, fun _ _ => rfl, fun c h1 h2 => by omega⟩
  | succ k ih =>
    intro hk
    obtain ⟨B, s, e1, e2, e3, e4, e5, e6⟩ := ih (by omega)
    have hnk : nnd - k = (nnd - (k + 1)) + 1 := by omega
    obtain ⟨new, s', f1, f2, f3, f4, f5, f6⟩ := fillCol_spec g (n := nnd - (k + 1)) (e4 _ (by omega)) (s := s) (by rw [← hnk]; exact e2) e3
    have hget : ((List.range nnd).reverse)[k]? = some (nnd - (k + 1)) := by
      rw [List.getElem?_reverse (by simp; omega)]
      rw [List.length_range, List.getElem?_range (by omega)]
      congr 1; omega
    refine ⟨Function.update B (nnd - (k + 1)) { A (nnd - (k + 1)) with nodes := (A (nnd - (k + 1))).nodes ++ new }, s', ?_, f2, f3, ?_, ?_, ?_⟩
    · rw [List.take_succ, hget, List.foldl_append, e1]
      simpa using f1
    · intro c hc
      rw [Function.update_of_ne (by omega)]; exact e4 c (by omega)
    · intro c hc
      rw [Function.update_of_ne (by omega)]; exact e5 c hc
    · intro c h1 h2
      by_cases hc : c = nnd - (k + 1)
      · subst hc
        rw [Function.update_self]
        exact ⟨new, rfl, f4, f5, f6⟩
      · rw [Function.update_of_ne hc]; exact e6 c (by omega) h2

theorem good_fillin {A : SMat K} (g : A.Good) {nnd : Nat}
    (hn : ∀ c < nnd, ∀ l : List Nat, l.Nodup → (∀ q ∈ l, (A c).has q ∨ Adds A c q) → l.length ≤ 65535) :
    ∃ B, A.fillin nnd = .ok B ∧ B.Good ∧ (∀ c < nnd, (B c).Tidy) ∧ (∀ a < nnd, ∀ b < nnd, B.entry a b = A.entry a b) ∧
      ∀ c < nnd, ∀ q, (B c).has q ↔ (A c).has q ∨ Adds A c q := by
  obtain ⟨B, s, e1, -, -, -, e5, e6⟩ := fill_loop g nnd nnd le_rfl
  rw [List.take_of_length_le (by simp)] at e1
  have hcol : ∀ c < nnd, ((B c).nodes.Pairwise fun n m => n.i ≠ m.i) ∧ (∀ n ∈ (B c).nodes, n.i < c) ∧
      ((B c).head = none ↔ (B c).nodes = []) ∧ (B c).nodes.length ≤ 65535 := by
    intro c hc
    obtain ⟨new, h1, h2, h3, h4⟩ := e6 c (by omega) hc
    have hd : ((A c).nodes ++ new).Pairwise fun n m => n.i ≠ m.i := by
      refine List.pairwise_append.2 ⟨good_distinct (g c), h4.imp fun h => by omega, ?_⟩
      intro a ha b hb hab
      have := (h3 b.i).1 (List.mem_map_of_mem hb)
      exact this.2.1 (hab ▸ List.mem_map_of_mem ha)
    rw [h1]
    refine ⟨hd, ?_, ?_, ?_⟩
    · intro n hn
      rcases List.mem_append.1 hn with hn | hn
      · exact (g c).2 n hn
      · exact ((h3 n.i).1 (List.mem_map_of_mem hn)).1
    · rw [head_none (g c)]
      refine ⟨fun h => ?_, fun h => (List.append_eq_nil_iff.1 h).1⟩
      have : new = [] := by
        rw [List.eq_nil_iff_forall_not_mem]
        intro x hx
        obtain ⟨-, -, p, hp, -⟩ := (h3 x.i).1 (List.mem_map_of_mem hx)
        unfold SCol.has at hp
        rw [h] at hp; simp at hp
      rw [h, this]; rfl
    · have := hn c hc (((A c).nodes ++ new).map SNode.i) (List.pairwise_map.2 hd) (by
        intro q hq
        rw [List.map_append, List.mem_append] at hq
        exact hq.imp id (h3 q).1)
      simpa using this
  obtain ⟨C, f1, f2, f3⟩ := tidy_mat hcol
  refine ⟨C, ?_, ?_, fun c hc => (f2 c hc).2.1, ?_, ?_⟩
  rotate_left
  · intro c
    by_cases hc : c < nnd
    · exact (f2 c hc).1
    · rw [f3 c (by omega), e5 c (by omega)]; exact g c
  rotate_left 2
  · unfold SMat.fillin
    rw [rowLists_spec g, Res.ok_bind, e1, Res.ok_bind]
    exact f1
  · have hv : ∀ c < nnd, (C c).val = (A c).val := by
      intro c hc
      obtain ⟨new, h1, -⟩ := e6 c (by omega) hc
      rw [(f2 c hc).2.2.1, h1]
    have ha : ∀ c < nnd, ∀ r, (C c).at r = (A c).at r := by
      intro c hc r
      obtain ⟨new, h1, h2, -⟩ := e6 c (by omega) hc
      rw [at_perm (f2 c hc).2.2.2, h1]
      unfold SCol.at
      dsimp only
      rw [List.map_append, List.sum_append]
      have : (new.map fun n => if n.i = r then n.val else 0) = new.map fun _ => (0 : Blk K) := by
        refine List.map_congr_left fun n hn => ?_
        rw [h2 n hn]; simp
      rw [this]; simp
    intro a ha' b hb'
    unfold SMat.entry
    rw [hv a ha', ha a ha', ha b hb']
  · intro c hc q
    obtain ⟨new, h1, -, h3, -⟩ := e6 c (by omega) hc
    rw [has_perm (f2 c hc).2.2.2, h1]
    unfold SCol.has
    dsimp only
    rw [List.map_append, List.mem_append]
    exact or_congr Iff.rfl (h3 q)

/-- A block was added at `(a,b)` or at `(b,a)`. -/
def Touched (ops : List (Nat × Nat × Blk K)) (a b : Nat) : Prop := ∃ op ∈ ops, (a = op.1 ∧ b = op.2.1) ∨ (a = op.2.1 ∧ b = op.1)

/-- The matrix after fill in has a node at `(a,b)`: a block was added there, or elimination of one row makes it non-zero. -/
def Level1 (ops : List (Nat × Nat × Blk K)) (a b : Nat) : Prop := Touched ops a b ∨ ∃ p < a, Touched ops p a ∧ Touched ops p b

/-- C88: the matrix has a node above the diagonal exactly where a block was added. -/
theorem C88_pattern {ops : List (Nat × Nat × Blk K)} {A : SMat K} (h : build ops = .ok A) (c : Nat) :
    ∃ l, (A c).chain = .ok l ∧ (l.Pairwise fun n m => n.i < m.i) ∧ ∀ q, q ∈ l.map SNode.i ↔ q < c ∧ Touched ops q c := by
  obtain ⟨A', e1, e2, -, e4⟩ := good_appends (good_new (0 : K)) ops
  have : A' = A := by
    have := e1.symm.trans h
    injection this
  subst this
  obtain ⟨l, h1, h2, h3⟩ := chain_has e2 c
  refine ⟨l, h1, h2, fun q => ?_⟩
  rw [h3, e4]
  simp [SMat.new, SCol.has, Touched]

/-- C88: fill in keeps the matrix and adds nodes exactly where the elimination of one row makes a block non-zero. -/
theorem C88_fillin {ops : List (Nat × Nat × Blk K)} {A : SMat K} (h : build ops = .ok A) {nnd : Nat}
    (hn : ∀ c < nnd, ∀ l : List Nat, l.Nodup → (∀ q ∈ l, q < c ∧ Level1 ops q c) → l.length ≤ 65535) :
    ∃ B, A.fillin nnd = .ok B ∧ (∀ a < nnd, ∀ b < nnd, B.read a b = .ok (total ops a b)) ∧
      ∀ c < nnd, ∃ l, (B c).chain = .ok l ∧ (B c).array = .ok l ∧ (l.Pairwise fun n m => n.i < m.i) ∧
        ∀ q, q ∈ l.map SNode.i ↔ q < c ∧ Level1 ops q c := by
  obtain ⟨A', e1, e2, e3, e4⟩ := good_appends (good_new (0 : K)) ops
  have : A' = A := by
    have := e1.symm.trans h
    injection this
  subst this
  have e4' : ∀ c x, (A' c).has x ↔ x < c ∧ Touched ops x c := by
    intro c x; rw [e4]; simp [SMat.new, SCol.has, Touched]
  have hlev : ∀ c q, ((A' c).has q ∨ Adds A' c q) ↔ q < c ∧ Level1 ops q c := by
    intro c q
    unfold Adds Level1
    simp only [e4']
    constructor
    · rintro (h | ⟨h1, -, p, ⟨-, h3⟩, h4, h5⟩)
      · exact ⟨h.1, Or.inl h.2⟩
      · exact ⟨h1, Or.inr ⟨p, h4, h5, h3⟩⟩
    · rintro ⟨h1, h2 | ⟨p, h2, h3, h4⟩⟩
      · exact Or.inl ⟨h1, h2⟩
      · by_cases ht : Touched ops q c
        · exact Or.inl ⟨h1, ht⟩
        · exact Or.inr ⟨h1, fun h => ht h.2, p, ⟨by omega, h4⟩, h2, h3⟩
  obtain ⟨B, f1, f2, f3, f4, f5⟩ := good_fillin e2 (nnd := nnd) fun c hc l hl hq =>
    hn c hc l hl fun q h => (hlev c q).1 (hq q h)
  refine ⟨B, f1, fun a ha b hb => by rw [good_read f2, f4 a ha b hb, e3, entry_new, zero_add], fun c hc => ?_⟩
  refine ⟨(B c).nodes, tidy_chain (f2 c) (f3 c hc), (f3 c hc).1, (f3 c hc).2, fun q => ?_⟩
  rw [← hlev]; exact f5 c hc q

/-! ## Unused functions -/

/-- C88, the code: `chol` asks for so many nodes that even with those of the column more than half of all numbers are
needed, whatever the column; there are fewer than `n` rows to fill. -/
theorem C88_chol_wrong {r n nnz : Nat} (hr : r < n) (hn : n < 2 ^ 31) :
    2 ^ 31 < (BitVec.ofNat 32 nnz + cholSpace r n nnz).toNat := by
  have e : BitVec.ofNat 32 nnz + cholSpace r n nnz = BitVec.ofNat 32 r - BitVec.ofNat 32 n := by
    unfold cholSpace
    rw [BitVec.add_comm, BitVec.sub_add_cancel]
  rw [e, BitVec.toNat_sub, BitVec.toNat_ofNat, BitVec.toNat_ofNat, Nat.mod_eq_of_lt (by omega : r < 2 ^ 32),
    Nat.mod_eq_of_lt (by omega : n < 2 ^ 32)]
  omega

/-- C88, the code: `nonzero` counts the rows of each column down, so that a matrix with one column that begins `k` rows above the
diagonal has `k` blocks fewer than its diagonal. -/
theorem C88_nonzero_wrong {nnd c r : Nat} (hc : c < nnd) (hr : r < c) (hn : nnd < 2 ^ 32) :
    (nonzero nnd fun n => if n = c then some r else none).toNat = nnd - (c - r) := by
  have key : ∀ m s, (List.range m).foldl (fun s n => nonzeroCol s n (if n = c then some r else none)) s =
      if c < m then s + (BitVec.ofNat 32 r - BitVec.ofNat 32 c) else s := by
    intro m s
    induction m with
    | zero => rfl
    | succ m ih =>
      rw [List.range_succ, List.foldl_append, ih, List.foldl_cons, List.foldl_nil]
      by_cases h : m = c
      · subst h; simp [nonzeroCol]
      · have : c < m ↔ c < m + 1 := by omega
        simp [h, this, nonzeroCol]
  unfold nonzero
  rw [key, if_pos hc, BitVec.toNat_add, BitVec.toNat_sub, BitVec.toNat_ofNat, BitVec.toNat_ofNat, BitVec.toNat_ofNat,
    Nat.mod_eq_of_lt (by omega : r < 2 ^ 32), Nat.mod_eq_of_lt (by omega : c < 2 ^ 32), Nat.mod_eq_of_lt hn]
  omega

/-! ## Cases -/

/-- Two elements that share a node, added below and above the diagonal. -/
def sampleOps : List (Nat × Nat × Blk ℚ) :=
  [(0, 0, fun _ _ => 1), (0, 2, fun a b => a.1 + 2 * b.1), (2, 0, fun a b => a.1), (0, 1, fun _ _ => 3), (1, 1, fun _ _ => 5)]

/-- After fill in there is a node at `(1,2)` although no block was added there. -/
example : (build sampleOps >>= fun A => A.fillin 3 >>= fun B => (B 2).array >>= fun l =>
    .ok (l.map fun n => (n.i, n.val 1 2))) = .ok [(0, 7), (1, 0)] := by
  decide +kernel

example : ∀ c < 3, ∀ l : List Nat, l.Nodup → (∀ q ∈ l, q < c ∧ Level1 sampleOps q c) → l.length ≤ 65535 := by
  intro c hc l hl h
  have := (List.subperm_of_subset hl (l₂ := List.range c) fun q hq => List.mem_range.2 (h q hq).1).length_le
  rw [List.length_range] at this
  omega

end OP.Fem
