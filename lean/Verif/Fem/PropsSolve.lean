import Verif.Fem.PropsCg
/-!
# C90: boundary conditions of the finite element solver
-/
namespace OP.Fem

variable {K : Type} [Field K]

/-! ## Specification -/

/-- What is prescribed for a direction of a node. -/
def given (l : List (MeshBc K)) (a : Nat) (i : Fin 3) : Option K := (l.find? fun u => u.n = a ∧ u.i = i).map MeshBc.d

/-- Nothing is prescribed twice. -/
def Unique (l : List (MeshBc K)) : Prop := l.Pairwise fun u v => ¬(u.n = v.n ∧ u.i = v.i)

/-- The blocks of an element on both sides of the diagonal. -/
def SElem.full (e : SElem K) (i j : Nat) : Blk K := if i ≤ j then e.ke i j else tr (e.ke j i)

/-- What an element adds between two nodes. -/
def SElem.part (e : SElem K) (a b : Nat) : Blk K :=
  ∑ i ∈ Finset.range e.nnd, ∑ j ∈ Finset.range e.nnd, if e.l2g i = a ∧ e.l2g j = b then e.full i j else 0

/-- The stiffness of the mesh between two nodes. -/
def stiff (els : List (SElem K)) (a b : Nat) : Blk K := (els.map fun e => e.part a b).sum

/-- An element has different nodes of the mesh and symmetric blocks on the diagonal. -/
def SElem.Ok (e : SElem K) (nnd : Nat) : Prop :=
  (∀ i < e.nnd, e.l2g i < nnd) ∧ (∀ i < e.nnd, ∀ j < e.nnd, e.l2g i = e.l2g j → i = j) ∧ ∀ i < e.nnd, tr (e.ke i i) = e.ke i i

/-- An order of the nodes. -/
def IsOrder (n2o : Nat → Nat) (nnd : Nat) : Prop := (∀ a < nnd, n2o a < nnd) ∧ ∀ a < nnd, ∀ b < nnd, n2o a = n2o b → a = b

/-! ## Orders -/

theorem IsOrder.sum {n2o : Nat → Nat} {nnd : Nat} (h : IsOrder n2o nnd) {M : Type} [AddCommMonoid M] (f : Nat → M) :
    ∑ b ∈ Finset.range nnd, f b = ∑ a ∈ Finset.range nnd, f (n2o a) := by
  have himg : (Finset.range nnd).image n2o = Finset.range nnd := by
    apply Finset.eq_of_subset_of_card_le
    · intro x hx
      obtain ⟨a, ha, rfl⟩ := Finset.mem_image.1 hx
      exact Finset.mem_range.2 (h.1 a (Finset.mem_range.1 ha))
    · rw [Finset.card_image_of_injOn fun a ha b hb => h.2 a (by simpa using ha) b (by simpa using hb)]
  conv_lhs => rw [← himg]
  exact Finset.sum_image fun a ha b hb => h.2 a (by simpa using ha) b (by simpa using hb)

theorem IsOrder.surj {n2o : Nat → Nat} {nnd : Nat} (h : IsOrder n2o nnd) {b : Nat} (hb : b < nnd) : ∃ a < nnd, n2o a = b := by
  have himg : (Finset.range nnd).image n2o = Finset.range nnd := by
    apply Finset.eq_of_subset_of_card_le
    · intro x hx
      obtain ⟨a, ha, rfl⟩ := Finset.mem_image.1 hx
      exact Finset.mem_range.2 (h.1 a (Finset.mem_range.1 ha))
    · rw [Finset.card_image_of_injOn fun a ha b hb => h.2 a (by simpa using ha) b (by simpa using hb)]
  have : b ∈ (Finset.range nnd).image n2o := by rw [himg]; exact Finset.mem_range.2 hb
  obtain ⟨a, ha, e⟩ := Finset.mem_image.1 this
  exact ⟨a, Finset.mem_range.1 ha, e⟩

theorem IsOrder.iff {n2o : Nat → Nat} {nnd : Nat} (h : IsOrder n2o nnd) {a b : Nat} (ha : a < nnd) (hb : b < nnd) : n2o a = n2o b ↔ a = b :=
  ⟨h.2 a ha b hb, fun e => by rw [e]⟩

/-! ## Prescribed values -/

theorem given_cons (u : MeshBc K) (l : List (MeshBc K)) (a : Nat) (i : Fin 3) :
    given (u :: l) a i = if u.n = a ∧ u.i = i then some u.d else given l a i := by
  unfold given
  rw [List.find?_cons]
  by_cases h : u.n = a ∧ u.i = i <;> simp [h]

theorem given_none {u : MeshBc K} {l : List (MeshBc K)} (h : Unique (u :: l)) : given l u.n u.i = none := by
  unfold given
  rw [Option.map_eq_none_iff, List.find?_eq_none]
  intro v hv
  have := (List.pairwise_cons.1 h).1 v hv
  simp only [decide_eq_true_eq]
  exact fun hc => this ⟨hc.1.symm, hc.2.symm⟩

theorem set_apply (F : SVec K) (n m : Nat) (i j : Fin 3) (x : K) :
    SVec.set F n i x m j = if n = m ∧ i = j then x else F m j := by
  unfold SVec.set
  by_cases h : n = m
  · subst h
    rw [Function.update_self]
    by_cases hi : i = j
    · subst hi; simp
    · rw [Function.update_of_ne (Ne.symm hi), if_neg fun h => hi h.2]
  · rw [Function.update_of_ne (Ne.symm h), if_neg fun h' => h h'.1]

/-- A fold of writes reads as what is given. -/
theorem fold_set {n2o : Nat → Nat} {nnd : Nat} (ho : IsOrder n2o nnd) : ∀ (l : List (MeshBc K)) (F : SVec K), Unique l → (∀ u ∈ l, u.n < nnd) →
    ∀ a < nnd, ∀ i, l.foldl (fun F f => SVec.set F (n2o f.n) f.i f.d) F (n2o a) i = (given l a i).getD (F (n2o a) i) := by
  intro l
  induction l with
  | nil => intro F _ _ a _ i; rfl
  | cons u l ih =>
    intro F hu hn a ha i
    rw [List.foldl_cons, ih _ (List.pairwise_cons.1 hu).2 (fun v hv => hn v (List.mem_cons_of_mem _ hv)) a ha i, given_cons, set_apply]
    by_cases h : u.n = a ∧ u.i = i
    · have h0 := given_none hu
      rw [h.1, h.2] at h0
      rw [if_pos h, h0, if_pos ⟨by rw [h.1], h.2⟩]; rfl
    · rw [if_neg h, if_neg fun hc => h ⟨(ho.iff (hn u (by simp)) ha).1 hc.1, hc.2⟩]

theorem setFixed_spec [DecidableEq K] {n2o : Nat → Nat} {nnd : Nat} (ho : IsOrder n2o nnd) (l : List (MeshBc K)) (hu : Unique l) (hn : ∀ u ∈ l, u.n < nnd)
    (fl : Flags) (hfl : ∀ a i, fl.fixed a i = true → given l a i ≠ none) :
    (∀ a i, (setFixed n2o l fl).1.fixed a i = true ↔ given l a i ≠ none) ∧
      (∀ a < nnd, ∀ i, (setFixed n2o l fl).2 (n2o a) i = (given l a i).getD 0) ∧
      ∀ a < nnd, (setFixed n2o l fl).1.nonzero a = false → (setFixed n2o l fl).2 (n2o a) = 0 := by
  obtain ⟨step, hstep⟩ : ∃ step : Flags × SVec K → MeshBc K → Flags × SVec K, step = fun s u =>
    let fl : Flags := ⟨Function.update s.1.fixed u.n (Function.update (s.1.fixed u.n) u.i true), s.1.nonzero⟩
    if u.d ≠ 0 then (⟨fl.fixed, Function.update fl.nonzero u.n true⟩, SVec.set s.2 (n2o u.n) u.i u.d) else (fl, s.2) := ⟨_, rfl⟩
  have hset : setFixed n2o l fl = l.foldl step (fl, 0) := by rw [hstep]; rfl
  have key : ∀ (l : List (MeshBc K)) (s : Flags × SVec K), Unique l → (∀ u ∈ l, u.n < nnd) →
      (∀ u ∈ l, s.2 (n2o u.n) u.i = 0) → (∀ a < nnd, s.1.nonzero a = false → s.2 (n2o a) = 0) →
      (∀ a i, (l.foldl step s).1.fixed a i = true ↔ s.1.fixed a i = true ∨ given l a i ≠ none) ∧
      (∀ a < nnd, ∀ i, (l.foldl step s).2 (n2o a) i = (given l a i).getD (s.2 (n2o a) i)) ∧
      ∀ a < nnd, (l.foldl step s).1.nonzero a = false → (l.foldl step s).2 (n2o a) = 0 := by
    intro l
    induction l with
    | nil =>
      intro s _ _ _ h
      exact ⟨fun a i => by simp [given], fun a _ i => rfl, h⟩
    | cons u l ih =>
      intro s hu hn h0 hz
      have hun := hn u (by simp)
      have e1 : ∀ a i, (step s u).1.fixed a i = true ↔ s.1.fixed a i = true ∨ (u.n = a ∧ u.i = i) := by
        intro a i
        have : (step s u).1.fixed = Function.update s.1.fixed u.n (Function.update (s.1.fixed u.n) u.i true) := by
          rw [hstep]; dsimp only; split <;> rfl
        rw [this]
        by_cases h : u.n = a
        · subst h
          rw [Function.update_self]
          by_cases hi : u.i = i
          · subst hi; simp
          · rw [Function.update_of_ne (Ne.symm hi)]; simp [hi]
        · rw [Function.update_of_ne (Ne.symm h)]; simp [h]
      have e2 : ∀ a < nnd, ∀ i, (step s u).2 (n2o a) i = if u.n = a ∧ u.i = i then u.d else s.2 (n2o a) i := by
        intro a ha i
        by_cases hd : u.d = 0
        · have : (step s u).2 = s.2 := by rw [hstep]; simp [hd]
          rw [this]
          by_cases h : u.n = a ∧ u.i = i
          · rw [if_pos h, hd, ← h.1, ← h.2]; exact h0 u (by simp)
          · rw [if_neg h]
        · have : (step s u).2 = SVec.set s.2 (n2o u.n) u.i u.d := by rw [hstep]; simp [hd]
          rw [this, set_apply]
          simp only [ho.iff hun ha]
      have e3 : ∀ a < nnd, (step s u).1.nonzero a = false → (step s u).2 (n2o a) = 0 := by
        intro a ha h
        by_cases hd : u.d = 0
        · have h1 : (step s u).2 = s.2 := by rw [hstep]; simp [hd]
          have h2 : (step s u).1.nonzero = s.1.nonzero := by rw [hstep]; simp [hd]
          rw [h2] at h
          rw [h1]; exact hz a ha h
        · have h1 : (step s u).2 = SVec.set s.2 (n2o u.n) u.i u.d := by rw [hstep]; simp [hd]
          have h2 : (step s u).1.nonzero = Function.update s.1.nonzero u.n true := by rw [hstep]; simp [hd]
          rw [h2] at h
          by_cases hua : u.n = a
          · subst hua; rw [Function.update_self] at h; exact absurd h (by decide)
          · rw [Function.update_of_ne (Ne.symm hua)] at h
            have hne : n2o u.n ≠ n2o a := fun hc => hua ((ho.iff hun ha).1 hc)
            rw [h1]
            unfold SVec.set
            rw [Function.update_of_ne (Ne.symm hne)]
            exact hz a ha h
      obtain ⟨k1, k2, k3⟩ := ih (step s u) (List.pairwise_cons.1 hu).2 (fun v hv => hn v (List.mem_cons_of_mem _ hv))
        (fun v hv => by
          rw [e2 v.n (hn v (List.mem_cons_of_mem _ hv)) v.i, if_neg ((List.pairwise_cons.1 hu).1 v hv)]
          exact h0 v (List.mem_cons_of_mem _ hv)) e3
      rw [List.foldl_cons]
      refine ⟨fun a i => ?_, fun a ha i => ?_, k3⟩
      · rw [k1, e1, given_cons]
        by_cases h : u.n = a ∧ u.i = i
        · simp [h]
        · simp [h]
      · rw [k2 a ha i, e2 a ha i, given_cons]
        by_cases h : u.n = a ∧ u.i = i
        · have h0 := given_none hu
          rw [h.1, h.2] at h0
          rw [if_pos h, if_pos h, h0]; rfl
        · rw [if_neg h, if_neg h]
  rw [hset]
  obtain ⟨k1, k2, k3⟩ := key l (fl, 0) hu hn (fun _ _ => rfl) (fun _ _ _ => rfl)
  refine ⟨fun a i => ?_, k2, k3⟩
  rw [k1]
  exact ⟨fun h => h.elim (hfl a i) id, Or.inr⟩

/-! ## The loads of the prescribed displacements -/

theorem scatter_sub (m : Nat) (t : Nat → Nat) (w : Nat → Fin 3 → K) (F : SVec K) (a : Nat) :
    (List.range m).foldl (fun (F : SVec K) j => Function.update F (t j) (F (t j) - w j)) F a =
      F a - ∑ j ∈ Finset.range m, if t j = a then w j else 0 := by
  induction m with
  | zero => simp
  | succ m ih =>
    rw [List.range_succ, List.foldl_append, List.foldl_cons, List.foldl_nil, Finset.sum_range_succ]
    by_cases h : t m = a
    · subst h
      rw [Function.update_self, ih, if_pos rfl, sub_sub]
    · rw [Function.update_of_ne (Ne.symm h), ih, if_neg h, add_zero]

theorem mv_ite (c : Prop) [Decidable c] (t : Blk K) (v : Fin 3 → K) : mv (if c then t else 0) v = if c then mv t v else 0 := by
  split
  · rfl
  · exact mv_zero v

theorem bcForces_spec {n2o : Nat → Nat} {nnd : Nat} (ho : IsOrder n2o nnd) {nonzero : Nat → Bool} {P : SVec K} {e : SElem K} (he : e.Ok nnd)
    (hP : ∀ a < nnd, nonzero a = false → P (n2o a) = 0) (F : SVec K) {a : Nat} (ha : a < nnd) :
    bcForces n2o nonzero P e F (n2o a) = F (n2o a) - ∑ b ∈ Finset.range nnd, mv (e.part a b) (P (n2o b)) := by
  obtain ⟨h1, h2, h3⟩ := he
  have hfull : ∀ i < e.nnd, ∀ j < e.nnd, (if i > j then e.ke j i else tr (e.ke i j)) = e.full j i := by
    intro i hi j hj
    unfold SElem.full
    rcases Nat.lt_trichotomy i j with h | h | h
    · rw [if_neg (by omega), if_neg (by omega)]
    · subst h; rw [if_neg (by omega), if_pos (le_refl _), h3 i hi]
    · rw [if_pos h, if_pos (by omega)]
  have key : ∀ m ≤ e.nnd, (List.range m).foldl (fun (F : SVec K) i =>
      if nonzero (e.l2g i) then
        (List.range e.nnd).foldl (fun F j =>
          Function.update F (n2o (e.l2g j)) (F (n2o (e.l2g j)) - mv (if i > j then e.ke j i else tr (e.ke i j)) (P (n2o (e.l2g i))))) F
      else F) F (n2o a) =
      F (n2o a) - ∑ i ∈ Finset.range m, ∑ j ∈ Finset.range e.nnd, if e.l2g j = a then mv (e.full j i) (P (n2o (e.l2g i))) else 0 := by
    intro m
    induction m with
    | zero => intro _; simp
    | succ m ih =>
      intro hm
      rw [List.range_succ, List.foldl_append, List.foldl_cons, List.foldl_nil, Finset.sum_range_succ, ← sub_sub, ← ih (by omega)]
      cases hz : nonzero (e.l2g m) with
      | true =>
        rw [if_pos rfl, scatter_sub e.nnd (fun j => n2o (e.l2g j)) (fun j => mv (if m > j then e.ke j m else tr (e.ke m j)) (P (n2o (e.l2g m))))]
        congr 1
        refine Finset.sum_congr rfl fun j hj => ?_
        have hj := Finset.mem_range.1 hj
        rw [hfull m (by omega) j hj]
        simp only [ho.iff (h1 j hj) ha]
      | false =>
        rw [if_neg (by decide)]
        have : ∑ j ∈ Finset.range e.nnd, (if e.l2g j = a then mv (e.full j m) (P (n2o (e.l2g m))) else 0) = 0 := by
          refine Finset.sum_eq_zero fun j _ => ?_
          rw [hP _ (h1 m (by omega)) hz, mv_vzero, ite_self]
        rw [this, sub_zero]
  unfold bcForces
  rw [key e.nnd (le_refl _)]
  congr 1
  have hpart : ∀ b, mv (e.part a b) (P (n2o b)) = ∑ j ∈ Finset.range e.nnd, ∑ i ∈ Finset.range e.nnd, if e.l2g j = a ∧ e.l2g i = b then mv (e.full j i) (P (n2o b)) else 0 := by
    intro b
    unfold SElem.part
    rw [fsum_mv]
    refine Finset.sum_congr rfl fun j _ => ?_
    rw [fsum_mv]
    exact Finset.sum_congr rfl fun i _ => mv_ite _ _ _
  simp only [hpart]
  rw [Finset.sum_comm]
  have hr : ∀ i ∈ Finset.range e.nnd, ∀ j ∈ Finset.range e.nnd,
      (if e.l2g j = a then mv (e.full j i) (P (n2o (e.l2g i))) else 0) =
      ∑ b ∈ Finset.range nnd, if e.l2g j = a ∧ e.l2g i = b then mv (e.full j i) (P (n2o b)) else 0 := by
    intro i hi j hj
    by_cases h : e.l2g j = a
    · simp only [h, true_and, if_true]
      rw [Finset.sum_eq_single (e.l2g i)]
      · simp
      · intro b _ hb; rw [if_neg (Ne.symm hb)]
      · intro hb; exact absurd (Finset.mem_range.2 (h1 i (Finset.mem_range.1 hi))) hb
    · simp [h]
  rw [Finset.sum_congr rfl fun j hj => Finset.sum_congr rfl fun i hi => hr i hi j hj]
  rw [Finset.sum_congr rfl fun j _ => Finset.sum_comm, Finset.sum_comm]

/-! ## Fixed rows and columns -/

/-- Writes of zeros, one after the other. -/
theorem zero_fold {X : Type} (step : (Nat → Nat → Blk K) → X → Nat → Nat → Blk K) (C : X → Nat → Nat → Fin 3 → Fin 3 → Prop)
    (hz : ∀ ke x i j a b, C x i j a b → step ke x i j a b = 0) (hk : ∀ ke x i j a b, ¬C x i j a b → step ke x i j a b = ke i j a b)
    (l : List X) (ke : Nat → Nat → Blk K) (i j : Nat) (a b : Fin 3) :
    ((∃ x ∈ l, C x i j a b) → l.foldl step ke i j a b = 0) ∧ ((¬∃ x ∈ l, C x i j a b) → l.foldl step ke i j a b = ke i j a b) := by
  induction l using List.reverseRecOn with
  | nil => simp
  | append_singleton l x ih =>
    rw [List.foldl_append, List.foldl_cons, List.foldl_nil]
    constructor
    · rintro ⟨y, hy, hc⟩
      by_cases hx : C x i j a b
      · exact hz _ _ _ _ _ _ hx
      · rw [hk _ _ _ _ _ _ hx]
        refine ih.1 ⟨y, ?_, hc⟩
        rcases List.mem_append.1 hy with h | h
        · exact h
        · rw [List.mem_singleton.1 h] at hc; exact absurd hc hx
    · intro h
      have hx : ¬C x i j a b := fun hc => h ⟨x, by simp, hc⟩
      rw [hk _ _ _ _ _ _ hx]
      exact ih.2 fun ⟨y, hy, hc⟩ => h ⟨y, by simp [hy], hc⟩

theorem putKe_apply (ke : Nat → Nat → Blk K) (i j i' j' : Nat) (a b a' b' : Fin 3) (x : K) :
    putKe ke i j a b x i' j' a' b' = if i' = i ∧ j' = j ∧ a' = a ∧ b' = b then x else ke i' j' a' b' := by
  unfold putKe put
  by_cases h : i' = i ∧ j' = j
  · rw [if_pos h]
    by_cases h' : a' = a ∧ b' = b
    · rw [if_pos h', if_pos ⟨h.1, h.2, h'⟩]
    · rw [if_neg h', if_neg fun hc => h' hc.2.2]
  · rw [if_neg h, if_neg fun hc => h ⟨hc.1, hc.2.1⟩]

theorem zeroDir_spec (i j : Nat) (k : Fin 3) (ke : Nat → Nat → Blk K) (i' j' : Nat) (a b : Fin 3) :
    (((i' = j ∧ j' = i ∧ j ≤ i ∧ b = k) ∨ (i' = i ∧ j' = j ∧ i ≤ j ∧ a = k)) → zeroDir ke i j k i' j' a b = 0) ∧
    (¬((i' = j ∧ j' = i ∧ j ≤ i ∧ b = k) ∨ (i' = i ∧ j' = j ∧ i ≤ j ∧ a = k)) → zeroDir ke i j k i' j' a b = ke i' j' a b) := by
  have h := zero_fold (K := K) (fun ke (l : Fin 3) =>
    let ke := if i ≥ j then putKe ke j i l k 0 else ke
    if i ≤ j then putKe ke i j k l 0 else ke)
    (fun l i' j' a b => (i' = j ∧ j' = i ∧ j ≤ i ∧ a = l ∧ b = k) ∨ (i' = i ∧ j' = j ∧ i ≤ j ∧ a = k ∧ b = l)) ?_ ?_ (List.finRange 3) ke i' j' a b
  · constructor
    · rintro (hc | hc)
      · exact h.1 ⟨a, List.mem_finRange a, Or.inl ⟨hc.1, hc.2.1, hc.2.2.1, rfl, hc.2.2.2⟩⟩
      · exact h.1 ⟨b, List.mem_finRange b, Or.inr ⟨hc.1, hc.2.1, hc.2.2.1, hc.2.2.2, rfl⟩⟩
    · intro hc
      refine h.2 ?_
      rintro ⟨l, -, hl | hl⟩
      · exact hc (Or.inl ⟨hl.1, hl.2.1, hl.2.2.1, hl.2.2.2.2⟩)
      · exact hc (Or.inr ⟨hl.1, hl.2.1, hl.2.2.1, hl.2.2.2.1⟩)
  · intro ke l i' j' a b hc
    dsimp only
    by_cases h1 : i ≤ j
    · rw [if_pos h1, putKe_apply]
      by_cases h2 : i' = i ∧ j' = j ∧ a = k ∧ b = l
      · rw [if_pos h2]
      · rw [if_neg h2]
        rcases hc with hc | hc
        · rw [if_pos hc.2.2.1, putKe_apply, if_pos ⟨hc.1, hc.2.1, hc.2.2.2⟩]
        · exact absurd ⟨hc.1, hc.2.1, hc.2.2.2⟩ h2
    · rw [if_neg h1]
      rcases hc with hc | hc
      · rw [if_pos hc.2.2.1, putKe_apply, if_pos ⟨hc.1, hc.2.1, hc.2.2.2⟩]
      · exact absurd hc.2.2.1 h1
  · intro ke l i' j' a b hc
    dsimp only
    have e1 : (if i ≥ j then putKe ke j i l k 0 else ke) i' j' a b = ke i' j' a b := by
      split
      · rename_i hji
        rw [putKe_apply, if_neg fun h => hc (Or.inl ⟨h.1, h.2.1, hji, h.2.2⟩)]
      · rfl
    split
    · rename_i hij
      rw [putKe_apply, if_neg fun h => hc (Or.inr ⟨h.1, h.2.1, hij, h.2.2⟩), e1]
    · exact e1

theorem zeroPair_spec (f : Fin 3 → Bool) (i j : Nat) (ke : Nat → Nat → Blk K) (i' j' : Nat) (a b : Fin 3) :
    (((i' = j ∧ j' = i ∧ j ≤ i ∧ f b = true) ∨ (i' = i ∧ j' = j ∧ i ≤ j ∧ f a = true)) → zeroPair f ke i j i' j' a b = 0) ∧
    (¬((i' = j ∧ j' = i ∧ j ≤ i ∧ f b = true) ∨ (i' = i ∧ j' = j ∧ i ≤ j ∧ f a = true)) → zeroPair f ke i j i' j' a b = ke i' j' a b) := by
  have h := zero_fold (K := K) (fun ke (k : Fin 3) => if f k then zeroDir ke i j k else ke)
    (fun k i' j' a b => f k = true ∧ ((i' = j ∧ j' = i ∧ j ≤ i ∧ b = k) ∨ (i' = i ∧ j' = j ∧ i ≤ j ∧ a = k))) ?_ ?_ (List.finRange 3) ke i' j' a b
  · constructor
    · rintro (hc | hc)
      · exact h.1 ⟨b, List.mem_finRange b, hc.2.2.2, Or.inl ⟨hc.1, hc.2.1, hc.2.2.1, rfl⟩⟩
      · exact h.1 ⟨a, List.mem_finRange a, hc.2.2.2, Or.inr ⟨hc.1, hc.2.1, hc.2.2.1, rfl⟩⟩
    · intro hc
      refine h.2 ?_
      rintro ⟨k, -, hf, hl | hl⟩
      · exact hc (Or.inl ⟨hl.1, hl.2.1, hl.2.2.1, by rw [hl.2.2.2]; exact hf⟩)
      · exact hc (Or.inr ⟨hl.1, hl.2.1, hl.2.2.1, by rw [hl.2.2.2]; exact hf⟩)
  · rintro ke k i' j' a b ⟨hf, hc⟩
    rw [if_pos hf]
    exact (zeroDir_spec i j k ke i' j' a b).1 hc
  · intro ke k i' j' a b hc
    by_cases hf : f k = true
    · rw [if_pos hf]
      exact (zeroDir_spec i j k ke i' j' a b).2 fun h => hc ⟨hf, h⟩
    · rw [if_neg hf]

/-- The blocks between nodes that are not fully fixed. -/
theorem zeroFixed_spec (fixed : Nat → Fin 3 → Bool) (e : SElem K) {i j : Nat} (hij : i ≤ j) (hj : j < e.nnd)
    (hi : allFixed (fixed (e.l2g i)) = false) (hj' : allFixed (fixed (e.l2g j)) = false) (a b : Fin 3) :
    zeroFixed fixed e i j a b = if fixed (e.l2g i) a = true ∨ fixed (e.l2g j) b = true then 0 else e.ke i j a b := by
  obtain ⟨C, hC⟩ : ∃ C : Nat → Nat → Nat → Fin 3 → Fin 3 → Prop, C = fun x i' j' a b =>
    (noneFixed (fixed (e.l2g x)) || allFixed (fixed (e.l2g x))) = false ∧
      ∃ y ∈ List.range e.nnd, (i' = y ∧ j' = x ∧ y ≤ x ∧ fixed (e.l2g x) b = true) ∨ (i' = x ∧ j' = y ∧ x ≤ y ∧ fixed (e.l2g x) a = true) := ⟨_, rfl⟩
  have inner : ∀ (x : Nat) (ke : Nat → Nat → Blk K) (i' j' : Nat) (a b : Fin 3), _ := fun x ke i' j' a b =>
    zero_fold (K := K) (fun ke y => zeroPair (fixed (e.l2g x)) ke x y)
      (fun y i' j' a b => (i' = y ∧ j' = x ∧ y ≤ x ∧ fixed (e.l2g x) b = true) ∨ (i' = x ∧ j' = y ∧ x ≤ y ∧ fixed (e.l2g x) a = true))
      (fun ke y i' j' a b => (zeroPair_spec (fixed (e.l2g x)) x y ke i' j' a b).1)
      (fun ke y i' j' a b => (zeroPair_spec (fixed (e.l2g x)) x y ke i' j' a b).2) (List.range e.nnd) ke i' j' a b
  have h := zero_fold (K := K) (fun ke x => if noneFixed (fixed (e.l2g x)) || allFixed (fixed (e.l2g x)) then ke
      else (List.range e.nnd).foldl (fun ke y => zeroPair (fixed (e.l2g x)) ke x y) ke) C ?_ ?_ (List.range e.nnd) e.ke i j a b
  · have hnone : ∀ x (c : Fin 3), fixed x c = true → noneFixed (fixed x) = false := by
      intro x c hc
      unfold noneFixed
      fin_cases c <;> simp_all
    by_cases hf : fixed (e.l2g i) a = true ∨ fixed (e.l2g j) b = true
    · rw [if_pos hf]
      refine h.1 ?_
      subst hC
      rcases hf with hf | hf
      · exact ⟨i, List.mem_range.2 (by omega), by rw [hi, hnone _ _ hf]; rfl, j, List.mem_range.2 hj, Or.inr ⟨rfl, rfl, hij, hf⟩⟩
      · exact ⟨j, List.mem_range.2 hj, by rw [hj', hnone _ _ hf]; rfl, i, List.mem_range.2 (by omega), Or.inl ⟨rfl, rfl, hij, hf⟩⟩
    · rw [if_neg hf]
      refine h.2 ?_
      subst hC
      rintro ⟨x, -, -, y, -, hc | hc⟩
      · exact hf (Or.inr (by rw [hc.2.1]; exact hc.2.2.2))
      · exact hf (Or.inl (by rw [hc.1]; exact hc.2.2.2))
  · subst hC
    rintro ke x i' j' a b ⟨hp, hc⟩
    rw [hp, if_neg (by decide)]
    exact (inner x ke i' j' a b).1 hc
  · subst hC
    intro ke x i' j' a b hc
    cases hp : (noneFixed (fixed (e.l2g x)) || allFixed (fixed (e.l2g x))) with
    | true => rw [if_pos rfl]
    | false =>
      rw [if_neg (by decide)]
      exact (inner x ke i' j' a b).2 fun h => hc ⟨hp, h⟩

end OP.Fem
