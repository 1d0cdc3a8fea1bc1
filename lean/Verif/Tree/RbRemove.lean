import Verif.Tree.RbLemmas
/-!
# Lemmas on `BST::remove`
-/
namespace OP.Tree.Rb
open OP.Tree
open OP.Tree.Avl (kv)

variable {K V : Type}

/-- In-order entries. -/
def ents : T (D K V) → List (K × V)
  | .nil => []
  | .node _ d l r => ents l ++ (d.k, d.v) :: ents r

theorem ents_length (t : T (D K V)) : (ents t).length = t.size := by
  induction t with
  | nil => rfl
  | node i d l r hl hr => simp [ents, T.size, hl, hr]; omega

theorem size_zero {t : T (D K V)} : t.size = 0 ↔ t = .nil := by
  cases t <;> simp [T.size]

/-- Same entries. -/
def EqE (t t' : T (D K V)) : Prop := ents t' = ents t

theorem EqE.size {t t' : T (D K V)} (h : EqE t t') : t'.size = t.size := by
  rw [← ents_length, ← ents_length, h]

theorem rotL_ents {t t' : T (D K V)} (h : rotL t = .ok t') : EqE t t' := by
  cases t with
  | nil => simp [rotL] at h
  | node i d l r =>
    cases r with
    | nil => simp [rotL] at h
    | node j e a b => simp only [rotL, Res.ok.injEq] at h; subst h; simp [EqE, ents]

theorem rotR_ents {t t' : T (D K V)} (h : rotR t = .ok t') : EqE t t' := by
  cases t with
  | nil => simp [rotR] at h
  | node i d l r =>
    cases l with
    | nil => simp [rotR] at h
    | node j e a b => simp only [rotR, Res.ok.injEq] at h; subst h; simp [EqE, ents]

theorem paint_ents {c : Bool} {t t' : T (D K V)} (h : paint c t = .ok t') : EqE t t' := by
  cases t with
  | nil => simp [paint] at h
  | node i d l r => simp only [paint, Res.ok.injEq] at h; subst h; simp [EqE, ents]

theorem leanLeft_ents {t t' : T (D K V)} (h : leanLeft t = .ok t') : EqE t t' := by
  rw [leanLeft, Res.bind_eq_ok] at h
  obtain ⟨h1, e1, e2⟩ := h
  have := rotL_ents e1
  cases h1 with
  | nil => simp at e2
  | node i d l r =>
    simp only [Res.bind_eq_ok] at e2
    obtain ⟨l', e3, e4⟩ := e2
    have h3 := paint_ents e3
    simp only [Res.ok.injEq] at e4; subst e4
    simp only [EqE, ents] at this h3 ⊢
    rw [h3, this]

theorem leanRight_ents {t t' : T (D K V)} (h : leanRight t = .ok t') : EqE t t' := by
  rw [leanRight, Res.bind_eq_ok] at h
  obtain ⟨h1, e1, e2⟩ := h
  have := rotR_ents e1
  cases h1 with
  | nil => simp at e2
  | node i d l r =>
    simp only [Res.bind_eq_ok] at e2
    obtain ⟨l', e3, e4⟩ := e2
    have h3 := paint_ents e3
    simp only [Res.ok.injEq] at e4; subst e4
    simp only [EqE, ents] at this h3 ⊢
    rw [h3, this]

theorem fix_ents {t t' : T (D K V)} (h : fix t = .ok t') : EqE t t' := by
  cases t with
  | nil => simp [fix] at h
  | node i d l r =>
    rw [fix] at h
    split at h
    · exact leanLeft_ents h
    · simp only [Res.ok.injEq] at h; subst h; rfl

variable [LinearOrder K]

theorem pushLeft_ents {t t' : T (D K V)} (h : pushLeft t = .ok t') : EqE t t' := by
  cases t with
  | nil => simp [pushLeft] at h
  | node i d l r =>
    cases l with
    | nil => simp [pushLeft] at h
    | node j e a b =>
      unfold pushLeft at h
      simp only at h
      split at h
      · cases r with
        | nil => simp at h
        | node p g x y =>
          simp only at h
          split at h
          · rw [Res.bind_eq_ok] at h
            obtain ⟨r', e1, e2⟩ := h
            have h1 := rotR_ents e1
            have h2 := rotL_ents e2
            simp only [EqE, ents] at h1 h2 ⊢
            rw [h2, h1]
          · simp only [Res.ok.injEq] at h; subst h; simp [EqE, ents]
      · simp only [Res.ok.injEq] at h; subst h; rfl

theorem pushRight_ents {t t' : T (D K V)} (h : pushRight t = .ok t') : EqE t t' := by
  cases t with
  | nil => simp [pushRight] at h
  | node i d l r =>
    cases r with
    | nil => simp [pushRight] at h
    | node j e a b =>
      unfold pushRight at h
      simp only at h
      split at h
      · cases l with
        | nil => simp at h
        | node p g x y =>
          simp only at h
          split at h
          · rw [Res.bind_eq_ok] at h
            obtain ⟨h', e1, e2⟩ := h
            have h1 := rotR_ents e1
            cases h' with
            | nil => simp at e2
            | node i' d' l' r' =>
              simp only [Res.bind_eq_ok] at e2
              obtain ⟨l'', e3, e4⟩ := e2
              have h3 := paint_ents e3
              simp only [Res.ok.injEq] at e4; subst e4
              simp only [EqE, ents] at h1 h3 ⊢
              rw [h3, h1]
          · simp only [Res.ok.injEq] at h; subst h; simp [EqE, ents]
      · simp only [Res.ok.injEq] at h; subst h; rfl

/-- Nothing here runs out of fuel. -/
theorem ne_throw_rotL (t : T (D K V)) : rotL t ≠ .throw := by
  unfold rotL; split <;> simp
theorem ne_throw_rotR (t : T (D K V)) : rotR t ≠ .throw := by
  unfold rotR; split <;> simp
theorem ne_throw_paint (c : Bool) (t : T (D K V)) : paint c t ≠ .throw := by
  unfold paint; split <;> simp

theorem bind_ne_throw {α β : Type} {x : Res α} {f : α → Res β} (h : x ≠ .throw)
    (hf : ∀ a, x = .ok a → f a ≠ .throw) : (x >>= f) ≠ .throw := by
  cases x with
  | ok a => exact hf a rfl
  | throw => exact absurd rfl h
  | ub => simp

theorem ne_throw_leanLeft (t : T (D K V)) : leanLeft t ≠ .throw := by
  refine bind_ne_throw (ne_throw_rotL t) fun a _ => ?_
  cases a with
  | nil => simp
  | node i d l r => exact bind_ne_throw (ne_throw_paint _ _) fun _ _ => by simp

theorem ne_throw_leanRight (t : T (D K V)) : leanRight t ≠ .throw := by
  refine bind_ne_throw (ne_throw_rotR t) fun a _ => ?_
  cases a with
  | nil => simp
  | node i d l r => exact bind_ne_throw (ne_throw_paint _ _) fun _ _ => by simp

theorem ne_throw_fix (t : T (D K V)) : fix t ≠ .throw := by
  cases t with
  | nil => simp [fix]
  | node i d l r =>
    rw [fix]; split
    · exact ne_throw_leanLeft _
    · simp

theorem ne_throw_pushLeft (t : T (D K V)) : pushLeft t ≠ .throw := by
  unfold pushLeft
  split
  · split
    · split
      · simp
      · split
        · exact bind_ne_throw (ne_throw_rotR _) fun _ _ => ne_throw_rotL _
        · simp
    · simp
  · simp

theorem ne_throw_pushRight (t : T (D K V)) : pushRight t ≠ .throw := by
  unfold pushRight
  split
  · split
    · split
      · simp
      · split
        · refine bind_ne_throw (ne_throw_rotR _) fun a _ => ?_
          cases a with
          | nil => simp
          | node i d l r => exact bind_ne_throw (ne_throw_paint _ _) fun _ _ => by simp
        · simp
    · simp
  · simp

theorem minEntry_ok : ∀ (t : T (D K V)), t ≠ .nil → ∃ e L, minEntry t = .ok e ∧ ents t = e :: L := by
  intro t
  induction t with
  | nil => intro h; exact absurd rfl h
  | node i d l r hl _ =>
    intro _
    cases l with
    | nil => exact ⟨(d.k, d.v), ents r, rfl, by simp [ents]⟩
    | node j e a b =>
      obtain ⟨x, L, h1, h2⟩ := hl (by simp)
      exact ⟨x, L ++ (d.k, d.v) :: ents r, h1, by rw [ents, h2]; simp⟩

theorem minEntry_nil : minEntry (.nil : T (D K V)) = .ub := rfl

theorem rem_ne_throw : ∀ (f : Nat) (k : K) (t : T (D K V)), t.size < f → rem f k t ≠ .throw := by
  intro f
  induction f with
  | zero => intro k t h; omega
  | succ f ih =>
    intro k t ht
    cases t with
    | nil => simp [rem]
    | node i0 d0 l0 r0 =>
      rw [rem]
      split
      · split
        · simp
        · refine bind_ne_throw (ne_throw_pushLeft _) fun h e1 => ?_
          have hs := (pushLeft_ents e1).size
          cases h with
          | nil => simp
          | node i d l r =>
            refine bind_ne_throw (ih k l ?_) fun _ _ => ne_throw_fix _
            simp only [T.size] at hs ht; omega
      · refine bind_ne_throw ?_ fun h e1 => ?_
        · split
          · exact ne_throw_leanRight _
          · simp
        · have hs : h.size = (T.node i0 d0 l0 r0).size := by
            split at e1
            · exact (leanRight_ents e1).size
            · simp only [Res.ok.injEq] at e1; rw [e1]
          cases h with
          | nil => simp
          | node i1 d1 l1 r1 =>
            simp only
            split
            · simp
            · refine bind_ne_throw (ne_throw_pushRight _) fun h e2 => ?_
              have hs2 := (pushRight_ents e2).size
              cases h with
              | nil => simp
              | node i d l r =>
                simp only [T.size] at hs hs2 ht
                simp only
                split
                · refine bind_ne_throw ?_ fun e e3 => ?_
                  · cases hr : r with
                    | nil => simp [minEntry]
                    | node a b c d =>
                      obtain ⟨e, L, h1, h2⟩ := minEntry_ok (T.node a b c d) (by simp)
                      rw [h1]; simp
                  · exact bind_ne_throw (ih _ r (by omega)) fun _ _ => ne_throw_fix _
                · exact bind_ne_throw (ih _ r (by omega)) fun _ _ => ne_throw_fix _

/-- Keys strictly increase. -/
def Inc (L : List (K × V)) : Prop := L.Pairwise fun a b => a.1 < b.1

theorem inc_node {L R : List (K × V)} {x : K × V} (h : Inc (L ++ x :: R)) :
    Inc L ∧ Inc R ∧ (∀ e ∈ L, e.1 < x.1) ∧ (∀ e ∈ R, x.1 < e.1) := by
  simp only [Inc, List.pairwise_append, List.pairwise_cons, List.mem_cons] at h
  exact ⟨h.1, h.2.1.2, fun e he => h.2.2 e he x (.inl rfl), h.2.1.1⟩

/-- The list without key `k`. -/
def without (k : K) (L : List (K × V)) : List (K × V) := L.filter fun e => decide (e.1 ≠ k)

theorem without_of_ne {k : K} {L : List (K × V)} (h : ∀ e ∈ L, e.1 ≠ k) : without k L = L := by
  rw [without, List.filter_eq_self]; simpa using h

theorem without_node {k : K} {L R : List (K × V)} {x : K × V} :
    without k (L ++ x :: R) = without k L ++ (if x.1 ≠ k then x :: without k R else without k R) := by
  simp only [without, List.filter_append, List.filter_cons]
  split <;> simp_all


/-! ## Shapes on the way down -/

/-- Where a call of `remove` may be entered: a node of either colour with black children, a red node
with a red left child, or a black node that has a red child. -/
inductive Cls
  | single (c : Bool) | r2 | full

/-- Entry shapes; `k` is the key being removed. -/
inductive Ent (k : K) : Cls → Nat → T (D K V) → Prop where
  | single {n i d l r} (hl : Sh .B n l) (hr : Sh .B n r) : Ent k (.single d.red) n (.node i d l r)
  | r2 {n t} (h : Sh .R2 n t) : Ent k .r2 n t
  | three {n i d l r} (hl : Sh .R1 n l) (hr : Sh .B n r) (hd : d.red = false) : Ent k .full (n + 1) (.node i d l r)
  | four {n i d l r} (hl : Sh .R2 n l) (hr : Sh .B n r) (hd : d.red = false) : Ent k .full (n + 1) (.node i d l r)
  | right {n i d l r} (hl : Sh .B n l) (hr : Sh .R1 n r) (hd : d.red = false) (hk : ¬ k < d.k) :
      Ent k .full (n + 1) (.node i d l r)
  | both {n i d l r} (hl : Sh .R1 n l) (hr : Sh .R1 n r) (hd : d.red = false) (hk : k < d.k) :
      Ent k .full (n + 1) (.node i d l r)

/-- Exit shapes. -/
def Post : Cls → Nat → T (D K V) → Prop
  | .single c, n, t => Sh .B n t ∨
      ∃ i d l r, t = .node i d l r ∧ Sh .B n l ∧ Sh .B n r ∧ (c = true → d.red = true)
  | .r2, n, t => Sh .R1 n t ∨ Sh .R2 n t
  | .full, n, t => Sh .B n t

theorem Post.r1 {n : Nat} {t : T (D K V)} (h : Post (.single true) n t) : Sh .B n t ∨ Sh .R1 n t := by
  rcases h with h | ⟨i, d, l, r, rfl, h1, h2, h3⟩
  · exact .inl h
  · exact .inr (.red1 h1 h2 (h3 rfl))

theorem Sh.ent1 {k : K} {n : Nat} {t : T (D K V)} (h : Sh .R1 n t) : Ent k (.single true) n t := by
  cases h with
  | red1 hl hr hd => rw [← hd]; exact .single hl hr

/-- Outcome of a call of `remove`. -/
def Out (f : Nat) (k : K) (c : Cls) (n : Nat) (t : T (D K V)) : Prop :=
  (rem f k t = .ub ∧ (∀ e ∈ ents t, e.1 ≠ k) ∧ ∃ e ∈ ents t, e.1 < k) ∨
  ∃ t', rem f k t = .ok t' ∧ ents t' = without k (ents t) ∧ Post c n t'

/-- What is left to do after going left. -/
theorem down_left {f : Nat} {k : K} {i : Nat} {d : D K V} {l r : T (D K V)} {c : Cls} {m : Nat}
    (hs : Inc (ents (.node i d l r))) (hk : k < d.k) (hl : Out f k c m l) :
    ((rem f k l >>= fun l => fix (.node i d l r)) = .ub ∧ (∀ e ∈ ents (.node i d l r), e.1 ≠ k) ∧
      ∃ e ∈ ents (.node i d l r), e.1 < k) ∨
    ∃ l' t', (rem f k l >>= fun l => fix (.node i d l r)) = .ok t' ∧
      ents t' = without k (ents (.node i d l r)) ∧ Post c m l' ∧
      (isRed r = false → t' = .node i d l' r) ∧
      (∀ n, Sh .R1 n r → ∃ j d' e a b, t' = .node j d' (.node i e l' a) b ∧ d'.red = d.red ∧ e.red = true ∧
        Sh .B n a ∧ Sh .B n b) := by
  rw [ents] at hs
  obtain ⟨s1, s2, s3, s4⟩ := inc_node hs
  have hr : ∀ e ∈ ents r, e.1 ≠ k := fun e he => ne_of_gt (lt_trans hk (s4 e he))
  rcases hl with ⟨h1, h2, e, h3, h4⟩ | ⟨l', h1, h2, h3⟩
  · refine .inl ⟨by rw [h1]; rfl, ?_, e, by simp [ents, h3], h4⟩
    intro e he
    simp only [ents, List.mem_append, List.mem_cons] at he
    rcases he with he | rfl | he
    exacts [h2 e he, ne_of_gt hk, hr e he]
  · obtain ⟨t', f1, f2, f3, f4⟩ := fix_ok i d l' r
    refine .inr ⟨l', t', by rw [h1]; exact f1, ?_, h3, f3, f4⟩
    rw [show ents t' = _ from fix_ents f1, ents, h2, ents, without_node, without_of_ne hr,
      if_pos (show (d.k, d.v).1 ≠ k from ne_of_gt hk)]

/-- What is left to do after reaching the branch that goes right. -/
def goRight (f : Nat) (k : K) (i : Nat) (d : D K V) (l r : T (D K V)) : Res (T (D K V)) :=
  if k = d.k then
    minEntry r >>= fun e => rem f e.1 r >>= fun r => fix (.node i { d with k := e.1, v := e.2 } l r)
  else rem f k r >>= fun r => fix (.node i d l r)

theorem without_head {e : K × V} {L : List (K × V)} (h : Inc (e :: L)) : without e.1 (e :: L) = L := by
  rw [Inc, List.pairwise_cons] at h
  rw [without, List.filter_cons]
  simp only [ne_eq, not_true_eq_false, decide_false, Bool.false_eq_true, if_false]
  exact without_of_ne fun x hx => ne_of_gt (h.1 x hx)

theorem down_right {f : Nat} {k : K} {i : Nat} {d : D K V} {l r : T (D K V)} {c : Cls} {m : Nat}
    (hs : Inc (ents (.node i d l r))) (hk : ¬ k < d.k) (hnil : r ≠ .nil)
    (hr : ∀ k', k ≤ k' → (k = d.k → ∃ v, (k', v) ∈ ents r) → Out f k' c m r) :
    (goRight f k i d l r = .ub ∧ (∀ e ∈ ents (.node i d l r), e.1 ≠ k) ∧
      ∃ e ∈ ents (.node i d l r), e.1 < k) ∨
    ∃ d0 r' t', goRight f k i d l r = .ok t' ∧ d0.red = d.red ∧
      ents t' = without k (ents (.node i d l r)) ∧ Post c m r' ∧
      (isRed r' = false → t' = .node i d0 l r') ∧
      (∀ n, Sh .R1 n r' → ∃ j d' e a b, t' = .node j d' (.node i e l a) b ∧ d'.red = d.red ∧ e.red = true ∧
        Sh .B n a ∧ Sh .B n b) := by
  rw [ents] at hs
  obtain ⟨s1, s2, s3, s4⟩ := inc_node hs
  have hL : ∀ e ∈ ents l, e.1 ≠ k := fun e he => ne_of_lt (lt_of_lt_of_le (s3 e he) (not_lt.1 hk))
  by_cases he : k = d.k
  · obtain ⟨e, L, m1, m2⟩ := minEntry_ok r hnil
    have hke : k < e.1 := by rw [he]; exact s4 e (by rw [m2]; simp)
    rw [m2] at s2
    rcases hr e.1 (le_of_lt hke) (fun _ => ⟨e.2, by rw [m2]; simp⟩) with ⟨h1, h2, -⟩ | ⟨r', h1, h2, h3⟩
    · exact absurd rfl (h2 e (by rw [m2]; simp))
    · obtain ⟨t', f1, f2, f3, f4⟩ := fix_ok i { d with k := e.1, v := e.2 } l r'
      refine .inr ⟨{ d with k := e.1, v := e.2 }, r', t', ?_, rfl, ?_, h3, f3, f4⟩
      · rw [goRight, if_pos he, m1]; simp only [Res.ok_bind]; rw [h1]; exact f1
      · rw [show ents t' = _ from fix_ents f1, ents, h2, ents, without_node, without_of_ne hL, m2,
          without_head s2, if_neg (by simp [he]), without_of_ne]
        intro x hx
        have := s4 x (by rw [m2]; exact hx)
        rw [he]; exact ne_of_gt this
  · have hlt : d.k < k := lt_of_le_of_ne (not_lt.1 hk) (Ne.symm he)
    rcases hr k (le_refl k) (fun h => absurd h he) with ⟨h1, h2, -⟩ | ⟨r', h1, h2, h3⟩
    · refine .inl ⟨by rw [goRight, if_neg he, h1]; rfl, ?_, (d.k, d.v), by simp [ents], hlt⟩
      intro e hm
      simp only [ents, List.mem_append, List.mem_cons] at hm
      rcases hm with hm | rfl | hm
      exacts [hL e hm, ne_of_lt hlt, h2 e hm]
    · obtain ⟨t', f1, f2, f3, f4⟩ := fix_ok i d l r'
      refine .inr ⟨d, r', t', by rw [goRight, if_neg he, h1]; exact f1, rfl, ?_, h3, f3, f4⟩
      rw [show ents t' = _ from fix_ents f1, ents, h2, ents, without_node, without_of_ne hL,
        if_pos (show (d.k, d.v).1 ≠ k from ne_of_lt hlt)]

end OP.Tree.Rb
