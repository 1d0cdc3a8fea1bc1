import Verif.Tree.Rb
import Verif.Tree.AvlState
/-!
# Lemmas on the red-black trees: shape, order and contents of `ins`
-/
namespace OP.Tree.Rb
open OP.Tree
open OP.Tree.Avl (Sorted Ins sorted_node)

variable {K V : Type}

/-- In-order entries with addresses. -/
def kvs (t : T (D K V)) : List (Nat × K × V) := t.inord.map fun e => (e.1, e.2.k, e.2.v)

@[simp] theorem kvs_nil : kvs (.nil : T (D K V)) = [] := rfl
@[simp] theorem kvs_node (i : Nat) (d : D K V) (l r : T (D K V)) :
    kvs (.node i d l r) = kvs l ++ (i, d.k, d.v) :: kvs r := by simp [kvs, T.inord]

theorem kvs_ids (t : T (D K V)) : (kvs t).map Prod.fst = t.ids := by
  simp only [kvs, List.map_map, ← T.inord_ids]; rfl

theorem kvs_length (t : T (D K V)) : (kvs t).length = t.size := by
  rw [kvs, List.length_map, T.inord_length]

/-- Stored `order` is the size of the left subtree. -/
def Ord : T (D K V) → Prop
  | .nil => True
  | .node _ d l r => Ord l ∧ Ord r ∧ d.o = l.size

/-- Role of a subtree in a 2-3-4 tree: a full node with its links (`B`), a red node without (`R1`) or
with (`R2`) a red left child. -/
inductive Kind
  | B | R1 | R2

/-- Valid subtrees of black height `n`. -/
inductive Sh : Kind → Nat → T (D K V) → Prop where
  | nil : Sh .B 0 .nil
  | black {c n i d l r} (hl : Sh c n l) (hr : Sh .B n r) (hd : d.red = false) : Sh .B (n + 1) (.node i d l r)
  | red1 {n i d l r} (hl : Sh .B n l) (hr : Sh .B n r) (hd : d.red = true) : Sh .R1 n (.node i d l r)
  | red2 {n i d l r} (hl : Sh .R1 n l) (hr : Sh .B n r) (hd : d.red = true) : Sh .R2 n (.node i d l r)

theorem Sh.B_red {n} {t : T (D K V)} (h : Sh .B n t) : isRed t = false := by cases h <;> simp_all [isRed]
theorem Sh.R1_red {n} {t : T (D K V)} (h : Sh .R1 n t) : isRed t = true := by cases h; simp_all [isRed]
theorem Sh.R2_red {n} {t : T (D K V)} (h : Sh .R2 n t) : isRed t = true := by cases h; simp_all [isRed]

/-- A black node with two black children. -/
inductive Two : Nat → T (D K V) → Prop where
  | mk {n i d l r} (hl : Sh .B n l) (hr : Sh .B n r) (hd : d.red = false) : Two (n + 1) (.node i d l r)

theorem Two.sh {n} {t : T (D K V)} (h : Two n t) : Sh .B n t := by
  obtain ⟨hl, hr, hd⟩ := h; exact .black hl hr hd

/-! ## `fix` -/

/-- What `fix` keeps. -/
structure Same (t t' : T (D K V)) : Prop where
  kvs : kvs t' = kvs t
  size : t'.size = t.size
  ord : Ord t → Ord t'

theorem Same.refl (t : T (D K V)) : Same t t := ⟨rfl, rfl, id⟩

theorem fix_ok (i : Nat) (d : D K V) (l r : T (D K V)) : ∃ t', fix (.node i d l r) = .ok t' ∧
    Same (.node i d l r) t' ∧
    (isRed r = false → t' = .node i d l r) ∧
    (∀ n, Sh .R1 n r → ∃ j d' e a b, t' = .node j d' (.node i e l a) b ∧ d'.red = d.red ∧ e.red = true ∧
      Sh .B n a ∧ Sh .B n b) := by
  rw [fix]
  by_cases h : isRed r = true
  · rw [if_pos h]
    cases r with
    | nil => simp [isRed] at h
    | node j e a b =>
      refine ⟨.node j { e with o := e.o + (d.o + 1), red := d.red } (.node i { d with red := true } l a) b,
        by simp [leanLeft, rotL, paint, isRed], ⟨by simp, by simp [T.size]; omega, ?_⟩, by simp [h], ?_⟩
      · rintro ⟨h1, ⟨h2, h3, h4⟩, h5⟩
        exact ⟨⟨h1, h2, h5⟩, h3, by simp [h4, h5, T.size]; omega⟩
      · intro n hs
        cases hs with
        | red1 hl hr hd => exact ⟨_, _, _, _, _, rfl, rfl, rfl, hl, hr⟩
  · rw [if_neg h]
    exact ⟨_, rfl, .refl _, fun _ => rfl, fun n hs => absurd hs.R1_red h⟩

/-! ## `split` -/

theorem split_ok (i : Nat) (d : D K V) (l r : T (D K V)) : ∃ j e a b, split (.node i d l r) = .ok (.node j e a b) ∧
    Same (.node i d l r) (.node j e a b) ∧
    (∀ n, Sh .B n (.node i d l r) → (Two n (.node j e a b) ∨ (∃ m, n = m + 1 ∧ Sh .R1 m a ∧ Sh .B m b ∧ e.red = false)
      ∨ (Two n a ∧ Two n b ∧ e.red = true))) ∧
    (∀ n, Two n (.node i d l r) → Two n (.node j e a b)) ∧
    (∀ n, Sh .R1 n (.node i d l r) → Sh .R1 n (.node j e a b)) := by
  rw [split]
  by_cases h : doubleRed (.node i d l r) = true
  · rw [if_pos h]
    cases l with
    | nil => simp [doubleRed, isRed] at h
    | node j e x c =>
      cases x with
      | nil => simp [doubleRed, isRed] at h
      | node p g a b =>
        simp only [doubleRed, isRed, Bool.and_eq_true] at h
        refine ⟨j, e, .node p { g with red := false } a b, .node i { d with o := d.o - (e.o + 1) } c r,
          by simp [rotR, paint], ⟨by simp, by simp [T.size]; omega, ?_⟩, ?_, ?_, ?_⟩
        · rintro ⟨⟨⟨h1, h2, h3⟩, h4, h5⟩, h6, h7⟩
          refine ⟨⟨h1, h2, h3⟩, ⟨h4, h6, ?_⟩, h5⟩
          simp only [h7, h5, T.size]; push_cast; omega
        · intro n hs
          right; right
          cases hs with
          | black hl hr hd =>
            cases hl with
            | black _ _ h' => simp [h.1] at h'
            | red1 hl' _ _ => have := hl'.B_red; simp [isRed, h.2] at this
            | red2 hl' hr' _ =>
              cases hl' with
              | red1 ha hb _ => exact ⟨.mk ha hb rfl, .mk hr' hr hd, h.1⟩
        · intro n hs; cases hs with
          | mk hl _ _ => have := hl.B_red; simp [isRed, h.1] at this
        · intro n hs; cases hs with
          | red1 hl _ _ => have := hl.B_red; simp [isRed, h.1] at this
  · rw [if_neg h]
    refine ⟨i, d, l, r, rfl, .refl _, ?_, fun _ => id, fun _ => id⟩
    intro n hs
    cases hs with
    | black hl hr hd =>
      rename_i c n
      cases c with
      | B => exact .inl (.mk hl hr hd)
      | R1 => exact .inr (.inl ⟨n, rfl, hl, hr, hd⟩)
      | R2 =>
        cases hl with
        | red2 hl' _ hd' =>
          cases hl' with
          | red1 _ _ hd'' => simp [doubleRed, isRed, hd', hd''] at h

/-! ## `ins` -/

variable [LinearOrder K]

/-- Outcome of `ins` on a subtree. -/
structure InsOk (k : K) (v : V) (n : Nat) (t t' : T (D K V)) (g : Bool) : Prop where
  ord : Ord t → Ord t'
  size : t'.size = t.size + (if g then 1 else 0)
  ins : Sorted (kvs t) → ∃ p, Ins k v n p (n + (if g then 1 else 0)) (kvs t) (kvs t')
  shB : ∀ m, Sh .B m t → Sh .B m t' ∨ Sh .R1 m t'
  shTwo : ∀ m, Two m t → Sh .B m t'
  shR : ∀ m, Sh .R1 m t → Sh .R1 m t' ∨ Sh .R2 m t'

theorem ins_ok (early : Bool) (k : K) (v : V) (n : Nat) : ∀ (f : Nat) (t : T (D K V)), t.size < f →
    ∃ t' g, ins early k v n f t = .ok (t', g) ∧ InsOk k v n t t' g := by
  intro f
  induction f with
  | zero => intro t h; omega
  | succ f ih =>
    intro t ht
    cases t with
    | nil =>
      refine ⟨_, _, rfl, ⟨fun _ => ⟨trivial, trivial, rfl⟩, rfl, ?_, ?_, ?_, ?_⟩⟩
      · exact fun _ => ⟨n, .inl ⟨[], [], rfl, rfl, by simp, by simp, rfl, rfl⟩⟩
      · intro m h; cases h; exact .inr (.red1 .nil .nil rfl)
      · intro m h; cases h
      · intro m h; cases h
    | node i0 d0 l0 r0 =>
      obtain ⟨i, d, l, r, e1, hsame, hB, hT, hR⟩ := split_ok i0 d0 l0 r0
      have hsz : l.size + r.size = l0.size + r0.size := by have := hsame.size; simp only [T.size] at this; omega
      simp only [T.size] at ht
      rw [ins, e1]
      simp only [Res.ok_bind]
      by_cases hk : k = d.k
      · rw [if_pos hk]
        have base : InsOk k v n (.node i0 d0 l0 r0) (.node i { d with v := v } l r) false := by
          refine ⟨fun h => ?_, ?_, ?_, ?_, ?_, ?_⟩
          · have := hsame.ord h; exact this
          · have := hsame.size; simp only [T.size] at this ⊢; simpa using this
          · intro _; rw [← hsame.kvs]
            exact ⟨i, .inr ⟨kvs l, kvs r, d.v, by simp [hk], by simp [hk], rfl⟩⟩
          · intro m h
            rcases hB m h with h | ⟨m', rfl, h1, h2, h3⟩ | ⟨h1, h2, h3⟩
            · cases h with | mk hl hr hd => exact .inl (.black hl hr hd)
            · exact .inl (.black h1 h2 h3)
            · exact .inr (.red1 h1.sh h2.sh h3)
          · intro m h; have := hT m h; cases this with | mk hl hr hd => exact .black hl hr hd
          · intro m h; have := hR m h; cases this with | red1 hl hr hd => exact .inl (.red1 hl hr hd)
        cases early with
        | true => exact ⟨_, _, rfl, base⟩
        | false =>
          obtain ⟨t', f1, f2, f3, f4⟩ := fix_ok i { d with v := v } l r
          refine ⟨t', false, by simp [f1], ⟨fun h => f2.ord (base.ord h), by rw [f2.size]; exact base.size,
            fun h => by rw [f2.kvs]; exact base.ins h, ?_, ?_, ?_⟩⟩
          · intro m h
            have hr : isRed r = false := by
              rcases hB m h with h | ⟨m', rfl, h1, h2, h3⟩ | ⟨h1, h2, h3⟩
              · cases h with | mk hl hr hd => exact hr.B_red
              · exact h2.B_red
              · exact h2.sh.B_red
            rw [f3 hr]; exact base.shB m h
          · intro m h
            have hr : isRed r = false := by cases hT m h with | mk hl hr hd => exact hr.B_red
            rw [f3 hr]; exact base.shTwo m h
          · intro m h
            have hr : isRed r = false := by cases hR m h with | red1 hl hr hd => exact hr.B_red
            rw [f3 hr]; exact base.shR m h
      rw [if_neg hk]
      by_cases hlt : k < d.k
      · rw [if_pos hlt]
        obtain ⟨l', g, e2, hi⟩ := ih l (by omega)
        rw [e2]
        simp only [Res.ok_bind]
        obtain ⟨t', f1, f2, f3, f4⟩ := fix_ok i { d with o := if g then d.o + 1 else d.o } l' r
        rw [f1]
        refine ⟨t', g, rfl, ⟨?_, ?_, ?_, ?_, ?_, ?_⟩⟩
        · intro h
          obtain ⟨h1, h2, h3⟩ := hsame.ord h
          refine f2.ord ⟨hi.ord h1, h2, ?_⟩
          have := hi.size
          cases g <;> simp_all
        · rw [f2.size, ← hsame.size]; have := hi.size; simp only [T.size]; omega
        · intro h
          rw [← hsame.kvs, kvs_node] at h ⊢
          obtain ⟨s1, s2, s3, s4⟩ := sorted_node h
          obtain ⟨p, hp⟩ := hi.ins s1
          exact ⟨p, by rw [f2.kvs, kvs_node]; exact hp.left hlt (fun e he => lt_trans hlt (s4 e he))⟩
        · intro m h
          rcases hB m h with h | ⟨m', rfl, h1, h2, h3⟩ | ⟨h1, h2, h3⟩
          · cases h with
            | mk hl hr hd =>
              rw [f3 hr.B_red]
              rcases hi.shB _ hl with h | h
              · exact .inl (.black h hr hd)
              · exact .inl (.black h hr hd)
          · rw [f3 h2.B_red]
            rcases hi.shR _ h1 with h | h
            · exact .inl (.black h h2 h3)
            · exact .inl (.black h h2 h3)
          · rw [f3 h2.sh.B_red]
            exact .inr (.red1 (hi.shTwo _ h1) h2.sh h3)
        · intro m h
          cases hT m h with
          | mk hl hr hd =>
            rw [f3 hr.B_red]
            rcases hi.shB _ hl with h | h
            · exact .black h hr hd
            · exact .black h hr hd
        · intro m h
          cases hR m h with
          | red1 hl hr hd =>
            rw [f3 hr.B_red]
            rcases hi.shB _ hl with h | h
            · exact .inl (.red1 h hr hd)
            · exact .inr (.red2 h hr hd)
      · rw [if_neg hlt]
        have hgt : d.k < k := lt_of_le_of_ne (not_lt.1 hlt) (Ne.symm hk)
        obtain ⟨r', g, e2, hi⟩ := ih r (by omega)
        rw [e2]
        simp only [Res.ok_bind]
        obtain ⟨t', f1, f2, f3, f4⟩ := fix_ok i d l r'
        rw [f1]
        refine ⟨t', g, rfl, ⟨?_, ?_, ?_, ?_, ?_, ?_⟩⟩
        · intro h
          obtain ⟨h1, h2, h3⟩ := hsame.ord h
          exact f2.ord ⟨h1, hi.ord h2, h3⟩
        · rw [f2.size, ← hsame.size]; have := hi.size; simp only [T.size]; omega
        · intro h
          rw [← hsame.kvs, kvs_node] at h ⊢
          obtain ⟨s1, s2, s3, s4⟩ := sorted_node h
          obtain ⟨p, hp⟩ := hi.ins s2
          exact ⟨p, by rw [f2.kvs, kvs_node]; exact hp.right hgt (fun e he => lt_trans (s3 e he) hgt)⟩
        · intro m h
          rcases hB m h with h | ⟨m', rfl, h1, h2, h3⟩ | ⟨h1, h2, h3⟩
          · cases h with
            | mk hl hr hd =>
              rcases hi.shB _ hr with h | h
              · rw [f3 h.B_red]; exact .inl (.black hl h hd)
              · obtain ⟨j, d', e, a, b, rfl, c1, c2, c3, c4⟩ := f4 _ h
                exact .inl (.black (.red1 hl c3 c2) c4 (c1.trans hd))
          · rcases hi.shB _ h2 with h | h
            · rw [f3 h.B_red]; exact .inl (.black h1 h h3)
            · obtain ⟨j, d', e, a, b, rfl, c1, c2, c3, c4⟩ := f4 _ h
              exact .inl (.black (.red2 h1 c3 c2) c4 (c1.trans h3))
          · have h := hi.shTwo _ h2
            rw [f3 h.B_red]
            exact .inr (.red1 h1.sh h h3)
        · intro m h
          cases hT m h with
          | mk hl hr hd =>
            rcases hi.shB _ hr with h | h
            · rw [f3 h.B_red]; exact .black hl h hd
            · obtain ⟨j, d', e, a, b, rfl, c1, c2, c3, c4⟩ := f4 _ h
              exact .black (.red1 hl c3 c2) c4 (c1.trans hd)
        · intro m h
          cases hR m h with
          | red1 hl hr hd =>
            rcases hi.shB _ hr with h | h
            · rw [f3 h.B_red]; exact .inl (.red1 hl h hd)
            · obtain ⟨j, d', e, a, b, rfl, c1, c2, c3, c4⟩ := f4 _ h
              exact .inr (.red2 (.red1 hl c3 c2) c4 (c1.trans hd))

end OP.Tree.Rb
