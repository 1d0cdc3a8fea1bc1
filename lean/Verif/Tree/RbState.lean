import Verif.Tree.RbArena
import Verif.Tree.RbRemoveOk
/-!
# Lemmas on whole `ktree_llrb` and `BST` objects
-/
namespace OP.Tree.Rb
open OP.Tree
open OP.Tree.Avl (Sorted Ins sorted_node kv)

variable {K V : Type} [LinearOrder K]

/-- The object stands for the tree. -/
structure SRep (s : S K V) (t : T (D K V)) : Prop where
  root : s.root = t.root
  rep : Rep s.mem t
  nodup : t.ids.Nodup
  ord : Ord t
  sorted : Sorted (kvs t)
  size : t.size = s.mem.length
  sh : ∃ n, Sh .B n t

theorem SRep.init : SRep (S.init : S K V) .nil :=
  ⟨rfl, trivial, List.nodup_nil, trivial, List.Pairwise.nil, rfl, 0, .nil⟩

theorem paint_sh {n : Nat} {i : Nat} {d : D K V} {l r : T (D K V)}
    (h : Sh .B n (.node i d l r) ∨ Sh .R1 n (.node i d l r)) :
    ∃ n, Sh .B n (.node i { d with red := false } l r) := by
  rcases h with h | h
  · cases h with | black hl hr hd => exact ⟨_, .black hl hr rfl⟩
  · cases h with | red1 hl hr hd => exact ⟨_, .black hl hr rfl⟩

theorem add_ok {s : S K V} {t : T (D K V)} (h : SRep s t) (k : K) (v : V) :
    ∃ s' t' p n', add s k v = .ok s' ∧ SRep s' t' ∧ Ins k v s.mem.length p n' (kvs t) (kvs t') := by
  obtain ⟨t', g, e1, hi⟩ := ins_ok true k v s.mem.length (s.mem.length + 1) t (by rw [h.size]; omega)
  obtain ⟨m', e2, h2, h3, h4, h5⟩ := append_ok k v _ s.mem t t' g h.rep h.nodup e1
  obtain ⟨p, hp⟩ := hi.ins h.sorted
  have hnil : t' ≠ .nil := by
    rintro rfl
    rcases hp with ⟨A, B, _, e, _⟩ | ⟨A, B, v0, _, e, _⟩ <;> simp at e
  obtain ⟨i, d, l, r, rfl⟩ : ∃ i d l r, t' = .node i d l r := by
    cases t' with
    | nil => exact absurd rfl hnil
    | node i d l r => exact ⟨i, d, l, r, rfl⟩
  have hnd : (T.node i d l r).ids.Nodup := by
    rw [h5.nodup_iff]
    cases g with
    | false => exact h.nodup
    | true =>
      rw [if_pos rfl, List.nodup_cons]
      exact ⟨fun hm => absurd (h.rep.lt _ hm) (Nat.lt_irrefl _), h.nodup⟩
  obtain ⟨n, hsh⟩ := h.sh
  have hnd' := hnd
  simp only [T.ids, List.nodup_append, List.nodup_cons, List.mem_cons] at hnd'
  refine ⟨⟨m'.set i ⟨{ d with red := false }, l.root, r.root⟩, some i⟩, .node i { d with red := false } l r, p,
    s.mem.length + (if g then 1 else 0), ?_, ⟨rfl, ⟨?_, ?_, ?_⟩, hnd, ?_, ?_, ?_, ?_⟩, by rw [kvs_node] at hp ⊢; exact hp⟩
  · rw [add, h.root, e2]
    simp only [Res.ok_bind, T.root_node]
    rw [upd_ok h2.1]
    rfl
  · exact set_self h2.1
  · exact h2.2.1.set (by grind)
  · exact h2.2.2.set (by grind)
  · exact hi.ord h.ord
  · have := hp.sorted h.sorted
    rw [kvs_node] at this ⊢; exact this
  · have := hi.size
    simp only [T.size] at this ⊢
    rw [List.length_set, h3, this, h.size]
  · exact paint_sh (hi.shB n hsh)

theorem SRep.ht_le {s : S K V} {t : T (D K V)} (h : SRep s t) : t.ht ≤ s.mem.length := by
  have := t.ht_le_size; rw [h.size] at this; exact this

theorem SRep.perm {s : S K V} {t : T (D K V)} (h : SRep s t) :
    t.ids.Perm (List.range s.mem.length) := by
  have h1 : t.ids ⊆ List.range s.mem.length := fun i hi => List.mem_range.2 (h.rep.lt i hi)
  exact (List.subperm_of_subset h.nodup h1).perm_of_length_le (by rw [T.ids_length, h.size]; simp)

theorem findLoop_ok (k : K) (m : Mem (D K V)) : ∀ (t : T (D K V)) (f : Nat), Rep m t →
    Sorted (kvs t) → t.ht ≤ f →
    (∃ i v, findLoop k m f t.root = .ok (some i) ∧ (i, k, v) ∈ kvs t ∧ ∃ n, m[i]? = some n ∧ n.d.k = k ∧ n.d.v = v)
    ∨ (findLoop k m f t.root = .ok none ∧ ∀ e ∈ kvs t, e.2.1 ≠ k) := by
  intro t
  induction t with
  | nil => intro f _ _ _; right; cases f <;> simp [findLoop, T.root]
  | node i d l r ihl ihr =>
    intro f hr hs hf
    rw [kvs_node] at hs
    obtain ⟨hs1, hs2, hs3, hs4⟩ := sorted_node hs
    simp only [T.ht] at hf
    obtain ⟨f, rfl⟩ : ∃ g, f = g + 1 := ⟨f - 1, by omega⟩
    rw [T.root_node, findLoop, get_ok hr.1]
    simp only [Res.ok_bind]
    by_cases he : k = d.k
    · rw [if_pos he]
      exact .inl ⟨i, d.v, rfl, by simp [he], _, hr.1, he.symm, rfl⟩
    rw [if_neg he]
    by_cases hlt : k < d.k
    · rw [if_pos hlt]
      rcases ihl f hr.2.1 hs1 (by omega) with ⟨j, v, h1, h2, h3⟩ | ⟨h1, h2⟩
      · exact .inl ⟨j, v, h1, by simp [h2], h3⟩
      · refine .inr ⟨h1, ?_⟩
        intro e hm
        simp only [kvs_node, List.mem_append, List.mem_cons] at hm
        rcases hm with hm | rfl | hm
        exacts [h2 e hm, Ne.symm he, ne_of_gt (lt_trans hlt (hs4 e hm))]
    · rw [if_neg hlt]
      have hgt : d.k < k := lt_of_le_of_ne (not_lt.1 hlt) (Ne.symm he)
      rcases ihr f hr.2.2 hs2 (by omega) with ⟨j, v, h1, h2, h3⟩ | ⟨h1, h2⟩
      · exact .inl ⟨j, v, h1, by simp [h2], h3⟩
      · refine .inr ⟨h1, ?_⟩
        intro e hm
        simp only [kvs_node, List.mem_append, List.mem_cons] at hm
        rcases hm with hm | rfl | hm
        exacts [ne_of_lt (lt_trans (hs3 e hm) hgt), Ne.symm he, h2 e hm]

theorem rep_mem {m : Mem (D K V)} {t : T (D K V)} (h : Rep m t) :
    ∀ e ∈ kvs t, ∃ n, m[e.1]? = some n ∧ n.d.k = e.2.1 ∧ n.d.v = e.2.2 := by
  induction t with
  | nil => simp
  | node i d l r hl hr =>
    intro e he
    simp only [kvs_node, List.mem_append, List.mem_cons] at he
    rcases he with he | rfl | he
    · exact hl h.2.1 e he
    · exact ⟨_, h.1, rfl, rfl⟩
    · exact hr h.2.2 e he

theorem atLoop_ok (m : Mem (D K V)) : ∀ (t : T (D K V)) (f : Nat) (i o : Int), Rep m t → Ord t →
    t.ht ≤ f → o ≤ i →
    atLoop m i f t.root o = .ok (((kvs t)[(i - o).toNat]?).map Prod.fst) := by
  intro t
  induction t with
  | nil => intro f i o _ _ _ _; cases f <;> simp [atLoop, T.root]
  | node j d l r ihl ihr =>
    intro f i o hr hi hf ho
    simp only [T.ht] at hf
    obtain ⟨f, rfl⟩ : ∃ g, f = g + 1 := ⟨f - 1, by omega⟩
    rw [T.root_node, atLoop, get_ok hr.1]
    simp only [Res.ok_bind, hi.2.2]
    have hll := kvs_length l
    by_cases he : i = o + l.size
    · rw [if_pos he, kvs_node, List.getElem?_append_right (by omega)]
      have : (i - o).toNat - (kvs l).length = 0 := by omega
      rw [this]; rfl
    rw [if_neg he]
    by_cases hlt : i < o + l.size
    · rw [if_pos hlt, ihl f i o hr.2.1 hi.1 (by omega) ho, kvs_node, List.getElem?_append_left (by omega)]
    · rw [if_neg hlt, ihr f i _ hr.2.2 hi.2.1 (by omega) (by omega), kvs_node,
        List.getElem?_append_right (by omega)]
      obtain ⟨c, hc⟩ : ∃ c, (i - o).toNat - (kvs l).length = c + 1 := ⟨(i - o).toNat - (kvs l).length - 1, by omega⟩
      rw [hc, List.getElem?_cons_succ]
      congr 3
      omega

theorem ofLoop_ok (k : K) (m : Mem (D K V)) : ∀ (t : T (D K V)) (f : Nat) (o : Int), Rep m t → Ord t →
    Sorted (kvs t) → t.ht ≤ f →
    ofLoop k m f t.root o = .ok (o + ((kvs t).countP fun e => e.2.1 < k : Nat)) := by
  intro t
  induction t with
  | nil => intro f o _ _ _ _; cases f <;> simp [ofLoop, T.root]
  | node i d l r ihl ihr =>
    intro f o hr hi hs hf
    rw [kvs_node] at hs
    obtain ⟨hs1, hs2, hs3, hs4⟩ := sorted_node hs
    simp only [T.ht] at hf
    obtain ⟨f, rfl⟩ : ∃ g, f = g + 1 := ⟨f - 1, by omega⟩
    rw [T.root_node, ofLoop, get_ok hr.1]
    simp only [Res.ok_bind, hi.2.2, kvs_node, List.countP_append, List.countP_cons]
    by_cases he : k = d.k
    · rw [if_pos he, (List.countP_eq_length (l := kvs l)).2, (List.countP_eq_zero (l := kvs r)).2, kvs_length]
      · rw [he]; simp [lt_irrefl]
      · intro e hm; have := hs4 e hm; rw [he]; simpa using le_of_lt this
      · intro e hm; have := hs3 e hm; rw [he]; simpa using this
    rw [if_neg he]
    by_cases hlt : k < d.k
    · rw [if_pos hlt, ihl f o hr.2.1 hi.1 hs1 (by omega), (List.countP_eq_zero (l := kvs r)).2]
      · simp [not_lt.2 (le_of_lt hlt)]
      · intro e hm; have := lt_trans hlt (hs4 e hm); simpa using le_of_lt this
    · rw [if_neg hlt]
      have hgt : d.k < k := lt_of_le_of_ne (not_lt.1 hlt) (Ne.symm he)
      rw [ihr f _ hr.2.2 hi.2.1 hs2 (by omega), (List.countP_eq_length (l := kvs l)).2, kvs_length]
      · simp [hgt]; omega
      · intro e hm; have := lt_trans (hs3 e hm) hgt; simpa using this

/-! ## Size and depth -/

theorem Sh.bounds {c : Kind} {n : Nat} {t : T (D K V)} (h : Sh c n t) :
    2 ^ n ≤ t.size + 1 ∧ t.ht ≤ 3 * n + (match c with | .B => 0 | .R1 => 1 | .R2 => 2) := by
  induction h with
  | nil => simp [T.size, T.ht]
  | black hl hr hd ihl ihr =>
    rename_i c n i d l r
    simp only [T.size, T.ht, Nat.pow_succ]
    refine ⟨by omega, ?_⟩
    have := ihl.2; have := ihr.2
    cases c <;> simp_all <;> omega
  | red1 hl hr hd ihl ihr =>
    simp only [T.size, T.ht]
    exact ⟨by omega, by have := ihl.2; have := ihr.2; simp_all; omega⟩
  | red2 hl hr hd ihl ihr =>
    simp only [T.size, T.ht]
    exact ⟨by omega, by have := ihl.2; have := ihr.2; simp_all; omega⟩

theorem Sh.depth {n : Nat} {t : T (D K V)} (h : Sh .B n t) : 2 ^ t.ht ≤ (t.size + 1) ^ 3 := by
  have h1 := h.bounds
  calc 2 ^ t.ht ≤ 2 ^ (3 * n) := Nat.pow_le_pow_right (by omega) h1.2
    _ = (2 ^ n) ^ 3 := by rw [← Nat.pow_mul, Nat.mul_comm]
    _ ≤ (t.size + 1) ^ 3 := Nat.pow_le_pow_left h1.1 3

/-! ## `BST` -/

theorem ents_kv (t : T (D K V)) : ents t = kv (kvs t) := by
  induction t with
  | nil => rfl
  | node i d l r hl hr => simp [ents, hl, hr, kv]

/-- A valid `BST`. -/
structure Valid (t : T (D K V)) : Prop where
  inc : Inc (ents t)
  sh : ∃ n, Sh .B n t

theorem Valid.nil : Valid (.nil : T (D K V)) := ⟨List.Pairwise.nil, 0, .nil⟩

theorem inc_kvs {t : T (D K V)} : Inc (ents t) ↔ Sorted (kvs t) := by
  rw [ents_kv, Inc, Sorted, kv, List.pairwise_map]

theorem insert_ok {t : T (D K V)} (h : Valid t) (k : K) (v : V) (n : Nat) :
    ∃ t' p n', insert k v n t = .ok t' ∧ Valid t' ∧ Ins k v n p n' (kvs t) (kvs t') := by
  obtain ⟨t', g, e1, hi⟩ := ins_ok false k v n (t.size + 1) t (by omega)
  have hs := inc_kvs.1 h.inc
  obtain ⟨p, hp⟩ := hi.ins hs
  obtain ⟨m, hsh⟩ := h.sh
  have hnil : t' ≠ .nil := by
    rintro rfl
    rcases hp with ⟨A, B, _, e, _⟩ | ⟨A, B, v0, _, e, _⟩ <;> simp at e
  obtain ⟨i, d, l, r, rfl⟩ : ∃ i d l r, t' = .node i d l r := by
    cases t' with
    | nil => exact absurd rfl hnil
    | node i d l r => exact ⟨i, d, l, r, rfl⟩
  rw [kvs_node] at hp
  exact ⟨.node i { d with red := false } l r, p, n + (if g then 1 else 0), by rw [insert, e1]; rfl,
    ⟨inc_kvs.2 (by rw [kvs_node]; exact hp.sorted hs), paint_sh (hi.shB m hsh)⟩, by rw [kvs_node]; exact hp⟩

theorem without_inc {k : K} {L : List (K × V)} (h : Inc L) : Inc (without k L) := by
  rw [Inc, without]; exact List.Pairwise.filter _ h

theorem remove_ok {t : T (D K V)} (h : Valid t) (k : K) :
    (remove k t = .ub ∧ (∀ e ∈ ents t, e.1 ≠ k) ∧ ∃ e ∈ ents t, e.1 < k) ∨
    ∃ t', remove k t = .ok t' ∧ Valid t' ∧ ents t' = without k (ents t) := by
  cases t with
  | nil => exact .inr ⟨.nil, rfl, .nil, rfl⟩
  | node i d l r =>
    have key : ∀ c n, Ent k c n (.node i d l r) → (∀ n (t' : T (D K V)), Post c n t' → ∀ j e a b, t' = .node j e a b →
        ∃ n, Sh .B n (.node j { e with red := false } a b)) →
        (remove k (.node i d l r) = .ub ∧ (∀ e ∈ ents (.node i d l r), e.1 ≠ k) ∧
          ∃ e ∈ ents (.node i d l r), e.1 < k) ∨
        ∃ t', remove k (.node i d l r) = .ok t' ∧ Valid t' ∧ ents t' = without k (ents (.node i d l r)) := by
      intro c n hent hpost
      rcases rem_ok ((T.node i d l r).size + 1) k c n _ hent h.inc (by omega) with ⟨h1, h2⟩ | ⟨t', h1, h2, h3⟩
      · exact .inl ⟨by simp [remove, h1], h2⟩
      · cases t' with
        | nil => exact .inr ⟨.nil, by simp [remove, h1], .nil, h2⟩
        | node j e a b =>
          refine .inr ⟨.node j { e with red := false } a b, by simp [remove, h1, paint], ⟨?_, hpost _ _ h3 _ _ _ _ rfl⟩, h2⟩
          have := without_inc (k := k) h.inc
          rw [← h2] at this; exact this
    obtain ⟨n, hsh⟩ := h.sh
    cases hsh with
    | black hl hr hd =>
      rename_i c n
      cases c with
      | B =>
        refine key (.single d.red) n (.single hl hr) ?_
        rintro n t' (h | ⟨i', d', l', r', rfl, h1, h2, h3⟩) j e a b he
        · subst he; exact paint_sh (.inl h)
        · simp only [T.node.injEq] at he
          obtain ⟨rfl, rfl, rfl, rfl⟩ := he
          exact ⟨_, .black h1 h2 rfl⟩
      | R1 =>
        refine key .full (n + 1) (.three hl hr hd) ?_
        rintro n t' h j e a b rfl; exact paint_sh (.inl h)
      | R2 =>
        refine key .full (n + 1) (.four hl hr hd) ?_
        rintro n t' h j e a b rfl; exact paint_sh (.inl h)

theorem lookup_ok {t : T (D K V)} (h : Inc (ents t)) (k : K) (v : V) : lookup k t = some v ↔ (k, v) ∈ ents t := by
  induction t with
  | nil => simp [lookup, ents]
  | node i d l r hl hr =>
    rw [ents] at h
    obtain ⟨s1, s2, s3, s4⟩ := inc_node h
    rw [lookup, ents, List.mem_append, List.mem_cons]
    by_cases he : k = d.k
    · subst he
      rw [if_pos rfl]
      constructor
      · intro h; simp only [Option.some.injEq] at h; exact .inr (.inl (by rw [h]))
      · rintro (h | h | h)
        · exact absurd (s3 _ h) (lt_irrefl _)
        · simp only [Prod.mk.injEq, true_and] at h; rw [h]
        · exact absurd (s4 _ h) (lt_irrefl _)
    rw [if_neg he]
    by_cases hlt : k < d.k
    · rw [if_pos hlt, hl s1]
      constructor
      · exact .inl
      · rintro (h | h | h)
        · exact h
        · simp only [Prod.mk.injEq] at h; exact absurd h.1 he
        · exact absurd (lt_trans hlt (s4 _ h)) (lt_irrefl _)
    · rw [if_neg hlt, hr s2]
      constructor
      · exact fun h => .inr (.inr h)
      · rintro (h | h | h)
        · exact absurd (s3 _ h) hlt
        · simp only [Prod.mk.injEq] at h; exact absurd h.1 he
        · exact h

/-- A key above every other key is never removed without running off the tree. -/
theorem rem_big : ∀ (f : Nat) (k : K) (t : T (D K V)), t ≠ .nil → (∀ e ∈ ents t, e.1 < k) → t.size < f →
    rem f k t = .ub := by
  intro f
  induction f with
  | zero => intro k t _ _ h; omega
  | succ f ih =>
    intro k t hn hk hsz
    have hnt := rem_ne_throw (f + 1) k t hsz
    cases t with
    | nil => exact absurd rfl hn
    | node i0 d0 l0 r0 =>
      cases hres : rem (f + 1) k (T.node i0 d0 l0 r0) with
      | throw => exact absurd hres hnt
      | ub => rfl
      | ok t' =>
        exfalso
        have hd0 : d0.k < k := hk (d0.k, d0.v) (by simp [ents])
        rw [rem, if_neg (not_lt.2 (le_of_lt hd0)), Res.bind_eq_ok] at hres
        obtain ⟨h1, e1, e2⟩ := hres
        have he1 : EqE (T.node i0 d0 l0 r0) h1 := by
          split at e1
          · exact leanRight_ents e1
          · simp only [Res.ok.injEq] at e1; subst e1; rfl
        cases h1 with
        | nil => simp at e2
        | node i1 d1 l1 r1 =>
          have hd1 : d1.k < k := hk (d1.k, d1.v) (by rw [← he1]; simp [ents])
          simp only at e2
          rw [if_neg (fun h => absurd h.1 (ne_of_gt hd1)), Res.bind_eq_ok] at e2
          obtain ⟨h2, e3, e4⟩ := e2
          have he2 := pushRight_ents e3
          have hr1 : r1 ≠ .nil := by rintro rfl; simp [pushRight] at e3
          cases h2 with
          | nil => simp at e4
          | node i d l r =>
            have hd : d.k < k := hk (d.k, d.v) (by rw [← he1, ← he2]; simp [ents])
            simp only at e4
            rw [if_neg (ne_of_gt hd), Res.bind_eq_ok] at e4
            obtain ⟨r', e5, -⟩ := e4
            have hr : r ≠ .nil := by
              rintro rfl
              -- `pushRight` keeps a right child
              unfold pushRight at e3
              cases r1 with
              | nil => exact hr1 rfl
              | node j e a b =>
                simp only at e3
                split at e3
                · cases l1 with
                  | nil => simp at e3
                  | node p g x y =>
                    simp only at e3
                    split at e3
                    · simp only [Res.bind_eq_ok] at e3
                      obtain ⟨h3, z1, z2⟩ := e3
                      simp only [rotR, Res.ok.injEq] at z1
                      subst z1
                      simp only [Res.bind_eq_ok] at z2
                      obtain ⟨l3, z3, z4⟩ := z2
                      simp at z4
                    · simp at e3
                · simp at e3
            have hsz' : r.size < f := by
              have a := he1.size; have b := he2.size
              simp only [T.size] at a b hsz; omega
            have := ih k r hr (fun e he => hk e (by rw [← he1, ← he2]; simp [ents, he])) hsz'
            rw [this] at e5
            simp at e5

end OP.Tree.Rb
