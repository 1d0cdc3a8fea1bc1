import Verif.Table.TableState
/-!
# A table together with its axes
-/
namespace OP.Table
open OP.Tree

variable {K V : Type} [LinearOrder K]

/-- Every key of the tuple is on its axis; tuples are in the order of the arguments. -/
def Known (Ls : List (List K)) (ks : List K) : Prop := List.Forall₂ (fun k L => k ∈ L) ks Ls.reverse

/-- The positions of a tuple of keys. -/
def ranks (Ls : List (List K)) (ks : List K) : List Nat := List.zipWith (fun k L => L.idxOf k) ks Ls.reverse

theorem fromKeys_append (A A' : List (Me K)) (S S' : List Nat) : ∀ (ks : List K) p, ks.length ≤ A.length →
    ks.length ≤ S.length → fromKeys (A ++ A') (S ++ S') p ks = fromKeys A S p ks := by
  intro ks
  induction ks with
  | nil => intro p _ _; rfl
  | cons k ks ih =>
    intro p h1 h2
    simp only [List.length_cons] at h1 h2
    rw [fromKeys, fromKeys, List.getElem?_append_left (by omega), List.getD_append _ _ _ _ (by omega)]
    cases A[ks.length]? with
    | none => rfl
    | some a =>
      simp only
      congr 1
      funext i
      exact ih _ (by omega) (by omega)

theorem snoc {α : Type} {l : List α} {n : Nat} (h : l.length = n + 1) : ∃ l' x, l = l' ++ [x] ∧ l'.length = n := by
  rcases List.eq_nil_or_concat l with rfl | ⟨l', x, rfl⟩
  · simp at h
  · exact ⟨l', x, by simp, by simpa using h⟩

theorem forall2_splitL {α β : Type} {R : α → β → Prop} (A B : List α) (l : List β) (h : List.Forall₂ R (A ++ B) l) :
    ∃ l1 l2, l = l1 ++ l2 ∧ List.Forall₂ R A l1 ∧ List.Forall₂ R B l2 := by
  obtain ⟨l1, l2, e, h1, h2⟩ := forall2_split (R := fun b a => R a b) A B l h.flip
  exact ⟨l1, l2, e, h1.flip, h2.flip⟩

theorem idxOf_split {L A B : List K} {k : K} (h : L = A ++ k :: B) (hk : k ∉ A) : L.idxOf k = A.length := by
  rw [h, List.idxOf_append_of_notMem hk]; simp

theorem ARep.order_idx {s : Me K} {L : List K} {k : K} (h : ARep s L) (hk : k ∈ L) :
    axisOrder s k = .ok (L.idxOf k) := by
  obtain ⟨A, B, hL⟩ := List.append_of_mem hk
  have hA : k ∉ A := by
    intro hm
    have := h.nodup
    rw [hL, List.nodup_append] at this
    exact this.2.2 k hm k (by simp) rfl
  rw [h.order hL, idxOf_split hL hA]

theorem fromKeys_ok : ∀ (ks : List K) (axes : List (Me K)) (Ls : List (List K)) (sizes : List Nat) (p : Nat),
    List.Forall₂ ARep axes Ls → sizes.length = Ls.length → ks.length = Ls.length →
    (Known Ls ks → fromKeys axes sizes p ks = .ok (mkIndex sizes p (ranks Ls ks))) ∧
    (¬ Known Ls ks → fromKeys axes sizes p ks = .throw) := by
  intro ks
  induction ks with
  | nil =>
    intro axes Ls sizes p h1 h2 h3
    have : Ls = [] := List.length_eq_zero_iff.1 (by simpa using h3.symm)
    subst this
    exact ⟨fun _ => by simp [fromKeys, ranks, mkIndex], fun h => absurd .nil h⟩
  | cons k ks ih =>
    intro axes Ls sizes p h1 h2 h3
    obtain ⟨Ls, L, rfl, hl⟩ := snoc (h3.symm.trans (List.length_cons))
    simp only [List.length_append, List.length_cons, List.length_nil] at h2 h3
    obtain ⟨sizes, n, rfl, hl2⟩ := snoc h2
    obtain ⟨axes, ax, rfl, h4, h5⟩ := forall2_split _ _ _ h1
    cases h5 with
    | cons ha hnil =>
      cases hnil
      rename_i a
      have hla : axes.length = ks.length := by rw [h4.length_eq, hl]
      have hget : (axes ++ [a])[ks.length]? = some a := by
        rw [List.getElem?_append_right (by omega)]; simp [hla]
      have hgd : (sizes ++ [n]).getD ks.length 0 = n := by
        simp [List.getElem?_append_right (show sizes.length ≤ ks.length by omega), hl2, hl]
      have hrk : ranks (Ls ++ [L]) (k :: ks) = L.idxOf k :: ranks Ls ks := by simp [ranks]
      have hlr : (ranks Ls ks).length = ks.length := by simp [ranks]; omega
      have hkn : Known (Ls ++ [L]) (k :: ks) ↔ k ∈ L ∧ Known Ls ks := by simp [Known]
      have hdef : fromKeys (axes ++ [a]) (sizes ++ [n]) p (k :: ks) =
          (axisOrder a k >>= fun i => fromKeys axes sizes (p * n + i) ks) := by
        rw [fromKeys, hget, hgd]
        simp only
        congr 1
        funext i
        exact fromKeys_append _ _ _ _ _ _ (by omega) (by omega)
      rw [hdef, hkn, hrk, mkIndex, hlr, hgd]
      by_cases hk : k ∈ L
      · rw [ha.order_idx hk]
        obtain ⟨e1, e2⟩ := ih axes Ls sizes (p * n + L.idxOf k) h4 (by omega) (by omega)
        refine ⟨fun h => ?_, fun h => ?_⟩
        · rw [Res.ok_bind, e1 h.2, mkIndex_append _ _ _ _ (by omega)]
        · rw [Res.ok_bind, e2 fun h' => h ⟨hk, h'⟩]
      · rw [ha.order_missing hk]
        exact ⟨fun h => absurd h.1 hk, fun _ => rfl⟩

theorem known_split {Klo Khi : List (List K)} {L : List K} {ks : List K} (h : Known (Klo ++ L :: Khi) ks) :
    ∃ a x b, ks = a ++ x :: b ∧ Known Khi a ∧ x ∈ L ∧ Known Klo b ∧ a.length = Khi.length ∧ b.length = Klo.length := by
  rw [Known, List.reverse_append, List.reverse_cons, List.append_assoc, List.singleton_append] at h
  obtain ⟨xs, r, rfl, h1, h2⟩ := forall2_split _ _ _ h
  cases h2 with
  | cons hx hr =>
    rename_i x ys
    exact ⟨xs, x, ys, rfl, h1, hx, hr, by simpa using h1.length_eq, by simpa using hr.length_eq⟩

theorem known_join {Klo Khi : List (List K)} {L : List K} {a b : List K} {x : K} (h1 : Known Khi a) (h2 : x ∈ L)
    (h3 : Known Klo b) : Known (Klo ++ L :: Khi) (a ++ x :: b) := by
  rw [Known, List.reverse_append, List.reverse_cons, List.append_assoc, List.singleton_append]
  exact forall2_join h1 (.cons h2 h3)

theorem ranks_split {Klo Khi : List (List K)} {L : List K} {a b : List K} {x : K} (h : a.length = Khi.length) :
    ranks (Klo ++ L :: Khi) (a ++ x :: b) = ranks Khi a ++ L.idxOf x :: ranks Klo b := by
  rw [ranks, List.reverse_append, List.reverse_cons, List.append_assoc, List.singleton_append,
    List.zipWith_append (by simpa using h)]
  rfl

theorem ranks_inrange {Ls : List (List K)} {ks : List K} (h : Known Ls ks) : InRange (Ls.map List.length) (ranks Ls ks) := by
  rw [InRange, ranks, ← List.map_reverse]
  rw [Known] at h
  generalize Ls.reverse = R at h
  induction h with
  | nil => exact .nil
  | cons hk _ ih => exact .cons (List.idxOf_lt_length_of_mem hk) ih

theorem ranks_inj {Ls : List (List K)} : ∀ {ks js : List K}, Known Ls ks → Known Ls js → ranks Ls ks = ranks Ls js →
    ks = js := by
  intro ks js h1 h2 h
  rw [Known] at h1 h2
  rw [ranks, ranks] at h
  generalize Ls.reverse = R at h1 h2 h
  induction h1 generalizing js with
  | nil => cases h2; rfl
  | cons hk ht ih =>
    cases h2 with
    | cons hj htj =>
      simp only [List.zipWith_cons_cons, List.cons.injEq] at h
      rw [ih htj h.2]
      congr 1
      exact (List.idxOf_inj hk).1 h.1

theorem mkIndex_inj {sizes ps qs : List Nat} (h1 : InRange sizes ps) (h2 : InRange sizes qs)
    (h : mkIndex sizes 0 ps = mkIndex sizes 0 qs) : ps = qs := by
  rw [mkIndex_horner _ _ _ (by simpa using h1.length_eq), mkIndex_horner _ _ _ (by simpa using h2.length_eq)] at h
  exact horner_inj _ _ _ h1 h2 h

/-! ## Specification -/

/-- What the user sees: the sorted keys of each axis, and the known cells. -/
structure Spec (K V : Type) where
  keys : List (List K)
  cells : List K → Option V

/-- Insert a key into a sorted list. -/
def insertKey (k : K) (L : List K) : List K := L.filter (· < k) ++ k :: L.filter (k < ·)

theorem insertKey_eq {A B : List K} {k : K} (hA : ∀ x ∈ A, x < k) (hB : ∀ x ∈ B, k < x) :
    insertKey k (A ++ B) = A ++ k :: B := by
  have e1 : A.filter (· < k) = A := List.filter_eq_self.2 fun x hx => by simpa using hA x hx
  have e2 : B.filter (· < k) = [] := List.filter_eq_nil_iff.2 fun x hx => by
    simpa using le_of_lt (hB x hx)
  have e3 : A.filter (k < ·) = [] := List.filter_eq_nil_iff.2 fun x hx => by
    simpa using le_of_lt (hA x hx)
  have e4 : B.filter (k < ·) = B := List.filter_eq_self.2 fun x hx => by simpa using hB x hx
  simp [insertKey, e1, e2, e3, e4]

theorem eraseKey_eq {A B : List K} {k : K} (h : (A ++ k :: B).Nodup) : (A ++ k :: B).filter (· ≠ k) = A ++ B := by
  rw [List.perm_middle.nodup_iff, List.nodup_cons, List.mem_append, not_or] at h
  have e1 : A.filter (· ≠ k) = A := List.filter_eq_self.2 fun x hx => by
    simp only [ne_eq, decide_not, Bool.not_eq_true', decide_eq_false_iff_not]; rintro rfl; exact h.1.1 hx
  have e2 : B.filter (· ≠ k) = B := List.filter_eq_self.2 fun x hx => by
    simp only [ne_eq, decide_not, Bool.not_eq_true', decide_eq_false_iff_not]; rintro rfl; exact h.1.2 hx
  rw [List.filter_append, List.filter_cons, e1, e2]; simp

/-- The system stands for the specification. -/
structure SInv (pod : Bool) (s : Sys K V) (σ : Spec K V) : Prop where
  axes : List.Forall₂ ARep s.axes σ.keys
  sizes : s.tab.sizes = σ.keys.map List.length
  fits : Fits pod s.tab
  cells : ∀ ks v, Known σ.keys ks → σ.cells ks = some v → s.tab.cell (ranks σ.keys ks) = some (some v)

theorem split_at {α : Type} {l : List α} {d : Nat} {a : α} (h : l[d]? = some a) :
    ∃ lo hi, l = lo ++ a :: hi ∧ lo.length = d := by
  obtain ⟨hlt, rfl⟩ := List.getElem?_eq_some_iff.1 h
  exact ⟨l.take d, l.drop (d + 1), by simp, by simp; omega⟩

/-- The system seen from axis `d`. -/
theorem SInv.split {pod : Bool} {s : Sys K V} {σ : Spec K V} (h : SInv pod s σ) {d : Nat} (hd : d < σ.keys.length) :
    ∃ alo a ahi Klo L Khi, s.axes = alo ++ a :: ahi ∧ σ.keys = Klo ++ L :: Khi ∧ alo.length = d ∧ Klo.length = d ∧
      List.Forall₂ ARep alo Klo ∧ ARep a L ∧ List.Forall₂ ARep ahi Khi := by
  have hd' : d < s.axes.length := by rw [h.axes.length_eq]; exact hd
  obtain ⟨alo, ahi, e1, e2⟩ := split_at (List.getElem?_eq_getElem hd')
  have h0 := h.axes
  rw [e1] at h0
  obtain ⟨Klo, r, e3, h1, h2⟩ := forall2_splitL _ _ _ h0
  cases h2 with
  | cons ha hr =>
    exact ⟨alo, _, ahi, Klo, _, _, e1, e3, e2, by rw [← h1.length_eq]; exact e2, h1, ha, hr⟩

omit [LinearOrder K] in
theorem coord {a b : List K} {x k : K} {d : Nat} (h : b.length = d) : (a ++ x :: b).reverse[d]? = some k ↔ x = k := by
  rw [List.reverse_append, List.reverse_cons, List.append_assoc, List.getElem?_append_right (by simp [h])]
  simp [h]

theorem sys_add {pod : Bool} {d0 : V} {s : Sys K V} {σ : Spec K V} (h : SInv pod s σ) {d : Nat} (hd : d < σ.keys.length)
    (k : K) :
    (k ∈ σ.keys.getD d [] → s.addKey pod d0 d k = .throw) ∧
    (k ∉ σ.keys.getD d [] → ∃ s', s.addKey pod d0 d k = .ok s' ∧
      SInv pod s' ⟨σ.keys.set d (insertKey k (σ.keys.getD d [])),
        fun ks => if ks.reverse[d]? = some k then (if pod then none else some d0) else σ.cells ks⟩) := by
  obtain ⟨alo, a, ahi, Klo, L, Khi, e1, e2, l1, l2, h1, ha, h2⟩ := h.split hd
  have hgd : σ.keys.getD d [] = L := by rw [e2, ← l2]; simp
  have hga : s.axes[d]? = some a := by rw [e1, ← l1]; simp
  rw [hgd]
  refine ⟨fun hk => by simp [Sys.addKey, hga, ha.add_dup hk], fun hk => ?_⟩
  obtain ⟨a', A, B, f1, rfl, f3, f4, f5⟩ := ha.add hk
  have hsz : s.tab.sizes = Klo.map List.length ++ (A ++ B).length :: Khi.map List.length := by
    rw [h.sizes, e2]; simp
  obtain ⟨t', g1, g2, g3, g4⟩ := add_ok pod d0 (p := A.length) hsz (by simp) h.fits
  have hset : σ.keys.set d (insertKey k (A ++ B)) = Klo ++ (A ++ k :: B) :: Khi := by
    rw [insertKey_eq f4 f5, e2, List.set_append_right _ _ (by omega), l2]; simp
  have hseta : s.axes.set d a' = alo ++ a' :: ahi := by
    rw [e1, List.set_append_right _ _ (by omega), l1]; simp
  rw [List.length_map, l2] at g1
  refine ⟨⟨s.axes.set d a', t'⟩, by simp [Sys.addKey, hga, f1, g1], ?_, ?_, g3, ?_⟩
  · simp only [hset, hseta]
    exact forall2_join h1 (.cons f3 h2)
  · simp only [hset, g2]; simp; omega
  · intro ks v hks hv
    simp only [hset] at hks hv ⊢
    obtain ⟨ka, x, kb, rfl, k1, k2, k3, k4, k5⟩ := known_split hks
    have r1 := ranks_inrange k1
    have r3 := ranks_inrange k3
    have hnd := f3.nodup
    rw [List.perm_middle.nodup_iff, List.nodup_cons, List.mem_append, not_or] at hnd
    rw [ranks_split k4]
    by_cases hx : x = k
    · subst hx
      rw [if_pos ((coord (k5.trans l2)).2 rfl)] at hv
      have hi : (A ++ x :: B).idxOf x = A.length := idxOf_split rfl hnd.1.1
      rw [hi]
      cases pod with
      | true => simp at hv
      | false =>
        simp only [Bool.false_eq_true, if_false, Option.some.injEq] at hv
        subst hv
        exact (g4 _ _ _ r1 (by simp) r3).2.2 rfl rfl
    · rw [if_neg (fun hh => hx ((coord (k5.trans l2)).1 hh))] at hv
      have hxm : x ∈ A ∨ x ∈ B := by
        simp only [List.mem_append, List.mem_cons] at k2
        rcases k2 with h | h | h
        exacts [.inl h, absurd h hx, .inr h]
      have hold := h.cells (ka ++ x :: kb) v (by
        rw [e2]; exact known_join k1 (List.mem_append.2 hxm) k3) hv
      rw [e2, ranks_split k4] at hold
      rcases hxm with hm | hm
      · have hlt := List.idxOf_lt_length_of_mem hm
        rw [List.idxOf_append_of_mem hm] at hold ⊢
        rw [(g4 _ _ _ r1 (by simp; omega) r3).1 hlt]
        exact hold
      · have hnA : x ∉ A := fun hA => by
          have := f3.nodup
          rw [List.nodup_append] at this
          exact this.2.2 x hA x (by simp [hm]) rfl
        have hlt := List.idxOf_lt_length_of_mem hm
        rw [List.idxOf_append_of_notMem hnA] at hold ⊢
        rw [List.idxOf_cons_ne _ (Ne.symm hx)]
        rw [(g4 _ _ _ r1 (by simp; omega) r3).2.1 (by omega)]
        exact hold

theorem sys_remove {pod : Bool} {s : Sys K V} {σ : Spec K V} (h : SInv pod s σ) {d : Nat} (hd : d < σ.keys.length)
    (k : K) :
    (k ∉ σ.keys.getD d [] → s.removeKey pod d k = .throw) ∧
    (k ∈ σ.keys.getD d [] → ∃ s', s.removeKey pod d k = .ok s' ∧
      SInv pod s' ⟨σ.keys.set d ((σ.keys.getD d []).filter (· ≠ k)), σ.cells⟩) := by
  obtain ⟨alo, a, ahi, Klo, L, Khi, e1, e2, l1, l2, h1, ha, h2⟩ := h.split hd
  have hgd : σ.keys.getD d [] = L := by rw [e2, ← l2]; simp
  have hga : s.axes[d]? = some a := by rw [e1, ← l1]; simp
  rw [hgd]
  refine ⟨fun hk => by simp [Sys.removeKey, hga, ha.remove_missing hk], fun hk => ?_⟩
  obtain ⟨A, B, rfl⟩ := List.append_of_mem hk
  obtain ⟨a', f1, f3⟩ := ha.remove rfl
  have hsz : s.tab.sizes = Klo.map List.length ++ ((A ++ B).length + 1) :: Khi.map List.length := by
    rw [h.sizes, e2]; simp; omega
  obtain ⟨t', g1, g2, g3, g4⟩ := remove_ok pod (p := A.length) hsz (by simp) h.fits
  have hnd := ha.nodup
  have hset : σ.keys.set d ((A ++ k :: B).filter (· ≠ k)) = Klo ++ (A ++ B) :: Khi := by
    rw [eraseKey_eq hnd, e2, List.set_append_right _ _ (by omega), l2]; simp
  have hseta : s.axes.set d a' = alo ++ a' :: ahi := by
    rw [e1, List.set_append_right _ _ (by omega), l1]; simp
  rw [List.length_map, l2] at g1
  refine ⟨⟨s.axes.set d a', t'⟩, by simp [Sys.removeKey, hga, f1, g1], ?_, ?_, g3, ?_⟩
  · simp only [hset, hseta]
    exact forall2_join h1 (.cons f3 h2)
  · simp only [hset, g2]; simp
  · intro ks v hks hv
    simp only [hset] at hks hv ⊢
    obtain ⟨ka, x, kb, rfl, k1, k2, k3, k4, k5⟩ := known_split hks
    have r1 := ranks_inrange k1
    have r3 := ranks_inrange k3
    have hnd' := hnd
    rw [List.perm_middle.nodup_iff, List.nodup_cons] at hnd'
    have hx : x ≠ k := by rintro rfl; exact hnd'.1 k2
    have hold := h.cells (ka ++ x :: kb) v (by
      rw [e2]; refine known_join k1 ?_ k3
      simp only [List.mem_append, List.mem_cons] at k2 ⊢
      rcases k2 with h | h
      exacts [.inl h, .inr (.inr h)]) hv
    rw [e2, ranks_split k4] at hold
    rw [ranks_split k4]
    rcases List.mem_append.1 k2 with hm | hm
    · have hlt := List.idxOf_lt_length_of_mem hm
      rw [List.idxOf_append_of_mem hm] at hold ⊢
      rw [(g4 _ _ _ r1 (by simp; omega) r3).1 hlt]
      exact hold
    · have hnA : x ∉ A := fun hA => by
        rw [List.nodup_append] at hnd
        exact hnd.2.2 x hA x (by simp [hm]) rfl
      have hlt := List.idxOf_lt_length_of_mem hm
      rw [List.idxOf_append_of_notMem hnA] at hold ⊢
      rw [List.idxOf_cons_ne _ (Ne.symm hx)] at hold
      rw [(g4 _ _ _ r1 (by simp; omega) r3).2 (by omega)]
      exact hold

theorem SInv.get {pod : Bool} {s : Sys K V} {σ : Spec K V} (h : SInv pod s σ) (ks : List K)
    (hl : ks.length = σ.keys.length) :
    (Known σ.keys ks → ∀ v, σ.cells ks = some v → s.get ks = .ok v) ∧ (¬ Known σ.keys ks → s.get ks = .throw) := by
  obtain ⟨e1, e2⟩ := fromKeys_ok ks s.axes σ.keys s.tab.sizes 0 h.axes (by rw [h.sizes]; simp) hl
  refine ⟨fun hk v hv => ?_, fun hk => by simp [Sys.get, e2 hk]⟩
  have := h.cells ks v hk hv
  rw [Tab.cell] at this
  simp [Sys.get, e1 hk, Buf.read, this]

theorem sys_put {pod : Bool} {s : Sys K V} {σ : Spec K V} (h : SInv pod s σ) (ks : List K) (v : V)
    (hl : ks.length = σ.keys.length) :
    (¬ Known σ.keys ks → s.put ks v = .throw) ∧
    (Known σ.keys ks → ∃ s', s.put ks v = .ok s' ∧
      SInv pod s' ⟨σ.keys, fun js => if js = ks then some v else σ.cells js⟩) := by
  obtain ⟨e1, e2⟩ := fromKeys_ok ks s.axes σ.keys s.tab.sizes 0 h.axes (by rw [h.sizes]; simp) hl
  refine ⟨fun hk => by simp [Sys.put, e2 hk], fun hk => ?_⟩
  have hr := ranks_inrange hk
  rw [← h.sizes] at hr
  have hlt := mkIndex_lt hr
  have hroom := h.fits.room
  have hw : s.tab.buf.write (mkIndex s.tab.sizes 0 (ranks σ.keys ks)) (some v) =
      .ok (s.tab.buf.set (mkIndex s.tab.sizes 0 (ranks σ.keys ks)) (some v)) := by
    rw [Buf.write, if_pos (by omega)]
  refine ⟨{ s with tab := { s.tab with buf := s.tab.buf.set (mkIndex s.tab.sizes 0 (ranks σ.keys ks)) (some v) } },
    by simp [Sys.put, e1 hk, hw], h.axes, h.sizes, ⟨h.fits.blk, ?_, ?_⟩, ?_⟩
  · simpa using hroom
  · intro hp j h1 h2
    simp only at h2 ⊢
    rcases Nat.decEq (mkIndex s.tab.sizes 0 (ranks σ.keys ks)) j with hj | hj
    · obtain ⟨w, hw⟩ := h.fits.live hp j h1 h2
      exact ⟨w, by rw [List.getElem?_set_ne hj]; exact hw⟩
    · subst hj
      exact ⟨v, by rw [List.getElem?_set_self (by omega)]⟩
  · intro js w hj hw
    simp only [Tab.cell] at hj hw ⊢
    by_cases hjk : js = ks
    · subst hjk
      rw [if_pos rfl] at hw
      rw [List.getElem?_set_self (by omega), hw]
    · rw [if_neg hjk] at hw
      rw [List.getElem?_set_ne]
      · exact h.cells js w hj hw
      · intro he
        have hrj := ranks_inrange hj
        rw [← h.sizes] at hrj
        exact hjk (ranks_inj hj hk (mkIndex_inj hr hrj he).symm)

end OP.Table
