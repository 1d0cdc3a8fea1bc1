import Verif.Tree.RbRemove
/-!
# `BST::remove` keeps the tree valid and removes exactly the key
-/
namespace OP.Tree.Rb
open OP.Tree

variable {K V : Type} [LinearOrder K]

theorem rem_left {f : Nat} {k : K} {i0 i : Nat} {d0 d : D K V} {l0 r0 l r : T (D K V)} (hk : k < d0.k)
    (hl : l0 ≠ .nil) (hp : pushLeft (.node i0 d0 l0 r0) = .ok (.node i d l r)) :
    rem (f + 1) k (.node i0 d0 l0 r0) = rem f k l >>= fun l => fix (.node i d l r) := by
  rw [rem, if_pos hk, if_neg (by rw [T.isNil_iff]; exact hl), hp]
  rfl

theorem rem_right {f : Nat} {k : K} {i0 i1 i : Nat} {d0 d1 d : D K V} {l0 r0 l1 r1 l r : T (D K V)}
    (hk : ¬ k < d0.k)
    (hl : (if isRed l0 then leanRight (.node i0 d0 l0 r0) else .ok (.node i0 d0 l0 r0)) = .ok (.node i1 d1 l1 r1))
    (hn : r1 ≠ .nil) (hp : pushRight (.node i1 d1 l1 r1) = .ok (.node i d l r)) :
    rem (f + 1) k (.node i0 d0 l0 r0) = goRight f k i d l r := by
  rw [rem, if_neg hk, hl]
  simp only [Res.ok_bind]
  rw [if_neg (by rw [T.isNil_iff]; exact fun h => hn h.2), hp]
  rfl

theorem Sh.node_of_succ {n : Nat} {t : T (D K V)} (h : Sh .B (n + 1) t) :
    ∃ i d l r c, t = .node i d l r ∧ Sh c n l ∧ Sh .B n r ∧ d.red = false := by
  cases h with
  | black hl hr hd => exact ⟨_, _, _, _, _, rfl, hl, hr, hd⟩

theorem Sh.zero_nil {t : T (D K V)} (h : Sh .B 0 t) : t = .nil := by
  cases h; rfl

theorem Sh.red_node {c : Kind} {n : Nat} {t : T (D K V)} (h : Sh c n t) (hr : isRed t = true) :
    ∃ i d l r c', t = .node i d l r ∧ d.red = true ∧ Sh c' n l ∧ Sh .B n r ∧
      ((c = .R1 ∧ c' = .B) ∨ (c = .R2 ∧ c' = .R1)) := by
  cases h with
  | nil => simp [isRed] at hr
  | black _ _ hd => simp [isRed, hd] at hr
  | red1 hl h2 hd => exact ⟨_, _, _, _, _, rfl, hd, hl, h2, .inl ⟨rfl, rfl⟩⟩
  | red2 hl h2 hd => exact ⟨_, _, _, _, _, rfl, hd, hl, h2, .inr ⟨rfl, rfl⟩⟩

theorem Sh.not_red {c : Kind} {n : Nat} {t : T (D K V)} (h : Sh c n t) (hr : isRed t = false) : Sh .B n t := by
  cases h with
  | nil => exact .nil
  | black hl h2 hd => exact .black hl h2 hd
  | red1 _ _ hd => simp [isRed, hd] at hr
  | red2 _ _ hd => simp [isRed, hd] at hr

theorem rem_ok : ∀ (f : Nat) (k : K) (c : Cls) (n : Nat) (t : T (D K V)), Ent k c n t → Inc (ents t) →
    t.size < f → Out f k c n t := by
  intro f
  induction f with
  | zero => intro k c n t _ _ h; omega
  | succ f ih =>
    intro k c n t hent hs hsz
    have ht : t ≠ .nil := by
      rintro rfl
      cases hent with
      | r2 h => cases h
    obtain ⟨i0, d0, l0, r0, rfl⟩ : ∃ i d l r, t = .node i d l r := by
      cases t with
      | nil => exact absurd rfl ht
      | node i d l r => exact ⟨i, d, l, r, rfl⟩
    simp only [T.size] at hsz
    have hs0 := hs
    rw [ents] at hs0
    obtain ⟨s1, s2, s3, s4⟩ := inc_node hs0
    by_cases hk : k < d0.k
    · by_cases hl0 : l0 = .nil
      · -- nothing on the left
        have habs : ∀ e ∈ ents (T.node i0 d0 l0 r0), e.1 ≠ k := by
          intro e he
          simp only [ents, hl0, List.nil_append, List.mem_cons] at he
          rcases he with rfl | he
          exacts [ne_of_gt hk, ne_of_gt (lt_trans hk (s4 e he))]
        refine .inr ⟨_, by rw [rem, if_pos hk, if_pos (by rw [T.isNil_iff]; exact hl0)], (without_of_ne habs).symm, ?_⟩
        subst hl0
        cases hent with
        | single hl hr => exact .inr ⟨_, _, _, _, rfl, hl, hr, id⟩
        | r2 h => cases h with | red2 hl _ _ => cases hl
        | three hl _ _ => cases hl
        | four hl _ _ => cases hl
        | right _ _ _ h => exact absurd hk h
        | both hl _ _ _ => cases hl
      · -- the left child is red already
        have nopush : isRed l0 = true → pushLeft (.node i0 d0 l0 r0) = .ok (.node i0 d0 l0 r0) := by
          intro h
          cases l0 with
          | nil => exact absurd rfl hl0
          | node j e a b => simp only [isRed] at h; simp [pushLeft, h]
        cases hent with
        | single hl hr =>
          cases n with
          | zero => exact absurd hl.zero_nil hl0
          | succ m =>
            obtain ⟨j, e, a, b, c', rfl, ha, hb, he⟩ := hl.node_of_succ
            by_cases hra : isRed a = true
            · -- the left child has a red child
              have hp : pushLeft (.node i0 d0 (.node j e a b) r0) = .ok (.node i0 d0 (.node j e a b) r0) := by
                simp [pushLeft, hra]
              rw [Out, rem_left hk (by simp) hp]
              have hent' : Ent k .full (m + 1) (.node j e a b) := by
                obtain ⟨_, _, _, _, _, _, _, _, _, ⟨rfl, _⟩ | ⟨rfl, _⟩⟩ := ha.red_node hra
                · exact .three ha hb he
                · exact .four ha hb he
              rcases down_left hs hk (ih k .full (m + 1) _ hent' s1 (by omega)) with h | ⟨l', t', h1, h2, h3, h4, -⟩
              · exact .inl h
              · refine .inr ⟨t', h1, h2, .inr ⟨_, _, _, _, h4 hr.B_red, h3, hr, id⟩⟩
            · have hra : isRed a = false := by simpa using hra
              have ha := ha.not_red hra
              obtain ⟨p, g, x, y, cx, rfl, hx, hy, hg⟩ := hr.node_of_succ
              by_cases hrx : isRed x = true
              · -- borrow from the right
                obtain ⟨q, xd, u, w, c'', rfl, hxd, hu, hw, hc⟩ := hx.red_node hrx
                have hp : pushLeft (.node i0 d0 (.node j e a b) (.node p g (.node q xd u w) y)) =
                    .ok (.node q { xd with o := xd.o + (d0.o + 1) }
                      (.node i0 { d0 with red := false } (.node j { e with red := true } a b) u)
                      (.node p { g with o := g.o - (xd.o + 1) } w y)) := by
                  simp [pushLeft, he, hra, hrx, rotR, rotL]
                rw [Out, rem_left hk (by simp) hp]
                have hee := pushLeft_ents hp
                have hkx : k < xd.k := lt_trans hk (s4 (xd.k, xd.v) (by simp [ents]))
                have hent' : Ent k .full (m + 1)
                    (.node i0 { d0 with red := false } (.node j { e with red := true } a b) u) := by
                  rcases hc with ⟨rfl, rfl⟩ | ⟨rfl, rfl⟩
                  · exact .three (.red1 ha hb rfl) hu rfl
                  · exact .both (.red1 ha hb rfl) hu rfl hk
                have hs' := hs
                rw [← hee] at hs'
                have hs'' := hs'
                rw [ents] at hs''
                rw [← hee]
                rcases down_left hs' hkx (ih k .full (m + 1) _ hent' (inc_node hs'').1
                    (by simp only [T.size] at hsz ⊢; omega)) with h | ⟨l', t', h1, h2, h3, h4, -⟩
                · exact .inl h
                · exact .inr ⟨t', h1, h2, .inr ⟨_, _, _, _, h4 hg, h3, .black hw hy hg, fun _ => hxd⟩⟩
              · -- merge
                have hrx : isRed x = false := by simpa using hrx
                have hx := hx.not_red hrx
                have hp : pushLeft (.node i0 d0 (.node j e a b) (.node p g x y)) =
                    .ok (.node i0 { d0 with red := false } (.node j { e with red := true } a b)
                      (.node p { g with red := true } x y)) := by
                  simp [pushLeft, he, hra, hrx]
                rw [Out, rem_left hk (by simp) hp]
                have hee := pushLeft_ents hp
                rw [← hee] at hs ⊢
                have hent' : Sh .R1 m (.node j { e with red := true } a b) := .red1 ha hb rfl
                have hs'' := hs
                rw [ents] at hs''
                rcases down_left hs hk (ih k _ m _ hent'.ent1 (inc_node hs'').1
                    (by simp only [T.size] at hsz ⊢; omega)) with h | ⟨l', t', h1, h2, h3, -, h4⟩
                · exact .inl h
                · refine .inr ⟨t', h1, h2, .inl ?_⟩
                  obtain ⟨j', d', e', a', b', rfl, c1, c2, c3, c4⟩ := h4 m (.red1 hx hy rfl)
                  rcases h3.r1 with h | h
                  · exact .black (.red1 h c3 c2) c4 c1
                  · exact .black (.red2 h c3 c2) c4 c1
        | r2 h =>
          cases h with
          | red2 hl hr hd =>
            rw [Out, rem_left hk hl0 (nopush hl.R1_red)]
            rcases down_left hs hk (ih k _ n _ hl.ent1 s1 (by omega)) with h | ⟨l', t', h1, h2, h3, h4, -⟩
            · exact .inl h
            · refine .inr ⟨t', h1, h2, ?_⟩
              rw [h4 hr.B_red]
              rcases h3.r1 with h | h
              · exact .inl (.red1 h hr hd)
              · exact .inr (.red2 h hr hd)
        | three hl hr hd =>
          rename_i n
          rw [Out, rem_left hk hl0 (nopush hl.R1_red)]
          rcases down_left hs hk (ih k _ n _ hl.ent1 s1 (by omega)) with h | ⟨l', t', h1, h2, h3, h4, -⟩
          · exact .inl h
          · refine .inr ⟨t', h1, h2, ?_⟩
            rw [h4 hr.B_red]
            rcases h3.r1 with h | h
            · exact .black h hr hd
            · exact .black h hr hd
        | four hl hr hd =>
          rename_i n
          rw [Out, rem_left hk hl0 (nopush hl.R2_red)]
          rcases down_left hs hk (ih k _ n _ (.r2 hl) s1 (by omega)) with h | ⟨l', t', h1, h2, h3, h4, -⟩
          · exact .inl h
          · refine .inr ⟨t', h1, h2, ?_⟩
            rw [h4 hr.B_red]
            rcases h3 with h | h
            · exact .black h hr hd
            · exact .black h hr hd
        | right _ _ _ h => exact absurd hk h
        | both hl hr hd _ =>
          rename_i n _
          rw [Out, rem_left hk hl0 (nopush hl.R1_red)]
          rcases down_left hs hk (ih k _ n _ hl.ent1 s1 (by omega)) with h | ⟨l', t', h1, h2, h3, -, h4⟩
          · exact .inl h
          · refine .inr ⟨t', h1, h2, ?_⟩
            obtain ⟨j', d', e', a', b', rfl, c1, c2, c3, c4⟩ := h4 n hr
            rcases h3.r1 with h | h
            · exact .black (.red1 h c3 c2) c4 (c1.trans hd)
            · exact .black (.red2 h c3 c2) c4 (c1.trans hd)
    · -- going right
      -- when the left child is red
      have lean : ∀ {m : Nat} {c c' : Kind}, Sh c m l0 → isRed l0 = true → Sh .B m r0 →
          ((c = .R1 ∧ c' = .B) ∨ (c = .R2 ∧ c' = .R1)) →
          (rem (f + 1) k (.node i0 d0 l0 r0) = .ub ∧ (∀ e ∈ ents (T.node i0 d0 l0 r0), e.1 ≠ k) ∧
            ∃ e ∈ ents (T.node i0 d0 l0 r0), e.1 < k) ∨
          ∃ t', rem (f + 1) k (.node i0 d0 l0 r0) = .ok t' ∧ ents t' = without k (ents (T.node i0 d0 l0 r0)) ∧
          ∃ j d' l' r', t' = .node j d' l' r' ∧ d'.red = d0.red ∧ Sh .B m r' ∧
            (Sh c' m l' ∨ Sh c m l') := by
        intro m c c' hl hred hr hcc
        obtain ⟨j, e, a, b, c'', rfl, he, ha, hb, hc⟩ := hl.red_node hred
        have hc' : c'' = c' := by
          rcases hc with ⟨rfl, rfl⟩ | ⟨rfl, rfl⟩ <;> rcases hcc with ⟨h, rfl⟩ | ⟨h, rfl⟩ <;> simp_all
        subst hc'
        have hlean : (if isRed (.node j e a b) then leanRight (.node i0 d0 (.node j e a b) r0)
            else .ok (.node i0 d0 (.node j e a b) r0)) =
            .ok (.node j { e with red := d0.red } a (.node i0 { d0 with o := d0.o - (e.o + 1), red := true } b r0)) := by
          rw [if_pos hred]; simp [leanRight, rotR, paint, isRed]
        have hp : pushRight (.node j { e with red := d0.red } a
            (.node i0 { d0 with o := d0.o - (e.o + 1), red := true } b r0)) =
            .ok (.node j { e with red := d0.red } a (.node i0 { d0 with o := d0.o - (e.o + 1), red := true } b r0)) := by
          simp [pushRight]
        rw [rem_right hk hlean (by simp) hp]
        have hlean' := hlean
        rw [if_pos hred] at hlean'
        have hee := leanRight_ents hlean'
        rw [← hee] at hs ⊢
        have hlt : e.k < d0.k := s3 (e.k, e.v) (by simp [ents])
        have hs'' := hs
        rw [ents] at hs''
        have hsr := (inc_node hs'').2.1
        have hR : Sh .R1 m (.node i0 { d0 with o := d0.o - (e.o + 1), red := true } b r0) := .red1 hb hr rfl
        rcases down_right hs (fun h => hk (lt_trans h hlt)) (by simp)
          (fun k' _ _ => ih k' _ m _ hR.ent1 hsr (by simp only [T.size] at hsz ⊢; omega))
          with h | ⟨d1, r', t', h1, h2, h3, h4, h5, h6⟩
        · exact .inl h
        · refine .inr ⟨t', h1, h3, ?_⟩
          rcases h4.r1 with h | h
          · exact ⟨_, _, _, _, h5 h.B_red, h2, h, .inl ha⟩
          · obtain ⟨j', d', e', a', b', rfl, c1, c2, c3, c4⟩ := h6 m h
            refine ⟨_, _, _, _, rfl, c1, c4, .inr ?_⟩
            rcases hcc with ⟨rfl, rfl⟩ | ⟨rfl, rfl⟩
            · exact .red1 ha c3 c2
            · exact .red2 ha c3 c2
      cases hent with
      | single hl hr =>
        have hlean : (if isRed l0 then leanRight (.node i0 d0 l0 r0) else .ok (.node i0 d0 l0 r0)) =
            .ok (.node i0 d0 l0 r0) := by rw [if_neg (by simp [hl.B_red])]
        cases n with
        | zero =>
          obtain rfl := hl.zero_nil
          obtain rfl := hr.zero_nil
          by_cases he : k = d0.k
          · refine .inr ⟨.nil, ?_, ?_, .inl .nil⟩
            · rw [rem, if_neg hk, hlean]; simp [he, T.isNil]
            · simp [ents, without, he]
          · refine .inl ⟨?_, ?_, (d0.k, d0.v), by simp [ents], lt_of_le_of_ne (not_lt.1 hk) (Ne.symm he)⟩
            · rw [rem, if_neg hk, hlean]; simp [he, pushRight]
            · simp [ents]; exact Ne.symm he
        | succ m =>
          obtain ⟨j, e, a, b, c', rfl, ha, hb, he⟩ := hr.node_of_succ
          by_cases hra : isRed a = true
          · have hp : pushRight (.node i0 d0 l0 (.node j e a b)) = .ok (.node i0 d0 l0 (.node j e a b)) := by
              simp [pushRight, hra]
            have hent' : ∀ k', Ent k' .full (m + 1) (.node j e a b) := by
              intro k'
              obtain ⟨_, _, _, _, _, _, _, _, _, ⟨rfl, _⟩ | ⟨rfl, _⟩⟩ := ha.red_node hra
              · exact .three ha hb he
              · exact .four ha hb he
            rw [Out, rem_right hk hlean (by simp) hp]
            rcases down_right hs hk (by simp) (fun k' _ _ => ih k' .full (m + 1) _ (hent' k') s2 (by omega))
              with h | ⟨d1, r', t', h1, h2, h3, h4, h5, -⟩
            · exact .inl h
            · exact .inr ⟨t', h1, h3, .inr ⟨_, _, _, _, h5 (Sh.B_red h4), hl, h4, fun h => h2.trans h⟩⟩
          · have hra : isRed a = false := by simpa using hra
            have ha := ha.not_red hra
            obtain ⟨p, g, x, y, cx, rfl, hx, hy, hg⟩ := hl.node_of_succ
            by_cases hrx : isRed x = true
            · obtain ⟨q, xd, u, w, c'', rfl, hxd, hu, hw, hc⟩ := hx.red_node hrx
              have hp : pushRight (.node i0 d0 (.node p g (.node q xd u w) y) (.node j e a b)) =
                  .ok (.node p { g with red := true } (.node q { xd with red := false } u w)
                    (.node i0 { d0 with o := d0.o - (g.o + 1), red := false } y (.node j { e with red := true } a b))) := by
                simp [pushRight, he, hra, hrx, rotR, paint]
              have hlt : g.k < d0.k := s3 (g.k, g.v) (by simp [ents])
              have hent' : ∀ k', k ≤ k' → Ent k' .full (m + 1) (.node i0 { d0 with o := d0.o - (g.o + 1), red := false } y
                  (.node j { e with red := true } a b)) :=
                fun k' hk' => .right hy (.red1 ha hb rfl) rfl (fun h => hk (lt_of_le_of_lt hk' h))
              rw [Out, rem_right hk hlean (by simp) hp]
              have hee := pushRight_ents hp
              rw [← hee] at hs ⊢
              have hs'' := hs
              rw [ents] at hs''
              rcases down_right hs (fun h => hk (lt_trans h hlt)) (by simp)
                (fun k' hk' _ => ih k' .full (m + 1) _ (hent' k' hk') (inc_node hs'').2.1
                  (by simp only [T.size] at hsz ⊢; omega))
                with h | ⟨d1, r', t', h1, h2, h3, h4, h5, -⟩
              · exact .inl h
              · exact .inr ⟨t', h1, h3, .inr ⟨_, _, _, _, h5 (Sh.B_red h4), .black hu hw rfl, h4, fun _ => h2⟩⟩
            · have hrx : isRed x = false := by simpa using hrx
              have hx := hx.not_red hrx
              have hp : pushRight (.node i0 d0 (.node p g x y) (.node j e a b)) =
                  .ok (.node i0 { d0 with red := false } (.node p { g with red := true } x y)
                    (.node j { e with red := true } a b)) := by
                simp [pushRight, he, hra, hrx]
              rw [Out, rem_right hk hlean (by simp) hp]
              have hee := pushRight_ents hp
              rw [← hee] at hs ⊢
              have hs'' := hs
              rw [ents] at hs''
              have hR : Sh .R1 m (.node j { e with red := true } a b) := .red1 ha hb rfl
              have hL : Sh .R1 m (.node p { g with red := true } x y) := .red1 hx hy rfl
              rcases down_right hs hk (by simp)
                (fun k' _ _ => ih k' _ m _ hR.ent1 (inc_node hs'').2.1
                  (by simp only [T.size] at hsz ⊢; omega))
                with h | ⟨d1, r', t', h1, h2, h3, h4, h5, h6⟩
              · exact .inl h
              · refine .inr ⟨t', h1, h3, .inl ?_⟩
                rcases h4.r1 with h | h
                · rw [h5 h.B_red]; exact .black hL h h2
                · obtain ⟨j', d', e', a', b', rfl, c1, c2, c3, c4⟩ := h6 m h
                  exact .black (.red2 hL c3 c2) c4 c1
      | r2 h =>
        cases h with
        | red2 hl hr hd =>
          rcases lean hl hl.R1_red hr (.inl ⟨rfl, rfl⟩) with h | ⟨t', h1, h2, j, d', l', r', rfl, h3, h4, h5⟩
          · exact .inl h
          · refine .inr ⟨_, h1, h2, ?_⟩
            rcases h5 with h | h
            · exact .inl (.red1 h h4 (h3.trans hd))
            · exact .inr (.red2 h h4 (h3.trans hd))
      | three hl hr hd =>
        rcases lean hl hl.R1_red hr (.inl ⟨rfl, rfl⟩) with h | ⟨t', h1, h2, j, d', l', r', rfl, h3, h4, h5⟩
        · exact .inl h
        · refine .inr ⟨_, h1, h2, ?_⟩
          rcases h5 with h | h
          · exact .black h h4 (h3.trans hd)
          · exact .black h h4 (h3.trans hd)
      | four hl hr hd =>
        rcases lean hl hl.R2_red hr (.inr ⟨rfl, rfl⟩) with h | ⟨t', h1, h2, j, d', l', r', rfl, h3, h4, h5⟩
        · exact .inl h
        · refine .inr ⟨_, h1, h2, ?_⟩
          rcases h5 with h | h
          · exact .black h h4 (h3.trans hd)
          · exact .black h h4 (h3.trans hd)
      | right hl hr hd _ =>
        rename_i n _
        have hlean : (if isRed l0 then leanRight (.node i0 d0 l0 r0) else .ok (.node i0 d0 l0 r0)) =
            .ok (.node i0 d0 l0 r0) := by rw [if_neg (by simp [hl.B_red])]
        have hr0 : r0 ≠ .nil := by rintro rfl; cases hr
        have hp : pushRight (.node i0 d0 l0 r0) = .ok (.node i0 d0 l0 r0) := by
          have := hr.R1_red
          cases r0 with
          | nil => exact absurd rfl hr0
          | node j e a b => simp only [isRed] at this; simp [pushRight, this]
        rw [Out, rem_right hk hlean hr0 hp]
        rcases down_right hs hk hr0 (fun k' _ _ => ih k' _ n _ hr.ent1 s2 (by omega))
          with h | ⟨d1, r', t', h1, h2, h3, h4, h5, h6⟩
        · exact .inl h
        · refine .inr ⟨t', h1, h3, ?_⟩
          rcases h4.r1 with h | h
          · rw [h5 h.B_red]; exact .black hl h (h2.trans hd)
          · obtain ⟨j', d', e', a', b', rfl, c1, c2, c3, c4⟩ := h6 n h
            exact .black (.red1 hl c3 c2) c4 (c1.trans hd)
      | both _ _ _ h => exact absurd h hk

end OP.Tree.Rb
