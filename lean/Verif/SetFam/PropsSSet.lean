import Verif.SetFam.SSet
/-!
# Properties C01, C02, C03: growth policy and sizeable sets
-/
namespace OP.SetFam

/-! ## C01 -/

/-- C01: in exact arithmetic the growth policy (a total function) gives a capacity that covers the
request, is a whole number of blocks, wastes less than a block, is zero only for a zero request, and
multiplies the block by a power of eight. -/
theorem C01_bufsize (s b : Nat) (hb : 0 < b) :
    s ≤ (bufsize s b).1 ∧ (bufsize s b).1 < s + (bufsize s b).2 ∧
    (bufsize s b).2 ∣ (bufsize s b).1 ∧ ((bufsize s b).1 = 0 ↔ s = 0) ∧
    (∃ k, (bufsize s b).2 = b * 8 ^ k) ∧ s ≤ 8 * (bufsize s b).2 ∧
    ((bufsize s b).2 = b ∨ (bufsize s b).2 < s) := by
  have hp := growBlock_pos s b hb
  exact ⟨roundUp_ge s _ hp, roundUp_lt s _ hp, ⟨_, rfl⟩, roundUp_zero_iff s _ hp,
    growBlock_pow s b, growBlock_enough s b hb, growBlock_lt s b⟩

example : bufsize 1000 64 = (1024, 512) := by
  simp [bufsize, growBlock, roundUp]

/-- The 32-bit computation ends within `s` iterations and equals the exact one whenever the request
and the block are below `2^29`. -/
theorem C01_bufsize32_exact (s b fuel : Nat) (hb : 0 < b) (hb29 : b < 2 ^ 29) (hs : s ≤ 2 ^ 29)
    (hf : s < fuel) : bufsize32 fuel s b = some (bufsize s b) := by
  have hW : W = 8 * 2 ^ 29 := rfl
  have hg := growBlock32_eq s b fuel hb (by omega) (by omega) (by omega) (by omega)
  have hp := growBlock_pos s b hb
  have hlt := roundUp_lt s _ hp
  have hgl := growBlock_lt s b
  have hdiv : s / growBlock s b ≤ s := Nat.div_le_self _ _
  unfold bufsize32 bufsize
  rw [hg, Option.map_some]
  have h1 : (s / growBlock s b + if s % growBlock s b = 0 then 0 else 1) % W
      = s / growBlock s b + if s % growBlock s b = 0 then 0 else 1 := by
    apply Nat.mod_eq_of_lt; split <;> omega
  rw [h1]
  congr 2
  change roundUp s (growBlock s b) % W = _
  exact Nat.mod_eq_of_lt (by omega)

example : (0:Nat) < 64 ∧ 64 < 2 ^ 29 ∧ 1000 ≤ 2 ^ 29 := by decide

theorem growBlock32_zero (s : Nat) (hs : 0 < s) (fuel : Nat) : growBlock32 s fuel 0 = none := by
  induction fuel with
  | zero => rfl
  | succ n ih => rw [growBlock32, if_pos (by simpa using hs)]; exact ih

theorem growBlock32_step (s b fuel : Nat) (h : 8 * b % W < s)
    (hn : ∀ f, growBlock32 s f (8 * b % W) = none) : growBlock32 s fuel b = none := by
  cases fuel with
  | zero => rfl
  | succ n => rw [growBlock32, if_pos h]; exact hn n

/-- Above `2^30` elements the 32-bit loop never ends for the default block: the block wraps to 0. -/
theorem C01_bufsize32_diverges (s : Nat) (hs : 2 ^ 30 < s) (fuel : Nat) :
    bufsize32 fuel s dfltBlk = none := by
  have h0 := growBlock32_zero s (by omega)
  have key : ∀ k, k ≤ 8 → ∀ f, growBlock32 s f (2 ^ 6 * 8 ^ (8 - k)) = none := by
    intro k
    induction k with
    | zero =>
      intro _ f
      refine growBlock32_step s _ f ?_ ?_ <;>
        rw [show 8 * (2 ^ 6 * 8 ^ (8 - 0)) % W = 0 from rfl]
      · omega
      · exact h0
    | succ k ih =>
      intro hk f
      have e : 8 * (2 ^ 6 * 8 ^ (8 - (k + 1))) % W = 2 ^ 6 * 8 ^ (8 - k) := by
        have : 8 - k = (8 - (k + 1)) + 1 := by omega
        rw [this, pow_succ, Nat.mod_eq_of_lt]
        · ring
        · have : 8 ^ (8 - (k + 1)) ≤ 8 ^ 7 := Nat.pow_le_pow_right (by omega) (by omega)
          have : W = 2 ^ 32 := rfl
          omega
      refine growBlock32_step s _ f ?_ ?_ <;> rw [e]
      · have : 8 ^ (8 - k) ≤ 8 ^ 8 := Nat.pow_le_pow_right (by omega) (by omega)
        omega
      · exact ih (by omega)
  have := key 8 (by omega) fuel
  rw [show 2 ^ 6 * 8 ^ (8 - 8) = dfltBlk from rfl] at this
  rw [bufsize32, this, Option.map_none]

example : (2:Nat) ^ 30 < 2 ^ 31 := by decide

/-! ## C02 -/

namespace SSet
variable {α : Type u}

theorem run_rep (d : α) (ops : List (Op α)) : ∀ (st : SSet α) (l l' : List α) (bs : List Bool),
    Rep st l → specRun d l ops = some (l', bs) → ∃ st', st.run d ops = .ok (st', bs) ∧ Rep st' l' := by
  induction ops with
  | nil =>
    intro st l l' bs h hs
    simp only [specRun, Option.some.injEq, Prod.mk.injEq] at hs
    obtain ⟨rfl, rfl⟩ := hs
    exact ⟨st, rfl, h⟩
  | cons op ops ih =>
    intro st l l' bs h hs
    rw [specRun] at hs
    split at hs
    · simp at hs
    rename_i hW
    have hstep := step_rep d h (by omega) op
    cases hsp : spec d l op with
    | none => rw [hsp] at hs; simp at hs
    | some o =>
      rw [hsp] at hs
      cases o with
      | none =>
        simp only [Option.map_eq_some_iff] at hs
        obtain ⟨⟨l1, bs1⟩, h1, h2⟩ := hs
        simp only [Prod.mk.injEq] at h2
        obtain ⟨rfl, rfl⟩ := h2
        obtain ⟨st', hr, hrep⟩ := ih st l l1 bs1 h h1
        refine ⟨st', ?_, hrep⟩
        simp [run, hstep.2 hsp, hr]
      | some l2 =>
        simp only [Option.map_eq_some_iff] at hs
        obtain ⟨⟨l1, bs1⟩, h1, h2⟩ := hs
        simp only [Prod.mk.injEq] at h2
        obtain ⟨rfl, rfl⟩ := h2
        obtain ⟨st2, hs2, hrep2⟩ := hstep.1 l2 hsp
        obtain ⟨st', hr, hrep⟩ := ih st2 l2 l1 bs1 hrep2 h1
        refine ⟨st', ?_, hrep⟩
        simp [run, hs2, hr]

theorem copyout_rep {st : SSet α} {l : List α} (h : Rep st l) : st.copyout = .ok l := by
  obtain ⟨_, hs, junk, hb⟩ := h
  have key : ∀ n, n ≤ l.length →
      ((List.range' (l.length - n) n).foldr (fun i acc => do
        let v ← st.get i
        let vs ← acc
        Res.ok (v :: vs)) (.ok [])) = .ok (l.drop (l.length - n)) := by
    intro n
    induction n with
    | zero => intro _; simp
    | succ n ih =>
      intro hn
      have e : l.length - (n + 1) + 1 = l.length - n := by omega
      rw [List.range'_succ, List.foldr_cons, e, ih (by omega)]
      have hlt : l.length - (n + 1) < l.length := by omega
      have : st.get (l.length - (n + 1)) = .ok l[l.length - (n + 1)] := by
        rw [get, hb]; exact Buf.read_append_left l junk _ hlt
      rw [this]
      simp only [Res.ok_bind]
      rw [List.drop_eq_getElem_cons hlt, e]
  have := key l.length (le_refl _)
  rw [copyout, hs, List.range_eq_range']
  simpa using this

/-- C02: for every history of calls that inserts at positions up to the current length and stays
within `unsigned`, starting from an empty set of any block size, the set accepts and rejects exactly
the calls the list specification does, never runs into undefined behaviour, and then reports exactly
the specification's elements, in order, and its length and bounds. -/
theorem C02_sset_is_a_sequence (d : α) (b : Nat) (ops : List (Op α)) (l : List α) (bs : List Bool)
    (h : specRun d [] ops = some (l, bs)) :
    ∃ st, (SSet.init b).run d ops = .ok (st, bs) ∧ st.copyout = .ok l ∧ st.length = l.length ∧
      (∀ p, st.inbounds p = true ↔ p < l.length) ∧ ∀ p (hp : p < l.length), st.get p = .ok l[p] := by
  obtain ⟨st, h1, h2⟩ := run_rep d ops _ [] l bs (Rep.init b) h
  refine ⟨st, h1, copyout_rep h2, h2.size_eq, fun p => by simp [inbounds, h2.size_eq], ?_⟩
  intro p hp
  obtain ⟨_, _, junk, hb⟩ := h2
  rw [get, hb]; exact Buf.read_append_left l junk _ hp

/-- The hypothesis of `C02_sset_is_a_sequence` on a mixed history with two rejected calls. -/
example : specRun (0:Nat) [] [.append 5, .add 0 [1, 2, 3], .remove 1 1, .remove 9 1, .add 1 [],
    .removeLast, .append 7] = some ([1, 3, 7], [true, true, true, false, false, true, true]) := by
  decide +kernel

/-- C02: after every such history, each element is destroyed before the buffer is given back by `empty`, `resize`, an assignment
or the destructor. -/
theorem C02_freed (d : α) (b : Nat) (ops : List (Op α)) (l : List α) (bs : List Bool) (h : specRun d [] ops = some (l, bs)) :
    ∃ st f, (SSet.init b).run d ops = .ok (st, bs) ∧ st.freed = .ok f ∧ (∀ p < l.length, f[p]? = some none) ∧
      st.empty = .ok { st with size := 0, buf := [] } := by
  obtain ⟨st, h1, h2⟩ := run_rep d ops _ [] l bs (Rep.init b) h
  have he : st.empty = .ok { st with size := 0, buf := [] } := deallocate_rep h2
  obtain ⟨_, hs, junk, hb⟩ := h2
  by_cases h0 : st.buf.length = 0
  · refine ⟨st, st.buf, h1, if_pos h0, fun p hp => ?_, he⟩
    rw [hb] at h0
    simp only [List.length_append, List.length_map] at h0
    omega
  · have := Buf.destroyRange_append [] junk l
    simp only [List.nil_append, List.length_nil] at this
    refine ⟨st, List.replicate l.length none ++ junk, h1, ?_, fun p hp => ?_, he⟩
    · rw [freed, if_neg h0, hb, hs, this]
    · rw [List.getElem?_append_left (by simpa using hp), List.getElem?_replicate, if_pos hp]

/-- `remove(p,UINT_MAX)` is not "remove everything from `p`": for `p > 0` the 32-bit `p+s` wraps,
the clamp is skipped and the destructor loop runs off the live elements. -/
theorem C02_remove_to_end_wraps (st : SSet α) (l : List α) (h : Rep st l) (p : Nat) (hp0 : 0 < p)
    (hp : p < l.length) (hcap : st.buf.length < W - 1) : st.remove p (W - 1) = .ub := by
  have hW : W = 2 ^ 32 := rfl
  have hlen : l.length ≤ st.buf.length := by
    obtain ⟨_, _, junk, hb⟩ := h; rw [hb]; simp
  have hmod : (p + (W - 1)) % W = p - 1 := by
    have : p + (W - 1) = (p - 1) + W := by omega
    rw [this, Nat.add_mod_right, Nat.mod_eq_of_lt (by omega)]
  have hub : ∀ (n : Nat) (b : Buf α) (q : Nat), b.length < q + n → 0 < n →
      b.destroyRange q n = .ub := by
    intro n
    induction n with
    | zero => intro b q _ h0; omega
    | succ n ih =>
      intro b q hq _
      rw [Buf.destroyRange]
      unfold Buf.destroy
      split
      · rename_i v hv
        have hql : q < b.length := by
          by_contra hc
          rw [List.getElem?_eq_none (by omega)] at hv; simp at hv
        simp only [Res.ok_bind]
        exact ih _ _ (by simp; omega) (by omega)
      · rfl
  unfold remove
  rw [if_neg (by rw [h.size_eq]; omega), if_neg (by omega), hmod,
    if_neg (by rw [h.size_eq]; omega)]
  simp only
  rw [hub (W - 1) st.buf p (by omega) (by omega)]
  rfl

/-! ## C03 -/

/-- The desired property C03: after inserting `vs` at `p` beyond the end, the set reads as the old
elements, then default elements up to `p`, then `vs`. -/
def GapDefault (d : α) (st : SSet α) (l : List α) (p : Nat) (vs : List α) : Prop :=
  ∃ st', st.add d p vs = .ok st' ∧
    st'.copyout = .ok (l ++ List.replicate (p - l.length) d ++ vs)

/-- What the code does on an insertion beyond the end: the raw cell before the insertion point is
left as it was, everything else is as desired. -/
theorem add_gap {st : SSet α} {l : List α} (d : α) (h : Rep st l) (p : Nat) (vs : List α)
    (hp : l.length < p) (hv : vs ≠ []) :
    ∃ st' c junk, st.add d p vs = .ok st' ∧ st'.size = p + vs.length ∧
      st'.buf = (l ++ List.replicate (p - 1 - l.length) d).map some ++ ([c] ++ (vs.map some ++ junk))
      ∧ (st.buf = [] → c = none) := by
  have hvl : vs.length ≠ 0 := by simpa [List.length_eq_zero_iff] using hv
  have hsz := h.size_eq
  obtain ⟨st1, h1, h2, h3⟩ := allocate_rep h (p + vs.length) (by omega)
  have hfresh : st.buf = [] → ∀ x ∈ st1.buf, x = none := by
    intro he
    have : st.allocate (p + vs.length) = .ok st1 := h1
    unfold allocate at this
    simp only [he, List.length_nil] at this
    split at this
    · simp only [Res.ok.injEq] at this
      subst this; simp
    · rw [if_neg (by omega)] at this
      simp only [Res.ok.injEq] at this
      subst this
      intro x hx
      simp only [Buf.realloc, List.take_nil, List.nil_append] at hx
      exact List.eq_of_mem_replicate hx
  obtain ⟨hb1, hs1, junk, hbuf⟩ := h2
  have hlen := h3
  rw [hbuf, List.length_append, List.length_map] at hlen
  set g := p - 1 - l.length with hg
  -- split the junk: gap, the forgotten cell, the new elements, rest
  obtain ⟨j1, c, j2, j3, hj, hl1, hl2⟩ : ∃ j1 c j2 j3, junk = j1 ++ (c :: (j2 ++ j3)) ∧
      j1.length = g ∧ j2.length = vs.length := by
    have hgj : g < junk.length := by omega
    refine ⟨junk.take g, junk[g], (junk.drop (g + 1)).take vs.length,
      junk.drop (g + 1 + vs.length), ?_, by simp; omega, by simp; omega⟩
    conv_lhs => rw [← List.take_append_drop g junk, List.drop_eq_getElem_cons hgj,
      ← List.take_append_drop vs.length (junk.drop (g + 1)), List.drop_drop]
  subst hj
  refine ⟨{ st1 with size := p + vs.length, buf := _ }, c, j3, ?_, rfl, rfl, ?_⟩
  · unfold add
    simp only [hvl, if_false]
    rw [if_pos (by omega), h1]
    simp only [Res.ok_bind]
    rw [hs1, ← hg, hbuf]
    have c1 := Buf.construct_append (l.map some) j1 (c :: (j2 ++ j3)) (List.replicate g d)
      (by simp; omega)
    rw [List.length_map] at c1
    rw [c1]
    simp only [Res.ok_bind]
    have c2 := Buf.construct_append (l.map some ++ ((List.replicate g d).map some ++ [c]))
      j2 j3 vs hl2
    have e : (l.map some ++ ((List.replicate g d).map some ++ [c])).length = p := by
      simp; omega
    rw [e] at c2
    simp only [List.append_assoc, List.cons_append, List.nil_append] at c2
    rw [c2]
    simp
  · intro he
    apply hfresh he
    rw [hbuf]; simp

/-- C03 is false: inserting at any position `p ≥ 1` of any fresh set leaves element `p-1`
unconstructed, and reading the set afterwards is undefined. -/
theorem C03_gap_not_constructed (d : α) (b p : Nat) (hp : 0 < p) (vs : List α) (hv : vs ≠ []) :
    (∃ st', (SSet.init b).add d p vs = .ok st' ∧ st'.inbounds (p - 1) = true ∧
      st'.get (p - 1) = .ub) ∧ ¬ GapDefault d (SSet.init b) [] p vs := by
  obtain ⟨st', c, junk, h1, h2, h3, h4⟩ := add_gap d (Rep.init b) p vs hp hv
  have hget : st'.get (p - 1) = .ub := by
    rw [get, h3, Buf.read]
    have : (List.map some ([] ++ List.replicate (p - 1 - ([] : List α).length) d)).length = p - 1 := by
      simp
    rw [List.getElem?_append_right (by rw [this]), this]
    simp [h4 rfl]
  refine ⟨⟨st', h1, by simp [inbounds, h2]; omega, hget⟩, ?_⟩
  rintro ⟨st2, h5, h6⟩
  rw [h1] at h5
  simp only [Res.ok.injEq] at h5
  subst h5
  have hmem : p - 1 ∈ List.range st'.size := by rw [List.mem_range, h2]; omega
  have : ∀ L : List Nat, (p - 1) ∈ L → ∀ r, (L.foldr (fun i acc => do
      let v ← st'.get i
      let vs ← acc
      Res.ok (v :: vs)) (.ok [])) ≠ .ok r := by
    intro L
    induction L with
    | nil => simp
    | cons x L ih =>
      intro hm r hr
      rw [List.foldr_cons] at hr
      rcases List.mem_cons.mp hm with rfl | hm
      · rw [hget] at hr; simp at hr
      · simp only [Res.bind_eq_ok] at hr
        obtain ⟨_, _, _, h8, _⟩ := hr
        exact ih hm _ h8
  exact this _ hmem _ h6

example : (0:Nat) < 3 ∧ [7] ≠ ([] : List Nat) := by decide

/-- What does hold of C03: the insertion succeeds, the length is right, the old elements, the new
elements and every gap element except the last read as desired.  Missing: element `p-1`. -/
theorem C03_gap_default_partial (d : α) (st : SSet α) (l : List α) (h : Rep st l) (p : Nat)
    (vs : List α) (hp : l.length < p) (hv : vs ≠ []) :
    ∃ st', st.add d p vs = .ok st' ∧ st'.length = p + vs.length ∧
      ∀ i (hi : i < (l ++ List.replicate (p - l.length) d ++ vs).length), i ≠ p - 1 →
        st'.get i = .ok (l ++ List.replicate (p - l.length) d ++ vs)[i] := by
  obtain ⟨st', c, junk, h1, h2, h3, _⟩ := add_gap d h p vs hp hv
  refine ⟨st', h1, h2, ?_⟩
  intro i hi hne
  have hi' : i < p + vs.length := by simp at hi; omega
  rw [get, h3, Buf.read]
  by_cases hlt : i < p - 1
  · rw [List.getElem?_append_left (by simp; omega)]
    have e : p - l.length = (p - 1 - l.length) + 1 := by omega
    have e2 : (l ++ List.replicate (p - l.length) d ++ vs)[i] =
        (l ++ List.replicate (p - 1 - l.length) d)[i]'(by simp; omega) := by
      rw [List.getElem_append_left (by simp; omega)]
      by_cases hil : i < l.length
      · rw [List.getElem_append_left hil, List.getElem_append_left hil]
      · rw [List.getElem_append_right (by omega), List.getElem_append_right (by omega)]
        simp
    rw [e2, List.getElem?_map, List.getElem?_eq_getElem (by simp; omega)]
    rfl
  · have e2 : (l ++ List.replicate (p - l.length) d ++ vs)[i] = vs[i - p]'(by omega) := by
      rw [List.getElem_append_right (by simp; omega)]
      congr 1; simp; omega
    rw [e2, List.getElem?_append_right (by simp; omega)]
    have e3 : i - (List.map some (l ++ List.replicate (p - 1 - l.length) d)).length = (i - p) + 1 := by
      simp; omega
    rw [e3, List.cons_append, List.getElem?_cons_succ, List.nil_append,
      List.getElem?_append_left (by simp; omega), List.getElem?_map,
      List.getElem?_eq_getElem (by omega)]
    rfl

example : Rep (SSet.init 64 : SSet Nat) [] ∧ ([] : List Nat).length < 3 := ⟨Rep.init 64, by decide⟩

end SSet
end OP.SetFam
