import Verif.SetFam.SSet
import Verif.SetFam.SortPairs
import Mathlib.Data.List.Destutter
/-!
# `cset::compact` and `cset::sort` (include/set.h:516-552)
-/
namespace OP.SetFam

variable {α : Type} [DecidableEq α]

/-- `do value[i].~V(); while (++i < size && value[j] == value[i]);` (include/set.h:534-537). -/
def dupLoop (size j : Nat) : Nat → Buf α → Nat → Res (Buf α × Nat)
  | 0, _, _ => .ub
  | f + 1, b, i =>
    b.destroy i >>= fun b =>
    if i + 1 < size then
      b.read j >>= fun x => b.read (i + 1) >>= fun y =>
      if x = y then dupLoop size j f b (i + 1) else .ok (b, i + 1)
    else .ok (b, i + 1)

/-- `while (s < size-1 && value[s] != value[s+1]) s++;` (include/set.h:539-541). -/
def runLoop (size : Nat) (b : Buf α) : Nat → Nat → Res Nat
  | 0, _ => .ub
  | f + 1, s =>
    if s < size - 1 then
      b.read s >>= fun x => b.read (s + 1) >>= fun y =>
      if x ≠ y then runLoop size b f (s + 1) else .ok s
    else .ok s

/-- The `for` loop of `compact` (include/set.h:530-548) from `i`, `j`; the final storage and `j`. -/
def compactLoop (size : Nat) : Nat → Buf α → Nat → Nat → Res (Buf α × Nat)
  | 0, _, _, _ => .ub
  | f + 1, b, i, j =>
    if i < size then
      b.read j >>= fun x => b.read i >>= fun y =>
      let j := if x ≠ y then j + 1 else j
      if j ≠ i then
        dupLoop size j size b i >>= fun bi =>
        runLoop size bi.1 size bi.2 >>= fun s =>
        if bi.2 < size then
          bi.1.memmove (j + 1) bi.2 (s - bi.2 + 1) >>= fun b =>
          compactLoop size f b (s + 1) (s - (bi.2 - (j + 1)))
        else compactLoop size f bi.1 (bi.2 + 1) j
      else compactLoop size f b (i + 1) j
    else .ok (b, j)

/-- `cset::compact` (include/set.h:526-551). -/
def compact (st : SSet α) : Res (SSet α) :=
  if st.size ≤ 1 then .ok st
  else
    compactLoop st.size st.size st.buf 1 0 >>= fun r =>
    let st' : SSet α := { st with size := r.2 + 1, buf := r.1 }
    st'.allocate st'.size

/-- `cset::sort` (include/set.h:519-522): sort the live elements in place, then compact. -/
def csetSort (gt : α → α → Bool) (st : SSet α) : Res (SSet α) :=
  st.copyout >>= fun l =>
  QS.sort (QS.lo gt) l st.size >>= fun l' =>
  compact { st with buf := l'.map some ++ st.buf.drop st.size }

/-! ## Lemmas -/

theorem read_of_drop {b : Buf α} {i : Nat} {x : α} {t : Buf α} (h : b.drop i = some x :: t) :
    b.read i = .ok x := by
  have : b[i]? = some (some x) := by
    have := congrArg (fun l => l[0]?) h
    simpa using this
  simp [Buf.read, this]

theorem read_of_take {b : Buf α} {j : Nat} {E : List α} {x : α} (hj : j = E.length)
    (h : b.take (j + 1) = (E ++ [x]).map some) : b.read j = .ok x := by
  have h1 : (b.take (j + 1))[j]? = some (some x) := by rw [h]; simp [hj]
  rw [List.getElem?_take_of_lt (by omega)] at h1
  simp [Buf.read, h1]

theorem destroy_of_drop {b : Buf α} {i : Nat} {x : α} {t : Buf α} (h : b.drop i = some x :: t) :
    ∃ b', b.destroy i = .ok b' ∧ (∀ k, k ≤ i → b'.take k = b.take k) ∧ b'.drop (i + 1) = t ∧
      b'.length = b.length := by
  have hi : b[i]? = some (some x) := by
    have := congrArg (fun l => l[0]?) h
    simpa using this
  refine ⟨b.set i none, by simp [Buf.destroy, hi], fun k hk => ?_, ?_, by simp⟩
  · rw [List.take_set_of_le hk]
  · rw [List.drop_set_of_lt (by omega)]
    have : b.drop (i + 1) = (b.drop i).drop 1 := by rw [List.drop_drop]
    rw [this, h]; rfl

theorem dupLoop_ok {size j : Nat} {E : List α} {x : α} (hj : j = E.length) (junk : Buf α) (f : Nat) :
    ∀ (b : Buf α) (i : Nat) (y : α) (t : List α), b.take (j + 1) = (E ++ [x]).map some →
    b.drop i = (y :: t).map some ++ junk → j + 1 ≤ i → size = i + 1 + t.length → t.length < f →
    ∃ b' i' t', dupLoop size j f b i = .ok (b', i') ∧ b'.take (j + 1) = (E ++ [x]).map some ∧
      b'.drop i' = t'.map some ++ junk ∧ i < i' ∧ size = i' + t'.length ∧ b'.length = b.length ∧
      List.destutter' (· ≠ ·) x t = List.destutter' (· ≠ ·) x t' ∧ (∀ h ∈ t'.head?, h ≠ x) := by
  induction f with
  | zero => intros; omega
  | succ f ih =>
    intro b i y t htake hdrop hij hsize hf
    obtain ⟨b1, d1, d2, d3, d4⟩ := destroy_of_drop (x := y) (t := t.map some ++ junk)
      (by simpa using hdrop)
    rw [dupLoop, d1]
    simp only [Res.ok_bind]
    cases t with
    | nil =>
      rw [if_neg (by simp at hsize; omega)]
      exact ⟨b1, i + 1, [], rfl, by rw [d2 _ hij, htake], d3, by omega,
        by simpa using hsize, d4, rfl, by simp⟩
    | cons z t =>
      rw [if_pos (by simp at hsize; omega), read_of_take hj (by rw [d2 _ hij, htake])]
      simp only [Res.ok_bind]
      rw [read_of_drop (x := z) (t := t.map some ++ junk) (by simpa using d3)]
      simp only [Res.ok_bind]
      by_cases hxz : x = z
      · rw [if_pos hxz]
        obtain ⟨b', i', t', e1, e2, e3, e4, e5, e6, e7, e8⟩ := ih b1 (i + 1) z t
          (by rw [d2 _ hij, htake]) d3 (by omega) (by simp at hsize; omega) (by simp at hf; omega)
        refine ⟨b', i', t', e1, e2, e3, by omega, e5, by rw [e6, d4], ?_, e8⟩
        rw [← e7, List.destutter', if_neg (by simpa using hxz)]
      · rw [if_neg hxz]
        refine ⟨b1, i + 1, z :: t, rfl, by rw [d2 _ hij, htake], d3, by omega, ?_, d4, rfl, ?_⟩
        · simpa using hsize
        · intro h hh
          simp only [List.head?_cons, Option.mem_def, Option.some.injEq] at hh
          subst hh; exact fun h => hxz h.symm

theorem runLoop_ok {size : Nat} (b : Buf α) (junk : Buf α) (f : Nat) :
    ∀ (i : Nat) (y : α) (t : List α), b.drop i = (y :: t).map some ++ junk →
    size = i + 1 + t.length → t.length < f →
    ∃ R z t', runLoop size b f i = .ok (i + R.length) ∧ y :: t = R ++ z :: t' ∧
      List.destutter' (· ≠ ·) y t = R ++ List.destutter' (· ≠ ·) z t' ∧ (∀ h ∈ t'.head?, h = z) := by
  induction f with
  | zero => intros; omega
  | succ f ih =>
    intro i y t hdrop hsize hf
    rw [runLoop]
    cases t with
    | nil =>
      rw [if_neg (by simp at hsize; omega)]
      exact ⟨[], y, [], by simp, rfl, rfl, by simp⟩
    | cons z t =>
      have hd2 : b.drop (i + 1) = (z :: t).map some ++ junk := by
        have : b.drop (i + 1) = (b.drop i).drop 1 := by rw [List.drop_drop]
        rw [this, hdrop]; rfl
      rw [if_pos (by simp at hsize; omega),
        read_of_drop (x := y) (t := (z :: t).map some ++ junk) (by simpa using hdrop)]
      simp only [Res.ok_bind]
      rw [read_of_drop (x := z) (t := t.map some ++ junk) (by simpa using hd2)]
      simp only [Res.ok_bind]
      by_cases hyz : y ≠ z
      · rw [if_pos hyz]
        obtain ⟨R, w, t', e1, e2, e3, e4⟩ := ih (i + 1) z t hd2 (by simp at hsize; omega)
          (by simp at hf; omega)
        refine ⟨y :: R, w, t', ?_, ?_, ?_, e4⟩
        · rw [e1]; congr 1; simp; omega
        · rw [e2]; rfl
        · rw [List.destutter', if_pos hyz, e3]; rfl
      · rw [if_neg hyz]
        refine ⟨[], y, z :: t, by simp, rfl, rfl, ?_⟩
        intro h hh
        simp only [List.head?_cons, Option.mem_def, Option.some.injEq] at hh
        subst hh
        exact (not_not.mp hyz).symm

theorem compactLoop_ok {size : Nat} (junk : Buf α) (f : Nat) :
    ∀ (b : Buf α) (i : Nat) (E : List α) (x : α) (t : List α),
    b.take (E.length + 1) = (E ++ [x]).map some → b.drop i = t.map some ++ junk →
    E.length + 1 ≤ i → (size = i + t.length ∨ (t = [] ∧ size ≤ i ∧ size ≤ b.length)) →
    size ≤ b.length → t.length < f →
    (E.length + 1 = i ∨ ∀ h ∈ t.head?, h = x) →
    ∃ b' E' x', compactLoop size f b i E.length = .ok (b', E'.length) ∧
      b'.take (E'.length + 1) = (E' ++ [x']).map some ∧ b'.length = b.length ∧
      E' ++ [x'] = E ++ List.destutter' (· ≠ ·) x t := by
  induction f with
  | zero => intros; omega
  | succ f ih =>
    intro b i E x t htake hdrop hij hsize hlen hf hor
    rw [compactLoop]
    cases t with
    | nil =>
      rw [if_neg (by simp at hsize; omega)]
      exact ⟨b, E, x, rfl, htake, rfl, rfl⟩
    | cons y t =>
      have hsize : size = i + 1 + t.length := by
        rcases hsize with h | h
        · simp at h; omega
        · simp at h
      have hf : t.length < f := by simpa using hf
      rw [if_pos (by omega), read_of_take rfl htake]
      simp only [Res.ok_bind]
      rw [read_of_drop (x := y) (t := t.map some ++ junk) (by simpa using hdrop)]
      simp only [Res.ok_bind]
      by_cases hxy : x ≠ y
      · rw [if_pos hxy]
        have hi : E.length + 1 = i := by
          rcases hor with h | h
          · exact h
          · exact absurd (h y rfl).symm hxy
        rw [if_neg (by omega)]
        have hlen1 : (E ++ [x]).length = E.length + 1 := by simp
        have := ih b (i + 1) (E ++ [x]) y t ?_ ?_ ?_ ?_ hlen hf ?_
        · rw [hlen1] at this
          obtain ⟨b', E', x', e1, e2, e3, e4⟩ := this
          refine ⟨b', E', x', e1, e2, e3, ?_⟩
          rw [e4, List.destutter', if_pos hxy]; simp
        · rw [hlen1, List.take_add_one, htake]
          have : b[E.length + 1]? = some (some y) := by
            have := congrArg (fun l => l[0]?) hdrop
            simpa [← hi] using this
          rw [this]; simp
        · have : b.drop (i + 1) = (b.drop i).drop 1 := by rw [List.drop_drop]
          rw [this, hdrop]; rfl
        · rw [hlen1]; omega
        · left; omega
        · left; rw [hlen1]; omega
      · rw [if_neg hxy]
        have hxy' : x = y := not_not.mp hxy
        rw [if_pos (by omega)]
        obtain ⟨b1, i1, t1, e1, e2, e3, e4, e5, e6, e7, e8⟩ :=
          dupLoop_ok (size := size) (E := E) (x := x) rfl junk size b i y t htake hdrop hij hsize
            (by omega)
        rw [e1]
        simp only [Res.ok_bind]
        have hdes : List.destutter' (· ≠ ·) x (y :: t) = List.destutter' (· ≠ ·) x t1 := by
          rw [List.destutter', if_neg hxy, e7]
        cases t1 with
        | nil =>
          have hi1 : i1 = size := by simpa using e5.symm
          have hr : runLoop size b1 size i1 = .ok i1 := by
            cases hs : size with
            | zero => omega
            | succ n => rw [runLoop, if_neg (by omega)]
          rw [hr]
          simp only [Res.ok_bind]
          rw [if_neg (by omega)]
          have hd : b1.drop (i1 + 1) = ([] : List α).map some ++ junk.drop 1 := by
            have : b1.drop (i1 + 1) = (b1.drop i1).drop 1 := by rw [List.drop_drop]
            rw [this, e3]; rfl
          -- the next test `i < size` fails at once
          cases f with
          | zero => omega
          | succ f =>
            rw [compactLoop, if_neg (by omega)]
            exact ⟨b1, E, x, rfl, e2, e6, by rw [hdes]; rfl⟩
        | cons y1 t1 =>
          have hs1 : size = i1 + 1 + t1.length := by simp at e5; omega
          obtain ⟨R, z, t2, r1, r2, r3, r4⟩ := runLoop_ok (size := size) b1 junk size i1 y1 t1 e3 hs1
            (by omega)
          rw [r1]
          simp only [Res.ok_bind]
          rw [if_pos (by omega)]
          have hl := congrArg List.length r2
          simp only [List.length_cons, List.length_append] at hl
          have hb1 : b1.length = i1 + 1 + t1.length + junk.length := by
            have := congrArg List.length e3
            simp only [List.length_drop, List.length_append, List.length_map,
              List.length_cons] at this
            omega
          have hmm : b1.memmove (E.length + 1) i1 (i1 + R.length - i1 + 1) =
              .ok (b1.take (E.length + 1) ++ (b1.drop i1).take (i1 + R.length - i1 + 1) ++
                b1.drop (E.length + 1 + (i1 + R.length - i1 + 1))) := by
            unfold Buf.memmove; rw [if_pos (by omega)]
          rw [hmm]
          simp only [Res.ok_bind]
          have en : i1 + R.length - i1 + 1 = R.length + 1 := by omega
          rw [en]
          have hmid : (b1.drop i1).take (R.length + 1) = (R ++ [z]).map some := by
            rw [e3, r2]
            have : R ++ z :: t2 = (R ++ [z]) ++ t2 := by simp
            rw [this, List.map_append, List.append_assoc,
              List.take_append_of_le_length (by simp)]
            exact List.take_of_length_le (by simp)
          rw [hmid, e2]
          have ej : i1 + R.length - (i1 - (E.length + 1)) = (E ++ [x] ++ R).length := by
            simp; omega
          rw [ej]
          have hlenA : ((E ++ [x]).map some ++ (R ++ [z]).map some).length
              = (E ++ [x] ++ R).length + 1 := by simp; omega
          have := ih ((E ++ [x]).map some ++ (R ++ [z]).map some ++
              b1.drop (E.length + 1 + (R.length + 1))) (i1 + R.length + 1) (E ++ [x] ++ R) z t2
              ?_ ?_ ?_ ?_ ?_ ?_ ?_
          · obtain ⟨b', E', x', g1, g2, g3, g4⟩ := this
            refine ⟨b', E', x', g1, g2, ?_, ?_⟩
            · rw [g3]; simp; omega
            · rw [g4, hdes]
              have hne : x ≠ y1 := fun h => e8 y1 rfl h.symm
              rw [List.destutter', if_pos hne, r3]; simp
          · rw [List.take_append_of_le_length (by omega), List.take_of_length_le (by omega)]
            simp
          · rw [List.drop_append, List.drop_of_length_le (by rw [hlenA]; simp; omega),
              List.nil_append, List.drop_drop, hlenA]
            have e : E.length + 1 + (R.length + 1) + (i1 + R.length + 1 - ((E ++ [x] ++ R).length + 1))
                = i1 + (R.length + 1) := by simp; omega
            rw [e, ← List.drop_drop, e3, r2]
            have : R ++ z :: t2 = (R ++ [z]) ++ t2 := by simp
            rw [this, List.map_append, List.append_assoc, List.drop_append,
              List.drop_of_length_le (by simp)]
            simp
          · simp; omega
          · left; omega
          · simp; omega
          · omega
          · right; exact r4

theorem compact_rep {st : SSet α} {l : List α} (h : st.Rep l) :
    ∃ st', compact st = .ok st' ∧ st'.Rep (l.destutter (· ≠ ·)) := by
  have hsz := h.size_eq
  unfold compact
  by_cases h1 : st.size ≤ 1
  · rw [if_pos h1]
    refine ⟨st, rfl, ?_⟩
    match l, hsz with
    | [], _ => exact h
    | [a], _ => exact h
    | a :: b :: l, hsz => simp at hsz; omega
  · rw [if_neg h1]
    match l, hsz, h with
    | [], hsz, _ => simp at hsz; omega
    | a :: l, hsz, h =>
      obtain ⟨hb, _, junk, hbuf⟩ := h
      have hlen : st.size = 1 + l.length := by simp at hsz; omega
      obtain ⟨b', E', x', e1, e2, e3, e4⟩ := compactLoop_ok (size := st.size) junk st.size st.buf 1
        [] a l (by simp [hbuf]) (by simp [hbuf]) (by simp) (.inl hlen) (by rw [hbuf]; simp; omega)
        (by omega) (.inl rfl)
      simp only [List.length_nil] at e1
      rw [e1]
      simp only [Res.ok_bind]
      have hr : SSet.Rep ({ st with size := E'.length + 1, buf := b' } : SSet α)
          ((a :: l).destutter (· ≠ ·)) := by
        refine ⟨hb, ?_, ⟨b'.drop (E'.length + 1), ?_⟩⟩
        · have := congrArg List.length e4
          simp only [List.length_append, List.length_cons, List.length_nil, List.nil_append] at this
          rw [List.destutter_cons', ← this]
        · conv_lhs => rw [← List.take_append_drop (E'.length + 1) b']
          rw [e2, e4, List.destutter_cons', List.nil_append]
      obtain ⟨st', g1, g2, _⟩ := SSet.allocate_rep hr (E'.length + 1) (by rw [← hr.size_eq])
      exact ⟨st', g1, g2⟩

end OP.SetFam
