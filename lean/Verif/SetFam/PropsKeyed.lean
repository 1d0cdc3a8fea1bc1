import Verif.SetFam.Indexed
import Verif.SetFam.Assoc
import Verif.SetFam.PropsSort
/-!
# Properties C07, C08, C09, C10, C61: keyed, indexed and associative sets
-/
namespace OP.SetFam.Keyed
open QS

section
variable {K V : Type}

/-! ## C08 -/

/-- C08: any history on a `ksset` accepts and rejects exactly the calls the insertion-ordered map
does, and then shows exactly that map. -/
theorem C08_ksset_is_a_map [DecidableEq K] (key : V → K) (ops : List (Op K V)) :
    ∃ a, run (ksStep key) [] ops = .ok (a, (specRun key .nil ops).2) ∧
      Shows key a (fun k => .ok (haskey key a k)) (specRun key .nil ops).1 := by
  obtain ⟨a, h1, h2⟩ := run_spec key (ksStep key) (KRep key)
    (fun a m op h => ksStep_ok key a m op h) ops [] .nil (KRep.nil key)
  exact ⟨a, h1, h2.shows key⟩

/-- A history with an overwrite, a removal and two rejected calls. -/
example : run (ksStep (Prod.fst : Nat × String → Nat)) []
    [.add [(3, "a"), (1, "b"), (3, "c")], .remove 1, .remove 1, .replace (7, "x"), .add [(5, "d")]]
    = .ok ([(3, "c"), (5, "d")], [true, true, false, false, true]) := by decide

/-! ## C09 -/

/-- Two maps with the same entries, possibly listed in a different order. -/
structure Map.Equiv [DecidableEq K] (m m' : Map K V) : Prop where
  val : m.val = m'.val
  perm : m.order.Perm m'.order

theorem Map.Equiv.put [DecidableEq K] {m m' : Map K V} (h : m.Equiv m') (k : K) (v : V) :
    (m.put k v).Equiv (m'.put k v) := by
  refine ⟨by simp [Map.put, h.val], ?_⟩
  simp only [Map.put, h.perm.mem_iff]
  split
  · exact h.perm
  · exact h.perm.append_right _

theorem Map.Equiv.foldl [DecidableEq K] (key : V → K) (vs : List V) {m m' : Map K V}
    (h : m.Equiv m') : (vs.foldl (fun m v => m.put (key v) v) m).Equiv
      (vs.foldl (fun m v => m.put (key v) v) m') := by
  induction vs generalizing m m' with
  | nil => exact h
  | cons v vs ih => exact ih (h.put _ _)

theorem spec_equiv [DecidableEq K] (key : V → K) {m m' : Map K V} (h : m.Equiv m') (op : Op K V) :
    (spec key m op = none ∧ spec key m' op = none) ∨
    (∃ n n', spec key m op = some n ∧ spec key m' op = some n' ∧ n.Equiv n') := by
  cases op with
  | add vs =>
    simp only [spec]
    split
    · exact .inl ⟨rfl, rfl⟩
    · exact .inr ⟨_, _, rfl, rfl, h.foldl key vs⟩
  | remove k =>
    simp only [spec, h.perm.mem_iff]
    split
    · exact .inr ⟨_, _, rfl, rfl, by simp [Map.del, h.val], h.perm.erase _⟩
    · exact .inl ⟨rfl, rfl⟩
  | replace v =>
    simp only [spec, h.perm.mem_iff]
    split
    · exact .inr ⟨_, _, rfl, rfl, h.put _ _⟩
    · exact .inl ⟨rfl, rfl⟩
  | empty => exact .inr ⟨_, _, rfl, rfl, rfl, List.Perm.refl _⟩

/-- `koset` (include/set.h:995-1062): a `ksset` that can be sorted by key. -/
inductive OOp (K V : Type) where
  | op (o : Op K V)
  | sort

/-- One call on a `koset`. -/
def koStep [LinearOrder K] (key : V → K) (a : List V) : OOp K V → Res (List V)
  | .op o => ksStep key a o
  | .sort => sort (lo fun x y => decide (key x > key y)) a a.length

theorem koSort_ok [LinearOrder K] (key : V → K) (a : List V) (m : Map K V) (h : KRep key a m) :
    ∃ a', koStep key a .sort = .ok a' ∧ KRep key a' ⟨a'.map key, m.val⟩ ∧
      (a'.map key).Perm m.order ∧ (a'.map key).Pairwise (· < ·) := by
  obtain ⟨a', h1, h2, h3⟩ := sort_ok (gt := fun x y : V => decide (key x > key y))
    ⟨fun x y h => by simp at h ⊢; exact le_of_lt h,
     fun x y z h1 h2 => by simp at h1 h2 ⊢; exact le_trans h1 h2⟩ a
  have hp : (a'.map key).Perm m.order := by rw [← h.order]; exact h2.map key
  have hnd : (a'.map key).Nodup := hp.nodup_iff.2 h.nodup
  refine ⟨a', h1, ⟨rfl, hnd, fun v hv => h.val v (h2.mem_iff.1 hv),
    fun k hk => h.out k fun hm => hk (hp.mem_iff.2 hm)⟩, hp, ?_⟩
  have h4 : (a'.map key).Pairwise (· ≤ ·) := by
    rw [List.pairwise_map]; exact h3.imp (by simp)
  exact h4.imp₂ (fun x y h1 h2 => lt_of_le_of_ne h1 h2) hnd

/-- The calls on the map in a `koset` history. -/
def mapOps : List (OOp K V) → List (Op K V)
  | [] => []
  | .op o :: ops => o :: mapOps ops
  | .sort :: ops => mapOps ops

/-- Which calls of a `koset` history are accepted, given those of the map calls. -/
def weave : List (OOp K V) → List Bool → List Bool
  | .op _ :: ops, b :: bs => b :: weave ops bs
  | .sort :: ops, bs => true :: weave ops bs
  | _, _ => []

theorem koRun_ok [LinearOrder K] (key : V → K) (ops : List (OOp K V)) : ∀ (a : List V)
    (m m' : Map K V), KRep key a m → m.Equiv m' →
    ∃ a' n, run (koStep key) a ops = .ok (a', weave ops (specRun key m' (mapOps ops)).2) ∧
      KRep key a' n ∧ n.Equiv (specRun key m' (mapOps ops)).1 := by
  induction ops with
  | nil => intro a m m' h he; exact ⟨a, m, rfl, h, he⟩
  | cons o ops ih =>
    intro a m m' h he
    cases o with
    | sort =>
      obtain ⟨a1, h1, h2, h3, _⟩ := koSort_ok key a m h
      obtain ⟨a2, n, g1, g2, g3⟩ := ih a1 _ m' h2 ⟨he.val, h3.trans he.perm⟩
      refine ⟨a2, n, ?_, g2, g3⟩
      rw [run, h1]
      simp only [g1, Res.ok_bind]
      rfl
    | op o =>
      have hs := ksStep_ok key a m o h
      rw [run, mapOps, specRun]
      rcases spec_equiv key he o with ⟨e1, e2⟩ | ⟨n, n', e1, e2, e3⟩
      · obtain ⟨a2, q, g1, g2, g3⟩ := ih a m m' h he
        have : koStep key a (.op o) = .throw := hs.2 e1
        rw [this, e2]
        exact ⟨a2, q, by simp only [g1, Res.ok_bind]; rfl, g2, g3⟩
      · obtain ⟨a1, f1, f2⟩ := hs.1 n e1
        obtain ⟨a2, q, g1, g2, g3⟩ := ih a1 n n' f2 e3
        have : koStep key a (.op o) = .ok a1 := f1
        rw [this, e2]
        exact ⟨a2, q, by simp only [g1, Res.ok_bind]; rfl, g2, g3⟩

/-- C09 for `koset`: sorts may be interleaved anywhere in a history; the set still holds exactly the
entries of the map, lookup by key finds exactly the keys present, and right after a sort the keys are
strictly increasing. -/
theorem C09_koset [LinearOrder K] (key : V → K) (ops : List (OOp K V)) :
    ∃ a n, run (koStep key) [] ops = .ok (a, weave ops (specRun key .nil (mapOps ops)).2) ∧
      Shows key a (fun k => .ok (haskey key a k)) n ∧
      n.val = (specRun key .nil (mapOps ops)).1.val ∧
      n.order.Perm (specRun key .nil (mapOps ops)).1.order ∧
      ∃ a', koStep key a .sort = .ok a' ∧ a'.Perm a ∧ (a'.map key).Pairwise (· < ·) := by
  obtain ⟨a, n, h1, h2, h3⟩ := koRun_ok key ops [] .nil .nil (KRep.nil key) ⟨rfl, List.Perm.refl _⟩
  refine ⟨a, n, h1, h2.shows key, h3.val, h3.perm, ?_⟩
  obtain ⟨a', g1, g2, g3, g4⟩ := koSort_ok key a n h2
  refine ⟨a', g1, ?_, g4⟩
  obtain ⟨a'', f1, f2, _⟩ := sort_ok (gt := fun x y : V => decide (key x > key y))
    ⟨fun x y h => by simp at h ⊢; exact le_of_lt h,
     fun x y z h1 h2 => by simp at h1 h2 ⊢; exact le_trans h1 h2⟩ a
  have : koStep key a .sort = .ok a'' := f1
  rw [g1] at this
  simp only [Res.ok.injEq] at this
  rw [this]; exact f2

example : run (koStep (Prod.fst : Nat × String → Nat)) []
    [.op (.add [(3, "a"), (1, "b")]), .sort, .op (.add [(2, "c"), (3, "d")]), .op (.remove 9), .sort]
    = .ok ([(1, "b"), (2, "c"), (3, "d")], [true, true, true, false, true]) := by decide +kernel

/-- C09 for `kiset`: any history refines the insertion-ordered map, with the binary search lookup
finding exactly the keys present, and sorted access lists exactly the elements by strictly increasing
key. -/
theorem C09_kiset [LinearOrder K] (key : V → K) (ops : List (Op K V)) :
    ∃ s, run (KI.step key) ⟨[], []⟩ ops = .ok (s, (specRun key .nil ops).2) ∧
      Shows key s.vals (s.haskey key) (specRun key .nil ops).1 ∧
      ∃ l : List V, l.Perm s.vals ∧ (l.map key).Pairwise (· < ·) ∧
        ∀ i (h : i < l.length), s.getindex i = .ok l[i] := by
  obtain ⟨s, h1, h2⟩ := run_spec key (KI.step key) (KIRep key)
    (fun s m op h => KI.step_ok s m op h) ops ⟨[], []⟩ .nil KIRep.nil
  refine ⟨s, h1, h2.shows, s.idx.attach.map fun q => s.vals[q.1]'(by
    have := h2.perm.mem_iff.1 q.2; simpa using this), ?_, ?_, ?_⟩
  · have e : ((s.idx.attach.map fun q => s.vals[q.1]'(by
        have := h2.perm.mem_iff.1 q.2; simpa using this)).map some)
        = s.idx.map (fun q => s.vals[q]?) := by
      rw [List.map_map]
      conv_rhs => rw [← List.attach_map_subtype_val s.idx, List.map_map]
      apply List.map_congr_left
      intro q _
      have : q.1 < s.vals.length := by have := h2.perm.mem_iff.1 q.2; simpa using this
      simp [this]
    have e2 : s.vals.map some = (List.range s.vals.length).map (fun q => s.vals[q]?) := by
      apply List.ext_getElem?
      intro i
      by_cases hi : i < s.vals.length
      · simp [hi]
      · simp [List.getElem?_eq_none (Nat.le_of_not_lt hi), Nat.le_of_not_lt hi]
    have hp : ((s.idx.attach.map fun q => s.vals[q.1]'(by
        have := h2.perm.mem_iff.1 q.2; simpa using this)).map some).Perm (s.vals.map some) := by
      rw [e, e2]; exact h2.perm.map _
    have hp' := hp.filterMap id
    simpa [List.filterMap_map, Function.comp_def] using hp'
  · rw [List.pairwise_map, List.pairwise_map]
    have hs : (s.idx.attach.map Subtype.val).Pairwise (KLt key s.vals) := by
      rw [List.attach_map_subtype_val]; exact h2.sorted
    rw [List.pairwise_map] at hs
    refine hs.imp ?_
    intro a b hab
    have ha : a.1 < s.vals.length := by have := h2.perm.mem_iff.1 a.2; simpa using this
    have hb : b.1 < s.vals.length := by have := h2.perm.mem_iff.1 b.2; simpa using this
    exact hab _ (by simp [ha]) _ (by simp [hb])
  · intro i hi
    have hi' : i < s.idx.length := by simpa using hi
    simp [KI.getindex, rd_ok hi', rd_ok (h2.idx_lt hi')]

example : run (KI.step (Prod.fst : Nat × String → Nat)) ⟨[], []⟩
    [.add [(3, "a"), (1, "b"), (2, "c")], .remove 1, .replace (9, "z"), .add [(0, "d")]]
    = .ok (⟨[(3, "a"), (2, "c"), (0, "d")], [2, 1, 0]⟩, [true, true, false, true]) := by decide +kernel

/-! ## C07 -/

/-- C07: `iset` is the indexed set with the element as its own key; histories of add, remove and
empty refine the ordered set of distinct values, the lookup finds exactly the values present, and
sorted access lists them in strictly increasing order. -/
theorem C07_iset [LinearOrder V] (ops : List (Op V V)) (_hr : ∀ v, Op.replace v ∉ ops) :
    ∃ s, run (KI.step (id : V → V)) ⟨[], []⟩ ops = .ok (s, (specRun id .nil ops).2) ∧
      s.vals = (specRun id .nil ops).1.order ∧ s.vals.Nodup ∧
      (∀ v, (∃ p, s.haskey id v = .ok (some p) ∧ s.vals[p]? = some v) ∨
        (s.haskey id v = .ok none ∧ v ∉ s.vals)) ∧
      ∃ l : List V, l.Perm s.vals ∧ l.Pairwise (· < ·) ∧
        ∀ i (h : i < l.length), s.getindex i = .ok l[i] := by
  obtain ⟨s, h1, h2⟩ := run_spec (id : V → V) (KI.step id) (KIRep id)
    (fun s m op h => KI.step_ok s m op h) ops ⟨[], []⟩ .nil KIRep.nil
  obtain ⟨s', g1, g2, l, g3, g4, g5⟩ := C09_kiset (id : V → V) ops
  rw [h1] at g1
  simp only [Res.ok.injEq, Prod.mk.injEq, and_true] at g1
  subst g1
  have ho : s.vals = (specRun id .nil ops).1.order := by simpa using h2.rep.order
  refine ⟨s, h1, ho, ho ▸ h2.rep.nodup, fun v => ?_, l, g3, by simpa using g4, g5⟩
  by_cases hv : v ∈ (specRun id .nil ops).1.order
  · obtain ⟨p, q1, q2, q3⟩ := g2.found v hv
    exact .inl ⟨p, q1, by simp only [id] at q3; simp [q2, q3]⟩
  · exact .inr ⟨(g2.missing v hv).1, ho ▸ hv⟩

example : run (KI.step (id : Nat → Nat)) ⟨[], []⟩ [.add [5, 2, 5, 9], .remove 2, .remove 2]
    = .ok (⟨[5, 9], [0, 1]⟩, [true, true, false]) := by decide +kernel

/-! ## C61 -/

/-- C61 for `kiset`: `getorder(i)` is the place of element `i` in sorted access. -/
theorem C61_kiset_getorder [LinearOrder K] (key : V → K) (ops : List (Op K V)) (s : KI V)
    (bs : List Bool) (hrun : run (KI.step key) ⟨[], []⟩ ops = .ok (s, bs))
    (i : Nat) (hi : i < s.vals.length) :
    ∃ r, s.getorder key i = .ok r ∧ s.getindex r = .ok s.vals[i] := by
  obtain ⟨s', g1, h⟩ := run_spec key (KI.step key) (KIRep key)
    (fun s m op h => KI.step_ok s m op h) ops ⟨[], []⟩ .nil KIRep.nil
  rw [hrun] at g1
  simp only [Res.ok.injEq, Prod.mk.injEq] at g1
  rw [← g1.1] at h
  obtain ⟨r, hr, he⟩ := h.exists_idx hi
  obtain ⟨p, h1, h2, h3, h4⟩ := h.findkey (key s.vals[i])
  have hpr : p = r := by
    rcases Nat.lt_trichotomy p r with hlt | heq | hgt
    · have a1 := h4 p (by omega) (Nat.le_refl _)
      have a2 := h.lt hlt hr
      simp only [he] at a2
      exact absurd a1 (not_le.mpr a2)
    · exact heq
    · have := h3 r hr hgt
      simp only [he] at this
      exact absurd this (lt_irrefl _)
  subst hpr
  refine ⟨p, by simp [KI.getorder, rd_ok hi, h1], ?_⟩
  simp [KI.getindex, rd_ok hr, he, rd_ok hi]

example : run (KI.step (id : Nat → Nat)) ⟨[], []⟩ [.add [3, 1, 2]]
    = .ok (⟨[3, 1, 2], [1, 2, 0]⟩, [true]) := by decide +kernel

/-- C61 is false for `iset`: after adding 3, 1, 2 the element 3 at position 0 is last in the sort
(place 2), but `getorder(0)` returns 1. -/
theorem C61_iset_getorder_wrong :
    ∃ s : KI Nat, run (KI.step (id : Nat → Nat)) ⟨[], []⟩ [.add [3, 1, 2]] = .ok (s, [true]) ∧
      s.getindex 2 = .ok 3 ∧ s.vals[0]? = some 3 ∧ isetGetorder s 0 = .ok 1 :=
  ⟨⟨[3, 1, 2], [1, 2, 0]⟩, by decide +kernel⟩

/-! ## C10 -/

/-- C10 is false: on a set whose keys are distinct, removing a key that is present never removes it.
If the key is not last, the pair after it is removed instead and the key is still found; if it is
last, an object that does not exist is destroyed. -/
theorem C10_asset_remove_wrong [DecidableEq K] (l : List (K × V)) (hnd : (l.map Prod.fst).Nodup)
    (p : Nat) (hp : p < l.length) :
    (p + 1 < l.length →
      asRemove (l.map Prod.fst, l.map Prod.snd) l[p].1
        = .ok ((l.eraseIdx (p + 1)).map Prod.fst, (l.eraseIdx (p + 1)).map Prod.snd) ∧
      l[p] ∈ l.eraseIdx (p + 1)) ∧
    (p + 1 = l.length → asRemove (l.map Prod.fst, l.map Prod.snd) l[p].1 = .ub) := by
  have hk : asHaskey (split2 l) l[p].1 = some p := by
    rw [asHaskey_split]
    rcases haskey_cases Prod.fst l l[p].1 with ⟨_, h2⟩ | ⟨q, h1, h2, h3⟩
    · exact absurd (List.mem_map_of_mem (List.getElem_mem hp)) h2
    · rw [h1]
      congr 1
      exact (List.Nodup.getElem_inj_iff hnd (hi := by simpa using h2) (hj := by simpa using hp)).1
        (by simpa using h3)
  refine ⟨fun h => ⟨?_, ?_⟩, fun h => ?_⟩
  · unfold asRemove
    change (match asHaskey (split2 l) l[p].1 with | none => _ | some p => _) = _
    rw [hk]
    simp only [List.length_map]
    rw [if_pos h, map_eraseIdx', map_eraseIdx']
  · rw [List.mem_iff_getElem?]
    exact ⟨p, by rw [List.getElem?_eraseIdx, if_pos (by omega)]; simp⟩
  · unfold asRemove
    change (match asHaskey (split2 l) l[p].1 with | none => _ | some p => _) = _
    rw [hk]
    simp only [List.length_map]
    rw [if_neg (by omega)]

example : asRemove ([1, 2, 3], ["a", "b", "c"]) 1 = .ok ([1, 3], ["a", "c"]) ∧
    asRemove ([1, 2, 3], ["a", "b", "c"]) 3 = .ub := by decide

/-- What holds of C10: histories without `remove` refine the insertion-ordered map of pairs, keys and
values staying aligned.  Missing: `remove` (see `C10_asset_remove_wrong`). -/
theorem C10_asset_partial [DecidableEq K] (ops : List (Op K (K × V)))
    (hr : ∀ k, Op.remove k ∉ ops) :
    ∃ l : List (K × V), run asStep ([], []) ops
        = .ok ((l.map Prod.fst, l.map Prod.snd), (specRun Prod.fst .nil ops).2) ∧
      Shows Prod.fst l (fun k => .ok (asHaskey (l.map Prod.fst, l.map Prod.snd) k))
        (specRun Prod.fst .nil ops).1 := by
  have key : ∀ (ops : List (Op K (K × V))) (l : List (K × V)), (∀ k, Op.remove k ∉ ops) →
      run asStep (split2 l) ops = (run (ksStep Prod.fst) l ops).map fun r => (split2 r.1, r.2) := by
    intro ops
    induction ops with
    | nil => intro l _; rfl
    | cons op ops ih =>
      intro l h
      rw [run, run, asStep_split l op (fun k hk => h k (by simp [hk]))]
      have h' : ∀ k, Op.remove k ∉ ops := fun k hk => h k (List.mem_cons_of_mem _ hk)
      cases ksStep Prod.fst l op with
      | ok l' =>
        simp only [Res.map_ok]
        rw [ih l' h']
        cases run (ksStep Prod.fst) l' ops <;> rfl
      | throw =>
        change (run asStep (split2 l) ops >>= _) = _
        rw [ih l h']
        cases run (ksStep Prod.fst) l ops <;> rfl
      | ub => rfl
  obtain ⟨l, h1, h2⟩ := C08_ksset_is_a_map (Prod.fst : K × V → K) ops
  refine ⟨l, ?_, ?_⟩
  · have := key ops [] hr
    rw [h1] at this
    exact this
  · have e : (fun k => Res.ok (asHaskey (l.map Prod.fst, l.map Prod.snd) k))
        = fun k => Res.ok (haskey Prod.fst l k) := by
      funext k
      exact congrArg Res.ok (asHaskey_split l k)
    rw [e]; exact h2

example : ∀ k : Nat, Op.remove k ∉ [Op.add [(1, "a"), (2, "b")], Op.replace (2, "c")] := by simp

/-- C10, reading: after a history without `remove`, `s[k]` is the value last stored for `k`; for a key that is not there it reads outside the array. -/
theorem C10_asset_get_partial [DecidableEq K] (ops : List (Op K (K × V))) (hr : ∀ k, Op.remove k ∉ ops) :
    ∃ s : AS K V, run asStep ([], []) ops = .ok (s, (specRun Prod.fst .nil ops).2) ∧
      ∀ k, asGet s k = match (specRun (V := K × V) Prod.fst .nil ops).1.val k with
        | some kv => .ok kv.2
        | none => .ub := by
  obtain ⟨l, h1, h2⟩ := C10_asset_partial ops hr
  refine ⟨_, h1, fun k => ?_⟩
  unfold asGet
  by_cases hk : k ∈ (specRun (V := K × V) Prod.fst .nil ops).1.order
  · obtain ⟨p, g1, g2, g3⟩ := h2.found k hk
    simp only [Res.ok.injEq] at g1
    have := (h2.elem p g2).2
    rw [g3] at this
    rw [g1, this]
    simp [rd, g2]
  · obtain ⟨g1, g2⟩ := h2.missing k hk
    simp only [Res.ok.injEq] at g1
    rw [g1, g2]

example : (run asStep ([], []) [Op.add [(1, "a"), (2, "b")], Op.replace (2, "c")] >>= fun r => asGet r.1 2) = .ok "c" := by decide +kernel

end
end OP.SetFam.Keyed
