import Verif.Table.TableSys
import Mathlib.Logic.Function.Basic
import Mathlib.Algebra.Order.Group.Nat
/-!
# Properties C18–C21, C64 and C65: tables and their axes
-/
namespace OP.Table
open OP.Tree

variable {K V : Type} [LinearOrder K]

theorem prod0 {l : List Nat} (h : 0 ∈ l) : l.prod = 0 := by
  obtain ⟨a, b, rfl⟩ := List.append_of_mem h
  simp

/-! ## C18 -/

/-- C18: for every number of axes and all extents, positions within the extents are mapped one to one
onto the storage indices below the number of cells. -/
theorem C18_addressing (sizes : List Nat) :
    (∀ ps, InRange sizes ps → mkIndex sizes 0 ps < sizes.prod) ∧
    (∀ ps qs, InRange sizes ps → InRange sizes qs → mkIndex sizes 0 ps = mkIndex sizes 0 qs → ps = qs) ∧
    (∀ c, c < sizes.prod → ∃ ps, InRange sizes ps ∧ mkIndex sizes 0 ps = c) := by
  refine ⟨fun ps => mkIndex_lt, fun ps qs => mkIndex_inj, fun c hc => ?_⟩
  obtain ⟨ps, h1, h2⟩ := horner_surj sizes.reverse c (by rwa [List.prod_reverse])
  exact ⟨ps, h1, by rw [mkIndex_horner _ _ _ (by simpa using h1.length_eq), h2]⟩

/-- A table of 2 by 3 by 4 cells. -/
example : InRange [4, 3, 2] [1, 0, 3] ∧ mkIndex [4, 3, 2] 0 [1, 0, 3] = 15 := by
  refine ⟨?_, by decide⟩
  simp [InRange]

/-! ## C19 and C20 -/

/-- A table whose storage covers its cells, and whose cells are all objects when the cell type is a
class. -/
def Sound (pod : Bool) (t : Tab V) : Prop :=
  0 < t.blk ∧ t.sizes.prod ≤ t.buf.length ∧ (pod = false → ∀ j, j < t.sizes.prod → ∃ v, t.buf[j]? = some (some v))

theorem sound_iff {pod : Bool} {t : Tab V} : Sound pod t ↔ Fits pod t := by
  constructor
  · rintro ⟨h1, h2, h3⟩; exact ⟨h1, h2, fun hp j _ h => h3 hp j (by omega)⟩
  · rintro ⟨h1, h2, h3⟩; exact ⟨h1, h2, fun hp j h => h3 hp j (Nat.zero_le _) (by omega)⟩

/-- C19: a position `p` is inserted on the axis with `lo.length` axes declared after it.  All accesses are
inside the storage; cells before `p` on that axis keep their value, the others move up by one, and new cells
hold the default value (for class types). -/
theorem C19_table_add (pod : Bool) (d0 : V) (t : Tab V) (lo hi : List Nat) (n p : Nat)
    (hs : t.sizes = lo ++ n :: hi) (hp : p ≤ n) (ht : Sound pod t) :
    ∃ t', t.add pod d0 lo.length p = .ok t' ∧ t'.sizes = lo ++ (n + 1) :: hi ∧ Sound pod t' ∧
      ∀ xs x ys, InRange hi xs → x ≤ n → InRange lo ys →
        (x < p → t'.at_ (xs ++ x :: ys) = t.at_ (xs ++ x :: ys)) ∧
        (p < x → t'.at_ (xs ++ x :: ys) = t.at_ (xs ++ (x - 1) :: ys)) ∧
        (x = p → pod = false → t'.at_ (xs ++ x :: ys) = .ok d0) := by
  obtain ⟨t', h1, h2, h3, h4⟩ := add_ok pod d0 hs hp (sound_iff.1 ht)
  refine ⟨t', h1, h2, sound_iff.2 h3, fun xs x ys hx hn hy => ?_⟩
  obtain ⟨g1, g2, g3⟩ := h4 xs x ys hx hn hy
  simp only [Tab.cell] at g1 g2 g3
  refine ⟨fun h => ?_, fun h => ?_, fun h hpod => ?_⟩
  · simp only [Tab.at_, Buf.read]; rw [g1 h]
  · simp only [Tab.at_, Buf.read]; rw [g2 h]
  · simp only [Tab.at_, Buf.read]; rw [g3 h hpod]

/-- A row inserted in the middle of a 2 by 2 table. -/
example : (⟨[2, 2], 1, [some 1, some 2, some 3, some 4]⟩ : Tab Nat).add false 0 1 1 =
    .ok ⟨[2, 3], 1, [some 1, some 2, some 0, some 0, some 3, some 4]⟩ := by decide +kernel

/-- A column inserted in the middle of a 2 by 2 table. -/
example : (⟨[2, 2], 1, [some 1, some 2, some 3, some 4]⟩ : Tab Nat).add false 0 0 1 =
    .ok ⟨[3, 2], 1, [some 1, some 0, some 2, some 3, some 0, some 4]⟩ := by decide +kernel

/-- C20: the position `p` is removed.  All accesses are inside the storage, every destroyed cell is an
object, cells before `p` keep their value and the later ones move down by one. -/
theorem C20_table_remove (pod : Bool) (t : Tab V) (lo hi : List Nat) (n p : Nat)
    (hs : t.sizes = lo ++ (n + 1) :: hi) (hp : p ≤ n) (ht : Sound pod t) :
    ∃ t', t.remove pod lo.length p = .ok t' ∧ t'.sizes = lo ++ n :: hi ∧ Sound pod t' ∧
      ∀ xs x ys, InRange hi xs → x < n → InRange lo ys →
        (x < p → t'.at_ (xs ++ x :: ys) = t.at_ (xs ++ x :: ys)) ∧
        (p ≤ x → t'.at_ (xs ++ x :: ys) = t.at_ (xs ++ (x + 1) :: ys)) := by
  obtain ⟨t', h1, h2, h3, h4⟩ := remove_ok pod hs hp (sound_iff.1 ht)
  refine ⟨t', h1, h2, sound_iff.2 h3, fun xs x ys hx hn hy => ?_⟩
  obtain ⟨g1, g2⟩ := h4 xs x ys hx hn hy
  simp only [Tab.cell] at g1 g2
  refine ⟨fun h => ?_, fun h => ?_⟩
  · simp only [Tab.at_, Buf.read]; rw [g1 h]
  · simp only [Tab.at_, Buf.read]; rw [g2 h]

/-- The middle column of a 2 by 3 table. -/
example : ((⟨[3, 2], 1, [some 1, some 2, some 3, some 4, some 5, some 6]⟩ : Tab Nat).remove false 0 1 >>= fun t =>
    .ok (t.sizes, t.buf)) = .ok ([2, 2], [some 1, some 3, some 4, some 6]) := by decide +kernel

/-! ## Histories -/

/-- The calls of a user; `d` counts axes from the last declared one. -/
inductive Op (K V : Type) where
  | add (d : Nat) (k : K)
  | remove (d : Nat) (k : K)
  | put (ks : List K) (v : V)

/-- A call that names an existing axis, or one key per axis. -/
def Op.Fit (n : Nat) : Op K V → Prop
  | .add d _ => d < n
  | .remove d _ => d < n
  | .put ks _ => ks.length = n

/-- A call on the model. -/
def sysStep (pod : Bool) (d0 : V) (s : Sys K V) : Op K V → Res (Sys K V)
  | .add d k => s.addKey pod d0 d k
  | .remove d k => s.removeKey pod d k
  | .put ks v => s.put ks v

/-- A history: a call that throws leaves the state and is reported as `false`. -/
def run (pod : Bool) (d0 : V) (s : Sys K V) : List (Op K V) → Res (Sys K V × List Bool)
  | [] => .ok (s, [])
  | op :: ops => match sysStep pod d0 s op with
    | .ok s' => run pod d0 s' ops >>= fun r => .ok (r.1, true :: r.2)
    | .throw => run pod d0 s ops >>= fun r => .ok (r.1, false :: r.2)
    | .ub => .ub

open Classical in
/-- What a call should do; `none` if it must be rejected. Adding a key gives the cells of that key
the default value, which for plain old data is unspecified. -/
noncomputable def specStep (pod : Bool) (d0 : V) (σ : Spec K V) : Op K V → Option (Spec K V)
  | .add d k => if k ∈ σ.keys.getD d [] then none else
      some ⟨σ.keys.set d (insertKey k (σ.keys.getD d [])),
        fun ks => if ks.reverse[d]? = some k then (if pod then none else some d0) else σ.cells ks⟩
  | .remove d k => if k ∈ σ.keys.getD d [] then
      some ⟨σ.keys.set d ((σ.keys.getD d []).filter (· ≠ k)), σ.cells⟩ else none
  | .put ks v => if Known σ.keys ks then
      some ⟨σ.keys, fun js => if js = ks then some v else σ.cells js⟩ else none

/-- The specified history. -/
noncomputable def spec (pod : Bool) (d0 : V) (σ : Spec K V) : List (Op K V) → Spec K V × List Bool
  | [] => (σ, [])
  | op :: ops => match specStep pod d0 σ op with
    | some σ' => ((spec pod d0 σ' ops).1, true :: (spec pod d0 σ' ops).2)
    | none => ((spec pod d0 σ ops).1, false :: (spec pod d0 σ ops).2)

/-- An axis filled with keys. -/
def fillAxis (s : Me K) : List K → Res (Me K)
  | [] => .ok s
  | k :: ks => axisAdd s k >>= fun x => fillAxis x.1 ks

/-- Fill the axes. -/
def fillAxes : List (List K) → Res (List (Me K))
  | [] => .ok []
  | ks :: r => fillAxis Avl.S.init ks >>= fun a => fillAxes r >>= fun as => .ok (a :: as)

/-- Fill the axes, then make the table. -/
def start (pod : Bool) (pre : List (List K)) : Res (Sys K V) :=
  fillAxes pre >>= fun as => Tab.make pod (as.map Avl.length) >>= fun t => .ok ⟨as, t⟩

theorem fillAxis_ok (ks : List K) : ∀ {s : Me K} {L : List K}, ARep s L → (∀ k ∈ ks, k ∉ L) → ks.Nodup →
    ∃ s', fillAxis s ks = .ok s' ∧ ARep s' (ks.foldl (fun L k => insertKey k L) L) := by
  induction ks with
  | nil => intro s L h _ _; exact ⟨s, rfl, h⟩
  | cons k ks ih =>
    intro s L h h1 h2
    obtain ⟨s', A, B, f1, rfl, f3, f4, f5⟩ := h.add (h1 k (by simp))
    rw [List.nodup_cons] at h2
    rw [List.foldl_cons, insertKey_eq f4 f5]
    obtain ⟨s'', g1, g2⟩ := ih f3 (by
      intro x hx hm
      simp only [List.mem_append, List.mem_cons] at hm
      have := h1 x (by simp [hx])
      rw [List.mem_append, not_or] at this
      rcases hm with hm | rfl | hm
      exacts [this.1 hm, h2.1 hx, this.2 hm]) h2.2
    exact ⟨s'', by rw [fillAxis, f1]; exact g1, g2⟩

/-- The sorted keys of an axis that was filled with `ks`. -/
def sortKeys (ks : List K) : List K := ks.foldl (fun L k => insertKey k L) []

theorem fillAxes_ok (pre : List (List K)) (h : ∀ ks ∈ pre, ks.Nodup) :
    ∃ as, fillAxes pre = .ok as ∧ List.Forall₂ ARep as (pre.map sortKeys) := by
  induction pre with
  | nil => exact ⟨[], rfl, .nil⟩
  | cons ks r ih =>
    obtain ⟨a, h1, h2⟩ := fillAxis_ok ks ARep.init (by simp) (h ks (by simp))
    obtain ⟨as, h3, h4⟩ := ih fun x hx => h x (by simp [hx])
    exact ⟨a :: as, by simp [fillAxes, h1, h3], .cons h2 h4⟩

theorem lengths_eq {as : List (Me K)} {Ls : List (List K)} (h : List.Forall₂ ARep as Ls) :
    as.map Avl.length = Ls.map List.length := by
  induction h with
  | nil => rfl
  | cons h _ ih => simp [h.length, ih]

theorem insertKey_length (k : K) (L : List K) (hk : k ∉ L) : (insertKey k L).length = L.length + 1 := by
  have : ∀ M : List K, k ∉ M → (M.filter (· < k)).length + (M.filter (k < ·)).length = M.length := by
    intro M
    induction M with
    | nil => simp
    | cons x M ih =>
      intro h
      simp only [List.mem_cons, not_or] at h
      have := ih h.2
      rcases lt_trichotomy x k with hx | hx | hx
      · simp only [List.filter_cons, hx, not_lt_of_gt hx, decide_true, decide_false, if_true]; simp; omega
      · exact absurd hx.symm h.1
      · simp only [List.filter_cons, hx, not_lt_of_gt hx, decide_true, decide_false, if_true]; simp; omega
  simp [insertKey]; have := this L hk; omega

/-- No class-type cell exists when the table is made. -/
def NoCells (pod : Bool) (pre : List (List K)) : Prop := pod = true ∨ [] ∈ pre

theorem start_ok (pod : Bool) (pre : List (List K)) (h : ∀ ks ∈ pre, ks.Nodup) (hn : NoCells pod pre) :
    ∃ s : Sys K V, start pod pre = .ok s ∧ SInv pod s ⟨pre.map sortKeys, fun _ => none⟩ := by
  obtain ⟨as, h1, h2⟩ := fillAxes_ok pre h
  obtain ⟨t, g1, g2, g3, g4, g5⟩ := allocate_ok pod (⟨as.map Avl.length, OP.SetFam.dfltBlk, []⟩ : Tab V)
    (by show 0 < OP.SetFam.dfltBlk; decide)
  simp only at g2 g4 g5
  refine ⟨⟨as, t⟩, ?_, h2, ?_, ⟨g3, by rw [g2]; exact g4, ?_⟩, by simp⟩
  · rw [start, h1, Res.ok_bind, Tab.make]
    rw [Tab.length] at g1
    simp only at g1
    rw [g1]; rfl
  · rw [g2]; exact lengths_eq h2
  · intro hp j _ hj
    exfalso
    rcases hn with hn | hn
    · rw [hp] at hn; simp at hn
    · have : (0 : Nat) ∈ t.sizes := by
        rw [g2, lengths_eq h2]
        refine List.mem_map.2 ⟨[], List.mem_map.2 ⟨[], hn, rfl⟩, rfl⟩
      rw [prod0 this] at hj
      omega

theorem step_ok (pod : Bool) (d0 : V) {s : Sys K V} {σ : Spec K V} (h : SInv pod s σ) (op : Op K V)
    (hop : op.Fit σ.keys.length) :
    (specStep pod d0 σ op = none ∧ sysStep pod d0 s op = .throw) ∨
    ∃ s' σ', specStep pod d0 σ op = some σ' ∧ sysStep pod d0 s op = .ok s' ∧ SInv pod s' σ' ∧
      σ'.keys.length = σ.keys.length := by
  cases op with
  | add d k =>
    obtain ⟨h1, h2⟩ := sys_add (d0 := d0) h hop k
    by_cases hk : k ∈ σ.keys.getD d []
    · exact .inl ⟨by simp only [specStep]; rw [if_pos hk], h1 hk⟩
    · obtain ⟨s', e1, e2⟩ := h2 hk
      exact .inr ⟨s', _, by simp only [specStep]; rw [if_neg hk], e1, e2, by simp⟩
  | remove d k =>
    obtain ⟨h1, h2⟩ := sys_remove h hop k
    by_cases hk : k ∈ σ.keys.getD d []
    · obtain ⟨s', e1, e2⟩ := h2 hk
      exact .inr ⟨s', _, by simp only [specStep]; rw [if_pos hk], e1, e2, by simp⟩
    · exact .inl ⟨by simp only [specStep]; rw [if_neg hk], h1 hk⟩
  | put ks v =>
    obtain ⟨h1, h2⟩ := sys_put h ks v hop
    by_cases hk : Known σ.keys ks
    · obtain ⟨s', e1, e2⟩ := h2 hk
      exact .inr ⟨s', _, by simp only [specStep]; rw [if_pos hk], e1, e2, rfl⟩
    · exact .inl ⟨by simp only [specStep]; rw [if_neg hk], h1 hk⟩

theorem run_ok (pod : Bool) (d0 : V) (ops : List (Op K V)) : ∀ {s : Sys K V} {σ : Spec K V}, SInv pod s σ →
    (∀ op ∈ ops, op.Fit σ.keys.length) →
    ∃ s', run pod d0 s ops = .ok (s', (spec pod d0 σ ops).2) ∧ SInv pod s' (spec pod d0 σ ops).1 ∧
      (spec pod d0 σ ops).1.keys.length = σ.keys.length := by
  induction ops with
  | nil => intro s σ h _; exact ⟨s, rfl, h, rfl⟩
  | cons op ops ih =>
    intro s σ h hf
    rcases step_ok pod d0 h op (hf op (by simp)) with ⟨h1, h2⟩ | ⟨s', σ', h1, h2, h3, h4⟩
    · obtain ⟨s2, g1, g2, g3⟩ := ih h fun o ho => hf o (by simp [ho])
      exact ⟨s2, by simp [run, h2, g1, spec, h1], by simpa [spec, h1] using g2, by simpa [spec, h1] using g3⟩
    · obtain ⟨s2, g1, g2, g3⟩ := ih h3 fun o ho => by rw [h4]; exact hf o (by simp [ho])
      exact ⟨s2, by simp [run, h2, g1, spec, h1], by simpa [spec, h1] using g2, by simp [spec, h1, g3, h4]⟩

/-! ## C21 -/

/-- C21, the part that holds: axes are filled, the table is made over them, and then keys are added and
removed and cells assigned through their keys in any order.  Calls are accepted exactly when they should be,
the extent of the table along each axis is the length of that axis, a lookup by keys returns
the value last assigned to that tuple of keys (or the default given when its last key was added), and a
lookup with a missing key throws.  (Missing: `empty` on an axis; see `C21_empty_wrong`.
For class types one axis must be empty when the table is made; see `C65_cells_not_constructed`.) -/
theorem C21_table_agrees_partial (pod : Bool) (d0 : V) (pre : List (List K)) (hpre : ∀ ks ∈ pre, ks.Nodup)
    (hn : NoCells pod pre) (ops : List (Op K V)) (hops : ∀ op ∈ ops, op.Fit pre.length) :
    let σ := spec pod d0 ⟨pre.map sortKeys, fun _ => none⟩ ops
    ∃ (s0 s : Sys K V), start pod pre = .ok s0 ∧ run pod d0 s0 ops = .ok (s, σ.2) ∧
      s.axes.length = pre.length ∧ s.tab.sizes.length = pre.length ∧
      (∀ (d : Nat) (a : Me K), s.axes[d]? = some a → s.tab.sizes[d]? = some (Avl.length a) ∧
        ∃ L : List K, σ.1.keys[d]? = some L ∧ Avl.length a = L.length ∧
          ∀ p (h : p < L.length), axisAt a p = .ok L[p]) ∧
      (∀ ks v, Known σ.1.keys ks → σ.1.cells ks = some v → s.get ks = .ok v) ∧
      (∀ ks, ks.length = pre.length → ¬ Known σ.1.keys ks → s.get ks = .throw) := by
  intro σ
  obtain ⟨s0, h1, h2⟩ := start_ok (V := V) pod pre hpre hn
  obtain ⟨s, g1, g2, g3⟩ := run_ok pod d0 ops h2 (by simpa using hops)
  have g3' : σ.1.keys.length = pre.length := by simpa using g3
  refine ⟨s0, s, h1, g1, by rw [g2.axes.length_eq, g3'], by rw [g2.sizes, List.length_map, g3'], ?_, ?_, ?_⟩
  · intro d a ha
    have hd : d < σ.1.keys.length := by
      rw [← g2.axes.length_eq]; exact (List.getElem?_eq_some_iff.1 ha).1
    obtain ⟨alo, a', ahi, Klo, L, Khi, e1, e2, l1, l2, -, hr, -⟩ := g2.split hd
    have haa : a = a' := by
      rw [e1, ← l1] at ha; simpa using ha.symm
    subst haa
    have hL : σ.1.keys[d]? = some L := by
      show (spec pod d0 _ ops).1.keys[d]? = some L
      rw [e2, ← l2]; simp
    refine ⟨?_, L, hL, hr.length, fun p hp => ?_⟩
    · rw [g2.sizes, List.getElem?_map, hL, hr.length]; rfl
    · rw [hr.at_, List.getElem?_eq_getElem hp]
  · intro ks v hk hv
    exact (g2.get ks (by simpa using hk.length_eq)).1 hk v hv
  · intro ks hl hk
    exact (g2.get ks (by rw [hl]; exact g3'.symm)).2 hk

/-- Two axes, one of them empty when the table is made, and calls that are accepted and rejected. -/
example : (∀ ks ∈ [[3, 1], ([] : List Nat)], ks.Nodup) ∧ NoCells false [[3, 1], ([] : List Nat)] ∧
    (∀ op ∈ ([.add 1 5, .put [5, 1] 7, .add 0 2, .remove 0 3, .add 0 2] : List (Op Nat Nat)), op.Fit 2) ∧
    (start false [[3, 1], []] >>= fun s0 =>
      run (V := Nat) false 0 s0 [.add 1 5, .put [5, 1] 7, .add 0 2, .remove 0 3, .add 0 2] >>= fun r =>
        .ok (r.2, r.1.tab.sizes, r.1.get [5, 1], r.1.get [5, 2], r.1.get [5, 3])) =
        .ok ([true, true, true, true, false], [2, 1], .ok 7, .ok 0, .throw) := by
  refine ⟨by simp, .inr (by simp), by simp [Op.Fit], by decide +kernel⟩

theorem rep0 {n i : Nat} (h : i < n) : (List.replicate n 0)[i]? = some 0 := by
  rw [List.getElem?_replicate, if_pos h]

theorem prod_zero_of_two {n d : Nat} (hn : 2 ≤ n) : ((List.replicate n 0).set d 1).prod = 0 := by
  apply prod0
  rcases Nat.eq_zero_or_pos d with rfl | hd
  · exact List.mem_iff_getElem?.2 ⟨1, by rw [List.getElem?_set_ne (by omega), rep0 (by omega)]⟩
  · exact List.mem_iff_getElem?.2 ⟨0, by rw [List.getElem?_set_ne (by omega), rep0 (by omega)]⟩

theorem addLoop_nil (pod : Bool) (d0 : V) (ss os p : Nat) (i : Nat) :
    addLoop pod d0 0 ss os p i ([] : Buf V) = .ok [] := by
  induction i with
  | zero => rfl
  | succ i ih => simp [addLoop, Buf.memmove, initCells, ih]

theorem empty_ok {pod : Bool} {s : Sys K V} {σ : Spec K V} (h : SInv pod s σ) {d : Nat} (hd : d < σ.keys.length) :
    ∃ s', s.emptyAxis pod d = .ok s' ∧ s'.tab.sizes = List.replicate σ.keys.length 0 ∧ s'.tab.buf = [] ∧
      0 < s'.tab.blk ∧ s'.axes = s.axes.set d Avl.S.init := by
  obtain ⟨alo, a, ahi, Klo, L, Khi, e1, e2, l1, l2, h1, ha, h2⟩ := h.split hd
  have hga : s.axes[d]? = some a := by rw [e1, ← l1]; simp
  have hbp := OP.SetFam.SSet.bufsize_block_pos 0 s.tab.blk h.fits.blk
  have hb0 : (OP.SetFam.bufsize 0 s.tab.blk).1 = 0 := (OP.SetFam.roundUp_zero_iff _ _ hbp).2 rfl
  have hsz : s.tab.sizes.map (fun _ => 0) = List.replicate σ.keys.length 0 := by
    rw [h.sizes, List.map_map]; exact List.map_const' ..
  have : ∃ t', s.tab.allocate pod 0 = .ok t' ∧ t'.sizes = s.tab.sizes ∧ t'.buf = [] ∧ 0 < t'.blk := by
    rw [Tab.allocate]
    simp only [hb0]
    by_cases hl : 0 = s.tab.buf.length
    · rw [if_pos hl]
      exact ⟨_, rfl, rfl, List.length_eq_zero_iff.1 hl.symm, hbp⟩
    · rw [if_neg hl]
      simp only [if_true]
      obtain ⟨b, e, -⟩ := destroyCells_get pod s.tab.sizes.prod s.tab.buf 0 h.fits.live
      have : Tab.length ({ s.tab with blk := (OP.SetFam.bufsize 0 s.tab.blk).2 } : Tab V) = s.tab.sizes.prod :=
        Tab.length_eq _
      rw [this, e]
      exact ⟨_, rfl, rfl, rfl, hbp⟩
  obtain ⟨t', g1, g2, g3, g4⟩ := this
  refine ⟨⟨s.axes.set d (Avl.empty a), { t' with sizes := t'.sizes.map fun _ => 0 }⟩, ?_, ?_, g3, g4, rfl⟩
  · simp [Sys.emptyAxis, hga, Tab.empty, g1]
  · simp only [g2, hsz]

/-- C21 is false: after any history over two or more axes, clearing axis `d` makes the table forget the
extents of the other axes too, although they keep their elements; and once a key is added to `d` again,
a lookup with keys that are all present reads outside the storage. -/
theorem C21_empty_wrong (pod : Bool) (d0 : V) (pre : List (List K)) (hpre : ∀ ks ∈ pre, ks.Nodup)
    (hn : NoCells pod pre) (ops : List (Op K V)) (hops : ∀ op ∈ ops, op.Fit pre.length)
    (d e : Nat) (hd : d < pre.length) (he : e < pre.length) (hde : d ≠ e) (k : K)
    (hne : (spec pod d0 ⟨pre.map sortKeys, fun _ => none⟩ ops).1.keys.getD e [] ≠ []) :
    ∃ (s0 s s1 s2 : Sys K V) (a : Me K), start pod pre = .ok s0 ∧ run pod d0 s0 ops = .ok (s, (spec pod d0
      ⟨pre.map sortKeys, fun _ => none⟩ ops).2) ∧
      s.emptyAxis pod d = .ok s1 ∧ s1.axes[e]? = some a ∧ 0 < Avl.length a ∧ s1.tab.sizes[e]? = some 0 ∧
      s1.addKey pod d0 d k = .ok s2 ∧ s2.tab.length = 0 ∧
      ∀ ks, Known ((spec pod d0 ⟨pre.map sortKeys, fun _ => none⟩ ops).1.keys.set d [k]) ks → s2.get ks = .ub := by
  obtain ⟨s0, h1, h2⟩ := start_ok (V := V) pod pre hpre hn
  obtain ⟨s, g1, g2, g3⟩ := run_ok pod d0 ops h2 (by simpa using hops)
  rw [List.length_map] at g3
  obtain ⟨s1, f1, f2, f3, f4, f5⟩ := empty_ok g2 (d := d) (by omega)
  obtain ⟨alo, a, ahi, Klo, L, Khi, e1, e2, l1, l2, -, ha, -⟩ := g2.split (d := e) (by omega)
  have hL : L ≠ [] := by rw [e2, ← l2] at hne; simpa using hne
  obtain ⟨blo, b, bhi, Jlo, M, Jhi, e1', e2', l1', l2', hlo, hb, hhi⟩ := g2.split (d := d) (by omega)
  have hax : s1.axes = blo ++ Avl.S.init :: bhi := by
    rw [f5, e1', List.set_append_right _ _ (by omega), l1']; simp
  have hgd : s1.axes[d]? = some Avl.S.init := by rw [hax, ← l1']; simp
  obtain ⟨i', A, B, a1, a2, a3, -⟩ := (ARep.init (K := K)).add (k := k) (by simp)
  obtain ⟨rfl, rfl⟩ : A = [] ∧ B = [] := List.append_eq_nil_iff.1 a2.symm
  have hn0 : (spec pod d0 ⟨pre.map sortKeys, fun _ => none⟩ ops).1.keys.length = pre.length := g3
  rw [hn0] at f2
  have hz : ((List.replicate pre.length 0).set d 1).prod = 0 := prod_zero_of_two (by omega)
  -- the table after the key is added
  have hadd : ∃ t2, s1.tab.add pod d0 d 0 = .ok t2 ∧ t2.buf = [] ∧ t2.sizes = (List.replicate pre.length 0).set d 1 := by
    rw [Tab.add]
    simp only [f2]
    have hgz : (List.replicate pre.length 0).getD d 0 = 0 := by simp
    rw [hgz]
    have hlen : Tab.length (⟨(List.replicate pre.length 0).set d 1, s1.tab.blk, s1.tab.buf⟩ : Tab V) = 0 := by
      rw [Tab.length_eq]; exact hz
    have hal2 : Tab.allocate pod (⟨(List.replicate pre.length 0).set d (0 + 1), s1.tab.blk, s1.tab.buf⟩ : Tab V)
        (Tab.length (⟨(List.replicate pre.length 0).set d (0 + 1), s1.tab.blk, s1.tab.buf⟩ : Tab V)) =
        .ok ⟨(List.replicate pre.length 0).set d 1, (OP.SetFam.bufsize 0 s1.tab.blk).2, []⟩ := by
      simp only [Nat.zero_add]
      rw [hlen]
      simp only [Tab.allocate, f3]
      have hbp := OP.SetFam.SSet.bufsize_block_pos 0 s1.tab.blk f4
      have hb0 : (OP.SetFam.bufsize 0 s1.tab.blk).1 = 0 := (OP.SetFam.roundUp_zero_iff _ _ hbp).2 rfl
      rw [if_pos (by simp [hb0])]
    rw [hal2]
    simp only [Res.ok_bind]
    rcases Nat.eq_zero_or_pos d with rfl | hd0
    · have : step (List.replicate pre.length 0) 0 = 0 := by
        rw [step]; apply prod0
        exact List.mem_iff_getElem?.2 ⟨0, by rw [List.getElem?_drop, rep0 (by omega)]⟩
      rw [this, addLoop]
      exact ⟨_, rfl, rfl, rfl⟩
    · have : lengthTo (List.replicate pre.length 0) d = 0 := by
        rw [lengthTo]; apply prod0
        exact List.mem_iff_getElem?.2 ⟨0, by rw [List.getElem?_take, if_pos hd0, rep0 (by omega)]⟩
      rw [this, addLoop_nil]
      exact ⟨_, rfl, rfl, rfl⟩
  obtain ⟨t2, b1, b2, b3⟩ := hadd
  refine ⟨s0, s, s1, ⟨s1.axes.set d i', t2⟩, a, h1, g1, f1, ?_, ?_, ?_, ?_, ?_, ?_⟩
  · rw [f5, List.getElem?_set_ne hde, e1, ← l1]; simp
  · rw [ha.length]; exact List.length_pos_iff.2 hL
  · rw [f2]; simp [he]
  · have a1' : axisAdd (Avl.S.init : Me K) k = .ok (i', 0) := a1
    simp [Sys.addKey, hgd, a1', b1]
  · rw [Tab.length_eq]; simp only [b3]; exact hz
  · intro ks hk
    rw [e2', List.set_append_right _ _ (by omega), l2'] at hk
    simp only [Nat.sub_self, List.set_cons_zero] at hk
    have hax2 : s1.axes.set d i' = blo ++ i' :: bhi := by
      rw [hax, List.set_append_right _ _ (by omega), l1']; simp
    have hF : List.Forall₂ ARep (s1.axes.set d i') (Jlo ++ [k] :: Jhi) := by
      rw [hax2]; exact forall2_join hlo (.cons a3 hhi)
    have hkl : ks.length = (Jlo ++ [k] :: Jhi).length := by rw [hk.length_eq, List.length_reverse]
    have hJ : (Jlo ++ [k] :: Jhi).length = pre.length := by
      rw [← hn0, e2']; simp
    obtain ⟨c1, -⟩ := fromKeys_ok ks _ _ t2.sizes 0 hF (by rw [b3, hJ]; simp) hkl
    simp [Sys.get, c1 hk, b2, Buf.read]

/-- A history and two axes that meet the hypotheses. -/
example : (∀ ks ∈ [[3], [(7 : Nat)]], ks.Nodup) ∧ NoCells true [[3], [(7 : Nat)]] ∧
    (spec true (0 : Nat) ⟨[[3], [(7 : Nat)]].map sortKeys, fun _ => none⟩ []).1.keys.getD 1 [] ≠ [] := by
  refine ⟨by simp, .inl rfl, by simp [spec, sortKeys, insertKey]⟩

/-! ## C64 -/

/-- C64, the part that holds, for lookups by key: in any table that stands for a specification (as in
C21), a tuple with a key that is not on its axis is rejected by reads and by assignments.
(Missing: lookups by position; see `C64_position_not_checked`.) -/
theorem C64_lookup_rejects_partial (pod : Bool) (d0 : V) (pre : List (List K)) (hpre : ∀ ks ∈ pre, ks.Nodup)
    (hn : NoCells pod pre) (ops : List (Op K V)) (hops : ∀ op ∈ ops, op.Fit pre.length) (ks : List K)
    (hl : ks.length = pre.length)
    (hk : ¬ Known (spec pod d0 ⟨pre.map sortKeys, fun _ => none⟩ ops).1.keys ks) (v : V) :
    ∃ (s0 s : Sys K V) (bs : List Bool), start pod pre = .ok s0 ∧ run pod d0 s0 ops = .ok (s, bs) ∧
      s.get ks = .throw ∧ s.put ks v = .throw := by
  obtain ⟨s0, h1, h2⟩ := start_ok (V := V) pod pre hpre hn
  obtain ⟨s, g1, g2, g3⟩ := run_ok pod d0 ops h2 (by simpa using hops)
  rw [List.length_map] at g3
  exact ⟨s0, s, _, h1, g1, (g2.get ks (by omega)).2 hk, (sys_put g2 ks v (by omega)).1 hk⟩

/-- C64 is false for lookups by position: in a table with two axes of extents `m` and `n`, a column past the
end on any row but the last silently names a cell of the next row. -/
theorem C64_position_not_checked (t : Tab V) (m n i j : Nat) (hs : t.sizes = [n, m]) (_hi : i + 1 < m) (_hj : j < n) :
    ¬ InRange t.sizes [i, n + j] ∧ InRange t.sizes [i + 1, j] ∧ t.at_ [i, n + j] = t.at_ [i + 1, j] ∧
      ∀ v, t.set [i, n + j] v = t.set [i + 1, j] v := by
  have he : mkIndex t.sizes 0 [i, n + j] = mkIndex t.sizes 0 [i + 1, j] := by
    rw [hs]; simp [mkIndex]; ring
  refine ⟨?_, ?_, by rw [Tab.at_, Tab.at_, he], fun v => by rw [Tab.set, Tab.set, he]⟩
  · rw [hs, InRange]; simp
  · rw [hs, InRange]; simp; omega

/-- C64, the part that holds for positions: within the extents an assignment is seen by reads of the same positions, and by no others. -/
theorem C64_position_partial (t : Tab V) (hb : t.buf.length = t.sizes.prod) {ps : List Nat} (h : InRange t.sizes ps) (v : V) :
    ∃ t', t.set ps v = .ok t' ∧ t'.sizes = t.sizes ∧ t'.at_ ps = .ok v ∧ ∀ qs, InRange t.sizes qs → qs ≠ ps → t'.at_ qs = t.at_ qs := by
  have hl : mkIndex t.sizes 0 ps < t.buf.length := by rw [hb]; exact mkIndex_lt h
  refine ⟨{ t with buf := t.buf.set (mkIndex t.sizes 0 ps) (some v) }, ?_, rfl, ?_, fun qs hq hne => ?_⟩
  · unfold Tab.set Buf.write
    rw [if_pos hl]
    rfl
  · unfold Tab.at_ Buf.read
    dsimp only
    rw [List.getElem?_set_self hl]
  · unfold Tab.at_ Buf.read
    dsimp only
    rw [List.getElem?_set_ne fun e => hne (mkIndex_inj hq h e.symm)]

/-- A table of two rows and three columns has as many cells, and the last of them is in range. -/
example : (⟨[3, 2], 6, List.replicate 6 (some 0)⟩ : Tab Nat).buf.length = [3, 2].prod ∧ InRange [3, 2] [1, 2] := by
  refine ⟨by decide, ?_⟩
  rw [InRange]; simp

/-- A 2 by 2 table read at row 0, column 2. -/
example : (⟨[2, 2], 1, [some 1, some 2, some 3, some 4]⟩ : Tab Nat).at_ [0, 2] = .ok 3 := by decide

/-! ## C65 -/

/-- C65 is false: a table of a class type made over axes that all have elements has storage in which no
object was constructed, so reading any cell, and removing any key, is undefined behaviour. -/
theorem C65_cells_not_constructed (pre : List (List K)) (hpre : ∀ ks ∈ pre, ks.Nodup) (hne : [] ∉ pre)
    (ks : List K) (hk : Known (pre.map sortKeys) ks) :
    ∃ s : Sys K V, start false pre = .ok s ∧ s.get ks = .ub ∧
      ∀ d k, d < pre.length → k ∈ (pre.map sortKeys).getD d [] → s.removeKey false d k = .ub := by
  obtain ⟨as, h1, h2⟩ := fillAxes_ok pre hpre
  have hlen : ∀ L ∈ pre.map sortKeys, 0 < L.length := by
    intro L hL
    obtain ⟨ks, hks, rfl⟩ := List.mem_map.1 hL
    have hne' : ks ≠ [] := fun h => hne (h ▸ hks)
    obtain ⟨k, r, rfl⟩ := List.exists_cons_of_ne_nil hne'
    have : ∀ (r : List K) (L : List K), 0 < L.length → 0 < (r.foldl (fun L k => insertKey k L) L).length := by
      intro r
      induction r with
      | nil => intro L h; exact h
      | cons x r ih => intro L h; exact ih _ (by simp [insertKey])
    exact this r _ (by simp [insertKey])
  have hpos : ∀ Ls : List (List K), (∀ L ∈ Ls, 0 < L.length) → 0 < (Ls.map List.length).prod := by
    intro Ls h
    induction Ls with
    | nil => simp
    | cons L Ls ih =>
      rw [List.map_cons, List.prod_cons]
      exact Nat.mul_pos (h L (by simp)) (ih fun x hx => h x (by simp [hx]))
  have hprod : 0 < (as.map Avl.length).prod := by rw [lengths_eq h2]; exact hpos _ hlen
  let t0 : Tab V := ⟨as.map Avl.length, OP.SetFam.dfltBlk, []⟩
  have hmk : Tab.make (V := V) false (as.map Avl.length) = .ok { t0 with
      blk := (OP.SetFam.bufsize (as.map Avl.length).prod OP.SetFam.dfltBlk).2,
      buf := List.replicate (OP.SetFam.bufsize (as.map Avl.length).prod OP.SetFam.dfltBlk).1 none } := by
    have hle := OP.SetFam.SSet.le_bufsize (as.map Avl.length).prod OP.SetFam.dfltBlk (by decide)
    have hlt : lengthTo (as.map Avl.length) (as.map Avl.length).length = (as.map Avl.length).prod := by
      rw [lengthTo, List.take_length]
    rw [Tab.make, hlt, Tab.allocate]
    simp only
    rw [if_neg (by simp; omega), if_neg (by omega)]
    simp [Buf.realloc, t0]
  have hbuf : ∀ (n j : Nat) (v : V), (List.replicate n (none : Option V))[j]? ≠ some (some v) := by
    intro n j v h
    rw [List.getElem?_replicate] at h
    split at h <;> simp at h
  refine ⟨⟨as, _⟩, by rw [start, h1, Res.ok_bind, hmk]; rfl, ?_, ?_⟩
  · obtain ⟨c1, -⟩ := fromKeys_ok ks as _ (as.map Avl.length) 0 h2 (by simp [h2.length_eq]) (by simpa using hk.length_eq)
    simp only [Sys.get, t0]
    rw [c1 hk, Res.ok_bind, Buf.read]
    split
    · rename_i a ha; exact absurd ha (hbuf _ _ _)
    · rfl
  · intro d k hd hkd
    have hd' : d < (pre.map sortKeys).length := by simpa using hd
    obtain ⟨Klo, Khi, e1, e2⟩ := split_at (List.getElem?_eq_getElem hd')
    have hF := h2
    rw [e1] at hF
    obtain ⟨alo, r, rfl, f1, f2⟩ := forall2_split _ _ _ hF
    cases f2 with
    | cons ha hr =>
      rename_i a ahi
      have hl : alo.length = d := by rw [f1.length_eq, e2]
      have hgd : (pre.map sortKeys).getD d [] = (pre.map sortKeys)[d] := by
        rw [List.getD_eq_getElem?_getD, List.getElem?_eq_getElem hd']; rfl
      rw [hgd] at hkd
      obtain ⟨A, B, hAB⟩ := List.append_of_mem hkd
      obtain ⟨a', g1, -⟩ := ha.remove hAB
      have hga : (alo ++ a :: ahi)[d]? = some a := by rw [← hl]; simp
      simp only [Sys.removeKey, hga, g1, Res.ok_bind, Tab.remove, t0]
      -- the first destructor call already fails
      have hdl : d = (alo.map Avl.length).length := by simp [hl]
      have hbs : 0 < lengthTo ((alo ++ a :: ahi).map Avl.length) d := by
        rw [List.map_append, List.map_cons, hdl, take_split]
        rw [lengths_eq f1]
        exact hpos _ fun L hL => hlen L (by rw [e1]; simp [hL])
      have hss : 0 < step ((alo ++ a :: ahi).map Avl.length) d := by
        rw [List.map_append, List.map_cons, hdl, drop_split]
        rw [lengths_eq hr]
        exact hpos _ fun L hL => hlen L (by rw [e1]; simp [hL])
      obtain ⟨ss, hss'⟩ : ∃ m, step ((alo ++ a :: ahi).map Avl.length) d = m + 1 := ⟨_, (Nat.succ_pred_eq_of_pos hss).symm⟩
      obtain ⟨bs, hbs'⟩ : ∃ m, lengthTo ((alo ++ a :: ahi).map Avl.length) d = m + 1 := ⟨_, (Nat.succ_pred_eq_of_pos hbs).symm⟩
      rw [hss', hbs', removeLoop]
      have hdes : ∀ (n i : Nat), destroyCells false (List.replicate n (none : Option V)) i (bs + 1) = .ub := by
        intro n i
        have : Buf.destroy (List.replicate n (none : Option V)) i = .ub := by
          rw [Buf.destroy]
          split
          · rename_i v hv; exact absurd hv (hbuf _ _ _)
          · rfl
        simp [destroyCells, Buf.destroyRange, this]
      simp only [hdes, Res.ub_bind]

/-- Two axes with two and one keys. -/
example : (∀ ks ∈ [[3, 1], [(7 : Nat)]], ks.Nodup) ∧ [] ∉ [[3, 1], [(7 : Nat)]] ∧ Known ([[3, 1], [7]].map sortKeys) [7, 3] := by
  refine ⟨by simp, by simp, ?_⟩
  simp [Known, sortKeys, insertKey]

end OP.Table
