import Verif.Rv.House
import Verif.SetFam.PropsSort
import Mathlib.Data.List.Count
import Mathlib.Data.List.Nodup
/-! # Invariant of the house and its realizations -/
namespace OP.Rv
open OP.SetFam OP.SetFam.QS
variable {κ F Z : Type}

/-- One for the place pointed to. -/
def dl (p : Option Nat) (i : Nat) : Nat := if p = some i then 1 else 0

/-- The pointer held by a live handle. -/
def hptr (v : Option (Option Nat)) : Option Nat := v.bind id
/-- The pointer held by a live variable. -/
def vptr (v : Option (Nat × Option Nat)) : Option Nat := v.bind (·.2)

/-- How many handles point to object `i`. -/
def refs (l : List (Option (Option Nat))) (i : Nat) : Nat := l.countP fun v => decide (hptr v = some i)
/-- How many variables point to random variable `j`. -/
def pts (l : List (Option (Nat × Option Nat))) (j : Nat) : Nat := l.countP fun v => decide (vptr v = some j)

/-- One if the house is alive. -/
def alive (hs : List (Option House)) (h : Nat) : Nat := match hs[h]? with | some (some _) => 1 | _ => 0

theorem look_ok {α : Type} {l : List (Option α)} {i : Nat} {a : α} : look l i = .ok a ↔ l[i]? = some (some a) := by
  unfold look; split <;> simp_all

theorem look_ub {α : Type} {l : List (Option α)} {i : Nat} : look l i = .ub ↔ ∀ a, l[i]? ≠ some (some a) := by
  unfold look
  split
  · rename_i a h; simp [h]
  · rename_i h; simp; exact h

theorem look_cases {α : Type} (l : List (Option α)) (i : Nat) :
    (∃ a, l[i]? = some (some a) ∧ look l i = .ok a) ∨ ((∀ a, l[i]? ≠ some (some a)) ∧ look l i = .ub) := by
  cases h : look l i with
  | ok a => exact .inl ⟨a, look_ok.1 h, rfl⟩
  | ub => exact .inr ⟨look_ub.1 h, rfl⟩
  | throw => unfold look at h; split at h <;> cases h

theorem alive_one {hs : List (Option House)} {h : Nat} {H : House} (e : hs[h]? = some (some H)) : alive hs h = 1 := by
  simp [alive, e]

theorem alive_zero {hs : List (Option House)} {h : Nat} (e : ∀ H, hs[h]? ≠ some (some H)) : alive hs h = 0 := by
  unfold alive; split
  · rename_i H h'; exact absurd h' (e H)
  · rfl

theorem countP_set' {α : Type} (p : α → Bool) : ∀ (l : List α) (a : Nat) (x y : α), l[a]? = some x →
    (l.set a y).countP p + (if p x then 1 else 0) = l.countP p + (if p y then 1 else 0)
  | [], _, _, _, h => by simp at h
  | b :: l, 0, x, y, h => by
    simp at h; subst h
    simp only [List.set_cons_zero, List.countP_cons]; omega
  | b :: l, a + 1, x, y, h => by
    have := countP_set' p l a x y (by simpa using h)
    simp only [List.set_cons_succ, List.countP_cons]; omega

theorem refs_set {l : List (Option (Option Nat))} {a : Nat} {x y : Option (Option Nat)} (h : l[a]? = some x) (i : Nat) :
    refs (l.set a y) i + dl (hptr x) i = refs l i + dl (hptr y) i := by
  have := countP_set' (fun v => decide (hptr v = some i)) l a x y h
  simpa [refs, dl] using this

theorem refs_append (l : List (Option (Option Nat))) (y : Option (Option Nat)) (i : Nat) :
    refs (l ++ [y]) i = refs l i + dl (hptr y) i := by
  simp only [refs, List.countP_append, List.countP_singleton, dl]
  by_cases h : hptr y = some i <;> simp [h]

theorem pts_set {l : List (Option (Nat × Option Nat))} {a : Nat} {x y : Option (Nat × Option Nat)} (h : l[a]? = some x)
    (i : Nat) : pts (l.set a y) i + dl (vptr x) i = pts l i + dl (vptr y) i := by
  have := countP_set' (fun v => decide (vptr v = some i)) l a x y h
  simpa [pts, dl] using this

theorem pts_append (l : List (Option (Nat × Option Nat))) (y : Option (Nat × Option Nat)) (i : Nat) :
    pts (l ++ [y]) i = pts l i + dl (vptr y) i := by
  simp only [pts, List.countP_append, List.countP_singleton, dl]
  by_cases h : vptr y = some i <;> simp [h]

theorem refs_pos {l : List (Option (Option Nat))} {a i : Nat} (h : l[a]? = some (some (some i))) : 0 < refs l i := by
  unfold refs
  rw [List.countP_pos_iff]
  exact ⟨_, List.mem_of_getElem? h, by simp [hptr]⟩

theorem pts_pos {l : List (Option (Nat × Option Nat))} {a h i : Nat} (e : l[a]? = some (some (h, some i))) :
    0 < pts l i := by
  unfold pts
  rw [List.countP_pos_iff]
  exact ⟨_, List.mem_of_getElem? e, by simp [vptr]⟩

/-- The heaps agree with the counts `n` of handles and `m` of variables. -/
structure Core (houses : List (Option House)) (rnds : List (Option (Rnd F Z))) (rds : List (Option (Rd κ F)))
    (n m : Nat → Nat) : Prop where
  all : ∀ i, i < rds.length → ∃ r : Rd κ F, rds[i]? = some (some r)
  cnt : ∀ (i : Nat) (r : Rd κ F), rds[i]? = some (some r) → r.cnt = n i + alive houses r.dealer ∧ 0 < r.cnt
  ptr : ∀ i, 0 < n i → i < rds.length
  dlr : ∀ (i : Nat) (r : Rd κ F), rds[i]? = some (some r) → r.dealer < houses.length ∧ r.rv < rnds.length
  str : ∀ (h : Nat) (H : House), houses[h]? = some (some H) →
    H.store.Nodup ∧ ∀ i, i ∈ H.store ↔ ∃ r : Rd κ F, rds[i]? = some (some r) ∧ r.dealer = h
  rnd : ∀ (j : Nat) (q : Rnd F Z), rnds[j]? = some (some q) → q.cnt = m j ∧ 0 < q.cnt
  rpt : ∀ j, 0 < m j → ∃ q : Rnd F Z, rnds[j]? = some (some q)

/-- The invariant of the whole state. -/
structure Good (s : St κ F Z) : Prop where
  core : Core s.houses s.rnds s.rds (refs s.hs) (pts s.rvs)
  own : ∀ (x h : Nat) (p : Option Nat), s.rvs[x]? = some (some (h, p)) → h < s.houses.length

variable {houses : List (Option House)} {rnds : List (Option (Rnd F Z))} {rds : List (Option (Rd κ F))} {n m : Nat → Nat}

theorem lt_of_some {α : Type} {l : List α} {i : Nat} {a : α} (h : l[i]? = some a) : i < l.length :=
  (List.getElem?_eq_some_iff.1 h).1

theorem set_get {α : Type} {l : List α} {i k : Nat} {a b c : α} (h : l[i]? = some a) (e : (l.set i b)[k]? = some c) :
    (k = i ∧ c = b) ∨ (k ≠ i ∧ l[k]? = some c) := by
  by_cases hk : k = i
  · subst hk
    rw [List.getElem?_set_self (lt_of_some h)] at e
    exact .inl ⟨rfl, (Option.some.inj e).symm⟩
  · rw [List.getElem?_set_ne (Ne.symm hk)] at e
    exact .inr ⟨hk, e⟩

theorem Core.congr (C : Core houses rnds rds n m) {n' m' : Nat → Nat} (hn : ∀ i, n' i = n i) (hm : ∀ i, m' i = m i) :
    Core houses rnds rds n' m' := by
  have h1 : n' = n := funext hn
  have h2 : m' = m := funext hm
  rw [h1, h2]; exact C

/-- An object is replaced by one of the same house and variable. -/
theorem Core.setRd (C : Core houses rnds rds n m) {i : Nat} {r r' : Rd κ F} (hr : rds[i]? = some (some r))
    (hd : r'.dealer = r.dealer) (hv : r'.rv = r.rv) {n' : Nat → Nat} (hn : ∀ k, k ≠ i → n' k = n k)
    (hc : r'.cnt = n' i + alive houses r.dealer) (hp : 0 < r'.cnt) :
    Core houses rnds (rds.set i (some r')) n' m where
  all := by
    intro k hk
    rw [List.length_set] at hk
    by_cases e : k = i
    · subst e; exact ⟨r', List.getElem?_set_self hk⟩
    · rw [List.getElem?_set_ne (Ne.symm e)]; exact C.all k hk
  cnt := by
    intro k q hq
    rcases set_get hr hq with ⟨rfl, e⟩ | ⟨hk, e⟩
    · cases e; rw [hd]; exact ⟨hc, hp⟩
    · rw [hn k hk]; exact C.cnt k q e
  ptr := by
    intro k hk
    rw [List.length_set]
    by_cases e : k = i
    · subst e; exact lt_of_some hr
    · rw [hn k e] at hk; exact C.ptr k hk
  dlr := by
    intro k q hq
    rcases set_get hr hq with ⟨rfl, e⟩ | ⟨hk, e⟩
    · cases e; rw [hd, hv]; exact C.dlr k r hr
    · exact C.dlr k q e
  str := by
    intro h H hH
    refine ⟨(C.str h H hH).1, fun k => ?_⟩
    rw [(C.str h H hH).2 k]
    constructor
    · rintro ⟨q, e, hq⟩
      by_cases ek : k = i
      · subst ek
        rw [hr] at e; cases e
        exact ⟨r', List.getElem?_set_self (lt_of_some hr), hd.trans hq⟩
      · exact ⟨q, by rw [List.getElem?_set_ne (Ne.symm ek)]; exact e, hq⟩
    · rintro ⟨q, e, hq⟩
      rcases set_get hr e with ⟨rfl, e'⟩ | ⟨hk, e'⟩
      · cases e'; exact ⟨r, hr, hd.symm.trans hq⟩
      · exact ⟨q, e', hq⟩
  rnd := C.rnd
  rpt := C.rpt

theorem alive_set {h k : Nat} {H H' : House} (e : houses[h]? = some (some H)) :
    alive (houses.set h (some H')) k = alive houses k := by
  unfold alive
  by_cases hk : k = h
  · subst hk; rw [List.getElem?_set_self (lt_of_some e), e]
  · rw [List.getElem?_set_ne (Ne.symm hk)]

/-- The store of a house is reordered. -/
theorem Core.setHouse (C : Core houses rnds rds n m) {h : Nat} {H H' : House} (e : houses[h]? = some (some H))
    (hp : H'.store.Perm H.store) : Core (houses.set h (some H')) rnds rds n m where
  all := C.all
  cnt := by intro i r hr; rw [alive_set e]; exact C.cnt i r hr
  ptr := C.ptr
  dlr := by intro i r hr; rw [List.length_set]; exact C.dlr i r hr
  str := by
    intro k K hK
    rcases set_get e hK with ⟨rfl, e'⟩ | ⟨hk, e'⟩
    · cases e'
      exact ⟨hp.nodup_iff.2 (C.str k H e).1, fun i => by rw [hp.mem_iff]; exact (C.str k H e).2 i⟩
    · exact C.str k K e'
  rnd := C.rnd
  rpt := C.rpt

theorem append_get {α : Type} {l : List α} {k : Nat} {b c : α} (e : (l ++ [b])[k]? = some c) :
    (k = l.length ∧ c = b) ∨ (k < l.length ∧ l[k]? = some c) := by
  rcases Nat.lt_trichotomy k l.length with h | h | h
  · rw [List.getElem?_append_left h] at e; exact .inr ⟨h, e⟩
  · subst h; simp at e; exact .inl ⟨rfl, e.symm⟩
  · rw [List.getElem?_eq_none (by simp; omega)] at e; cases e

theorem Core.newHouse (C : Core houses rnds rds n m) : Core (houses ++ [some ⟨[], 0⟩]) rnds rds n m where
  all := C.all
  cnt := by
    intro i r hr
    have := (C.dlr i r hr).1
    rw [show alive (houses ++ [some ⟨[], 0⟩]) r.dealer = alive houses r.dealer by
      unfold alive; rw [List.getElem?_append_left this]]
    exact C.cnt i r hr
  ptr := C.ptr
  dlr := by intro i r hr; have := C.dlr i r hr; simp; omega
  str := by
    intro h H hH
    rcases append_get hH with ⟨rfl, e⟩ | ⟨hl, e⟩
    · cases e
      refine ⟨List.nodup_nil, fun i => ?_⟩
      simp only [List.not_mem_nil, false_iff, not_exists, not_and]
      intro r hr hd
      have := (C.dlr i r hr).1; omega
    · exact C.str h H e
  rnd := C.rnd
  rpt := C.rpt

theorem Core.newRnd (C : Core houses rnds rds n m) (d : Dist F Z) {m' : Nat → Nat}
    (hm : ∀ j, m' j = m j + dl (some rnds.length) j) : Core houses (rnds ++ [some ⟨d, 1⟩]) rds n m' where
  all := C.all
  cnt := C.cnt
  ptr := C.ptr
  dlr := by intro i r hr; have := C.dlr i r hr; simp; omega
  str := C.str
  rnd := by
    intro j q hq
    rcases append_get hq with ⟨rfl, e⟩ | ⟨hl, e⟩
    · cases e
      have h0 : m rnds.length = 0 := by
        by_contra h
        obtain ⟨q, hq⟩ := C.rpt rnds.length (by omega)
        have := lt_of_some hq; omega
      simp [hm, h0, dl]
    · rw [hm, dl, if_neg (by simp; omega)]; exact C.rnd j q e
  rpt := by
    intro j hj
    by_cases e : j = rnds.length
    · subst e; exact ⟨⟨d, 1⟩, by simp⟩
    · rw [hm, dl, if_neg (by simp; omega)] at hj
      obtain ⟨q, hq⟩ := C.rpt j hj
      exact ⟨q, by rw [List.getElem?_append_left (lt_of_some hq)]; exact hq⟩

theorem Core.setRnd (C : Core houses rnds rds n m) {j : Nat} {q q' : Rnd F Z} (hq : rnds[j]? = some (some q))
    {m' : Nat → Nat} (hm : ∀ k, k ≠ j → m' k = m k) (hc : q'.cnt = m' j) (hp : 0 < q'.cnt) :
    Core houses (rnds.set j (some q')) rds n m' where
  all := C.all
  cnt := C.cnt
  ptr := C.ptr
  dlr := by intro i r hr; rw [List.length_set]; exact C.dlr i r hr
  str := C.str
  rnd := by
    intro k u hu
    rcases set_get hq hu with ⟨rfl, e⟩ | ⟨hk, e⟩
    · cases e; exact ⟨hc, hp⟩
    · rw [hm k hk]; exact C.rnd k u e
  rpt := by
    intro k hk
    by_cases e : k = j
    · subst e; exact ⟨q', List.getElem?_set_self (lt_of_some hq)⟩
    · rw [List.getElem?_set_ne (Ne.symm e)]; rw [hm k e] at hk; exact C.rpt k hk

theorem Core.delRnd (C : Core houses rnds rds n m) {j : Nat} {q : Rnd F Z} (hq : rnds[j]? = some (some q))
    {m' : Nat → Nat} (hm : ∀ k, k ≠ j → m' k = m k) (hc : m' j = 0) :
    Core houses (rnds.set j none) rds n m' where
  all := C.all
  cnt := C.cnt
  ptr := C.ptr
  dlr := by intro i r hr; rw [List.length_set]; exact C.dlr i r hr
  str := C.str
  rnd := by
    intro k u hu
    rcases set_get hq hu with ⟨rfl, e⟩ | ⟨hk, e⟩
    · cases e
    · rw [hm k hk]; exact C.rnd k u e
  rpt := by
    intro k hk
    by_cases e : k = j
    · subst e; omega
    · rw [List.getElem?_set_ne (Ne.symm e)]; rw [hm k e] at hk; exact C.rpt k hk

theorem Core.realize (C : Core houses rnds rds n m) {h j : Nat} {H : House} {q : Rnd F Z}
    (hH : houses[h]? = some (some H)) (hq : rnds[j]? = some (some q)) (r : Rd κ F) (hd : r.dealer = h) (hv : r.rv = j)
    (hc : r.cnt = 2) {n' : Nat → Nat} (hn : ∀ i, n' i = n i + dl (some rds.length) i) :
    Core (houses.set h (some { H with store := H.store ++ [rds.length] })) rnds (rds ++ [some r]) n' m := by
  have h0 : n rds.length = 0 := by
    by_contra h
    have := C.ptr rds.length (by omega); omega
  refine ⟨?_, ?_, ?_, ?_, ?_, C.rnd, C.rpt⟩
  · intro i hi
    simp at hi
    by_cases e : i = rds.length
    · subst e; exact ⟨r, by simp⟩
    · rw [List.getElem?_append_left (by omega)]; exact C.all i (by omega)
  · intro i u hu
    rw [alive_set hH]
    rcases append_get hu with ⟨rfl, e⟩ | ⟨hl, e⟩
    · cases e
      rw [hn, h0, hd, alive_one hH, hc]; simp [dl]
    · rw [hn, dl, if_neg (by simp; omega)]; exact C.cnt i u e
  · intro i hi
    rw [hn] at hi
    simp
    by_cases e : i = rds.length
    · omega
    · rw [dl, if_neg (by simp; omega)] at hi
      have := C.ptr i (by omega); omega
  · intro i u hu
    rw [List.length_set]
    rcases append_get hu with ⟨rfl, e⟩ | ⟨hl, e⟩
    · cases e
      rw [hd, hv]; exact ⟨lt_of_some hH, lt_of_some hq⟩
    · exact C.dlr i u e
  · intro k K hK
    have old : ∀ (k : Nat) (K : House), houses[k]? = some (some K) → ∀ i, i ∈ K.store → i < rds.length := by
      intro k K e i hi
      obtain ⟨u, hu, _⟩ := ((C.str k K e).2 i).1 hi
      exact lt_of_some hu
    rcases set_get hH hK with ⟨rfl, e⟩ | ⟨hk, e⟩
    · cases e
      refine ⟨?_, fun i => ?_⟩
      · rw [List.nodup_append]
        refine ⟨(C.str k H hH).1, by simp, ?_⟩
        intro a ha b hb
        have := old k H hH a ha
        simp at hb; omega
      · rw [List.mem_append, (C.str k H hH).2 i, List.mem_singleton]
        constructor
        · rintro (⟨u, hu, hd'⟩ | rfl)
          · exact ⟨u, by rw [List.getElem?_append_left (lt_of_some hu)]; exact hu, hd'⟩
          · exact ⟨r, by simp, hd⟩
        · rintro ⟨u, hu, hd'⟩
          rcases append_get hu with ⟨rfl, e⟩ | ⟨hl, e⟩
          · exact .inr rfl
          · exact .inl ⟨u, e, hd'⟩
    · refine ⟨(C.str k K e).1, fun i => ?_⟩
      rw [(C.str k K e).2 i]
      constructor
      · rintro ⟨u, hu, hd'⟩
        exact ⟨u, by rw [List.getElem?_append_left (lt_of_some hu)]; exact hu, hd'⟩
      · rintro ⟨u, hu, hd'⟩
        rcases append_get hu with ⟨rfl, e'⟩ | ⟨hl, e'⟩
        · cases e'; exact absurd (hd'.symm.trans hd) hk
        · exact ⟨u, e', hd'⟩

/-! ## Counting -/

theorem incRd_ok (s : St κ F Z) (C : Core s.houses s.rnds s.rds n m) {i : Nat} (hi : i < s.rds.length) {n' : Nat → Nat}
    (hn : ∀ k, n' k = n k + dl (some i) k) :
    ∃ rds', incRd s (some i) = .ok { s with rds := rds' } ∧ Core s.houses s.rnds rds' n' m := by
  obtain ⟨r, hr⟩ := C.all i hi
  refine ⟨_, by simp only [incRd, nn, Res.ok_bind, look_ok.2 hr]; rfl, ?_⟩
  refine C.setRd hr ?_ ?_ ?_ ?_ ?_
  · rfl
  · rfl
  · intro k hk; rw [hn, dl, if_neg (by simp; omega)]; rfl
  · have := (C.cnt i r hr).1
    rw [hn, dl, if_pos rfl]; dsimp only; omega
  · exact Nat.succ_pos _

/-- Giving up a handle: deleting the object is never survived, since only an object whose house is gone is deleted. -/
theorem decRd_cases (s : St κ F Z) (C : Core s.houses s.rnds s.rds n m) {i : Nat} (hi : 0 < n i) {n' : Nat → Nat}
    (hn : ∀ k, n' k + dl (some i) k = n k) : ∃ r : Rd κ F, s.rds[i]? = some (some r) ∧
    ((2 ≤ n i + alive s.houses r.dealer ∧
        ∃ rds', decRd s (some i) = .ok { s with rds := rds' } ∧ rds'.length = s.rds.length ∧
          Core s.houses s.rnds rds' n' m) ∨
      (n i = 1 ∧ alive s.houses r.dealer = 0 ∧ decRd s (some i) = .ub)) := by
  obtain ⟨r, hr⟩ := C.all i (C.ptr i hi)
  refine ⟨r, hr, ?_⟩
  obtain ⟨h1, h2⟩ := C.cnt i r hr
  by_cases h : r.cnt - 1 = 0
  · right
    have ha : alive s.houses r.dealer = 0 := by omega
    refine ⟨by omega, ha, ?_⟩
    simp only [decRd, look_ok.2 hr, Res.ok_bind]
    rw [if_pos h, delRd]
    rcases look_cases s.houses r.dealer with ⟨H, hH, _⟩ | ⟨_, e⟩
    · rw [alive_one hH] at ha; omega
    · rw [e]; rfl
  · left
    refine ⟨by omega, _, by simp only [decRd, look_ok.2 hr, Res.ok_bind]; rw [if_neg h], by simp, ?_⟩
    have h3 := hn i
    rw [dl, if_pos rfl] at h3
    refine C.setRd hr ?_ ?_ ?_ ?_ ?_
    · rfl
    · rfl
    · intro k hk
      have := hn k; rw [dl, if_neg (by simp; omega)] at this; omega
    · dsimp only; omega
    · dsimp only; omega

theorem incRnd_ok (s : St κ F Z) (C : Core s.houses s.rnds s.rds n m) {j : Nat} {q : Rnd F Z}
    (hq : s.rnds[j]? = some (some q)) {m' : Nat → Nat} (hm : ∀ k, m' k = m k + dl (some j) k) :
    ∃ rnds', incRnd s (some j) = .ok { s with rnds := rnds' } ∧ Core s.houses rnds' s.rds n m' := by
  refine ⟨_, by simp only [incRnd, nn, Res.ok_bind, look_ok.2 hq]; rfl, ?_⟩
  refine C.setRnd hq ?_ ?_ ?_
  · intro k hk; rw [hm, dl, if_neg (by simp; omega)]; rfl
  · have := (C.rnd j q hq).1
    rw [hm, dl, if_pos rfl]; dsimp only; omega
  · exact Nat.succ_pos _

theorem decRnd_ok (s : St κ F Z) (C : Core s.houses s.rnds s.rds n m) {j : Nat} (hj : 0 < m j) {m' : Nat → Nat}
    (hm : ∀ k, m' k + dl (some j) k = m k) :
    ∃ rnds', decRnd s (some j) = .ok { s with rnds := rnds' } ∧ Core s.houses rnds' s.rds n m' := by
  obtain ⟨q, hq⟩ := C.rpt j hj
  obtain ⟨h1, h2⟩ := C.rnd j q hq
  have h3 := hm j
  rw [dl, if_pos rfl] at h3
  have off : ∀ k, k ≠ j → m' k = m k := by
    intro k hk
    have := hm k; rw [dl, if_neg (by simp; omega)] at this; omega
  by_cases h : q.cnt - 1 = 0
  · refine ⟨_, by simp only [decRnd, look_ok.2 hq, Res.ok_bind]; rw [if_pos h], C.delRnd hq off (by omega)⟩
  · refine ⟨_, by simp only [decRnd, look_ok.2 hq, Res.ok_bind]; rw [if_neg h], C.setRnd hq off ?_ ?_⟩
    · dsimp only; omega
    · dsimp only; omega

end OP.Rv
