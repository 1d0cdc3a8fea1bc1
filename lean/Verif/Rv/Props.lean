import Verif.Rv.Steps
/-!
# C35: trials of a Monte Carlo simulation

`refs s.hs i` is how many live handles point to realized object `i`, `pts s.rvs j` how many live variables point to random
variable `j`.  `Allowed` says which calls are defined, in terms of the handles, variables and houses that are live.
-/
namespace OP.Rv
open OP.SetFam OP.SetFam.QS
variable {κ F Z : Type}

/-- House `h` exists. -/
def HouseUp (s : St κ F Z) (h : Nat) : Prop := ∃ H, s.houses[h]? = some (some H)
/-- Random variable `j` exists. -/
def RndUp (s : St κ F Z) (j : Nat) : Prop := ∃ q, s.rnds[j]? = some (some q)
/-- Handle `a` points to object `i`. -/
def Points (s : St κ F Z) (a i : Nat) : Prop := s.hs[a]? = some (some (some i))
/-- Giving up handle `a` does not delete the object it points to. -/
def MayDrop (s : St κ F Z) (a : Nat) : Prop :=
  ∀ i, Points s a i → ∀ r : Rd κ F, s.rds[i]? = some (some r) → HouseUp s r.dealer ∨ 2 ≤ refs s.hs i

/-- The calls that are defined. -/
def Allowed (s : St κ F Z) : Cmd κ F Z → Prop
  | .house => True
  | .endHouse h => HouseUp s h ∧ ∀ (i : Nat) (r : Rd κ F), s.rds[i]? = some (some r) → r.dealer = h → 1 ≤ refs s.hs i
  | .makeRv h _ => HouseUp s h
  | .copyRv x => ∃ h j, s.rvs[x]? = some (some (h, some j))
  | .moveRv x => ∃ X, s.rvs[x]? = some (some X)
  | .assignRv x y => (∃ X, s.rvs[x]? = some (some X)) ∧
      ∃ h j, s.rvs[y]? = some (some (h, some j)) ∧ (x = y → 2 ≤ pts s.rvs j)
  | .swapRv x y => (∃ X, s.rvs[x]? = some (some X)) ∧ ∃ Y, s.rvs[y]? = some (some Y)
  | .endRv x => ∃ X, s.rvs[x]? = some (some X)
  | .realize x => ∃ h j, s.rvs[x]? = some (some (h, some j)) ∧ HouseUp s h
  | .nullH => True
  | .copyH a => ∃ i, Points s a i
  | .moveH a => ∃ p, s.hs[a]? = some (some p)
  | .assignH a b => (∃ p, s.hs[a]? = some (some p)) ∧ (∃ i, Points s b i) ∧ MayDrop s a
  | .swapH a b => (∃ p, s.hs[a]? = some (some p)) ∧ ∃ p, s.hs[b]? = some (some p)
  | .endH a => (∃ p, s.hs[a]? = some (some p)) ∧ MayDrop s a
  | .value a => ∃ i, Points s a i
  | .overwrite a _ => ∃ i, Points s a i
  | .setKey a _ _ => ∃ i, Points s a i
  | .roll h => HouseUp s h ∧ ∀ (i : Nat) (r : Rd κ F), s.rds[i]? = some (some r) → r.dealer = h → r.rolled = false → RndUp s r.rv

theorem alive_pos {s : St κ F Z} {h : Nat} : alive s.houses h = 1 ↔ HouseUp s h := by
  constructor
  · intro e
    by_contra hn
    rw [alive_zero (fun H hH => hn ⟨H, hH⟩)] at e; omega
  · rintro ⟨H, hH⟩; exact alive_one hH

theorem alive_not {s : St κ F Z} {h : Nat} (e : ¬ HouseUp s h) : alive s.houses h = 0 :=
  alive_zero fun H hH => e ⟨H, hH⟩

theorem Good.init : Good (St.init : St κ F Z) where
  core := ⟨by simp [St.init], by simp [St.init], by simp [St.init, refs], by simp [St.init], by simp [St.init],
    by simp [St.init], by simp [St.init, pts]⟩
  own := by simp [St.init]

theorem dl_none (i : Nat) : dl none i = 0 := by simp [dl]

theorem own_set {s : St κ F Z} (G : Good s) {x h : Nat} {X : Option (Nat × Option Nat)} {v : Option (Nat × Option Nat)}
    (hx : s.rvs[x]? = some X) (hv : ∀ h p, v = some (h, p) → h < s.houses.length) (y : Nat) (p : Option Nat)
    (e : (s.rvs.set x v)[y]? = some (some (h, p))) : h < s.houses.length := by
  rcases set_get hx e with ⟨rfl, e'⟩ | ⟨_, e'⟩
  · exact hv h p e'.symm
  · exact G.own y h p e'

theorem own_append {s : St κ F Z} (G : Good s) {h : Nat} {v : Option (Nat × Option Nat)}
    (hv : ∀ h p, v = some (h, p) → h < s.houses.length) (y : Nat) (p : Option Nat)
    (e : (s.rvs ++ [v])[y]? = some (some (h, p))) : h < s.houses.length := by
  rcases append_get e with ⟨rfl, e'⟩ | ⟨_, e'⟩
  · exact hv h p e'.symm
  · exact G.own y h p e'

/-- Overwriting an object in place without changing its count. -/
theorem Good.setRd {s : St κ F Z} (G : Good s) {i : Nat} {r r' : Rd κ F} (hr : s.rds[i]? = some (some r))
    (hd : r'.dealer = r.dealer) (hv : r'.rv = r.rv) (hc : r'.cnt = r.cnt) :
    Good { s with rds := s.rds.set i (some r') } where
  core := G.core.setRd hr hd hv (fun _ _ => rfl) (by rw [hc]; exact (G.core.cnt i r hr).1)
    (by rw [hc]; exact (G.core.cnt i r hr).2)
  own := G.own

/-- A handle that points somewhere points to an object that exists. -/
theorem Good.points {s : St κ F Z} (G : Good s) {a i : Nat} (h : Points s a i) : ∃ r, s.rds[i]? = some (some r) :=
  G.core.all i (G.core.ptr i (refs_pos h))

theorem nn_none : nn none = .ub := rfl
theorem nn_some (i : Nat) : nn (some i) = .ok i := rfl

section
variable [LinearOrder κ] (dice : Nat → Nat → Z) (key0 : κ)

/-- Rolling an existing house. -/
theorem roll_good (s : St κ F Z) (G : Good s) {h : Nat} {H : House} (hH : s.houses[h]? = some (some H))
    (hr : ∀ (i : Nat) (r : Rd κ F), s.rds[i]? = some (some r) → r.dealer = h → r.rolled = false → RndUp s r.rv) :
    ∃ (l : List Nat) (rds' : List (Option (Rd κ F))), l.Perm H.store ∧ l.Pairwise (NotAfter s.rds) ∧
      roll dice s h = .ok { s with
        rds := rds'
        houses := s.houses.set h (some ⟨l, H.drawn + l.countP (draws s.rnds s.rds)⟩) } ∧
      rds'.length = s.rds.length ∧ (∀ i, i ∉ l → rds'[i]? = s.rds[i]?) ∧
      (∀ (k i : Nat) (r : Rd κ F), l[k]? = some i → s.rds[i]? = some (some r) → rds'[i]? =
        some (some (rolledTo s.rnds r (dice h (H.drawn + (l.take k).countP (draws s.rnds s.rds)))))) ∧
      Good { s with rds := rds', houses := s.houses.set h (some ⟨l, H.drawn + l.countP (draws s.rnds s.rds)⟩) } := by
  obtain ⟨nd, mem⟩ := G.core.str h H hH
  obtain ⟨l, a, b, c⟩ := roll_split dice s hH (fun i hi => by
    obtain ⟨r, e, _⟩ := (mem i).1 hi; exact ⟨r, e⟩)
  have hl : ∀ i ∈ l, ∃ r : Rd κ F, s.rds[i]? = some (some r) ∧ r.dealer = h ∧
      (r.rolled = false → ∃ q : Rnd F Z, s.rnds[r.rv]? = some (some q)) := by
    intro i hi
    obtain ⟨r, e, hd⟩ := (mem i).1 (a.mem_iff.1 hi)
    exact ⟨r, e, hd, hr i r e hd⟩
  obtain ⟨rds', d, e, f, g⟩ := rollAll_ok dice h l { s with houses := s.houses.set h (some { H with store := l }) }
    { H with store := l } (List.getElem?_set_self (lt_of_some hH)) (a.nodup_iff.2 nd) hl
  refine ⟨l, rds', a, b, ?_, e, f, g, ?_⟩
  · rw [c, d]; simp only [List.set_set]
  have back : ∀ (i : Nat) (u : Rd κ F), rds'[i]? = some (some u) → ∃ r : Rd κ F, s.rds[i]? = some (some r) ∧
      u.dealer = r.dealer ∧ u.rv = r.rv ∧ u.cnt = r.cnt := by
    intro i u hu
    obtain ⟨r, hr⟩ := G.core.all i (by have := lt_of_some hu; rw [e] at this; exact this)
    refine ⟨r, hr, ?_⟩
    by_cases hi : i ∈ l
    · obtain ⟨k, hk⟩ := List.getElem?_of_mem hi
      have := g k i r hk hr
      rw [hu] at this; cases this
      obtain ⟨h1, h2, h3, _⟩ := rolledTo_same s.rnds r (dice h (H.drawn + (l.take k).countP (draws s.rnds s.rds)))
      exact ⟨h1, h2, h3⟩
    · have := f i hi
      rw [hu] at this
      have := this.trans hr; cases this; simp
  have forth : ∀ (i : Nat) (r : Rd κ F), s.rds[i]? = some (some r) → ∃ u : Rd κ F, rds'[i]? = some (some u) ∧
      u.dealer = r.dealer := by
    intro i r hr
    by_cases hi : i ∈ l
    · obtain ⟨k, hk⟩ := List.getElem?_of_mem hi
      exact ⟨_, g k i r hk hr, (rolledTo_same s.rnds r _).1⟩
    · exact ⟨r, (f i hi).trans hr, rfl⟩
  have C' : Core s.houses s.rnds rds' (refs s.hs) (pts s.rvs) := by
    refine ⟨?_, ?_, ?_, ?_, ?_, G.core.rnd, G.core.rpt⟩
    · intro i hi
      obtain ⟨r, hr⟩ := G.core.all i (by rw [e] at hi; exact hi)
      obtain ⟨u, hu, _⟩ := forth i r hr
      exact ⟨u, hu⟩
    · intro i u hu
      obtain ⟨r, hr, h1, _, h3⟩ := back i u hu
      rw [h1, h3]; exact G.core.cnt i r hr
    · intro i hi; rw [e]; exact G.core.ptr i hi
    · intro i u hu
      obtain ⟨r, hr, h1, h2, _⟩ := back i u hu
      rw [h1, h2]; exact G.core.dlr i r hr
    · intro k K hK
      refine ⟨(G.core.str k K hK).1, fun i => ?_⟩
      rw [(G.core.str k K hK).2 i]
      constructor
      · rintro ⟨r, hr, hd⟩
        obtain ⟨u, hu, hd'⟩ := forth i r hr
        exact ⟨u, hu, hd'.trans hd⟩
      · rintro ⟨u, hu, hd⟩
        obtain ⟨r, hr, hd', _⟩ := back i u hu
        exact ⟨r, hr, hd'.symm.trans hd⟩
  exact ⟨C'.setHouse hH a, by
    intro x k p hx
    have := G.own x k p hx
    simpa using this⟩

theorem roll_ub (s : St κ F Z) (G : Good s) {h : Nat} {H : House} (hH : s.houses[h]? = some (some H))
    (hr : ∃ (i : Nat) (r : Rd κ F), s.rds[i]? = some (some r) ∧ r.dealer = h ∧ r.rolled = false ∧ ¬ RndUp s r.rv) : roll dice s h = .ub := by
  obtain ⟨nd, mem⟩ := G.core.str h H hH
  obtain ⟨l, a, b, c⟩ := roll_split dice s hH (fun i hi => by
    obtain ⟨r, e, _⟩ := (mem i).1 hi; exact ⟨r, e⟩)
  obtain ⟨i, r, h1, h2, h3, h4⟩ := hr
  rw [c]
  refine rollAll_ub dice h l _ _ (List.getElem?_set_self (lt_of_some hH)) (a.nodup_iff.2 nd) ?_
    ⟨i, a.mem_iff.2 ((mem i).2 ⟨r, h1, h2⟩), r, h1, h3, ?_⟩
  · intro i hi
    exact (mem i).1 (a.mem_iff.1 hi)
  · exact fun q hq => h4 ⟨q, hq⟩

/-- Every allowed call keeps the invariant. -/
theorem step_ok (s : St κ F Z) (G : Good s) (c : Cmd κ F Z) (hc : Allowed s c) :
    ∃ o s', step dice key0 s c = .ok (o, s') ∧ Good s' := by
  have C := G.core
  cases c with
  | house => exact ⟨_, _, rfl, C.newHouse, fun x h p hx => by
      have := G.own x h p hx
      simp; omega⟩
  | endHouse h =>
    obtain ⟨⟨H, hH⟩, hr⟩ := hc
    obtain ⟨nd, mem⟩ := C.str h H hH
    rcases dropStore_cases H.store { s with houses := s.houses.set h none } nd (fun i hi => by
      obtain ⟨r, e, _⟩ := (mem i).1 hi; exact ⟨r, e⟩) with ⟨a, rds', b, c, d, e⟩ | ⟨⟨i, hi, r, e, e'⟩, _⟩
    · refine ⟨.done, { s with houses := s.houses.set h none, rds := rds' }, ?_, C.endHouse hH a c d e, ?_⟩
      · simp only [step, look_ok.2 hH, Res.ok_bind, b]
      · intro x k p hx
        have := G.own x k p hx
        simpa using this
    · exfalso
      obtain ⟨w, hw, hd⟩ := (mem i).1 hi
      have e1 : s.rds[i]? = some (some r) := e
      rw [e1] at hw; cases hw
      have h1 := (C.cnt i r e1).1
      have h2 := hr i r e1 hd
      rw [hd, alive_one hH] at h1; omega
  | makeRv h d =>
    obtain ⟨H, hH⟩ := hc
    refine ⟨_, _, by simp only [step, look_ok.2 hH, Res.ok_bind]; rfl, C.newRnd d (fun j => ?_), ?_⟩
    · rw [pts_append]; rfl
    · intro x k p hx
      exact own_append G (fun h' p' e => by cases e; exact lt_of_some hH) x p hx
  | copyRv x =>
    obtain ⟨h, j, hx⟩ := hc
    obtain ⟨q, hq⟩ := C.rpt j (pts_pos hx)
    obtain ⟨rnds', a, b⟩ := incRnd_ok s C hq (m' := pts (s.rvs ++ [some (h, some j)])) (fun k => by rw [pts_append]; rfl)
    refine ⟨.done, { s with rnds := rnds', rvs := s.rvs ++ [some (h, some j)] }, ?_, b, ?_⟩
    · simp only [step, look_ok.2 hx, Res.ok_bind, a]
    · intro y k p hy
      exact own_append G (fun h' p' e => by cases e; exact G.own x h _ hx) y p hy
  | moveRv x =>
    obtain ⟨X, hx⟩ := hc
    refine ⟨.done, { s with rvs := s.rvs.set x (some (X.1, none)) ++ [some X] }, by
      simp only [step, look_ok.2 hx, Res.ok_bind], C.congr (fun _ => rfl) (fun k => ?_), ?_⟩
    · rw [pts_append]
      have := pts_set (y := some (X.1, none)) hx k
      simp only [vptr, Option.bind_some, dl_none] at this ⊢
      omega
    · intro y k p hy
      rcases append_get hy with ⟨rfl, e⟩ | ⟨_, e⟩
      · cases e; exact G.own x _ _ hx
      · exact own_set G hx (fun h' p' e => by cases e; exact G.own x _ _ hx) y p e
  | assignRv x y =>
    obtain ⟨⟨X, hx⟩, h, j, hy, hxy⟩ := hc
    obtain ⟨h', p⟩ := X
    have key : ∃ rnds' m', decRnd s p = .ok { s with rnds := rnds' } ∧ Core s.houses rnds' s.rds (refs s.hs) m' ∧
        (∀ k, m' k + dl p k = pts s.rvs k) ∧ 0 < m' j := by
      cases p with
      | none => exact ⟨s.rnds, pts s.rvs, rfl, C, fun k => by rw [dl_none]; rfl, pts_pos hy⟩
      | some j' =>
        have hp := pts_pos hx
        have hm : ∀ k, pts (s.rvs.set x none) k + dl (some j') k = pts s.rvs k := by
          intro k
          have := pts_set (y := none) hx k
          simpa [vptr, dl_none] using this
        obtain ⟨rnds', a, b⟩ := decRnd_ok s C hp hm
        refine ⟨rnds', _, a, b, hm, ?_⟩
        by_cases e : x = y
        · subst e
          have := hxy rfl
          have h2 := hm j
          have h3 : dl (some j') j ≤ 1 := by unfold dl; split_ifs <;> omega
          omega
        · have : (s.rvs.set x none)[y]? = some (some (h, some j)) := by rw [List.getElem?_set_ne e]; exact hy
          exact pts_pos this
    obtain ⟨rnds', m', a, b, hm, hpos⟩ := key
    obtain ⟨q, hq⟩ := b.rpt j hpos
    obtain ⟨rnds'', a', b'⟩ := incRnd_ok { s with rnds := rnds' } b hq (m' := pts (s.rvs.set x (some (h', some j))))
      (fun k => by
        have h1 := pts_set (y := some (h', some j)) hx k
        have h2 := hm k
        simp only [vptr, Option.bind_some] at h1
        omega)
    refine ⟨.done, { s with rnds := rnds'', rvs := s.rvs.set x (some (h', some j)) }, ?_, b', ?_⟩
    · simp only [step, look_ok.2 hx, look_ok.2 hy, Res.ok_bind, a, a']
    · intro z k p' hz
      exact own_set G hx (fun h'' p'' e => by cases e; exact G.own x _ _ hx) z p' hz
  | swapRv x y =>
    obtain ⟨⟨X, hx⟩, Y, hy⟩ := hc
    have hy' : ∃ Y', (s.rvs.set x (some Y))[y]? = some (some Y') ∧ vptr (some Y') = vptr (some Y) := by
      by_cases e : x = y
      · subst e; exact ⟨Y, List.getElem?_set_self (lt_of_some hx), rfl⟩
      · exact ⟨Y, by rw [List.getElem?_set_ne e]; exact hy, rfl⟩
    obtain ⟨Y', hy', hv⟩ := hy'
    refine ⟨.done, { s with rvs := (s.rvs.set x (some Y)).set y (some X) }, by
      simp only [step, look_ok.2 hx, look_ok.2 hy, Res.ok_bind],
      C.congr (fun _ => rfl) (fun k => ?_), ?_⟩
    · have h1 := pts_set (y := some Y) hx k
      have h2 := pts_set (y := some X) hy' k
      rw [hv] at h2
      dsimp only
      omega
    · intro z k p hz
      rcases set_get hy' hz with ⟨rfl, e⟩ | ⟨_, e⟩
      · cases e; exact G.own x _ _ hx
      · exact own_set G hx (fun h'' p'' e => by cases e; exact G.own y _ _ hy) z p e
  | endRv x =>
    obtain ⟨⟨h', p⟩, hx⟩ := hc
    have own' : ∀ (z k : Nat) (p' : Option Nat), (s.rvs.set x none)[z]? = some (some (k, p')) → k < s.houses.length :=
      fun z k p' hz => own_set G hx (fun _ _ e => by cases e) z p' hz
    cases p with
    | none =>
      refine ⟨.done, { s with rvs := s.rvs.set x none }, by simp only [step, look_ok.2 hx, Res.ok_bind, decRnd],
        C.congr (fun _ => rfl) (fun k => ?_), own'⟩
      have := pts_set (y := none) hx k
      simpa [vptr, dl_none] using this
    | some j' =>
      obtain ⟨rnds', a, b⟩ := decRnd_ok s C (pts_pos hx) (m' := pts (s.rvs.set x none)) (fun k => by
        have := pts_set (y := none) hx k
        simpa [vptr, dl_none] using this)
      exact ⟨.done, { s with rnds := rnds', rvs := s.rvs.set x none }, by
        simp only [step, look_ok.2 hx, Res.ok_bind, a], b, own'⟩
  | realize x =>
    obtain ⟨h, j, hx, H, hH⟩ := hc
    obtain ⟨q, hq⟩ := C.rpt j (pts_pos hx)
    refine ⟨_, _, by simp only [step, look_ok.2 hx, Res.ok_bind, nn_some, look_ok.2 hq, look_ok.2 hH]; rfl,
      C.realize hH hq _ rfl rfl rfl (fun i => ?_), ?_⟩
    · rw [refs_append]; rfl
    · intro z k p hz
      have := G.own z k p hz
      simpa using this
  | nullH =>
    refine ⟨_, _, rfl, C.congr (fun i => ?_) (fun _ => rfl), G.own⟩
    rw [refs_append]; simp [hptr, dl_none]
  | copyH a =>
    obtain ⟨i, ha⟩ := hc
    obtain ⟨rds', e, f⟩ := incRd_ok s C (C.ptr i (refs_pos ha)) (n' := refs (s.hs ++ [some (some i)]))
      (fun k => by rw [refs_append]; rfl)
    exact ⟨.done, { s with rds := rds', hs := s.hs ++ [some (some i)] }, by
      simp only [step, look_ok.2 ha, Res.ok_bind, e], f, G.own⟩
  | moveH a =>
    obtain ⟨p, ha⟩ := hc
    refine ⟨.done, { s with hs := s.hs.set a (some none) ++ [some p] }, by
      simp only [step, look_ok.2 ha, Res.ok_bind], C.congr (fun k => ?_) (fun _ => rfl), G.own⟩
    rw [refs_append]
    have := refs_set (y := some none) ha k
    simp only [hptr, Option.bind_some, id, dl_none] at this ⊢
    omega
  | assignH a b =>
    obtain ⟨⟨p, ha⟩, ⟨i, hb⟩, hd⟩ := hc
    have hb' : s.hs[b]? = some (some (some i)) := hb
    have key : ∃ rds' n', decRd s p = .ok { s with rds := rds' } ∧ rds'.length = s.rds.length ∧
        Core s.houses s.rnds rds' n' (pts s.rvs) ∧ (∀ k, n' k + dl p k = refs s.hs k) := by
      cases p with
      | none => exact ⟨s.rds, refs s.hs, rfl, rfl, C, fun k => by rw [dl_none]; rfl⟩
      | some i' =>
        have hm : ∀ k, refs (s.hs.set a none) k + dl (some i') k = refs s.hs k := by
          intro k
          have := refs_set (y := none) ha k
          simpa [hptr, dl_none] using this
        obtain ⟨r, hr, h | h⟩ := decRd_cases s C (refs_pos ha) hm
        · obtain ⟨_, rds', e, f, g⟩ := h
          exact ⟨rds', _, e, f, g, hm⟩
        · exfalso
          rcases hd i' ha r hr with h' | h'
          · rw [alive_pos.2 h'] at h; omega
          · omega
    obtain ⟨rds', n', e, f, g, hn⟩ := key
    obtain ⟨rds'', e', f'⟩ := incRd_ok { s with rds := rds' } g (i := i) (by
        show i < rds'.length
        rw [f]; exact C.ptr i (refs_pos hb)) (n' := refs (s.hs.set a (some (some i))))
      (fun k => by
        have h1 := refs_set (y := some (some i)) ha k
        have h2 := hn k
        simp only [hptr, Option.bind_some, id] at h1
        omega)
    exact ⟨.done, { s with rds := rds'', hs := s.hs.set a (some (some i)) }, by
      simp only [step, look_ok.2 ha, look_ok.2 hb', Res.ok_bind, e, e'], f', G.own⟩
  | swapH a b =>
    obtain ⟨⟨p, ha⟩, q, hb⟩ := hc
    have hb' : ∃ q', (s.hs.set a (some q))[b]? = some (some q') ∧ hptr (some q') = hptr (some q) := by
      by_cases e : a = b
      · subst e; exact ⟨q, List.getElem?_set_self (lt_of_some ha), rfl⟩
      · exact ⟨q, by rw [List.getElem?_set_ne e]; exact hb, rfl⟩
    obtain ⟨q', hb', hv⟩ := hb'
    refine ⟨.done, { s with hs := (s.hs.set a (some q)).set b (some p) }, by
      simp only [step, look_ok.2 ha, look_ok.2 hb, Res.ok_bind],
      C.congr (fun k => ?_) (fun _ => rfl), G.own⟩
    have h1 := refs_set (y := some q) ha k
    have h2 := refs_set (y := some p) hb' k
    rw [hv] at h2
    dsimp only
    omega
  | endH a =>
    obtain ⟨⟨p, ha⟩, hd⟩ := hc
    have hm : ∀ k, refs (s.hs.set a none) k + dl p k = refs s.hs k := by
      intro k
      have := refs_set (y := none) ha k
      simpa [hptr, dl_none] using this
    cases p with
    | none =>
      refine ⟨.done, { s with hs := s.hs.set a none }, by simp only [step, look_ok.2 ha, Res.ok_bind, decRd],
        C.congr (fun k => ?_) (fun _ => rfl), G.own⟩
      have := hm k; rw [dl_none] at this; exact this
    | some i =>
      obtain ⟨r, hr, h | h⟩ := decRd_cases s C (refs_pos ha) hm
      · obtain ⟨_, rds', e, f, g⟩ := h
        exact ⟨.done, { s with rds := rds', hs := s.hs.set a none }, by
          simp only [step, look_ok.2 ha, Res.ok_bind, e], g, G.own⟩
      · exfalso
        rcases hd i ha r hr with h' | h'
        · rw [alive_pos.2 h'] at h; omega
        · omega
  | value a =>
    obtain ⟨i, ha⟩ := hc
    obtain ⟨r, hr⟩ := G.points ha
    exact ⟨_, s, by simp only [step, look_ok.2 ha, Res.ok_bind, nn_some, look_ok.2 hr]; rfl, G⟩
  | overwrite a f =>
    obtain ⟨i, ha⟩ := hc
    obtain ⟨r, hr⟩ := G.points ha
    exact ⟨_, _, by simp only [step, look_ok.2 ha, Res.ok_bind, nn_some, look_ok.2 hr]; rfl, by
      apply G.setRd hr <;> rfl⟩
  | setKey a t k =>
    obtain ⟨i, ha⟩ := hc
    obtain ⟨r, hr⟩ := G.points ha
    exact ⟨_, _, by simp only [step, look_ok.2 ha, Res.ok_bind, nn_some, look_ok.2 hr]; rfl, by
      apply G.setRd hr <;> rfl⟩
  | roll h =>
    obtain ⟨⟨H, hH⟩, hr⟩ := hc
    obtain ⟨l, rds', _, _, e, _, _, _, g⟩ := roll_good dice s G hH hr
    exact ⟨.done, _, by simp only [step, e, Res.ok_bind], g⟩

/-- Every other call is undefined. -/
theorem step_ub (s : St κ F Z) (G : Good s) (c : Cmd κ F Z) (hc : ¬ Allowed s c) : step dice key0 s c = .ub := by
  have C := G.core
  cases c with
  | house => exact absurd trivial hc
  | endHouse h =>
    rcases look_cases s.houses h with ⟨H, hH, e⟩ | ⟨_, e⟩
    · obtain ⟨nd, mem⟩ := C.str h H hH
      simp only [step, e, Res.ok_bind]
      rcases dropStore_cases H.store { s with houses := s.houses.set h none } nd (fun i hi => by
        obtain ⟨r, e, _⟩ := (mem i).1 hi; exact ⟨r, e⟩) with ⟨a, _⟩ | ⟨_, a⟩
      · exfalso
        refine hc ⟨⟨H, hH⟩, fun i r hr hd => ?_⟩
        have := a i ((mem i).2 ⟨r, hr, hd⟩) r hr
        have h1 := (C.cnt i r hr).1
        rw [hd, alive_one hH] at h1; omega
      · rw [a]; rfl
    · simp only [step, e]; rfl
  | makeRv h d =>
    rcases look_cases s.houses h with ⟨H, hH, e⟩ | ⟨_, e⟩
    · exact absurd ⟨H, hH⟩ hc
    · simp only [step, e]; rfl
  | copyRv x =>
    rcases look_cases s.rvs x with ⟨⟨h, p⟩, hx, e⟩ | ⟨_, e⟩
    · cases p with
      | none => simp only [step, e, Res.ok_bind, incRnd, nn_none]; rfl
      | some j => exact absurd ⟨h, j, hx⟩ hc
    · simp only [step, e]; rfl
  | moveRv x =>
    rcases look_cases s.rvs x with ⟨X, hx, e⟩ | ⟨_, e⟩
    · exact absurd ⟨X, hx⟩ hc
    · simp only [step, e]; rfl
  | assignRv x y =>
    rcases look_cases s.rvs x with ⟨⟨h', p⟩, hx, e⟩ | ⟨_, e⟩
    · rcases look_cases s.rvs y with ⟨⟨h, q⟩, hy, e'⟩ | ⟨_, e'⟩
      · have key : ∃ rnds', decRnd s p = .ok { s with rnds := rnds' } ∧
            (x = y → ∀ j, q = some j → pts s.rvs j ≤ 1 → ∀ w, rnds'[j]? ≠ some (some w)) := by
          cases p with
          | none =>
            refine ⟨s.rnds, rfl, ?_⟩
            rintro rfl j rfl
            rw [hx] at hy; cases hy
          | some j' =>
            have hm : ∀ k, pts (s.rvs.set x none) k + dl (some j') k = pts s.rvs k := by
              intro k
              have := pts_set (y := none) hx k
              simpa [vptr, dl_none] using this
            obtain ⟨rnds', a, b⟩ := decRnd_ok s C (pts_pos hx) hm
            refine ⟨rnds', a, ?_⟩
            rintro rfl j hq hle w hw
            rw [hx] at hy; cases hy; cases hq
            have h1 := b.rnd j' w hw
            have h2 := hm j'
            rw [dl, if_pos rfl] at h2
            omega
        obtain ⟨rnds', a, b⟩ := key
        simp only [step, e, e', Res.ok_bind, a]
        cases q with
        | none => simp only [incRnd, nn_none]; rfl
        | some j =>
          have : x = y ∧ pts s.rvs j ≤ 1 := by
            by_contra hn
            refine hc ⟨⟨_, hx⟩, h, j, hy, fun exy => ?_⟩
            by_contra h2
            exact hn ⟨exy, by omega⟩
          simp only [incRnd, nn_some, Res.ok_bind, look_ub.2 (b this.1 j rfl this.2)]
          rfl
      · simp only [step, e, e', Res.ok_bind]; rfl
    · simp only [step, e]; rfl
  | swapRv x y =>
    rcases look_cases s.rvs x with ⟨X, hx, e⟩ | ⟨_, e⟩
    · rcases look_cases s.rvs y with ⟨Y, hy, e'⟩ | ⟨_, e'⟩
      · exact absurd ⟨⟨X, hx⟩, Y, hy⟩ hc
      · simp only [step, e, e', Res.ok_bind]; rfl
    · simp only [step, e]; rfl
  | endRv x =>
    rcases look_cases s.rvs x with ⟨X, hx, e⟩ | ⟨_, e⟩
    · exact absurd ⟨X, hx⟩ hc
    · simp only [step, e]; rfl
  | realize x =>
    rcases look_cases s.rvs x with ⟨⟨h, p⟩, hx, e⟩ | ⟨_, e⟩
    · cases p with
      | none => simp only [step, e, Res.ok_bind, nn_none]; rfl
      | some j =>
        obtain ⟨q, hq⟩ := C.rpt j (pts_pos hx)
        rcases look_cases s.houses h with ⟨H, hH, e'⟩ | ⟨_, e'⟩
        · exact absurd ⟨h, j, hx, H, hH⟩ hc
        · simp only [step, e, Res.ok_bind, nn_some, look_ok.2 hq, e']; rfl
    · simp only [step, e]; rfl
  | nullH => exact absurd trivial hc
  | copyH a =>
    rcases look_cases s.hs a with ⟨p, ha, e⟩ | ⟨_, e⟩
    · cases p with
      | none => simp only [step, e, Res.ok_bind, incRd, nn_none]; rfl
      | some i => exact absurd ⟨i, ha⟩ hc
    · simp only [step, e]; rfl
  | moveH a =>
    rcases look_cases s.hs a with ⟨p, ha, e⟩ | ⟨_, e⟩
    · exact absurd ⟨p, ha⟩ hc
    · simp only [step, e]; rfl
  | assignH a b =>
    rcases look_cases s.hs a with ⟨p, ha, e⟩ | ⟨_, e⟩
    · rcases look_cases s.hs b with ⟨q, hb, e'⟩ | ⟨_, e'⟩
      · simp only [step, e, e', Res.ok_bind]
        have key : decRd s p = .ub ∨ ∃ s1, decRd s p = .ok s1 ∧ MayDrop s a := by
          cases p with
          | none =>
            refine .inr ⟨s, rfl, fun i hi => ?_⟩
            rw [Points, ha] at hi; cases hi
          | some i =>
            have hm : ∀ k, refs (s.hs.set a none) k + dl (some i) k = refs s.hs k := by
              intro k
              have := refs_set (y := none) ha k
              simpa [hptr, dl_none] using this
            obtain ⟨r, hr, h | h⟩ := decRd_cases s C (refs_pos ha) hm
            · obtain ⟨h2, rds', e1, _⟩ := h
              refine .inr ⟨_, e1, fun i' hi' r' hr' => ?_⟩
              rw [Points, ha] at hi'; cases hi'
              rw [hr] at hr'; cases hr'
              by_cases hu : HouseUp s r.dealer
              · exact .inl hu
              · rw [alive_not hu] at h2; exact .inr (by omega)
            · exact .inl h.2.2
        rcases key with h | ⟨s1, h, hd⟩
        · rw [h]; rfl
        · rw [h, Res.ok_bind]
          cases q with
          | none => simp only [incRd, nn_none]; rfl
          | some i => exact absurd ⟨⟨p, ha⟩, ⟨i, hb⟩, hd⟩ hc
      · simp only [step, e, e', Res.ok_bind]; rfl
    · simp only [step, e]; rfl
  | swapH a b =>
    rcases look_cases s.hs a with ⟨p, ha, e⟩ | ⟨_, e⟩
    · rcases look_cases s.hs b with ⟨q, hb, e'⟩ | ⟨_, e'⟩
      · exact absurd ⟨⟨p, ha⟩, q, hb⟩ hc
      · simp only [step, e, e', Res.ok_bind]; rfl
    · simp only [step, e]; rfl
  | endH a =>
    rcases look_cases s.hs a with ⟨p, ha, e⟩ | ⟨_, e⟩
    · simp only [step, e, Res.ok_bind]
      cases p with
      | none =>
        refine absurd ⟨⟨none, ha⟩, fun i hi => ?_⟩ hc
        rw [Points, ha] at hi; cases hi
      | some i =>
        have hm : ∀ k, refs (s.hs.set a none) k + dl (some i) k = refs s.hs k := by
          intro k
          have := refs_set (y := none) ha k
          simpa [hptr, dl_none] using this
        obtain ⟨r, hr, h | h⟩ := decRd_cases s C (refs_pos ha) hm
        · exfalso
          refine hc ⟨⟨_, ha⟩, fun i' hi' r' hr' => ?_⟩
          rw [Points, ha] at hi'; cases hi'
          rw [hr] at hr'; cases hr'
          by_cases hu : HouseUp s r.dealer
          · exact .inl hu
          · rw [alive_not hu] at h; exact .inr (by omega)
        · rw [h.2.2]; rfl
    · simp only [step, e]; rfl
  | value a =>
    rcases look_cases s.hs a with ⟨p, ha, e⟩ | ⟨_, e⟩
    · cases p with
      | none => simp only [step, e, Res.ok_bind, nn_none]; rfl
      | some i => exact absurd ⟨i, ha⟩ hc
    · simp only [step, e]; rfl
  | overwrite a f =>
    rcases look_cases s.hs a with ⟨p, ha, e⟩ | ⟨_, e⟩
    · cases p with
      | none => simp only [step, e, Res.ok_bind, nn_none]; rfl
      | some i => exact absurd ⟨i, ha⟩ hc
    · simp only [step, e]; rfl
  | setKey a t k =>
    rcases look_cases s.hs a with ⟨p, ha, e⟩ | ⟨_, e⟩
    · cases p with
      | none => simp only [step, e, Res.ok_bind, nn_none]; rfl
      | some i => exact absurd ⟨i, ha⟩ hc
    · simp only [step, e]; rfl
  | roll h =>
    rcases look_cases s.houses h with ⟨H, hH, e⟩ | ⟨_, e⟩
    · have : ∃ (i : Nat) (r : Rd κ F), s.rds[i]? = some (some r) ∧ r.dealer = h ∧ r.rolled = false ∧ ¬ RndUp s r.rv := by
        by_contra hn
        push Not at hn
        exact hc ⟨⟨H, hH⟩, fun i r h1 h2 h3 => hn i r h1 h2 h3⟩
      simp only [step, roll_ub dice s G hH this]; rfl
    · simp only [step, roll, e]; rfl

end

/-! ## The property -/

/-- States a program can reach without undefined behaviour. -/
def Reached [LinearOrder κ] (dice : Nat → Nat → Z) (key0 : κ) (s : St κ F Z) : Prop :=
  ∃ cs os, run dice key0 St.init cs = .ok (os, s)

section
variable [LinearOrder κ] {dice : Nat → Nat → Z} {key0 : κ}

theorem good_run : ∀ (cs : List (Cmd κ F Z)) (s : St κ F Z), Good s → ∀ os s', run dice key0 s cs = .ok (os, s') → Good s'
  | [], s, G, os, s', h => by
    rw [run] at h; cases h; exact G
  | c :: cs, s, G, os, s', h => by
    rw [run] at h
    obtain ⟨⟨o, s1⟩, h1, h2⟩ := Res.bind_eq_ok.1 h
    obtain ⟨⟨os1, s2⟩, h3, h4⟩ := Res.bind_eq_ok.1 h2
    cases h4
    by_cases ha : Allowed s c
    · obtain ⟨o', s1', e, G1⟩ := step_ok dice key0 s G c ha
      rw [h1] at e; cases e
      exact good_run cs s1 G1 _ _ h3
    · rw [step_ub dice key0 s G c ha] at h1; cases h1

theorem Reached.good {s : St κ F Z} (h : Reached dice key0 s) : Good s := by
  obtain ⟨cs, os, e⟩ := h
  exact good_run cs St.init Good.init os s e

/-- C35: after any history of calls, the count of a random variable is the number of live variables that share it, and is
not zero; the count of a realized object is the number of live handles to it, plus one while its house is alive; every
live handle points to an object that exists; and the store of a house holds each of its objects exactly once. -/
theorem C35_counts {s : St κ F Z} (h : Reached dice key0 s) :
    (∀ (j : Nat) (q : Rnd F Z), s.rnds[j]? = some (some q) → q.cnt = pts s.rvs j ∧ 0 < q.cnt) ∧
      (∀ (x k j : Nat), s.rvs[x]? = some (some (k, some j)) → RndUp s j) ∧
      (∀ (i : Nat) (r : Rd κ F), s.rds[i]? = some (some r) →
        (HouseUp s r.dealer → r.cnt = refs s.hs i + 1) ∧ (¬ HouseUp s r.dealer → r.cnt = refs s.hs i)) ∧
      (∀ a i, Points s a i → ∃ r, s.rds[i]? = some (some r)) ∧
      ∀ (k : Nat) (H : House), s.houses[k]? = some (some H) →
        H.store.Nodup ∧ ∀ i, i ∈ H.store ↔ ∃ r : Rd κ F, s.rds[i]? = some (some r) ∧ r.dealer = k := by
  have G := h.good
  refine ⟨G.core.rnd, fun x k j hx => G.core.rpt j (pts_pos hx), fun i r hr => ⟨fun hu => ?_, fun hu => ?_⟩,
    fun a i ha => G.points ha, G.core.str⟩
  · rw [(G.core.cnt i r hr).1, alive_pos.2 hu]
  · rw [(G.core.cnt i r hr).1, alive_not hu]; rfl

/-- C35: after any history, a call is defined exactly when it is allowed, and no call ever throws.  In particular reading a
realization through a handle that was not moved from is always defined. -/
theorem C35_defined {s : St κ F Z} (h : Reached dice key0 s) (c : Cmd κ F Z) :
    (Allowed s c → ∃ o s', step dice key0 s c = .ok (o, s')) ∧ (¬ Allowed s c → step dice key0 s c = .ub) := by
  refine ⟨fun ha => ?_, step_ub dice key0 s h.good c⟩
  obtain ⟨o, s', e, _⟩ := step_ok dice key0 s h.good c ha
  exact ⟨o, s', e⟩

/-- C35: rolling the dice of a house goes through all its objects in one order sorted by trial and key.  The `k`th of them,
if it was not rolled before, gets the value of its distribution at the next standard normal number, where only the random
ones before it have used one up; objects rolled before, and objects of other houses, are left as they were.  However many
handles there are, one number is drawn for each object that was not rolled and is random.
Partial: the call must be defined, which `C35_variable_gone_wrong` shows it need not be. -/
theorem C35_roll_partial {s s' : St κ F Z} (h : Reached dice key0 s) {k : Nat} {o : Out F}
    (hs : step dice key0 s (.roll k) = .ok (o, s')) :
    ∃ (H : House) (l : List Nat), s.houses[k]? = some (some H) ∧ l.Perm H.store ∧ l.Pairwise (NotAfter s.rds) ∧
      (∀ (m i : Nat) (r : Rd κ F), l[m]? = some i → s.rds[i]? = some (some r) → r.rolled = true →
        s'.rds[i]? = some (some r)) ∧
      (∀ (m i : Nat) (r : Rd κ F), l[m]? = some i → s.rds[i]? = some (some r) → r.rolled = false →
        ∃ q : Rnd F Z, s.rnds[r.rv]? = some (some q) ∧ s'.rds[i]? = some (some { r with
          v := dealt q.dist (dice k (H.drawn + (l.take m).countP (draws s.rnds s.rds)))
          rolled := true })) ∧
      (∀ (i : Nat) (r : Rd κ F), s.rds[i]? = some (some r) → r.dealer ≠ k → s'.rds[i]? = some (some r)) ∧
      s' = { s with
        rds := s'.rds
        houses := s.houses.set k (some ⟨l, H.drawn + l.countP (draws s.rnds s.rds)⟩) } ∧
      s'.rds.length = s.rds.length := by
  have G := h.good
  by_cases ha : Allowed s (.roll k)
  · obtain ⟨⟨H, hH⟩, hr⟩ := ha
    obtain ⟨l, rds', a, b, e, f, g, i', G'⟩ := roll_good dice s G hH hr
    simp only [step, e, Res.ok_bind] at hs
    cases hs
    refine ⟨H, l, hH, a, b, ?_, ?_, ?_, rfl, f⟩
    · intro m i r hm hi hro
      have := i' m i r hm hi
      rw [rolledTo, if_pos hro] at this; exact this
    · intro m i r hm hi hro
      obtain ⟨u, hu, hd⟩ := ((G.core.str k H hH).2 i).1 (a.mem_iff.1 (List.mem_of_getElem? hm))
      rw [hi] at hu; cases hu
      obtain ⟨q, hq⟩ := hr i r hi hd hro
      refine ⟨q, hq, ?_⟩
      have := i' m i r hm hi
      rw [rolledTo, if_neg (by simp [hro]), hq] at this; exact this
    · intro i r hi hd
      refine (g i fun hl => ?_).trans hi
      obtain ⟨u, hu, hd'⟩ := ((G.core.str k H hH).2 i).1 (a.mem_iff.1 hl)
      rw [hi] at hu; cases hu
      exact hd hd'
  · rw [step_ub dice key0 s G _ ha] at hs; cases hs

end

/-! ## Nothing else changes a realization -/

/-- Objects are the same but for their counts. -/
def SameButCnt (rds rds' : List (Option (Rd κ F))) : Prop :=
  ∀ (i : Nat) (r : Rd κ F), rds[i]? = some (some r) → ∃ c, rds'[i]? = some (some { r with cnt := c })

theorem SameButCnt.rfl' (rds : List (Option (Rd κ F))) : SameButCnt rds rds := fun i r h => ⟨r.cnt, h⟩

theorem SameButCnt.trans {a b c : List (Option (Rd κ F))} (h : SameButCnt a b) (h' : SameButCnt b c) : SameButCnt a c := by
  intro i r hr
  obtain ⟨n, hn⟩ := h i r hr
  obtain ⟨n', hn'⟩ := h' i _ hn
  exact ⟨n', hn'⟩

theorem sameButCnt_set {rds : List (Option (Rd κ F))} {i : Nat} {r : Rd κ F} (h : rds[i]? = some (some r)) (c : Nat) :
    SameButCnt rds (rds.set i (some { r with cnt := c })) := by
  intro k u hu
  by_cases e : k = i
  · subst e
    rw [h] at hu; cases hu
    exact ⟨c, List.getElem?_set_self (lt_of_some h)⟩
  · exact ⟨u.cnt, by rw [List.getElem?_set_ne (Ne.symm e)]; exact hu⟩

theorem incRd_same {s s' : St κ F Z} {p : Option Nat} (h : incRd s p = .ok s') : SameButCnt s.rds s'.rds := by
  unfold incRd at h
  obtain ⟨i, h1, h2⟩ := Res.bind_eq_ok.1 h
  obtain ⟨r, h3, h4⟩ := Res.bind_eq_ok.1 h2
  cases h4
  exact sameButCnt_set (look_ok.1 h3) _

theorem decRd_same {s s' : St κ F Z} (G : Good s) {a : Nat} {p : Option Nat} (ha : s.hs[a]? = some (some p))
    (h : decRd s p = .ok s') : SameButCnt s.rds s'.rds := by
  cases p with
  | none => cases h; exact SameButCnt.rfl' _
  | some i =>
    have hm : ∀ k, refs (s.hs.set a none) k + dl (some i) k = refs s.hs k := by
      intro k
      have := refs_set (y := none) ha k
      simpa [hptr, dl_none] using this
    obtain ⟨r, hr, e | e⟩ := decRd_cases s G.core (refs_pos ha) hm
    · have h0 : ¬ r.cnt - 1 = 0 := by
        have := (G.core.cnt i r hr).1
        omega
      simp only [decRd, look_ok.2 hr, Res.ok_bind] at h
      rw [if_neg h0] at h
      cases h
      exact sameButCnt_set hr _
    · rw [e.2.2] at h; cases h

theorem decRnd_rds {s s' : St κ F Z} {p : Option Nat} (h : decRnd s p = .ok s') : s'.rds = s.rds := by
  cases p with
  | none => cases h; rfl
  | some j =>
    unfold decRnd at h
    obtain ⟨q, _, h2⟩ := Res.bind_eq_ok.1 h
    split_ifs at h2 <;> cases h2 <;> rfl

theorem incRnd_rds {s s' : St κ F Z} {p : Option Nat} (h : incRnd s p = .ok s') : s'.rds = s.rds := by
  unfold incRnd at h
  obtain ⟨i, h1, h2⟩ := Res.bind_eq_ok.1 h
  obtain ⟨r, h3, h4⟩ := Res.bind_eq_ok.1 h2
  cases h4; rfl

section
variable [LinearOrder κ] {dice : Nat → Nat → Z} {key0 : κ}

theorem Reached.step {s s' : St κ F Z} (h : Reached dice key0 s) {c : Cmd κ F Z} {o : Out F}
    (hs : step dice key0 s c = .ok (o, s')) : Reached dice key0 s' := by
  obtain ⟨cs, os, e⟩ := h
  have app : ∀ (cs : List (Cmd κ F Z)) (t : St κ F Z) (os : List (Out F)), run dice key0 t cs = .ok (os, s) →
      run dice key0 t (cs ++ [c]) = .ok (os ++ [o], s') := by
    intro cs
    induction cs with
    | nil =>
      intro t os h
      rw [run] at h; cases h
      simp only [List.nil_append, run, hs, Res.ok_bind]
    | cons d cs ih =>
      intro t os h
      rw [run] at h
      obtain ⟨⟨o1, s1⟩, h1, h2⟩ := Res.bind_eq_ok.1 h
      obtain ⟨⟨os1, s2⟩, h3, h4⟩ := Res.bind_eq_ok.1 h2
      cases h4
      simp only [List.cons_append, run, h1, Res.ok_bind, ih s1 os1 h3]
  exact ⟨cs ++ [c], os ++ [o], app cs _ os e⟩

/-- C35: once rolled, a realization keeps its value through every call but an overwrite through a handle to it; no object
disappears, or changes its variable or house, while the program is defined.  Before it is rolled it has the mean of its
variable or what was written (`C35_made`). -/
theorem C35_kept {s s' : St κ F Z} (h : Reached dice key0 s) {c : Cmd κ F Z} {o : Out F}
    (hs : step dice key0 s c = .ok (o, s')) {i : Nat} {r : Rd κ F} (hr : s.rds[i]? = some (some r)) :
    ∃ r' : Rd κ F, s'.rds[i]? = some (some r') ∧ r'.dealer = r.dealer ∧ r'.rv = r.rv ∧
      (r'.rolled = true ↔ r.rolled = true ∨ c = .roll r.dealer) ∧
      (r.rolled = true ∨ c ≠ .roll r.dealer → (∀ a f, c = .overwrite a f → ¬ Points s a i) → r'.v = r.v) ∧
      ((∀ a t k, c = .setKey a t k → ¬ Points s a i) → r'.trial = r.trial ∧ r'.key = r.key) := by
  have G := h.good
  have fin : SameButCnt s.rds s'.rds → c ≠ .roll r.dealer → ∃ r' : Rd κ F, s'.rds[i]? = some (some r') ∧
      r'.dealer = r.dealer ∧ r'.rv = r.rv ∧ (r'.rolled = true ↔ r.rolled = true ∨ c = .roll r.dealer) ∧
      (r.rolled = true ∨ c ≠ .roll r.dealer → (∀ a f, c = .overwrite a f → ¬ Points s a i) → r'.v = r.v) ∧
      ((∀ a t k, c = .setKey a t k → ¬ Points s a i) → r'.trial = r.trial ∧ r'.key = r.key) := by
    intro e ne
    obtain ⟨n, hn⟩ := e i r hr
    exact ⟨_, hn, rfl, rfl, by simp [ne], fun _ _ => rfl, fun _ => ⟨rfl, rfl⟩⟩
  cases c with
  | house => cases hs; exact fin (SameButCnt.rfl' _) (by simp)
  | endHouse k =>
    refine fin ?_ (by simp)
    obtain ⟨H, h1, h2⟩ := Res.bind_eq_ok.1 hs
    obtain ⟨s1, h3, h4⟩ := Res.bind_eq_ok.1 h2
    cases h4
    obtain ⟨nd, mem⟩ := G.core.str k H (look_ok.1 h1)
    rcases dropStore_cases H.store { s with houses := s.houses.set k none } nd (fun i hi => by
        obtain ⟨r, e, _⟩ := (mem i).1 hi; exact ⟨r, e⟩) with ⟨_, rds', a, _, b, c⟩ | ⟨_, a⟩
    · rw [h3] at a; cases a
      intro j u hu
      by_cases hj : j ∈ H.store
      · exact ⟨_, c j hj u hu⟩
      · exact ⟨u.cnt, (b j hj).trans hu⟩
    · rw [h3] at a; cases a
  | makeRv k d =>
    obtain ⟨H, h1, h2⟩ := Res.bind_eq_ok.1 hs
    cases h2; exact fin (SameButCnt.rfl' _) (by simp)
  | copyRv x =>
    obtain ⟨X, h1, h2⟩ := Res.bind_eq_ok.1 hs
    obtain ⟨s1, h3, h4⟩ := Res.bind_eq_ok.1 h2
    cases h4
    refine fin ?_ (by simp)
    show SameButCnt s.rds s1.rds
    rw [incRnd_rds h3]; exact SameButCnt.rfl' _
  | moveRv x =>
    obtain ⟨X, h1, h2⟩ := Res.bind_eq_ok.1 hs
    cases h2; exact fin (SameButCnt.rfl' _) (by simp)
  | assignRv x y =>
    obtain ⟨X, h1, h2⟩ := Res.bind_eq_ok.1 hs
    obtain ⟨Y, h3, h4⟩ := Res.bind_eq_ok.1 h2
    obtain ⟨s1, h5, h6⟩ := Res.bind_eq_ok.1 h4
    obtain ⟨s2, h7, h8⟩ := Res.bind_eq_ok.1 h6
    cases h8
    refine fin ?_ (by simp)
    show SameButCnt s.rds s2.rds
    rw [incRnd_rds h7, decRnd_rds h5]; exact SameButCnt.rfl' _
  | swapRv x y =>
    obtain ⟨X, h1, h2⟩ := Res.bind_eq_ok.1 hs
    obtain ⟨Y, h3, h4⟩ := Res.bind_eq_ok.1 h2
    cases h4; exact fin (SameButCnt.rfl' _) (by simp)
  | endRv x =>
    obtain ⟨X, h1, h2⟩ := Res.bind_eq_ok.1 hs
    obtain ⟨s1, h3, h4⟩ := Res.bind_eq_ok.1 h2
    cases h4
    refine fin ?_ (by simp)
    show SameButCnt s.rds s1.rds
    rw [decRnd_rds h3]; exact SameButCnt.rfl' _
  | realize x =>
    obtain ⟨X, h1, h2⟩ := Res.bind_eq_ok.1 hs
    obtain ⟨j, h3, h4⟩ := Res.bind_eq_ok.1 h2
    obtain ⟨q, h5, h6⟩ := Res.bind_eq_ok.1 h4
    obtain ⟨H, h7, h8⟩ := Res.bind_eq_ok.1 h6
    cases h8
    refine fin ?_ (by simp)
    intro k u hu
    exact ⟨u.cnt, by
      show (s.rds ++ [_])[k]? = _
      rw [List.getElem?_append_left (lt_of_some hu)]; exact hu⟩
  | nullH => cases hs; exact fin (SameButCnt.rfl' _) (by simp)
  | copyH a =>
    obtain ⟨p, h1, h2⟩ := Res.bind_eq_ok.1 hs
    obtain ⟨s1, h3, h4⟩ := Res.bind_eq_ok.1 h2
    cases h4
    have e := incRd_same h3
    exact fin e (by simp)
  | moveH a =>
    obtain ⟨X, h1, h2⟩ := Res.bind_eq_ok.1 hs
    cases h2; exact fin (SameButCnt.rfl' _) (by simp)
  | assignH a b =>
    obtain ⟨p, h1, h2⟩ := Res.bind_eq_ok.1 hs
    obtain ⟨q, h3, h4⟩ := Res.bind_eq_ok.1 h2
    obtain ⟨s1, h5, h6⟩ := Res.bind_eq_ok.1 h4
    obtain ⟨s2, h7, h8⟩ := Res.bind_eq_ok.1 h6
    cases h8
    have e := (decRd_same G (look_ok.1 h1) h5).trans (incRd_same h7)
    exact fin e (by simp)
  | swapH a b =>
    obtain ⟨X, h1, h2⟩ := Res.bind_eq_ok.1 hs
    obtain ⟨Y, h3, h4⟩ := Res.bind_eq_ok.1 h2
    cases h4; exact fin (SameButCnt.rfl' _) (by simp)
  | endH a =>
    obtain ⟨p, h1, h2⟩ := Res.bind_eq_ok.1 hs
    obtain ⟨s1, h3, h4⟩ := Res.bind_eq_ok.1 h2
    cases h4
    have e := decRd_same G (look_ok.1 h1) h3
    exact fin e (by simp)
  | value a =>
    obtain ⟨p, h1, h2⟩ := Res.bind_eq_ok.1 hs
    obtain ⟨j, h3, h4⟩ := Res.bind_eq_ok.1 h2
    obtain ⟨u, h5, h6⟩ := Res.bind_eq_ok.1 h4
    cases h6; exact fin (SameButCnt.rfl' _) (by simp)
  | overwrite a f =>
    obtain ⟨p, h1, h2⟩ := Res.bind_eq_ok.1 hs
    obtain ⟨j, h3, h4⟩ := Res.bind_eq_ok.1 h2
    obtain ⟨u, h5, h6⟩ := Res.bind_eq_ok.1 h4
    cases h6
    have hp : p = some j := by cases p <;> cases h3; rfl
    subst hp
    by_cases e : i = j
    · subst e
      rw [look_ok.1 h5] at hr; cases hr
      exact ⟨_, List.getElem?_set_self (lt_of_some (look_ok.1 h5)), rfl, rfl, by simp,
        fun _ hn => absurd (look_ok.1 h1) (hn a f rfl), fun _ => ⟨rfl, rfl⟩⟩
    · exact ⟨r, (List.getElem?_set_ne (Ne.symm e)).trans hr, rfl, rfl, by simp, fun _ _ => rfl, fun _ => ⟨rfl, rfl⟩⟩
  | setKey a t k =>
    obtain ⟨p, h1, h2⟩ := Res.bind_eq_ok.1 hs
    obtain ⟨j, h3, h4⟩ := Res.bind_eq_ok.1 h2
    obtain ⟨u, h5, h6⟩ := Res.bind_eq_ok.1 h4
    cases h6
    have hp : p = some j := by cases p <;> cases h3; rfl
    subst hp
    by_cases e : i = j
    · subst e
      rw [look_ok.1 h5] at hr; cases hr
      exact ⟨_, List.getElem?_set_self (lt_of_some (look_ok.1 h5)), rfl, rfl, by simp,
        fun _ _ => rfl, fun hn => absurd (look_ok.1 h1) (hn a t k rfl)⟩
    · exact ⟨r, (List.getElem?_set_ne (Ne.symm e)).trans hr, rfl, rfl, by simp, fun _ _ => rfl, fun _ => ⟨rfl, rfl⟩⟩
  | roll k =>
    obtain ⟨H, l, hH, hp, _, h1, h2, h3, _, _⟩ := C35_roll_partial h hs
    by_cases e : r.dealer = k
    · have hi : i ∈ l := hp.mem_iff.2 (((G.core.str k H hH).2 i).2 ⟨r, hr, e⟩)
      obtain ⟨m, hm⟩ := List.getElem?_of_mem hi
      cases hro : r.rolled with
      | true => exact ⟨r, h1 m i r hm hr hro, rfl, rfl, by simp [hro], fun _ _ => rfl, fun _ => ⟨rfl, rfl⟩⟩
      | false =>
        obtain ⟨q, _, e2⟩ := h2 m i r hm hr hro
        exact ⟨_, e2, rfl, rfl, by simp [e], fun hc => by simp [e] at hc, fun _ => ⟨rfl, rfl⟩⟩
    · exact ⟨r, h3 i r hr e, rfl, rfl, by simp [Ne.symm e], fun _ _ => rfl, fun _ => ⟨rfl, rfl⟩⟩

/-- C35: a new realization has the mean of its variable and a new handle to it; reading returns the value, and writing sets
it, through every handle to the object; so does setting what it is sorted by. -/
theorem C35_made {s s' : St κ F Z} (h : Reached dice key0 s) {o : Out F} :
    (∀ x, step dice key0 s (.realize x) = .ok (o, s') → ∃ k j, ∃ q : Rnd F Z, s.rvs[x]? = some (some (k, some j)) ∧
      s.rnds[j]? = some (some q) ∧ Points s' s.hs.length s.rds.length ∧ refs s'.hs s.rds.length = 1 ∧
      ∃ r, s'.rds[s.rds.length]? = some (some r) ∧ r.v = q.dist.mean ∧ r.rolled = false ∧ r.dealer = k ∧ r.rv = j) ∧
    (∀ a, step dice key0 s (.value a) = .ok (o, s') → ∃ i r, Points s a i ∧ s.rds[i]? = some (some r) ∧ o = .val r.v ∧
      s' = s) ∧
    (∀ a f, step dice key0 s (.overwrite a f) = .ok (o, s') → ∃ i r, Points s a i ∧ s'.rds[i]? = some (some r) ∧
      r.v = f ∧ s'.hs = s.hs) ∧
    ∀ a t k, step dice key0 s (.setKey a t k) = .ok (o, s') → ∃ i r, Points s a i ∧ s'.rds[i]? = some (some r) ∧
      r.trial = t ∧ r.key = k ∧ s'.hs = s.hs := by
  have G := h.good
  refine ⟨fun x hs => ?_, fun a hs => ?_, fun a f hs => ?_, fun a t k hs => ?_⟩
  · obtain ⟨⟨k, p⟩, h1, h2⟩ := Res.bind_eq_ok.1 hs
    obtain ⟨j, h3, h4⟩ := Res.bind_eq_ok.1 h2
    obtain ⟨q, h5, h6⟩ := Res.bind_eq_ok.1 h4
    obtain ⟨H, h7, h8⟩ := Res.bind_eq_ok.1 h6
    have hp : p = some j := by cases p <;> cases h3; rfl
    subst hp
    cases h8
    have h0 : refs s.hs s.rds.length = 0 := by
      by_contra hn
      have := G.core.ptr s.rds.length (by omega); omega
    refine ⟨k, j, q, look_ok.1 h1, look_ok.1 h5, by simp [Points], ?_, _, by simp; rfl, rfl, rfl, rfl, rfl⟩
    rw [refs_append, h0]; simp [hptr, dl]
  · obtain ⟨p, h1, h2⟩ := Res.bind_eq_ok.1 hs
    obtain ⟨j, h3, h4⟩ := Res.bind_eq_ok.1 h2
    obtain ⟨u, h5, h6⟩ := Res.bind_eq_ok.1 h4
    have hp : p = some j := by cases p <;> cases h3; rfl
    subst hp
    cases h6
    exact ⟨j, u, look_ok.1 h1, look_ok.1 h5, rfl, rfl⟩
  · obtain ⟨p, h1, h2⟩ := Res.bind_eq_ok.1 hs
    obtain ⟨j, h3, h4⟩ := Res.bind_eq_ok.1 h2
    obtain ⟨u, h5, h6⟩ := Res.bind_eq_ok.1 h4
    have hp : p = some j := by cases p <;> cases h3; rfl
    subst hp
    cases h6
    exact ⟨j, _, look_ok.1 h1, List.getElem?_set_self (lt_of_some (look_ok.1 h5)), rfl, rfl⟩
  · obtain ⟨p, h1, h2⟩ := Res.bind_eq_ok.1 hs
    obtain ⟨j, h3, h4⟩ := Res.bind_eq_ok.1 h2
    obtain ⟨u, h5, h6⟩ := Res.bind_eq_ok.1 h4
    have hp : p = some j := by cases p <;> cases h3; rfl
    subst hp
    cases h6
    exact ⟨j, _, look_ok.1 h1, List.getElem?_set_self (lt_of_some (look_ok.1 h5)), rfl, rfl, rfl⟩

/-- C35: rolling a house a second time draws no number and changes no realization. -/
theorem C35_roll_again {s s' s'' : St κ F Z} (h : Reached dice key0 s) {k : Nat} {o o' : Out F}
    (h1 : step dice key0 s (.roll k) = .ok (o, s')) (h2 : step dice key0 s' (.roll k) = .ok (o', s'')) :
    (∀ i : Nat, s''.rds[i]? = s'.rds[i]?) ∧
      ∀ H' H'' : House, s'.houses[k]? = some (some H') → s''.houses[k]? = some (some H'') → H''.drawn = H'.drawn := by
  have R' := h.step h1
  have G := h.good
  have G' := R'.good
  have all : ∀ (i : Nat) (r' : Rd κ F), s'.rds[i]? = some (some r') → r'.dealer = k → r'.rolled = true := by
    intro i r' hr' hd
    have hlen : s'.rds.length = s.rds.length := by
      obtain ⟨H, l, _, _, _, _, _, _, _, e⟩ := C35_roll_partial h h1; exact e
    obtain ⟨r, hr⟩ := G.core.all i (hlen ▸ lt_of_some hr')
    obtain ⟨u, hu, hd', _, hro, _⟩ := C35_kept h h1 hr
    rw [hr'] at hu; cases hu
    exact hro.2 (.inr (by rw [← hd', hd]))
  obtain ⟨H', l, hH', hp, _, a, _, c, d, e⟩ := C35_roll_partial R' h2
  refine ⟨fun i => ?_, ?_⟩
  · by_cases hi : i < s'.rds.length
    · obtain ⟨r, hr⟩ := G'.core.all i hi
      by_cases hd : r.dealer = k
      · have hm : i ∈ l := hp.mem_iff.2 (((G'.core.str k H' hH').2 i).2 ⟨r, hr, hd⟩)
        obtain ⟨m, hm⟩ := List.getElem?_of_mem hm
        rw [a m i r hm hr (all i r hr hd), hr]
      · rw [c i r hr hd, hr]
    · rw [List.getElem?_eq_none (by omega), List.getElem?_eq_none (by omega)]
  · intro K' K'' e1 e2
    rw [hH'] at e1; cases e1
    rw [d] at e2
    have e2' : (s'.houses.set k (some ⟨l, H'.drawn + l.countP (draws s'.rnds s'.rds)⟩))[k]? = some (some K'') := e2
    rw [List.getElem?_set_self (lt_of_some hH')] at e2'
    cases e2'
    have : l.countP (draws s'.rnds s'.rds) = 0 := by
      rw [List.countP_eq_zero]
      intro i hi
      obtain ⟨r, hr, hd⟩ := ((G'.core.str k H' hH').2 i).1 (hp.mem_iff.1 hi)
      simp [draws, hr, all i r hr hd]
    show H'.drawn + _ = H'.drawn
    omega

/-! ## Where the code breaks the property -/

/-- C35 fails: the realizations of a house do not keep its random variables alive.  If every variable that shares the
distribution of an object not yet rolled is gone, rolling the dice uses it after it was deleted. -/
theorem C35_variable_gone_wrong {s : St κ F Z} (h : Reached dice key0 s) {i k : Nat} {r : Rd κ F}
    (hr : s.rds[i]? = some (some r)) (hd : r.dealer = k) (hro : r.rolled = false) (hp : pts s.rvs r.rv = 0) :
    step dice key0 s (.roll k) = .ub := by
  refine (C35_defined h _).2 fun ⟨_, ha⟩ => ?_
  obtain ⟨q, hq⟩ := ha i r hr hd hro
  have := h.good.core.rnd r.rv q hq
  omega

/-- C35 fails: no program that ever realizes a random variable can destroy the house and all the handles.  In whatever
order it does so, the last reference deletes the object, whose destructor uses the destroyed house. -/
theorem C35_house_gone_wrong {s : St κ F Z} (h : Reached dice key0 s) (hh : ∀ k, ¬ HouseUp s k)
    (ha : ∀ a i, ¬ Points s a i) : s.rds = [] := by
  have G := h.good
  cases e : s.rds with
  | nil => rfl
  | cons x l =>
    exfalso
    obtain ⟨r, hr⟩ := G.core.all 0 (by rw [e]; simp)
    obtain ⟨h1, h2⟩ := G.core.cnt 0 r hr
    rw [alive_not (hh _)] at h1
    have : 0 < refs s.hs 0 := by omega
    unfold refs at this
    rw [List.countP_pos_iff] at this
    obtain ⟨v, hv, hv'⟩ := this
    obtain ⟨a, ea⟩ := List.getElem?_of_mem hv
    refine ha a 0 ?_
    cases v with
    | none => simp [hptr] at hv'
    | some p =>
      simp [hptr] at hv'
      rw [Points, ea, hv']

/-- C35 fails: assigning a random variable to itself deletes its distribution, when no other variable shares it, and goes on
using it. -/
theorem C35_self_assign_wrong {s : St κ F Z} (h : Reached dice key0 s) {x k j : Nat}
    (hx : s.rvs[x]? = some (some (k, some j))) (hp : pts s.rvs j = 1) : step dice key0 s (.assignRv x x) = .ub := by
  refine (C35_defined h _).2 fun ⟨_, k', j', hy, ha⟩ => ?_
  rw [hx] at hy; cases hy
  have := ha rfl
  omega

/-- C35 fails: an assigned random variable takes the other's distribution but keeps its own house, so that its realizations
are dealt by the old house. -/
theorem C35_assign_house_wrong {s s' : St κ F Z} {x y k k' : Nat} {p p' : Option Nat} {o : Out F}
    (hx : s.rvs[x]? = some (some (k, p))) (hy : s.rvs[y]? = some (some (k', p')))
    (hs : step dice key0 s (.assignRv x y) = .ok (o, s')) : s'.rvs[x]? = some (some (k, p')) := by
  obtain ⟨X, h1, h2⟩ := Res.bind_eq_ok.1 hs
  obtain ⟨Y, h3, h4⟩ := Res.bind_eq_ok.1 h2
  obtain ⟨s1, h5, h6⟩ := Res.bind_eq_ok.1 h4
  obtain ⟨s2, h7, h8⟩ := Res.bind_eq_ok.1 h6
  cases h8
  rw [look_ok.2 hx] at h1; cases h1
  rw [look_ok.2 hy] at h3; cases h3
  have e1 : s1.rvs = s.rvs := by
    cases p with
    | none => cases h5; rfl
    | some j =>
      obtain ⟨q, _, h9⟩ := Res.bind_eq_ok.1 h5
      split_ifs at h9 <;> cases h9 <;> rfl
  have e2 : s2.rvs = s1.rvs := by
    obtain ⟨i, h9, h10⟩ := Res.bind_eq_ok.1 h7
    obtain ⟨r, h11, h12⟩ := Res.bind_eq_ok.1 h10
    cases h12; rfl
  show (s2.rvs.set x _)[x]? = _
  rw [e2, e1, List.getElem?_set_self (lt_of_some hx)]

end

/-! ## Concrete cases -/

/-- Draws of house `h`: 10, 11, 12, … -/
def exDice : Nat → Nat → Int := fun h n => 10 + 100 * h + n
/-- `mean + 2 z` -/
def exDist (m : Int) : Dist Int Int := ⟨true, m, fun z => m + 2 * z⟩
/-- A constant. -/
def exFix (m : Int) : Dist Int Int := ⟨false, m, fun _ => 0⟩
/-- The values a history reads. -/
def exVals (cs : List (Cmd Nat Int Int)) : Res (List Int) :=
  run exDice 0 St.init cs >>= fun r => .ok (r.1.filterMap fun | .val f => some f | .done => none)

/-- Three objects in one house, rolled in key order whatever the order they were made in; a copy of a handle shares the
value; a later roll leaves them. -/
def exSim : List (Cmd Nat Int Int) :=
  [.house, .makeRv 0 (exDist 1), .makeRv 0 (exFix 7), .realize 0, .realize 1, .realize 0, .copyH 0,
   .setKey 0 1 5, .setKey 1 1 3, .setKey 2 0 9, .value 0, .roll 0, .value 0, .value 1, .value 2, .value 3,
   .realize 0, .setKey 4 0 0, .roll 0, .value 0, .value 4]

example : exVals exSim = .ok [1, 1 + 2 * 11, 7, 1 + 2 * 10, 1 + 2 * 11, 1 + 2 * 11, 1 + 2 * 12] := by decide +kernel

example : (match run exDice 0 St.init exSim with
    | .ok (_, s) => decide (s.rds.length = 4 ∧ refs s.hs 0 = 2 ∧ s.rds.map (fun r => r.map (·.cnt)) =
        [some 3, some 2, some 2, some 2] ∧ s.houses.map (fun H => H.map (·.drawn)) = [some 3])
    | _ => false) = true := by
  decide +kernel

/-- The witnesses of the disagreements. -/
example : exVals [.house, .makeRv 0 (exDist 1), .realize 0, .endRv 0, .roll 0] = .ub ∧
    exVals [.house, .makeRv 0 (exDist 1), .realize 0, .endH 0, .endHouse 0] = .ub ∧
    exVals [.house, .makeRv 0 (exDist 1), .realize 0, .endHouse 0, .value 0] = .ok [1] ∧
    exVals [.house, .makeRv 0 (exDist 1), .realize 0, .endHouse 0, .endH 0] = .ub ∧
    exVals [.house, .makeRv 0 (exDist 1), .assignRv 0 0] = .ub ∧
    exVals [.house, .makeRv 0 (exDist 1), .copyRv 0, .assignRv 0 0] = .ok [] ∧
    exVals [.house, .makeRv 0 (exDist 1), .house, .makeRv 1 (exDist 5), .assignRv 0 1, .realize 0, .roll 0, .value 0] =
      .ok [5 + 2 * 10] := by
  decide +kernel

end OP.Rv
