import Verif.Rv.Inv
/-! # Rolling the dice and destroying a house -/
namespace OP.Rv
open OP.SetFam OP.SetFam.QS
variable {κ F Z : Type}

theorem set_same {α : Type} {l : List α} {i : Nat} {a : α} (h : l[i]? = some a) : l.set i a = l := by
  apply List.ext_getElem?
  intro k
  by_cases e : k = i
  · subst e; rw [List.getElem?_set_self (lt_of_some h), h]
  · rw [List.getElem?_set_ne (Ne.symm e)]

theorem dropStore_cases : ∀ (l : List Nat) (s : St κ F Z), l.Nodup →
    (∀ i ∈ l, ∃ r : Rd κ F, s.rds[i]? = some (some r)) →
    ((∀ i ∈ l, ∀ r : Rd κ F, s.rds[i]? = some (some r) → r.cnt - 1 ≠ 0) ∧
      ∃ rds', dropStore s l = .ok { s with rds := rds' } ∧ rds'.length = s.rds.length ∧
        (∀ i, i ∉ l → rds'[i]? = s.rds[i]?) ∧
        ∀ i ∈ l, ∀ r : Rd κ F, s.rds[i]? = some (some r) → rds'[i]? = some (some { r with cnt := r.cnt - 1 })) ∨
    ((∃ i ∈ l, ∃ r : Rd κ F, s.rds[i]? = some (some r) ∧ r.cnt - 1 = 0) ∧ dropStore s l = .ub)
  | [], s, _, _ => .inl ⟨by simp, s.rds, rfl, rfl, by simp, by simp⟩
  | i :: l, s, nd, hl => by
    obtain ⟨r, hr⟩ := hl i (by simp)
    obtain ⟨h1, h2⟩ := List.nodup_cons.1 nd
    have ne : ∀ k ∈ l, k ≠ i := fun k hk e => h1 (e ▸ hk)
    by_cases h : r.cnt - 1 = 0
    · refine .inr ⟨⟨i, by simp, r, hr, h⟩, ?_⟩
      simp only [dropStore, look_ok.2 hr, Res.ok_bind]
      rw [if_pos h]
    · have e0 : dropStore s (i :: l) = dropStore { s with rds := s.rds.set i (some { r with cnt := r.cnt - 1 }) } l := by
        simp only [dropStore, look_ok.2 hr, Res.ok_bind]
        rw [if_neg h]
      have get : ∀ k ∈ l, (s.rds.set i (some { r with cnt := r.cnt - 1 }))[k]? = s.rds[k]? := by
        intro k hk; rw [List.getElem?_set_ne (Ne.symm (ne k hk))]
      rcases dropStore_cases l { s with rds := s.rds.set i (some { r with cnt := r.cnt - 1 }) } h2
        (fun k hk => by
          obtain ⟨u, hu⟩ := hl k (by simp [hk])
          exact ⟨u, (get k hk).trans hu⟩) with ⟨a, rds', b, c, d, e⟩ | ⟨⟨k, hk, u, hu, hc⟩, b⟩
      · refine .inl ⟨?_, rds', e0.trans b, by simpa using c, ?_, ?_⟩
        · intro k hk u hu
          rcases List.mem_cons.1 hk with rfl | hk
          · rw [hr] at hu; cases hu; exact h
          · exact a k hk u ((get k hk).trans hu)
        · intro k hk
          rw [List.mem_cons, not_or] at hk
          rw [d k hk.2]
          exact List.getElem?_set_ne (Ne.symm hk.1)
        · intro k hk u hu
          rcases List.mem_cons.1 hk with rfl | hk
          · rw [hr] at hu; cases hu
            rw [d k h1]
            exact List.getElem?_set_self (lt_of_some hr)
          · exact e k hk u ((get k hk).trans hu)
      · exact .inr ⟨⟨k, by simp [hk], u, (get k hk).symm.trans hu, hc⟩, e0.trans b⟩

/-- A house is destroyed while every object of it has a handle elsewhere. -/
theorem Core.endHouse {houses : List (Option House)} {rnds : List (Option (Rnd F Z))} {rds rds' : List (Option (Rd κ F))}
    {n m : Nat → Nat} (C : Core houses rnds rds n m) {h : Nat} {H : House} (hH : houses[h]? = some (some H))
    (hc : ∀ i ∈ H.store, ∀ r : Rd κ F, rds[i]? = some (some r) → r.cnt - 1 ≠ 0) (hl : rds'.length = rds.length)
    (hoff : ∀ i, i ∉ H.store → rds'[i]? = rds[i]?)
    (hon : ∀ i ∈ H.store, ∀ r : Rd κ F, rds[i]? = some (some r) → rds'[i]? = some (some { r with cnt := r.cnt - 1 })) :
    Core (houses.set h none) rnds rds' n m := by
  obtain ⟨nd, mem⟩ := C.str h H hH
  have old : ∀ (i : Nat) (u : Rd κ F), rds'[i]? = some (some u) → ∃ r : Rd κ F, rds[i]? = some (some r) ∧
      u.dealer = r.dealer ∧ u.rv = r.rv ∧ ((r.dealer = h ∧ u.cnt + 1 = r.cnt ∧ 0 < u.cnt) ∨ (r.dealer ≠ h ∧ u.cnt = r.cnt)) := by
    intro i u hu
    obtain ⟨r, hr⟩ := C.all i (hl ▸ lt_of_some hu)
    refine ⟨r, hr, ?_⟩
    by_cases hi : i ∈ H.store
    · have := hon i hi r hr
      rw [hu] at this; cases this
      obtain ⟨w, hw, hd⟩ := (mem i).1 hi
      rw [hr] at hw; cases hw
      have := hc i hi r hr
      exact ⟨rfl, rfl, .inl ⟨hd, by dsimp only; omega, by dsimp only; omega⟩⟩
    · have := hoff i hi
      rw [hu, hr] at this; cases this
      exact ⟨rfl, rfl, .inr ⟨fun e => hi ((mem i).2 ⟨u, hr, e⟩), rfl⟩⟩
  have new : ∀ (i : Nat) (r : Rd κ F), rds[i]? = some (some r) → ∃ u : Rd κ F, rds'[i]? = some (some u) ∧ u.dealer = r.dealer := by
    intro i r hr
    by_cases hi : i ∈ H.store
    · exact ⟨_, hon i hi r hr, rfl⟩
    · exact ⟨r, (hoff i hi).trans hr, rfl⟩
  refine ⟨?_, ?_, ?_, ?_, ?_, C.rnd, C.rpt⟩
  · intro i hi
    obtain ⟨r, hr⟩ := C.all i (hl ▸ hi)
    obtain ⟨u, hu, _⟩ := new i r hr
    exact ⟨u, hu⟩
  · intro i u hu
    obtain ⟨r, hr, hd, _, hcase⟩ := old i u hu
    obtain ⟨c1, c2⟩ := C.cnt i r hr
    rcases hcase with ⟨e, e1, e2⟩ | ⟨e, e1⟩
    · rw [e, alive_one hH] at c1
      rw [hd, e, show alive (houses.set h none) h = 0 by simp [alive, lt_of_some hH]]
      omega
    · rw [hd, show alive (houses.set h none) r.dealer = alive houses r.dealer by
        unfold alive; rw [List.getElem?_set_ne (Ne.symm e)]]
      omega
  · intro i hi; rw [hl]; exact C.ptr i hi
  · intro i u hu
    obtain ⟨r, hr, hd, hv, _⟩ := old i u hu
    rw [List.length_set, hd, hv]; exact C.dlr i r hr
  · intro k K hK
    rcases set_get hH hK with ⟨rfl, e⟩ | ⟨hk, e⟩
    · cases e
    · refine ⟨(C.str k K e).1, fun i => ?_⟩
      rw [(C.str k K e).2 i]
      constructor
      · rintro ⟨r, hr, hd⟩
        obtain ⟨u, hu, hd'⟩ := new i r hr
        exact ⟨u, hu, hd'.trans hd⟩
      · rintro ⟨u, hu, hd⟩
        obtain ⟨r, hr, hd', _⟩ := old i u hu
        exact ⟨r, hr, hd'.symm.trans hd⟩

/-! ## Rolling -/

/-- The value a distribution takes for a standard normal number. -/
def dealt (d : Dist F Z) (z : Z) : F := if d.randomizable then d.scale z else d.mean

/-- Whether rolling object `i` takes a number from the dice: it was not rolled before and its variable is random. -/
def draws (rnds : List (Option (Rnd F Z))) (rds : List (Option (Rd κ F))) (i : Nat) : Bool :=
  match rds[i]? with
  | some (some r) => !r.rolled && (match rnds[r.rv]? with | some (some q) => q.dist.randomizable | _ => false)
  | _ => false

/-- What rolling makes of an object, given the number it gets. -/
def rolledTo (rnds : List (Option (Rnd F Z))) (r : Rd κ F) (z : Z) : Rd κ F :=
  if r.rolled then r
  else match rnds[r.rv]? with
    | some (some q) => { r with v := dealt q.dist z, rolled := true }
    | _ => r

theorem rolledTo_same (rnds : List (Option (Rnd F Z))) (r : Rd κ F) (z : Z) :
    (rolledTo rnds r z).dealer = r.dealer ∧ (rolledTo rnds r z).rv = r.rv ∧ (rolledTo rnds r z).cnt = r.cnt ∧
      (rolledTo rnds r z).trial = r.trial ∧ (rolledTo rnds r z).key = r.key := by
  unfold rolledTo
  split_ifs
  · simp
  · split <;> simp

theorem rollOne_ok (dice : Nat → Nat → Z) (s : St κ F Z) {i h : Nat} {r : Rd κ F} {H : House}
    (hH : s.houses[h]? = some (some H)) (hr : s.rds[i]? = some (some r)) (hd : r.dealer = h)
    (ha : r.rolled = false → ∃ q : Rnd F Z, s.rnds[r.rv]? = some (some q)) :
    rollOne dice s i = .ok { s with
      rds := s.rds.set i (some (rolledTo s.rnds r (dice h H.drawn)))
      houses := s.houses.set h (some { H with drawn := H.drawn + if draws s.rnds s.rds i then 1 else 0 }) } := by
  subst hd
  simp only [rollOne, look_ok.2 hr, Res.ok_bind]
  cases hro : r.rolled with
  | true =>
    have e1 : rolledTo s.rnds r (dice r.dealer H.drawn) = r := by simp [rolledTo, hro]
    have e2 : draws s.rnds s.rds i = false := by simp [draws, hr, hro]
    rw [if_pos rfl, e1, e2]
    simp only [Bool.false_eq_true, if_false, Nat.add_zero]
    rw [set_same hr, set_same hH]
  | false =>
    obtain ⟨q, hq⟩ := ha hro
    rw [if_neg (by simp), look_ok.2 hq, Res.ok_bind]
    cases hz : q.dist.randomizable with
    | true =>
      have e1 : rolledTo s.rnds r (dice r.dealer H.drawn) =
          { r with v := q.dist.scale (dice r.dealer H.drawn), rolled := true } := by
        simp [rolledTo, hro, hq, dealt, hz]
      have e2 : draws s.rnds s.rds i = true := by simp [draws, hr, hro, hq, hz]
      rw [if_pos rfl, look_ok.2 hH, Res.ok_bind, e1, e2]
      simp
    | false =>
      have e1 : rolledTo s.rnds r (dice r.dealer H.drawn) = { r with v := q.dist.mean, rolled := true } := by
        simp [rolledTo, hro, hq, dealt, hz]
      have e2 : draws s.rnds s.rds i = false := by simp [draws, hr, hro, hq, hz]
      rw [if_neg (by simp), e1, e2]
      simp only [Bool.false_eq_true, if_false, Nat.add_zero]
      rw [set_same hH]

theorem draws_off {rnds : List (Option (Rnd F Z))} {rds : List (Option (Rd κ F))} {i k : Nat} {r' : Option (Rd κ F)}
    (h : k ≠ i) : draws rnds (rds.set i r') k = draws rnds rds k := by
  unfold draws; rw [List.getElem?_set_ne (Ne.symm h)]

theorem rollAll_ok (dice : Nat → Nat → Z) (h : Nat) : ∀ (l : List Nat) (s : St κ F Z) (H : House),
    s.houses[h]? = some (some H) → l.Nodup →
    (∀ i ∈ l, ∃ r : Rd κ F, s.rds[i]? = some (some r) ∧ r.dealer = h ∧
      (r.rolled = false → ∃ q : Rnd F Z, s.rnds[r.rv]? = some (some q))) →
    ∃ rds', rollAll dice s l = .ok { s with rds := rds', houses := s.houses.set h (some { H with
        drawn := H.drawn + l.countP (draws s.rnds s.rds) }) } ∧ rds'.length = s.rds.length ∧
      (∀ i, i ∉ l → rds'[i]? = s.rds[i]?) ∧
      ∀ (k i : Nat) (r : Rd κ F), l[k]? = some i → s.rds[i]? = some (some r) → rds'[i]? =
        some (some (rolledTo s.rnds r (dice h (H.drawn + (l.take k).countP (draws s.rnds s.rds)))))
  | [], s, H, hH, _, _ => by
    refine ⟨s.rds, ?_, rfl, by simp, by simp⟩
    simp only [rollAll, List.countP_nil, Nat.add_zero]
    rw [set_same hH]
  | i :: l, s, H, hH, nd, hl => by
    obtain ⟨r, hr, hd, ha⟩ := hl i (by simp)
    obtain ⟨h1, h2⟩ := List.nodup_cons.1 nd
    have ne : ∀ k ∈ l, k ≠ i := fun k hk e => h1 (e ▸ hk)
    have e0 := rollOne_ok dice s hH hr hd ha
    generalize hs1 : ({ s with
      rds := s.rds.set i (some (rolledTo s.rnds r (dice h H.drawn)))
      houses := s.houses.set h (some { H with drawn := H.drawn + if draws s.rnds s.rds i then 1 else 0 }) } : St κ F Z) = s1 at e0
    have g1 : s1.houses[h]? = some (some { H with drawn := H.drawn + if draws s.rnds s.rds i then 1 else 0 }) := by
      subst hs1; exact List.getElem?_set_self (lt_of_some hH)
    have g2 : ∀ k ∈ l, s1.rds[k]? = s.rds[k]? := by
      intro k hk; subst hs1; exact List.getElem?_set_ne (Ne.symm (ne k hk))
    have g3 : s1.rnds = s.rnds := by subst hs1; rfl
    have g4 : ∀ k ∈ l, draws s1.rnds s1.rds k = draws s.rnds s.rds k := by
      intro k hk; subst hs1; exact draws_off (ne k hk)
    obtain ⟨rds', a, b, c, d⟩ := rollAll_ok dice h l s1 _ g1 h2 (fun k hk => by
      obtain ⟨u, hu, hd', ha'⟩ := hl k (by simp [hk])
      exact ⟨u, (g2 k hk).trans hu, hd', g3 ▸ ha'⟩)
    have cnt : ∀ l' : List Nat, (∀ k ∈ l', k ∈ l) → l'.countP (draws s1.rnds s1.rds) = l'.countP (draws s.rnds s.rds) := by
      intro l' hl'
      exact List.countP_congr fun k hk => by rw [g4 k (hl' k hk)]
    refine ⟨rds', ?_, ?_, ?_, ?_⟩
    · rw [rollAll, e0, Res.ok_bind, a, cnt l (fun _ h => h)]
      subst hs1
      simp only [List.set_set, List.countP_cons]
      rw [show ∀ x y z : Nat, x + y + z = x + (z + y) by omega]
    · rw [b]; subst hs1; simp
    · intro k hk
      rw [List.mem_cons, not_or] at hk
      rw [c k hk.2]; subst hs1
      exact List.getElem?_set_ne (Ne.symm hk.1)
    · intro k j u hk hu
      cases k with
      | zero =>
        simp at hk; subst hk
        rw [hr] at hu; cases hu
        rw [c i h1]; subst hs1
        simpa using List.getElem?_set_self (lt_of_some hr)
      | succ k =>
        have hk' : l[k]? = some j := by simpa using hk
        have := d k j u hk' ((g2 j (List.mem_of_getElem? hk')).trans hu)
        rw [this, g3, ← g3, cnt _ (fun x hx => List.mem_of_mem_take hx), g3]
        simp only [List.take_succ_cons, List.countP_cons]
        rw [show ∀ x y z : Nat, x + y + z = x + (z + y) by omega]

theorem rollAll_ub (dice : Nat → Nat → Z) (h : Nat) : ∀ (l : List Nat) (s : St κ F Z) (H : House),
    s.houses[h]? = some (some H) → l.Nodup →
    (∀ i ∈ l, ∃ r : Rd κ F, s.rds[i]? = some (some r) ∧ r.dealer = h) →
    (∃ i ∈ l, ∃ r : Rd κ F, s.rds[i]? = some (some r) ∧ r.rolled = false ∧
      ∀ q : Rnd F Z, s.rnds[r.rv]? ≠ some (some q)) →
    rollAll dice s l = .ub
  | [], _, _, _, _, _, ⟨_, hi, _⟩ => by simp at hi
  | i :: l, s, H, hH, nd, hl, ⟨k, hk, u, hu, hro, hq⟩ => by
    obtain ⟨r, hr, hd⟩ := hl i (by simp)
    obtain ⟨h1, h2⟩ := List.nodup_cons.1 nd
    have ne : ∀ k ∈ l, k ≠ i := fun k hk e => h1 (e ▸ hk)
    by_cases ha : r.rolled = false → ∃ q : Rnd F Z, s.rnds[r.rv]? = some (some q)
    · have e0 := rollOne_ok dice s hH hr hd ha
      rw [rollAll, e0, Res.ok_bind]
      have hki : k ≠ i := by
        rintro rfl
        rw [hr] at hu; cases hu
        obtain ⟨q, e⟩ := ha hro
        exact hq q e
      refine rollAll_ub dice h l _ _ (List.getElem?_set_self (lt_of_some hH)) h2 ?_ ⟨k, ?_, u, ?_, hro, hq⟩
      · intro j hj
        obtain ⟨w, hw, hd'⟩ := hl j (by simp [hj])
        exact ⟨w, (List.getElem?_set_ne (Ne.symm (ne j hj))).trans hw, hd'⟩
      · rcases List.mem_cons.1 hk with e | e
        · exact absurd e hki
        · exact e
      · exact (List.getElem?_set_ne (Ne.symm hki)).trans hu
    · push Not at ha
      rw [rollAll, rollOne, look_ok.2 hr, Res.ok_bind, if_neg (by simp [ha.1]), look_ub.2 ha.2]
      rfl

theorem gtKey_weak [LinearOrder κ] : StrictWeak (gtKey (κ := κ)) where
  asymm := by
    rintro ⟨_, a, k⟩ ⟨_, b, l⟩ h
    simp only [gtKey, Bool.or_eq_true, Bool.and_eq_true, decide_eq_true_eq, Bool.or_eq_false_iff,
      Bool.and_eq_false_iff, decide_eq_false_iff_not] at h ⊢
    rcases h with h | ⟨h, h'⟩
    · exact ⟨by omega, .inl (by omega)⟩
    · exact ⟨by omega, .inr (not_lt.2 (le_of_lt h'))⟩
  trans := by
    rintro ⟨_, a, k⟩ ⟨_, b, l⟩ ⟨_, c, o⟩ h h2
    simp only [gtKey, Bool.or_eq_false_iff, Bool.and_eq_false_iff, decide_eq_false_iff_not, not_lt, gt_iff_lt] at h h2 ⊢
    refine ⟨by omega, ?_⟩
    by_cases e : a = c
    · right
      rcases h.2 with h3 | h3
      · omega
      rcases h2.2 with h4 | h4
      · omega
      exact le_trans h3 h4
    · exact .inl e

theorem keys_ok (s : St κ F Z) : ∀ l : List Nat, (∀ i ∈ l, ∃ r : Rd κ F, s.rds[i]? = some (some r)) →
    ∃ ks, keys s l = .ok ks ∧ ks.map (·.1) = l ∧
      ∀ t ∈ ks, ∃ r : Rd κ F, s.rds[t.1]? = some (some r) ∧ t.2.1 = r.trial ∧ t.2.2 = r.key
  | [], _ => ⟨[], rfl, rfl, by simp⟩
  | i :: l, h => by
    obtain ⟨r, hr⟩ := h i (by simp)
    obtain ⟨ks, a, b, c⟩ := keys_ok s l (fun k hk => h k (by simp [hk]))
    refine ⟨(i, r.trial, r.key) :: ks, by simp only [keys, look_ok.2 hr, Res.ok_bind, a], by simp [b], ?_⟩
    intro t ht
    rcases List.mem_cons.1 ht with rfl | ht
    · exact ⟨r, hr, rfl, rfl⟩
    · exact c t ht

/-- Sort order of two objects: by trial, then by key. -/
def NotAfter [LinearOrder κ] (rds : List (Option (Rd κ F))) (i j : Nat) : Prop :=
  ∀ r u : Rd κ F, rds[i]? = some (some r) → rds[j]? = some (some u) →
    r.trial < u.trial ∨ (r.trial = u.trial ∧ r.key ≤ u.key)

/-- What rolling a house does: some order of all its objects, sorted, in which they are rolled. -/
theorem roll_split [LinearOrder κ] (dice : Nat → Nat → Z) (s : St κ F Z) {h : Nat} {H : House}
    (hH : s.houses[h]? = some (some H)) (hl : ∀ i ∈ H.store, ∃ r : Rd κ F, s.rds[i]? = some (some r)) :
    ∃ l, l.Perm H.store ∧ l.Pairwise (NotAfter s.rds) ∧
      roll dice s h = rollAll dice { s with houses := s.houses.set h (some { H with store := l }) } l := by
  obtain ⟨ks, a, b, c⟩ := keys_ok s H.store hl
  obtain ⟨ks', d, e, f⟩ := C04_oset_sort gtKey gtKey_weak ks
  refine ⟨ks'.map (·.1), b ▸ e.map _, ?_, ?_⟩
  · rw [List.pairwise_map]
    refine f.imp_of_mem ?_
    intro x y hx hy hxy r u hr hu
    obtain ⟨r', h1, h2, h3⟩ := c x (e.mem_iff.1 hx)
    obtain ⟨u', h4, h5, h6⟩ := c y (e.mem_iff.1 hy)
    rw [hr] at h1; cases h1
    rw [hu] at h4; cases h4
    simp only [gtKey, Bool.or_eq_false_iff, Bool.and_eq_false_iff, decide_eq_false_iff_not, not_lt, gt_iff_lt, h2, h3,
      h5, h6] at hxy
    rcases hxy.2 with h7 | h7
    · left; omega
    · by_cases h8 : r.trial = u.trial
      · exact .inr ⟨h8, h7⟩
      · left; omega
  · simp only [roll, look_ok.2 hH, Res.ok_bind, a, d]

end OP.Rv
