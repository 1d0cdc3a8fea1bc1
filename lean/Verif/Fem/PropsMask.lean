import Verif.Fem.Variable
import Verif.Fem.Elem
/-!
# C109: variable elements of a mesh

A user relies on this: a variable element takes up the nodes that finer elements have put on its sides, at the right places, and an
element that finds none is the ordinary block.
-/
namespace OP.Fem.Nodes

open OP.Fem (Shape getn)

/-! ### What is known next to a place -/

/-- The neighbour of `p` in direction `d` -/
def kn (A : List Arc) (d : Dir) (p : C3) : Option C3 := (A.find? fun a => a.1 = d ∧ a.2.1 = p).map fun a => a.2.2

theorem kn_iff {A : List Arc} (hA : Functional A) {d : Dir} {p q : C3} : kn A d p = some q ↔ (d, p, q) ∈ A := by
  unfold kn
  constructor
  · intro h
    obtain ⟨⟨d', p', q'⟩, h1, h2⟩ := Option.map_eq_some_iff.1 h
    have h3 := List.find?_some h1
    simp only [decide_eq_true_eq] at h3
    obtain ⟨rfl, rfl⟩ := h3
    cases h2
    exact List.mem_of_find?_eq_some h1
  · intro h
    have : (A.find? fun a => a.1 = d ∧ a.2.1 = p).isSome := by
      rw [List.find?_isSome]
      exact ⟨_, h, by simp⟩
    obtain ⟨⟨d', p', q'⟩, h1⟩ := Option.isSome_iff_exists.1 this
    have h3 := List.find?_some h1
    simp only [decide_eq_true_eq] at h3
    obtain ⟨rfl, rfl⟩ := h3
    rw [h1]
    exact congrArg some (hA _ _ _ _ (List.mem_of_find?_eq_some h1) h)

theorem kn_append {A B : List Arc} (hA : Functional A) (h : Functional (A ++ B)) {p : C3} (hB : ∀ d q, (d, p, q) ∉ B) (d : Dir) :
    kn (A ++ B) d p = kn A d p := by
  apply Option.ext
  intro q
  rw [kn_iff h, kn_iff hA, List.mem_append]
  exact ⟨fun g => g.resolve_right (hB d q), Or.inl⟩

theorem Know.get {s : Spec} {A : List Arc} (h : Know s A) (hA : Functional A) {p : C3} (hp : p ∈ s.keys) :
    ∃ n, s[s.keys.idxOf p]? = some (p, n) ∧ ∀ d, n.get d = (kn A d p).map s.keys.idxOf := by
  obtain ⟨n, hn⟩ := keys_get.1 (get_idx hp)
  refine ⟨n, hn, fun d => ?_⟩
  apply Option.ext
  intro a
  rw [h.nbr _ p n hn d a, Option.map_eq_some_iff]
  constructor
  · rintro ⟨q, h1, h2⟩; exact ⟨q, (kn_iff hA).2 h2, idx_get h.nodup h1⟩
  · rintro ⟨q, h1, rfl⟩
    have := (kn_iff hA).1 h1
    exact ⟨q, get_idx (h.ends _ _ _ this).2, this⟩

theorem Know.congr {s : Spec} {A B : List Arc} (h : Know s A) (hAB : ∀ a, a ∈ A ↔ a ∈ B) : Know s B :=
  ⟨h.nodup, fun d p q hm => h.ends d p q ((hAB _).2 hm), fun a p n ha d b => by rw [h.nbr a p n ha d b]; simp only [hAB]⟩

/-- The neighbour that is known, if it is not `q` -/
def mid (A : List Arc) (d : Dir) (p q : C3) : Option C3 := (kn A d p).filter fun r => decide (r ≠ q)

theorem mid_iff {A : List Arc} (hA : Functional A) {d : Dir} {p q r : C3} : mid A d p q = some r ↔ (d, p, r) ∈ A ∧ r ≠ q := by
  unfold mid
  rw [Option.filter_eq_some_iff, kn_iff hA, decide_eq_true_eq]

theorem idx_inj {ks : List C3} {p q : C3} (hp : p ∈ ks) (hq : q ∈ ks) : ks.idxOf p = ks.idxOf q ↔ p = q := by
  constructor
  · intro h
    have h1 := get_idx hp
    rw [h, get_idx hq] at h1
    exact (Option.some.inj h1).symm
  · rintro rfl; rfl

theorem between_mid {ks : List C3} {o : Option C3} {q : C3} (ho : ∀ r, o = some r → r ∈ ks) (hq : q ∈ ks) :
    between (o.map ks.idxOf) (ks.idxOf q) = (o.filter fun r => decide (r ≠ q)).map ks.idxOf := by
  cases o with
  | none => rfl
  | some r =>
    unfold between
    rw [Option.map_some]
    by_cases h : r = q
    · subst h; simp
    · have : ks.idxOf r ≠ ks.idxOf q := fun e => h ((idx_inj (ho r rfl) hq).1 e)
      simp [h, this]

theorem between_or {ks : List C3} {o : Option C3} {q : C3} (ho : ∀ r, o = some r → r ∈ ks) (hq : q ∈ ks) :
    (between (o.map ks.idxOf) (ks.idxOf q)).or (some (ks.idxOf q)) = some (ks.idxOf (o.getD q)) := by
  rw [between_mid ho hq]
  cases o with
  | none => rfl
  | some r =>
    by_cases h : r = q
    · subst h; rw [Option.filter_some, decide_eq_false (by simp)]; rfl
    · rw [Option.filter_some, decide_eq_true h]; rfl

theorem put_apply (m : Nat → Option Nat) (t : Nat) (v : Option Nat) (u : Nat) :
    put m t v u = if u = t then v.or (m u) else m u := by
  unfold put
  cases v with
  | none => simp
  | some a => by_cases h : u = t <;> simp [h]

/-! ### The nodes that are found -/

/-- The places of the extra nodes -/
def extra (A : List Arc) (b : Brick) (u : Nat) : Option C3 :=
  if u < 4 * b.nz then
    match u % 4 with
    | 0 => mid A .yp (b.place (u / 4) 0 0) (b.place (u / 4) 0 1)
    | 1 => mid A .xm (b.place (u / 4) 1 1) (b.place (u / 4) 0 1)
    | 2 => mid A .xp (b.place (u / 4) 0 0) (b.place (u / 4) 1 0)
    | _ => mid A .ym (b.place (u / 4) 1 1) (b.place (u / 4) 1 0)
  else if u - 4 * b.nz = 0 ∨ u - 4 * b.nz = b.nz - 1 then
    (mid A .yp (b.place (u - 4 * b.nz) 0 0) (b.place (u - 4 * b.nz) 0 1)).bind (kn A .xp)
  else none

/-- The corner that finds an extra node -/
def owner (nz u : Nat) : Nat :=
  if u < 4 * nz then (if u % 4 = 0 ∨ u % 4 = 2 then 4 * (u / 4) else 4 * (u / 4) + 3) else 4 * (u - 4 * nz)

/-- The mask before corner `i` -/
def maskAt (A : List Arc) (b : Brick) (ks : List C3) (i u : Nat) : Option Nat :=
  if owner b.nz u < i then (extra A b u).map ks.idxOf else none

/-- The neighbours that are noted of a corner -/
def Brick.vstar (b : Brick) (A : List Arc) (t : Nat × Nat × Nat) : Dir → Option C3
  | .zm => b.star t .zm
  | .zp => b.star t .zp
  | d => (b.star t d).map fun q => (kn A d (b.at_ t)).getD q

def Brick.vnbr (b : Brick) (A : List Arc) (ks : List C3) (t : Nat × Nat × Nat) : Nbr :=
  ⟨(b.vstar A t .xm).map ks.idxOf, (b.vstar A t .xp).map ks.idxOf, (b.vstar A t .ym).map ks.idxOf, (b.vstar A t .yp).map ks.idxOf,
    (b.vstar A t .zm).map ks.idxOf, (b.vstar A t .zp).map ks.idxOf⟩

theorem vnbr_get (b : Brick) (A : List Arc) (ks : List C3) (t : Nat × Nat × Nat) (d : Dir) :
    (b.vnbr A ks t).get d = (b.vstar A t d).map ks.idxOf := by cases d <;> rfl

/-- Corner `i` -/
def tri (i : Nat) : Nat × Nat × Nat := (i / 4, i % 4 / 2, i % 2)

/-- What is true of the element and the mesh before corner `4*n+r` -/
structure Round (A A1 : List Arc) (b : Brick) (l : NL) (s : Spec) (n r : Nat) : Prop where
  fun1 : Functional A1
  know : Know s A1
  agrees : Agrees l s
  bx : b.nx = 2
  by2 : b.ny = 2
  mem : ∀ t ∈ b.all, b.at_ t ∈ s.keys
  hn : n < b.nz
  hr : r < 4
  same : ∀ d, kn A1 d (b.place n (r / 2) (r % 2)) = kn A d (b.place n (r / 2) (r % 2))
  middle : r = 0 → ∀ w, mid A .yp (b.place n 0 0) (b.place n 0 1) = some w → kn A1 .xp w = kn A .xp w

variable {A A1 : List Arc} {b : Brick} {l : NL} {s : Spec} {n r : Nat}

theorem Round.place (R : Round A A1 b l s n r) {m j k : Nat} (h1 : m < b.nz) (h2 : j < 2) (h3 : k < 2) : b.place m j k ∈ s.keys :=
  R.mem (m, j, k) (mem_triples.2 ⟨h1, by rw [R.bx]; exact h2, by rw [R.by2]; exact h3⟩)

theorem Round.read (R : Round A A1 b l s n r) {m j k u : Nat} (h1 : m < b.nz) (h2 : j < 2) (h3 : k < 2) (hu : u = 4 * m + 2 * j + k) :
    (b.inel s.keys)[u]? = some (s.keys.idxOf (b.place m j k)) := by
  rw [← inel_get b s.keys ⟨h1, by rw [R.bx]; exact h2, by rw [R.by2]; exact h3⟩, R.bx, R.by2, hu]

theorem Round.readAt (R : Round A A1 b l s n r) {m j k u : Nat} (h1 : m < b.nz) (h2 : j < 2) (h3 : k < 2) (hu : u = 4 * m + 2 * j + k) :
    Nodes.readAt (b.inel s.keys) u = .ok (s.keys.idxOf (b.place m j k)) := by
  unfold Nodes.readAt
  rw [R.read h1 h2 h3 hu]

theorem Round.zp (R : Round A A1 b l s n r) : entry (decide (4 * n + r < 4 * (b.nz - 1))) (b.inel s.keys) (4 * n + r + 4) =
    .ok ((b.star (n, r / 2, r % 2) .zp).map s.keys.idxOf) := by
  have := R.hr
  have := R.hn
  simp only [Brick.star]
  by_cases h : n < b.nz - 1
  · rw [if_pos h, entry_pos (decide_eq_true (by omega))
      (R.read (m := n + 1) (j := r / 2) (k := r % 2) (by omega) (by omega) (by omega) (by omega))]
    rfl
  · rw [if_neg h, decide_eq_false (by omega)]; rfl

theorem Round.zm (R : Round A A1 b l s n r) : entry (decide (4 * n + r ≥ 4)) (b.inel s.keys) (4 * n + r - 4) =
    .ok ((b.star (n, r / 2, r % 2) .zm).map s.keys.idxOf) := by
  have := R.hr
  have := R.hn
  simp only [Brick.star]
  by_cases h : 0 < n
  · rw [if_pos h, entry_pos (decide_eq_true (by omega))
      (R.read (m := n - 1) (j := r / 2) (k := r % 2) (by omega) (by omega) (by omega) (by omega))]
    rfl
  · rw [if_neg h, decide_eq_false (by omega)]; rfl

theorem maskAt_before {ks : List C3} {i u : Nat} (hu : owner b.nz u = i) : maskAt A b ks i u = none := by
  unfold maskAt
  rw [if_neg (by omega)]

theorem maskAt_other {ks : List C3} {i u : Nat} (hu : owner b.nz u ≠ i) : maskAt A b ks (i + 1) u = maskAt A b ks i u := by
  unfold maskAt
  by_cases h : owner b.nz u < i
  · rw [if_pos h, if_pos (by omega)]
  · rw [if_neg h, if_neg (by omega)]

theorem maskAt_after {ks : List C3} {i u : Nat} (hu : owner b.nz u = i) : maskAt A b ks (i + 1) u = (extra A b u).map ks.idxOf := by
  unfold maskAt
  rw [if_pos (by omega)]

theorem owner_zero (hn : n < b.nz) (u : Nat) : owner b.nz u = 4 * n ↔ u = 4 * n ∨ u = 4 * n + 2 ∨ u = 4 * b.nz + n := by
  unfold owner
  by_cases h : u < 4 * b.nz
  · rw [if_pos h]
    by_cases h2 : u % 4 = 0 ∨ u % 4 = 2
    · rw [if_pos h2]; omega
    · rw [if_neg h2]; omega
  · rw [if_neg h]; omega

theorem owner_three (hn : n < b.nz) (u : Nat) : owner b.nz u = 4 * n + 3 ↔ u = 4 * n + 1 ∨ u = 4 * n + 3 := by
  unfold owner
  by_cases h : u < 4 * b.nz
  · rw [if_pos h]
    by_cases h2 : u % 4 = 0 ∨ u % 4 = 2
    · rw [if_pos h2]; omega
    · rw [if_neg h2]; omega
  · rw [if_neg h]; omega

theorem owner_mid (u : Nat) : owner b.nz u ≠ 4 * n + 1 ∧ owner b.nz u ≠ 4 * n + 2 := by
  unfold owner
  by_cases h : u < 4 * b.nz
  · rw [if_pos h]
    by_cases h2 : u % 4 = 0 ∨ u % 4 = 2
    · rw [if_pos h2]; omega
    · rw [if_neg h2]; omega
  · rw [if_neg h]; omega

theorem extra_0 (hn : n < b.nz) : extra A b (4 * n) = mid A .yp (b.place n 0 0) (b.place n 0 1) := by
  unfold extra
  rw [if_pos (by omega), show 4 * n % 4 = 0 by omega, show 4 * n / 4 = n by omega]
  rfl

theorem extra_1 (hn : n < b.nz) : extra A b (4 * n + 1) = mid A .xm (b.place n 1 1) (b.place n 0 1) := by
  unfold extra
  rw [if_pos (by omega), show (4 * n + 1) % 4 = 1 by omega, show (4 * n + 1) / 4 = n by omega]
  rfl

theorem extra_2 (hn : n < b.nz) : extra A b (4 * n + 2) = mid A .xp (b.place n 0 0) (b.place n 1 0) := by
  unfold extra
  rw [if_pos (by omega), show (4 * n + 2) % 4 = 2 by omega, show (4 * n + 2) / 4 = n by omega]
  rfl

theorem extra_3 (hn : n < b.nz) : extra A b (4 * n + 3) = mid A .ym (b.place n 1 1) (b.place n 1 0) := by
  unfold extra
  rw [if_pos (by omega), show (4 * n + 3) % 4 = 3 by omega, show (4 * n + 3) / 4 = n by omega]
  rfl

theorem extra_4 (n : Nat) : extra A b (4 * b.nz + n) = if n = 0 ∨ n = b.nz - 1 then
    (mid A .yp (b.place n 0 0) (b.place n 0 1)).bind (kn A .xp) else none := by
  unfold extra
  rw [if_neg (by omega), show 4 * b.nz + n - 4 * b.nz = n by omega]

/-- The entries written by the first corner of a level -/
theorem put_zero (hn : n < b.nz) (ks : List C3) (v : Option Nat) (hv : v = (extra A b (4 * b.nz + n)).map ks.idxOf) :
    put (put (put (maskAt A b ks (4 * n)) (4 * n + 2) ((mid A .xp (b.place n 0 0) (b.place n 1 0)).map ks.idxOf))
      (4 * n) ((mid A .yp (b.place n 0 0) (b.place n 0 1)).map ks.idxOf)) (4 * b.nz + n) v = maskAt A b ks (4 * n + 1) := by
  funext u
  have own := owner_zero hn
  simp only [put_apply]
  by_cases h0 : u = 4 * b.nz + n
  · subst h0
    rw [if_pos rfl, if_neg (by omega), if_neg (by omega), maskAt_before ((own _).2 (by simp)), maskAt_after ((own _).2 (by simp)), hv]
    simp
  · rw [if_neg h0]
    by_cases h1 : u = 4 * n
    · subst h1
      rw [if_pos rfl, if_neg (by omega), maskAt_before ((own _).2 (by simp)), maskAt_after ((own _).2 (by simp)), extra_0 hn]
      simp
    · rw [if_neg h1]
      by_cases h2 : u = 4 * n + 2
      · subst h2
        rw [if_pos rfl, maskAt_before ((own _).2 (by simp)), maskAt_after ((own _).2 (by simp)), extra_2 hn]
        simp
      · rw [if_neg h2, maskAt_other (by rw [Ne, own]; omega)]

/-- The entries written by the last corner of a level -/
theorem put_three (hn : n < b.nz) (ks : List C3) :
    put (put (maskAt A b ks (4 * n + 3)) (4 * n + 1) ((mid A .xm (b.place n 1 1) (b.place n 0 1)).map ks.idxOf))
      (4 * n + 3) ((mid A .ym (b.place n 1 1) (b.place n 1 0)).map ks.idxOf) = maskAt A b ks (4 * n + 3 + 1) := by
  funext u
  have own := owner_three hn
  simp only [put_apply]
  by_cases h1 : u = 4 * n + 3
  · subst h1
    rw [if_pos rfl, if_neg (by omega), maskAt_before ((own _).2 (by simp)), maskAt_after ((own _).2 (by simp)), extra_3 hn]
    simp
  · rw [if_neg h1]
    by_cases h2 : u = 4 * n + 1
    · subst h2
      rw [if_pos rfl, maskAt_before ((own _).2 (by simp)), maskAt_after ((own _).2 (by simp)), extra_1 hn]
      simp
    · rw [if_neg h2, maskAt_other (i := 4 * n + 3) (by rw [Ne, own]; omega)]

/-- One round of the program -/
theorem maskStep_eq (R : Round A A1 b l s n r) :
    maskStep (b.inel s.keys) b.nz (4 * n + r) l (maskAt A b s.keys (4 * n + r)) =
      setnbr l (s.keys.idxOf (b.at_ (n, r / 2, r % 2))) (b.vnbr A s.keys (n, r / 2, r % 2)) >>= fun l =>
        .ok (l, maskAt A b s.keys (4 * n + r + 1)) := by
  have hr := R.hr
  have hn := R.hn
  have bx := R.bx
  have by2 := R.by2
  obtain ⟨nb, g1, g2⟩ := R.know.get R.fun1 (R.place (j := r / 2) (k := r % 2) hn (by omega) (by omega))
  simp only [R.same] at g2
  have hlt : s.keys.idxOf (b.place n (r / 2) (r % 2)) < l.size := by
    rw [R.agrees.size]; exact (List.getElem?_eq_some_iff.1 g1).1
  have hval : (l.val (s.keys.idxOf (b.place n (r / 2) (r % 2)))).nbr = nb := (R.agrees.node _ _ g1).2
  have hkn : ∀ d q, kn A d (b.place n (r / 2) (r % 2)) = some q → q ∈ s.keys := by
    intro d q h
    rw [← R.same d, kn_iff R.fun1] at h
    exact (R.know.ends _ _ _ h).2
  have hm : ∀ d q, q ∈ s.keys → between (nb.get d) (s.keys.idxOf q) =
      (mid A d (b.place n (r / 2) (r % 2)) q).map s.keys.idxOf := by
    intro d q hq
    rw [g2 d, between_mid (hkn d) hq]; rfl
  have ho : ∀ d q, q ∈ s.keys → (between (nb.get d) (s.keys.idxOf q)).or (some (s.keys.idxOf q)) =
      some (s.keys.idxOf ((kn A d (b.place n (r / 2) (r % 2))).getD q)) := by
    intro d q hq
    rw [g2 d, between_or (hkn d) hq]
  have e1 := R.readAt (m := n) (j := r / 2) (k := r % 2) (u := 4 * n + r) hn (by omega) (by omega) (by omega)
  have e2 := R.readAt (m := n) (j := 1 - r / 2) (k := r % 2) (u := 4 * n + (r + 2) % 4) hn (by omega) (by omega) (by omega)
  have e3 := R.readAt (m := n) (j := r / 2) (k := 1 - r % 2) (u := 2 * ((4 * n + r) / 2) + ((4 * n + r) % 2 + 1) % 2) hn
    (by omega) (by omega) (by omega)
  have hX := R.place (m := n) (j := 1 - r / 2) (k := r % 2) hn (by omega) (by omega)
  have hY := R.place (m := n) (j := r / 2) (k := 1 - r % 2) hn (by omega) (by omega)
  unfold maskStep
  rw [e1, Res.ok_bind, if_pos hlt, show (4 * n + r) / 4 = n by omega, show (4 * n + r) % 4 = r by omega, e2, Res.ok_bind, e3,
    Res.ok_bind, R.zp, Res.ok_bind, R.zm, Res.ok_bind, hval]
  have hr4 : r = 0 ∨ r = 1 ∨ r = 2 ∨ r = 3 := by omega
  rcases hr4 with rfl | rfl | rfl | rfl
  · have hx := hm .xp _ hX
    have hy := hm .yp _ hY
    have ox := ho .xp _ hX
    have oy := ho .yp _ hY
    simp only [Nbr.get] at hx hy ox oy
    have hg : b.vnbr A s.keys (n, 0 / 2, 0 % 2) = Nbr.mk none
        (some (s.keys.idxOf ((kn A .xp (b.place n (0 / 2) (0 % 2))).getD (b.place n (1 - 0 / 2) (0 % 2))))) none
        (some (s.keys.idxOf ((kn A .yp (b.place n (0 / 2) (0 % 2))).getD (b.place n (0 / 2) (1 - 0 % 2)))))
        ((b.star (n, 0 / 2, 0 % 2) .zm).map s.keys.idxOf) ((b.star (n, 0 / 2, 0 % 2) .zp).map s.keys.idxOf) := by
      simp [Brick.vnbr, Brick.vstar, Brick.star, bx, by2, Brick.at_]
    rw [hg]
    dsimp only
    rw [ox, oy]
    simp only [hx, hy]
    have hz := put_zero (A := A) hn s.keys
    have hmid := R.middle rfl
    have x4 := extra_4 (A := A) (b := b) n
    simp only [Nat.zero_div, Nat.zero_mod, Nat.sub_zero, Nat.add_zero] at hkn ⊢
    cases hw : mid A .yp (b.place n 0 0) (b.place n 0 1) with
    | none =>
      rw [hw] at hz x4
      have := hz none (by rw [x4]; simp)
      simp only [Option.map_none, put] at this ⊢
      rw [this]
      rfl
    | some w =>
      rw [hw] at hz x4
      have hwk : w ∈ s.keys := hkn .yp w (by
        unfold mid at hw
        exact (Option.filter_eq_some_iff.1 hw).1)
      obtain ⟨nw, f1, f2⟩ := R.know.get R.fun1 hwk
      simp only [Option.map_some] at hz ⊢
      by_cases hc : n = 0 ∨ n = b.nz - 1
      · rw [if_pos (by omega), if_pos (by rw [R.agrees.size]; exact (List.getElem?_eq_some_iff.1 f1).1), (R.agrees.node _ _ f1).2,
          hz _ (by
            rw [x4, if_pos hc, Option.bind_some, ← hmid w hw]
            exact f2 .xp)]
        rfl
      · rw [if_neg (by omega)]
        have := hz none (by rw [x4, if_neg hc]; rfl)
        simp only [put] at this ⊢
        rw [this]
        rfl
  · have ox := ho .xp _ hX
    have oy := ho .ym _ hY
    simp only [Nbr.get] at ox oy
    have hg : b.vnbr A s.keys (n, 1 / 2, 1 % 2) = Nbr.mk none
        (some (s.keys.idxOf ((kn A .xp (b.place n (1 / 2) (1 % 2))).getD (b.place n (1 - 1 / 2) (1 % 2)))))
        (some (s.keys.idxOf ((kn A .ym (b.place n (1 / 2) (1 % 2))).getD (b.place n (1 / 2) (1 - 1 % 2))))) none
        ((b.star (n, 1 / 2, 1 % 2) .zm).map s.keys.idxOf) ((b.star (n, 1 / 2, 1 % 2) .zp).map s.keys.idxOf) := by
      simp [Brick.vnbr, Brick.vstar, Brick.star, bx, by2, Brick.at_]
    rw [hg]
    dsimp only
    rw [ox, oy, show maskAt A b s.keys (4 * n + 1 + 1) = maskAt A b s.keys (4 * n + 1) from
      funext fun u => maskAt_other (owner_mid u).1]
    rfl
  · have ox := ho .xm _ hX
    have oy := ho .yp _ hY
    simp only [Nbr.get] at ox oy
    have hg : b.vnbr A s.keys (n, 2 / 2, 2 % 2) = Nbr.mk
        (some (s.keys.idxOf ((kn A .xm (b.place n (2 / 2) (2 % 2))).getD (b.place n (1 - 2 / 2) (2 % 2))))) none none
        (some (s.keys.idxOf ((kn A .yp (b.place n (2 / 2) (2 % 2))).getD (b.place n (2 / 2) (1 - 2 % 2)))))
        ((b.star (n, 2 / 2, 2 % 2) .zm).map s.keys.idxOf) ((b.star (n, 2 / 2, 2 % 2) .zp).map s.keys.idxOf) := by
      simp [Brick.vnbr, Brick.vstar, Brick.star, bx, by2, Brick.at_]
    rw [hg]
    dsimp only
    rw [ox, oy, show maskAt A b s.keys (4 * n + 2 + 1) = maskAt A b s.keys (4 * n + 2) from
      funext fun u => maskAt_other (owner_mid u).2]
    rfl
  · have hx := hm .xm _ hX
    have hy := hm .ym _ hY
    have ox := ho .xm _ hX
    have oy := ho .ym _ hY
    simp only [Nbr.get] at hx hy ox oy
    have hg : b.vnbr A s.keys (n, 3 / 2, 3 % 2) = Nbr.mk
        (some (s.keys.idxOf ((kn A .xm (b.place n (3 / 2) (3 % 2))).getD (b.place n (1 - 3 / 2) (3 % 2))))) none
        (some (s.keys.idxOf ((kn A .ym (b.place n (3 / 2) (3 % 2))).getD (b.place n (3 / 2) (1 - 3 % 2))))) none
        ((b.star (n, 3 / 2, 3 % 2) .zm).map s.keys.idxOf) ((b.star (n, 3 / 2, 3 % 2) .zp).map s.keys.idxOf) := by
      simp [Brick.vnbr, Brick.vstar, Brick.star, bx, by2, Brick.at_]
    rw [hg]
    dsimp only
    rw [ox, oy]
    simp only [hx, hy]
    have := put_three (A := A) hn s.keys
    rw [show 4 * n + 3 - 2 = 4 * n + 1 by omega]
    show setnbr l _ _ >>= _ = _
    rw [← this]
    rfl

end OP.Fem.Nodes
