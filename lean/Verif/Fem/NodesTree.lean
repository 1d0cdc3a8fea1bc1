import Verif.Fem.Nodes
import Mathlib.Data.List.Pairwise
import Mathlib.Tactic.Linarith
import Mathlib.Tactic.SplitIfs
/-!
# Lemmas for the nodes of a mesh: the tree that the array stands for
-/
namespace OP.Fem.Nodes

/-- The order of the nodes: from the top down, then along x, then along y -/
def C3.before (a b : C3) : Prop := b.z < a.z ∨ a.z = b.z ∧ (a.x < b.x ∨ a.x = b.x ∧ a.y < b.y)

instance (a b : C3) : Decidable (a.before b) := by unfold C3.before; infer_instance

theorem cmp_zero (a b : C3) : a.compare b = 0 ↔ a = b := by
  obtain ⟨x, y, z⟩ := a
  obtain ⟨x', y', z'⟩ := b
  simp only [C3.compare, C3.mk.injEq]
  split_ifs <;> simp_all

theorem cmp_neg (a b : C3) : a.compare b < 0 ↔ a.before b := by
  obtain ⟨x, y, z⟩ := a
  obtain ⟨x', y', z'⟩ := b
  simp only [C3.compare, C3.before]
  split_ifs <;> omega

theorem cmp_pos (a b : C3) : 0 < a.compare b ↔ b.before a := by
  obtain ⟨x, y, z⟩ := a
  obtain ⟨x', y', z'⟩ := b
  simp only [C3.compare, C3.before]
  split_ifs <;> omega

theorem before_irrefl (a : C3) : ¬ a.before a := by unfold C3.before; omega

theorem before_trans {a b c : C3} (h : a.before b) (g : b.before c) : a.before c := by
  unfold C3.before at *; omega

theorem before_asymm {a b : C3} (h : a.before b) : ¬ b.before a := by
  unfold C3.before at *; omega

/-- A link and everything behind it -/
inductive T where
  | nil
  | node (i : Nat) (k : C3) (o : Nat) (b : Bool) (l r : T)
deriving DecidableEq

namespace T

def link : T → Option Nat
  | nil => none
  | node i .. => some i

def toList : T → List (C3 × Nat)
  | nil => []
  | node i k _ _ l r => l.toList ++ (k, i) :: r.toList

def card : T → Nat
  | nil => 0
  | node _ _ _ _ l r => l.card + 1 + r.card

theorem length_toList (t : T) : t.toList.length = t.card := by
  induction t with
  | nil => rfl
  | node i k o b l r hl hr => simp only [toList, card, List.length_append, List.length_cons, hl, hr]; omega

/-- The counts are right -/
def OK : T → Prop
  | nil => True
  | node _ _ o _ l r => o = l.card ∧ l.OK ∧ r.OK

def split : T → T
  | node i k o b (node x kx ox true (node y ky oy true a b') c) r =>
    node x kx ox true (node y ky oy false a b') (node i k (o - (ox + 1)) b c r)
  | t => t

def lean : T → T
  | node i k o b l (node x kx ox true a c) => node x kx (ox + (o + 1)) b (node i k o true l a) c
  | t => t

def ins (c : C3) (n : Nat) : Nat → T → Option T
  | 0, _ => none
  | _ + 1, nil => some (node n c 0 true nil nil)
  | f + 1, node i k o b l r =>
    match split (node i k o b l r) with
    | nil => none
    | node i k o b l r =>
      if c.compare k < 0 then (ins c n f l).map fun l' => lean (node i k (o + 1) b l' r)
      else (ins c n f r).map fun r' => lean (node i k o b l r')

theorem split_cases (t : T) : t.split = t ∨ ∃ i k o b x kx ox y ky oy a b' c r,
    t = node i k o b (node x kx ox true (node y ky oy true a b') c) r ∧
    t.split = node x kx ox true (node y ky oy false a b') (node i k (o - (ox + 1)) b c r) := by
  unfold split
  split
  · right; exact ⟨_, _, _, _, _, _, _, _, _, _, _, _, _, _, rfl, rfl⟩
  · left; rfl

theorem lean_cases (t : T) : t.lean = t ∨ ∃ i k o b l x kx ox a c,
    t = node i k o b l (node x kx ox true a c) ∧
    t.lean = node x kx (ox + (o + 1)) b (node i k o true l a) c := by
  unfold lean
  split
  · right; exact ⟨_, _, _, _, _, _, _, _, _, _, rfl, rfl⟩
  · left; rfl

theorem toList_split (t : T) : t.split.toList = t.toList := by
  rcases split_cases t with h | ⟨i, k, o, b, x, kx, ox, y, ky, oy, a, b', c, r, rfl, h⟩
  · rw [h]
  · rw [h]; simp [toList]

theorem toList_lean (t : T) : t.lean.toList = t.toList := by
  rcases lean_cases t with h | ⟨i, k, o, b, l, x, kx, ox, a, c, rfl, h⟩
  · rw [h]
  · rw [h]; simp [toList]

theorem OK_split {t : T} (g : t.OK) : t.split.OK := by
  rcases split_cases t with h | ⟨i, k, o, b, x, kx, ox, y, ky, oy, a, b', c, r, rfl, h⟩
  · rw [h]; exact g
  · rw [h]
    simp only [OK, card] at *
    obtain ⟨g1, ⟨g2, g3, g4⟩, g5⟩ := g
    exact ⟨g2, g3, by omega, g4, g5⟩

theorem OK_lean {t : T} (g : t.OK) : t.lean.OK := by
  rcases lean_cases t with h | ⟨i, k, o, b, l, x, kx, ox, a, c, rfl, h⟩
  · rw [h]; exact g
  · rw [h]
    simp only [OK, card] at *
    obtain ⟨g1, g2, g3, g4, g5⟩ := g
    exact ⟨by omega, ⟨g1, g2, g4⟩, g5⟩

/-- Sorted -/
def Sorted (t : T) : Prop := t.toList.Pairwise fun a b => a.1.before b.1

theorem Sorted_node {i k o b l r} (h : (node i k o b l r).Sorted) :
    l.Sorted ∧ r.Sorted ∧ (∀ a ∈ l.toList, a.1.before k) ∧ ∀ a ∈ r.toList, k.before a.1 := by
  simp only [Sorted, toList, List.pairwise_append, List.pairwise_cons] at *
  obtain ⟨h1, ⟨h2, h3⟩, h4⟩ := h
  exact ⟨h1, h3, fun a ha => h4 a ha (k, i) (by simp), h2⟩

theorem ins_list (c : C3) (n : Nat) : ∀ (f : Nat) (t t' : T), ins c n f t = some t' → t.Sorted →
    (∀ a ∈ t.toList, a.1 ≠ c) → ∃ A B, t.toList = A ++ B ∧ t'.toList = A ++ (c, n) :: B ∧
      (∀ a ∈ A, a.1.before c) ∧ ∀ a ∈ B, c.before a.1 := by
  intro f
  induction f with
  | zero => intro t t' h; cases h
  | succ f ih =>
    intro t t' h hs hc
    cases t with
    | nil =>
      simp only [ins, Option.some.injEq] at h
      subst h
      exact ⟨[], [], by simp [toList]⟩
    | node i k o b l r =>
      have hl := toList_split (node i k o b l r)
      have hs' : (split (node i k o b l r)).Sorted := by unfold Sorted; rw [hl]; exact hs
      rw [← hl] at hc
      rw [← hl]
      simp only [ins] at h
      generalize hsp : split (node i k o b l r) = s at *
      cases s with
      | nil => cases h
      | node i k o b l r =>
        simp only at h
        obtain ⟨hL, hR, hLk, hRk⟩ := Sorted_node hs'
        by_cases hlt : c.compare k < 0
        · rw [if_pos hlt] at h
          simp only [Option.map_eq_some_iff] at h
          obtain ⟨l', h1, h2⟩ := h
          obtain ⟨A, B, g1, g2, g3, g4⟩ := ih l l' h1 hL (fun a ha => hc a (by simp [toList, ha]))
          have hck := (cmp_neg _ _).1 hlt
          refine ⟨A, B ++ (k, i) :: r.toList, by simp [toList, g1], ?_, g3, ?_⟩
          · rw [← h2, toList_lean]; simp [toList, g2]
          · intro a ha
            rcases List.mem_append.1 ha with ha | ha
            · exact g4 a ha
            · rcases List.mem_cons.1 ha with rfl | ha
              · exact hck
              · exact before_trans hck (hRk a ha)
        · rw [if_neg hlt] at h
          simp only [Option.map_eq_some_iff] at h
          obtain ⟨r', h1, h2⟩ := h
          obtain ⟨A, B, g1, g2, g3, g4⟩ := ih r r' h1 hR (fun a ha => hc a (by simp [toList, ha]))
          have hne : c.compare k ≠ 0 := by
            intro h0
            exact hc (k, i) (by simp [toList]) ((cmp_zero _ _).1 h0).symm
          have hck := (cmp_pos _ _).1 (show 0 < c.compare k by omega)
          refine ⟨l.toList ++ (k, i) :: A, B, by simp [toList, g1], ?_, ?_, g4⟩
          · rw [← h2, toList_lean]; simp [toList, g2]
          · intro a ha
            rcases List.mem_append.1 ha with ha | ha
            · exact before_trans (hLk a ha) hck
            · rcases List.mem_cons.1 ha with rfl | ha
              · exact hck
              · exact g3 a ha

theorem card_split (t : T) : t.split.card = t.card := by
  rw [← length_toList, toList_split, length_toList]

theorem card_lean (t : T) : t.lean.card = t.card := by
  rw [← length_toList, toList_lean, length_toList]

theorem ins_OK (c : C3) (n : Nat) : ∀ (f : Nat) (t t' : T), ins c n f t = some t' → t.OK →
    t'.OK ∧ t'.card = t.card + 1 := by
  intro f
  induction f with
  | zero => intro t t' h; cases h
  | succ f ih =>
    intro t t' h hk
    cases t with
    | nil =>
      simp only [ins, Option.some.injEq] at h
      subst h
      simp [OK, card]
    | node i k o b l r =>
      have hl := card_split (node i k o b l r)
      have hs' := OK_split hk
      rw [← hl]
      simp only [ins] at h
      generalize hsp : split (node i k o b l r) = s at *
      cases s with
      | nil => cases h
      | node i k o b l r =>
        simp only at h
        obtain ⟨g1, g2, g3⟩ := hs'
        by_cases hlt : c.compare k < 0
        · rw [if_pos hlt] at h
          simp only [Option.map_eq_some_iff] at h
          obtain ⟨l', h1, h2⟩ := h
          obtain ⟨e1, e2⟩ := ih l l' h1 g2
          rw [← h2, card_lean]
          refine ⟨OK_lean ⟨by omega, e1, g3⟩, ?_⟩
          simp only [card]; omega
        · rw [if_neg hlt] at h
          simp only [Option.map_eq_some_iff] at h
          obtain ⟨r', h1, h2⟩ := h
          obtain ⟨e1, e2⟩ := ih r r' h1 g3
          rw [← h2, card_lean]
          refine ⟨OK_lean ⟨g1, g2, e1⟩, ?_⟩
          simp only [card]; omega

/-! ### Balance -/

/-- There are `h` black links on every path below the link, and `c` is the length of the chain of reds that it starts; zero stands
for a black link. -/
def Bal : T → Nat → Nat → Prop
  | nil, h, c => h = 0 ∧ c = 0
  | node _ _ _ false l r, h, c => c = 0 ∧ ∃ h', h = h' + 1 ∧ (l.Bal h' 0 ∨ l.Bal h' 1 ∨ l.Bal h' 2) ∧ r.Bal h' 0
  | node _ _ _ true l r, h, c => (c = 1 ∧ l.Bal h 0 ∨ c = 2 ∧ l.Bal h 1) ∧ r.Bal h 0

theorem Bal_black {i k o l r h} : (node i k o false l r).Bal (h + 1) 0 ↔
    (l.Bal h 0 ∨ l.Bal h 1 ∨ l.Bal h 2) ∧ r.Bal h 0 := by
  simp only [Bal, true_and, Nat.add_right_cancel_iff]
  constructor
  · rintro ⟨h', rfl, g⟩; exact g
  · intro g; exact ⟨h, rfl, g⟩

theorem Bal_red1 {i k o l r h} : (node i k o true l r).Bal h 1 ↔ l.Bal h 0 ∧ r.Bal h 0 := by
  simp [Bal]

theorem Bal_red2 {i k o l r h} : (node i k o true l r).Bal h 2 ↔ l.Bal h 1 ∧ r.Bal h 0 := by
  simp [Bal]

theorem Bal_zero {i k o b l r h} (g : (node i k o b l r).Bal h 0) : b = false ∧ ∃ h', h = h' + 1 := by
  cases b with
  | true => simp [Bal] at g
  | false => obtain ⟨_, h', e, _⟩ := g; exact ⟨rfl, h', e⟩

theorem Bal_one {t : T} {h : Nat} (g : t.Bal h 1) : ∃ i k o l r, t = node i k o true l r ∧ l.Bal h 0 ∧ r.Bal h 0 := by
  cases t with
  | nil => simp [Bal] at g
  | node i k o b l r =>
    cases b with
    | false => simp [Bal] at g
    | true => exact ⟨i, k, o, l, r, rfl, Bal_red1.1 g⟩

theorem Bal_two {t : T} {h : Nat} (g : t.Bal h 2) : ∃ i k o l r, t = node i k o true l r ∧ l.Bal h 1 ∧ r.Bal h 0 := by
  cases t with
  | nil => simp [Bal] at g
  | node i k o b l r =>
    cases b with
    | false => simp [Bal] at g
    | true => exact ⟨i, k, o, l, r, rfl, Bal_red2.1 g⟩

theorem split_of_black {i k o b l r h} (g : l.Bal h 0) : split (node i k o b l r) = node i k o b l r := by
  cases l with
  | nil => rfl
  | node j kj oj bj lj rj => obtain ⟨rfl, _⟩ := Bal_zero g; rfl

theorem split_of_red {i k o b l r h} (g : l.Bal h 1) : split (node i k o b l r) = node i k o b l r := by
  obtain ⟨j, kj, oj, lj, rj, rfl, g1, _⟩ := Bal_one g
  cases lj with
  | nil => rfl
  | node j' kj' oj' bj lj rj => obtain ⟨rfl, _⟩ := Bal_zero g1; rfl

theorem lean_of_black {i k o b l r h} (g : r.Bal h 0) : lean (node i k o b l r) = node i k o b l r := by
  cases r with
  | nil => rfl
  | node j kj oj bj lj rj => obtain ⟨rfl, _⟩ := Bal_zero g; rfl

/-- What an insertion below a link of height `h` gives, with room for a recursion of depth `f` -/
def Good (c : C3) (n h : Nat) : Prop := ∀ t : T, t.Bal h 0 → ∀ f, 2 * h + 1 ≤ f →
  ∃ t', ins c n f t = some t' ∧ (t'.Bal h 0 ∨ t'.Bal h 1)

theorem ins_red {c : C3} {n h : Nat} (H : Good c n h) (t : T) (ht : t.Bal h 1) (f : Nat) (hf : 2 * h + 2 ≤ f) :
    ∃ t', ins c n f t = some t' ∧ (t'.Bal h 1 ∨ t'.Bal h 2) := by
  obtain ⟨i, k, o, l, r, rfl, hl, hr⟩ := Bal_one ht
  obtain ⟨f, rfl⟩ : ∃ f', f = f' + 1 := ⟨f - 1, by omega⟩
  simp only [ins, split_of_black hl]
  by_cases hlt : c.compare k < 0
  · rw [if_pos hlt]
    obtain ⟨l', e, g⟩ := H l hl f (by omega)
    rw [e]
    refine ⟨_, rfl, ?_⟩
    beta_reduce
    rw [lean_of_black hr]
    rcases g with g | g
    · exact Or.inl (Bal_red1.2 ⟨g, hr⟩)
    · exact Or.inr (Bal_red2.2 ⟨g, hr⟩)
  · rw [if_neg hlt]
    obtain ⟨r', e, g⟩ := H r hr f (by omega)
    rw [e]
    refine ⟨_, rfl, ?_⟩
    beta_reduce
    rcases g with g | g
    · rw [lean_of_black g]
      exact Or.inl (Bal_red1.2 ⟨hl, g⟩)
    · obtain ⟨j, kj, oj, lj, rj, rfl, g1, g2⟩ := Bal_one g
      right
      simp only [lean]
      exact Bal_red2.2 ⟨Bal_red1.2 ⟨hl, g1⟩, g2⟩

/-- The right side of a black link that starts no long chain -/
theorem right_black {c : C3} {n h : Nat} (H : Good c n h) (i : Nat) (k : C3) (o : Nat) (l r : T)
    (hl : l.Bal h 0 ∨ l.Bal h 1) (hr : r.Bal h 0) (f : Nat) (hf : 2 * h + 1 ≤ f) :
    ∃ r', ins c n f r = some r' ∧ (lean (node i k o false l r')).Bal (h + 1) 0 := by
  obtain ⟨r', e, g⟩ := H r hr f hf
  refine ⟨r', e, ?_⟩
  rcases g with g | g
  · rw [lean_of_black g]
    exact Bal_black.2 ⟨by tauto, g⟩
  · obtain ⟨j, kj, oj, lj, rj, rfl, g1, g2⟩ := Bal_one g
    simp only [lean]
    refine Bal_black.2 ⟨?_, g2⟩
    rcases hl with hl | hl
    · exact Or.inr (Or.inl (Bal_red1.2 ⟨hl, g1⟩))
    · exact Or.inr (Or.inr (Bal_red2.2 ⟨hl, g1⟩))

/-- A black link without a red one below stays black. -/
theorem ins_two {c : C3} {n h : Nat} (H : Good c n h) (i : Nat) (k : C3) (o : Nat) (l r : T)
    (hl : l.Bal h 0) (hr : r.Bal h 0) (f : Nat) (hf : 2 * h + 2 ≤ f) :
    ∃ t', ins c n f (node i k o false l r) = some t' ∧ t'.Bal (h + 1) 0 := by
  obtain ⟨f, rfl⟩ : ∃ f', f = f' + 1 := ⟨f - 1, by omega⟩
  simp only [ins, split_of_black hl]
  by_cases hlt : c.compare k < 0
  · rw [if_pos hlt]
    obtain ⟨l', e, g⟩ := H l hl f (by omega)
    rw [e]
    refine ⟨_, rfl, ?_⟩
    beta_reduce
    rw [lean_of_black hr]
    exact Bal_black.2 ⟨by tauto, hr⟩
  · rw [if_neg hlt]
    obtain ⟨r', e, g⟩ := right_black H i k o l r (Or.inl hl) hr f (by omega)
    rw [e]
    exact ⟨_, rfl, g⟩

theorem ins_good (c : C3) (n : Nat) : ∀ h, Good c n h := by
  intro h
  induction h with
  | zero =>
    intro t ht f hf
    cases t with
    | nil =>
      obtain ⟨f, rfl⟩ : ∃ f', f = f' + 1 := ⟨f - 1, by omega⟩
      exact ⟨_, rfl, Or.inr (Bal_red1.2 ⟨⟨rfl, rfl⟩, ⟨rfl, rfl⟩⟩)⟩
    | node i k o b l r => obtain ⟨_, h', e⟩ := Bal_zero ht; omega
  | succ h H =>
    intro t ht f hf
    cases t with
    | nil => obtain ⟨e, _⟩ := ht; omega
    | node i k o b l r =>
      obtain ⟨rfl, -⟩ := Bal_zero ht
      obtain ⟨hl, hr⟩ := Bal_black.1 ht
      rcases hl with hl | hl | hl
      · obtain ⟨t', e, g⟩ := ins_two H i k o l r hl hr f (by omega)
        exact ⟨t', e, Or.inl g⟩
      · obtain ⟨f, rfl⟩ : ∃ f', f = f' + 1 := ⟨f - 1, by omega⟩
        simp only [ins, split_of_red hl]
        by_cases hlt : c.compare k < 0
        · rw [if_pos hlt]
          obtain ⟨l', e, g⟩ := ins_red H l hl f (by omega)
          rw [e]
          refine ⟨_, rfl, Or.inl ?_⟩
          beta_reduce
          rw [lean_of_black hr]
          exact Bal_black.2 ⟨by tauto, hr⟩
        · rw [if_neg hlt]
          obtain ⟨r', e, g⟩ := right_black H i k o l r (Or.inr hl) hr f (by omega)
          rw [e]
          exact ⟨_, rfl, Or.inl g⟩
      · obtain ⟨x, kx, ox, lx, rx, rfl, g1, g2⟩ := Bal_two hl
        obtain ⟨y, ky, oy, a, b', rfl, g3, g4⟩ := Bal_one g1
        obtain ⟨f, rfl⟩ : ∃ f', f = f' + 1 := ⟨f - 1, by omega⟩
        simp only [ins, split]
        have hL : (node y ky oy false a b').Bal (h + 1) 0 := Bal_black.2 ⟨Or.inl g3, g4⟩
        have hR : (node i k (o - (ox + 1)) false rx r).Bal (h + 1) 0 := Bal_black.2 ⟨Or.inl g2, hr⟩
        by_cases hlt : c.compare kx < 0
        · rw [if_pos hlt]
          obtain ⟨l', e, g⟩ := ins_two H y ky oy a b' g3 g4 f (by omega)
          rw [e]
          refine ⟨_, rfl, Or.inr ?_⟩
          beta_reduce
          rw [lean_of_black hR]
          exact Bal_red1.2 ⟨g, hR⟩
        · rw [if_neg hlt]
          obtain ⟨r', e, g⟩ := ins_two H i k (o - (ox + 1)) rx r g2 hr f (by omega)
          rw [e]
          refine ⟨_, rfl, Or.inr ?_⟩
          beta_reduce
          rw [lean_of_black g]
          exact Bal_red1.2 ⟨hL, g⟩

def height : T → Nat
  | nil => 0
  | node _ _ _ _ l r => max l.height r.height + 1

theorem Bal_bounds : ∀ (t : T) (h c : Nat), t.Bal h c → t.height ≤ 3 * h + c ∧ 2 ^ h ≤ t.card + 1 := by
  intro t
  induction t with
  | nil => rintro h c ⟨rfl, rfl⟩; simp [height, card]
  | node i k o b l r hl hr =>
    intro h c g
    cases b with
    | false =>
      obtain ⟨rfl, h', rfl, g1, g2⟩ := g
      obtain ⟨r1, r2⟩ := hr _ _ g2
      simp only [height, card, pow_succ]
      rcases g1 with g1 | g1 | g1 <;>
      · obtain ⟨l1, l2⟩ := hl _ _ g1
        omega
    | true =>
      obtain ⟨g1, g2⟩ := g
      obtain ⟨r1, r2⟩ := hr _ _ g2
      simp only [height, card]
      rcases g1 with ⟨rfl, g1⟩ | ⟨rfl, g1⟩ <;>
      · obtain ⟨l1, l2⟩ := hl _ _ g1
        omega

/-- Painting of the root -/
def black : T → T
  | nil => nil
  | node i k o _ l r => node i k o false l r

theorem black_Bal {t : T} {h : Nat} (g : t.Bal h 0 ∨ t.Bal h 1) : ∃ h', t.black.Bal h' 0 := by
  rcases g with g | g
  · cases t with
    | nil => exact ⟨h, g⟩
    | node i k o b l r => obtain ⟨rfl, _⟩ := Bal_zero g; exact ⟨h, g⟩
  · obtain ⟨i, k, o, l, r, rfl, g1, g2⟩ := Bal_one g
    exact ⟨h + 1, Bal_black.2 ⟨Or.inl g1, g2⟩⟩

theorem black_toList (t : T) : t.black.toList = t.toList := by cases t <;> rfl
theorem black_card (t : T) : t.black.card = t.card := by cases t <;> rfl
theorem black_OK {t : T} (h : t.OK) : t.black.OK := by cases t <;> exact h
theorem black_link (t : T) : t.black.link = t.link := by cases t <;> rfl

theorem Bal_log {t : T} {h : Nat} (g : t.Bal h 0) : h ≤ Nat.log 2 (t.card + 1) :=
  Nat.le_log_of_pow_le (by norm_num) (Bal_bounds t h 0 g).2

end T
end OP.Fem.Nodes
