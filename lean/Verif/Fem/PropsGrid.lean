import Verif.Fem.PropsBlocks
/-!
# C108: meshes of bricks
-/
namespace OP.Fem.Nodes

open OP.Fem (Shape getn)

/-! ### The indices of the nodes of an element -/

theorem flatMap_range_get {α : Type} (f : Nat → List α) (m : Nat) : ∀ n, (∀ i < n, (f i).length = m) →
    ((List.range n).flatMap f).length = n * m ∧ ∀ i < n, ∀ r < m, ((List.range n).flatMap f)[i * m + r]? = (f i)[r]? := by
  intro n
  induction n with
  | zero => intro _; exact ⟨by simp, fun i hi => absurd hi (by omega)⟩
  | succ n ih =>
    intro h
    obtain ⟨h1, h2⟩ := ih fun i hi => h i (by omega)
    rw [List.range_succ, List.flatMap_append, List.flatMap_cons, List.flatMap_nil, List.append_nil]
    refine ⟨by rw [List.length_append, h1, h n (by omega)]; ring, ?_⟩
    intro i hi r hr
    by_cases hin : i < n
    · have : i * m + r < n * m := by
        have : (i + 1) * m ≤ n * m := Nat.mul_le_mul_right m hin
        rw [Nat.add_mul, Nat.one_mul] at this
        omega
      rw [List.getElem?_append_left (by omega)]
      exact h2 i hin r hr
    · obtain rfl : i = n := by omega
      rw [List.getElem?_append_right (by omega), h1]
      congr 1
      omega

theorem triples_get (nz nx ny : Nat) : (triples nz nx ny).length = nz * (nx * ny) ∧
    ∀ i < nz, ∀ j < nx, ∀ k < ny, (triples nz nx ny)[i * (nx * ny) + (j * ny + k)]? = some (i, j, k) := by
  have h1 : ∀ i j : Nat, ((List.range ny).map fun k => (i, j, k)).length = ny := by simp
  have h2 : ∀ i : Nat, _ := fun i => flatMap_range_get (fun j => (List.range ny).map fun k => (i, j, k)) ny nx fun j _ => h1 i j
  have h3 := flatMap_range_get (fun i => (List.range nx).flatMap fun j => (List.range ny).map fun k => (i, j, k)) (nx * ny) nz
    fun i _ => (h2 i).1
  refine ⟨h3.1, ?_⟩
  intro i hi j hj k hk
  have : j * ny + k < nx * ny := by
    have : (j + 1) * ny ≤ nx * ny := Nat.mul_le_mul_right ny hj
    rw [Nat.add_mul, Nat.one_mul] at this
    omega
  unfold triples
  rw [h3.2 i hi _ this, (h2 i).2 j hj k hk]
  simp [hk]

theorem mem_triples {nz nx ny i j k : Nat} : (i, j, k) ∈ triples nz nx ny ↔ i < nz ∧ j < nx ∧ k < ny := by
  unfold triples
  simp only [List.mem_flatMap, List.mem_range, List.mem_map, Prod.mk.injEq]
  constructor
  · rintro ⟨_, h1, _, h2, _, h3, rfl, rfl, rfl⟩; exact ⟨h1, h2, h3⟩
  · rintro ⟨h1, h2, h3⟩; exact ⟨i, h1, j, h2, k, h3, rfl, rfl, rfl⟩

/-- The neighbours of a node of a brick -/
def Brick.star (b : Brick) (t : Nat × Nat × Nat) : Dir → Option C3
  | .xm => if 0 < t.2.1 then some (b.place t.1 (t.2.1 - 1) t.2.2) else none
  | .xp => if t.2.1 < b.nx - 1 then some (b.place t.1 (t.2.1 + 1) t.2.2) else none
  | .ym => if 0 < t.2.2 then some (b.place t.1 t.2.1 (t.2.2 - 1)) else none
  | .yp => if t.2.2 < b.ny - 1 then some (b.place t.1 t.2.1 (t.2.2 + 1)) else none
  | .zm => if 0 < t.1 then some (b.place (t.1 - 1) t.2.1 t.2.2) else none
  | .zp => if t.1 < b.nz - 1 then some (b.place (t.1 + 1) t.2.1 t.2.2) else none

def Brick.at_ (b : Brick) (t : Nat × Nat × Nat) : C3 := b.place t.1 t.2.1 t.2.2

def Brick.all (b : Brick) : List (Nat × Nat × Nat) := triples b.nz b.nx b.ny

def Brick.arcs (b : Brick) : List Arc := b.all.flatMap fun t => arcsAt (b.at_ t) (b.star t)

theorem ite_some_eq {c : Prop} [Decidable c] {α : Type} {a b : α} : (if c then some a else none) = some b ↔ c ∧ a = b := by
  by_cases h : c
  · rw [if_pos h]; simp [h]
  · rw [if_neg h]; simp [h]

theorem mem_arcs {b : Brick} {d : Dir} {p q : C3} : (d, p, q) ∈ b.arcs ↔ b.Joins d p q := by
  unfold Brick.arcs Brick.all
  rw [List.mem_flatMap]
  constructor
  · rintro ⟨⟨i, j, k⟩, ht, hm⟩
    obtain ⟨h1, h2, h3⟩ := mem_triples.1 ht
    obtain ⟨rfl, hq⟩ := mem_arcsAt.1 hm
    cases d <;> simp only [Brick.star, ite_some_eq] at hq <;> obtain ⟨hc, rfl⟩ := hq
    · obtain ⟨j, rfl⟩ : ∃ j', j = j' + 1 := ⟨j - 1, by omega⟩
      exact .xm ⟨h1, h2, h3⟩
    · exact .xp (i := i) (j := j) (k := k) ⟨h1, by omega, h3⟩
    · obtain ⟨k, rfl⟩ : ∃ k', k = k' + 1 := ⟨k - 1, by omega⟩
      exact .ym ⟨h1, h2, h3⟩
    · exact .yp (i := i) (j := j) (k := k) ⟨h1, h2, by omega⟩
    · obtain ⟨i, rfl⟩ : ∃ i', i = i' + 1 := ⟨i - 1, by omega⟩
      exact .zm ⟨h1, h2, h3⟩
    · exact .zp (i := i) (j := j) (k := k) ⟨by omega, h2, h3⟩
  · intro h
    cases h with
    | @xm i j k h => exact ⟨(i, j + 1, k), mem_triples.2 h, mem_arcsAt.2 ⟨rfl, by simp [Brick.star]⟩⟩
    | @xp i j k h => exact ⟨(i, j, k), mem_triples.2 ⟨h.1, by have := h.2.1; omega, h.2.2⟩,
        mem_arcsAt.2 ⟨rfl, by have := h.2.1; exact ite_some_eq.2 ⟨by dsimp only; omega, rfl⟩⟩⟩
    | @ym i j k h => exact ⟨(i, j, k + 1), mem_triples.2 h, mem_arcsAt.2 ⟨rfl, by simp [Brick.star]⟩⟩
    | @yp i j k h => exact ⟨(i, j, k), mem_triples.2 ⟨h.1, h.2.1, by have := h.2.2; omega⟩,
        mem_arcsAt.2 ⟨rfl, by have := h.2.2; exact ite_some_eq.2 ⟨by dsimp only; omega, rfl⟩⟩⟩
    | @zm i j k h => exact ⟨(i + 1, j, k), mem_triples.2 h, mem_arcsAt.2 ⟨rfl, by simp [Brick.star]⟩⟩
    | @zp i j k h => exact ⟨(i, j, k), mem_triples.2 ⟨by have := h.1; omega, h.2⟩,
        mem_arcsAt.2 ⟨rfl, by have := h.1; exact ite_some_eq.2 ⟨by dsimp only; omega, rfl⟩⟩⟩

theorem fit_iff (bs : List Brick) : Fit bs ↔ Functional (bs.flatMap Brick.arcs) := by
  unfold Fit Functional
  have key : ∀ d p q, (d, p, q) ∈ bs.flatMap Brick.arcs ↔ ∃ b ∈ bs, b.Joins d p q := by
    intro d p q
    rw [List.mem_flatMap]
    exact exists_congr fun b => and_congr_right fun _ => mem_arcs
  simp only [key]

/-! ### The program -/

theorem Inv.addnode {l : NL} {s : Spec} {t : T} {h : Nat} (I : Inv l s t h) (c : C3) :
    ∃ l' t' h', Nodes.addnode l c = .ok (l', (s.add c).keys.idxOf c) ∧ Inv l' (s.add c) t' h' := by
  obtain ⟨l1, e1⟩ := I.agrees.number c
  have h2 := I.step (.add c)
  simp only [Spec.step, Nodes.step, e1] at h2
  obtain ⟨l2, t2, h2, e2, e3⟩ := h2
  cases e2
  exact ⟨l1, t2, h2, e1, e3⟩

theorem adds_keys : ∀ (cs : List C3) (s : Spec), ∃ ext, (cs.foldl Spec.add s).keys = s.keys ++ ext := by
  intro cs
  induction cs with
  | nil => intro s; exact ⟨[], by simp⟩
  | cons c cs ih =>
    intro s
    obtain ⟨e, he⟩ := ih (s.add c)
    rw [List.foldl_cons, he, add_keys]
    by_cases hc : c ∈ s.keys
    · rw [if_pos hc]; exact ⟨e, rfl⟩
    · rw [if_neg hc]; exact ⟨[c] ++ e, by simp⟩

theorem adds_mem : ∀ (cs : List C3) (s : Spec) (p : C3), p ∈ (cs.foldl Spec.add s).keys ↔ p ∈ s.keys ∨ p ∈ cs := by
  intro cs
  induction cs with
  | nil => intro s p; simp
  | cons c cs ih =>
    intro s p
    rw [List.foldl_cons, ih, add_keys, List.mem_cons]
    by_cases hc : c ∈ s.keys
    · rw [if_pos hc]
      constructor
      · tauto
      · rintro (h | rfl | h)
        · exact Or.inl h
        · exact Or.inl hc
        · exact Or.inr h
    · rw [if_neg hc, List.mem_append, List.mem_singleton]
      tauto

theorem addAll_inv : ∀ (cs : List C3) (l : NL) (s : Spec) (t : T) (h : Nat), Inv l s t h →
    ∃ l' t' h', addAll l cs = .ok (l', cs.map (cs.foldl Spec.add s).keys.idxOf) ∧ Inv l' (cs.foldl Spec.add s) t' h' := by
  intro cs
  induction cs with
  | nil => intro l s t h I; exact ⟨l, t, h, rfl, I⟩
  | cons c cs ih =>
    intro l s t h I
    obtain ⟨l1, t1, h1, e1, I1⟩ := I.addnode c
    obtain ⟨l2, t2, h2, e2, I2⟩ := ih l1 (s.add c) t1 h1 I1
    refine ⟨l2, t2, h2, ?_, I2⟩
    simp only [addAll, e1, Res.ok_bind, e2, Res.pure_eq, List.foldl_cons, List.map_cons]
    obtain ⟨e, he⟩ := adds_keys cs (s.add c)
    have hc : c ∈ (s.add c).keys := by rw [add_keys]; by_cases h : c ∈ s.keys <;> simp [h]
    rw [he, List.idxOf_append_of_mem hc]

/-- The neighbours as node numbers -/
def Brick.nbr (b : Brick) (ks : List C3) (t : Nat × Nat × Nat) : Nbr :=
  ⟨(b.star t .xm).map ks.idxOf, (b.star t .xp).map ks.idxOf, (b.star t .ym).map ks.idxOf, (b.star t .yp).map ks.idxOf,
    (b.star t .zm).map ks.idxOf, (b.star t .zp).map ks.idxOf⟩

theorem nbr_get (b : Brick) (ks : List C3) (t : Nat × Nat × Nat) (d : Dir) : (b.nbr ks t).get d = (b.star t d).map ks.idxOf := by
  cases d <;> rfl

/-- The node numbers of a brick -/
def Brick.inel (b : Brick) (ks : List C3) : List Nat := (b.all.map b.at_).map ks.idxOf

theorem inel_get (b : Brick) (ks : List C3) {i j k : Nat} (h : b.In i j k) :
    (b.inel ks)[b.ny * b.nx * i + b.ny * j + k]? = some (ks.idxOf (b.place i j k)) := by
  unfold Brick.inel Brick.all
  rw [List.getElem?_map, List.getElem?_map]
  have := (triples_get b.nz b.nx b.ny).2 i h.1 j h.2.1 k h.2.2
  rw [show b.ny * b.nx * i + b.ny * j + k = i * (b.nx * b.ny) + (j * b.ny + k) by ring, this]
  rfl

theorem entry_pos {b : Bool} {inel : List Nat} {n k : Nat} (hb : b = true) (h : inel[n]? = some k) : entry b inel n = .ok (some k) := by
  unfold entry; rw [hb, h]; rfl

theorem nbrAt_eq (b : Brick) (ks : List C3) {i j k : Nat} (h : b.In i j k) :
    nbrAt (b.inel ks) b.nz b.nx b.ny i j k = .ok (b.nbr ks (i, j, k)) := by
  obtain ⟨h1, h2, h3⟩ := h
  have ent : ∀ (c : Prop) [Decidable c] (n : Nat) (o : Option C3) (x : C3), (o = if c then some x else none) →
      (c → (b.inel ks)[n]? = some (ks.idxOf x)) → entry (decide c) (b.inel ks) n = .ok (o.map ks.idxOf) := by
    intro c _ n o x ho hn
    by_cases hc : c
    · rw [ho, if_pos hc, entry_pos (decide_eq_true hc) (hn hc)]; rfl
    · rw [ho, if_neg hc, decide_eq_false hc]; rfl
  unfold nbrAt
  simp only [Nat.one_mul]
  rw [ent (j < b.nx - 1) _ (b.star (i, j, k) .xp) _ rfl (fun hc => by
      rw [← inel_get b ks ⟨h1, (show j + 1 < b.nx by omega), h3⟩]; congr 1; ring), Res.ok_bind,
    ent (j > 0) _ (b.star (i, j, k) .xm) _ rfl (fun hc => by
      obtain ⟨j, rfl⟩ : ∃ j', j = j' + 1 := ⟨j - 1, by omega⟩
      rw [← inel_get b ks ⟨h1, (show j + 1 - 1 < b.nx by omega), h3⟩]
      congr 1
      rw [show b.ny * (j + 1) = b.ny * j + b.ny by ring, Nat.add_sub_cancel]
      omega), Res.ok_bind,
    ent (k < b.ny - 1) _ (b.star (i, j, k) .yp) _ rfl (fun hc => by
      rw [← inel_get b ks ⟨h1, h2, (show k + 1 < b.ny by omega)⟩]; congr 1), Res.ok_bind,
    ent (k > 0) _ (b.star (i, j, k) .ym) _ rfl (fun hc => by
      obtain ⟨k, rfl⟩ : ∃ k', k = k' + 1 := ⟨k - 1, by omega⟩
      rw [← inel_get b ks ⟨h1, h2, (show k + 1 - 1 < b.ny by omega)⟩]; congr 1), Res.ok_bind,
    ent (i < b.nz - 1) _ (b.star (i, j, k) .zp) _ rfl (fun hc => by
      rw [← inel_get b ks ⟨(show i + 1 < b.nz by omega), h2, h3⟩]; congr 1; ring), Res.ok_bind,
    ent (i > 0) _ (b.star (i, j, k) .zm) _ rfl (fun hc => by
      obtain ⟨i, rfl⟩ : ∃ i', i = i' + 1 := ⟨i - 1, by omega⟩
      rw [← inel_get b ks ⟨(show i + 1 - 1 < b.nz by omega), h2, h3⟩]
      congr 1
      rw [show b.ny * b.nx * (i + 1) = b.ny * b.nx * i + b.ny * b.nx by ring, Nat.add_sub_cancel]
      omega), Res.ok_bind]
  rfl

theorem nbrAll_eq (b : Brick) (ks : List C3) : ∀ (ts : List (Nat × Nat × Nat)) (l : NL), (∀ t ∈ ts, t ∈ b.all) →
    nbrAll (b.inel ks) b.nz b.nx b.ny l ts = run l (ts.map fun t => .nbr (ks.idxOf (b.at_ t)) (b.nbr ks t)) := by
  intro ts
  induction ts with
  | nil => intro l _; rfl
  | cons t ts ih =>
    intro l h
    obtain ⟨i, j, k⟩ := t
    have hin : b.In i j k := mem_triples.1 (h (i, j, k) (by simp))
    simp only [nbrAll, inel_get b ks hin, nbrAt_eq b ks hin, Res.ok_bind, List.map_cons, run, step]
    congr 1
    funext l
    exact ih l fun t ht => h t (by simp [ht])

/-! ### Histories -/

/-- What holds of a mesh of bricks -/
structure GInv (g : Grid) (bs : List Brick) (s : Spec) (t : T) (h : Nat) : Prop where
  inv : Inv g.node s t h
  know : Know s (bs.flatMap Brick.arcs)
  fit : Functional (bs.flatMap Brick.arcs)
  mem : ∀ p, p ∈ s.keys ↔ ∃ b ∈ bs, ∃ t ∈ b.all, b.at_ t = p
  elems : List.Forall₂ (fun e b => getn e.sx = b.nx ∧ getn e.sy = b.ny ∧ getn e.sz = b.nz ∧ e.inel = b.inel s.keys) g.elems bs

theorem inel_stable {b : Brick} {ks ext : List C3} (h : ∀ t ∈ b.all, b.at_ t ∈ ks) : b.inel (ks ++ ext) = b.inel ks := by
  unfold Brick.inel
  apply List.map_congr_left
  intro p hp
  obtain ⟨t, ht, rfl⟩ := List.mem_map.1 hp
  exact List.idxOf_append_of_mem (h t ht)

theorem GInv.init : GInv {} [] [] .nil 0 := ⟨Inv.init, Know.nil, fun _ _ _ _ h => by simp at h, by simp [Spec.keys], .nil⟩

theorem star_mem {b : Brick} {t : Nat × Nat × Nat} (ht : t ∈ b.all) {d : Dir} {q : C3} (h : b.star t d = some q) :
    ∃ t' ∈ b.all, b.at_ t' = q := by
  obtain ⟨i, j, k⟩ := t
  obtain ⟨h1, h2, h3⟩ := mem_triples.1 ht
  cases d <;> simp only [Brick.star, ite_some_eq] at h <;> obtain ⟨hc, rfl⟩ := h
  · exact ⟨(i, j - 1, k), mem_triples.2 ⟨h1, by omega, h3⟩, rfl⟩
  · exact ⟨(i, j + 1, k), mem_triples.2 ⟨h1, by omega, h3⟩, rfl⟩
  · exact ⟨(i, j, k - 1), mem_triples.2 ⟨h1, h2, by omega⟩, rfl⟩
  · exact ⟨(i, j, k + 1), mem_triples.2 ⟨h1, h2, by omega⟩, rfl⟩
  · exact ⟨(i - 1, j, k), mem_triples.2 ⟨by omega, h2, h3⟩, rfl⟩
  · exact ⟨(i + 1, j, k), mem_triples.2 ⟨by omega, h2, h3⟩, rfl⟩

theorem GInv.add {g : Grid} {bs : List Brick} {s : Spec} {t : T} {h : Nat} (G : GInv g bs s t h) {r : Req} {b : Brick} (hr : r.Asks b) :
    (Functional ((bs ++ [b]).flatMap Brick.arcs) → ∃ g' s' t' h', g.add r = .ok g' ∧ GInv g' (bs ++ [b]) s' t' h') ∧
    (¬Functional ((bs ++ [b]).flatMap Brick.arcs) → g.add r = .ub) := by
  obtain ⟨sx, sy, sz, c, fx, fy, fz, hset, hb, hinc⟩ := hr
  have hsort : coordSort 4 c = .ok b.c := by
    rcases C108_sort 4 (by omega) c with ⟨gx, gy, gz, h1, h2, h3⟩ | ⟨h1, _⟩
    · rw [hb] at hinc
      obtain ⟨rfl, rfl, rfl⟩ := h3 fx fy fz hinc
      rw [h2, hb]
    · rw [hb] at hinc
      exact absurd hinc (h1 fx fy fz)
  have hnx : getn sx = b.nx := by rw [hb]
  have hny : getn sy = b.ny := by rw [hb]
  have hnz : getn sz = b.nz := by rw [hb]
  obtain ⟨cs, hcs⟩ : ∃ cs, cs = b.all.map b.at_ := ⟨_, rfl⟩
  obtain ⟨l1, t1, h1, e1, I1⟩ := addAll_inv cs g.node s t h G.inv
  obtain ⟨s1, hs1⟩ : ∃ s1, s1 = cs.foldl Spec.add s := ⟨_, rfl⟩
  rw [← hs1] at e1 I1
  have hinel : cs.map s1.keys.idxOf = b.inel s1.keys := by rw [hcs]; rfl
  have hmem1 : ∀ p, p ∈ s1.keys ↔ p ∈ s.keys ∨ ∃ t ∈ b.all, b.at_ t = p := by
    intro p
    rw [hs1, adds_mem, hcs, List.mem_map]
  have K1 : Know s1 (bs.flatMap Brick.arcs) := by rw [hs1]; exact G.know.adds cs
  have hlen : (b.inel s1.keys).length = b.nz * (b.ny * b.nx) := by
    unfold Brick.inel Brick.all
    rw [List.length_map, List.length_map, (triples_get b.nz b.nx b.ny).1]
    ring
  have hadd : g.add r = run l1 (b.all.map fun t => .nbr (s1.keys.idxOf (b.at_ t)) (b.nbr s1.keys t)) >>= fun l =>
      .ok { node := l, elems := g.elems ++ [⟨sx, sy, sz, b.inel s1.keys⟩] } := by
    unfold Grid.add
    rw [hset]
    simp only [Res.ok_bind]
    unfold setupBlock
    rw [hsort, Res.ok_bind]
    unfold coordAdd
    rw [hnx, hny, hnz, show ((triples b.nz b.nx b.ny).map fun t => placeOf b.nz b.nx b.ny b.c t.1 t.2.1 t.2.2) = cs from hcs.symm, e1]
    simp only [Res.ok_bind]
    rw [hinel, if_pos hlen, show triples b.nz b.nx b.ny = b.all from rfl, nbrAll_eq b s1.keys _ l1 (fun t ht => ht)]
    cases run l1 (b.all.map fun t => .nbr (s1.keys.idxOf (b.at_ t)) (b.nbr s1.keys t)) <;> rfl
  have hnotes : ∀ t ∈ b.all, Notes s1.keys (s1.keys.idxOf (b.at_ t)) (b.nbr s1.keys t) (b.at_ t) (b.star t) := by
    intro t ht
    refine ⟨get_idx ((hmem1 _).2 (Or.inr ⟨t, ht, rfl⟩)), ?_, nbr_get b s1.keys t⟩
    intro d q hq
    exact (hmem1 q).2 (Or.inr (star_mem ht hq))
  have hst := Know.steps s1.keys (fun t => s1.keys.idxOf (b.at_ t)) (b.nbr s1.keys) b.at_ b.star b.all hnotes s1 _ K1 G.fit rfl
  have harcs : (bs ++ [b]).flatMap Brick.arcs = bs.flatMap Brick.arcs ++ b.all.flatMap fun t => arcsAt (b.at_ t) (b.star t) := by
    rw [List.flatMap_append, List.flatMap_cons, List.flatMap_nil, List.append_nil]
    rfl
  have hrun := run_inv (b.all.map fun t => .nbr (s1.keys.idxOf (b.at_ t)) (b.nbr s1.keys t)) l1 s1 t1 h1 I1
  rw [harcs]
  constructor
  · intro hF
    obtain ⟨s2, e2, e3, e4⟩ := hst.1 hF
    rw [e2] at hrun
    obtain ⟨l2, t2, h2, e5, I2⟩ := hrun
    refine ⟨_, s2, t2, h2, by rw [hadd, e5]; rfl, ⟨I2, harcs ▸ e4, harcs ▸ hF, ?_, ?_⟩⟩
    · intro p
      rw [e3, hmem1, G.mem]
      constructor
      · rintro (⟨b', hb', h⟩ | h)
        · exact ⟨b', by simp [hb'], h⟩
        · exact ⟨b, by simp, h⟩
      · rintro ⟨b', hb', h⟩
        rcases List.mem_append.1 hb' with hb' | hb'
        · exact Or.inl ⟨b', hb', h⟩
        · rw [List.mem_singleton] at hb'
          subst hb'
          exact Or.inr h
    · rw [e3]
      refine List.rel_append ?_ (.cons ⟨hnx, hny, hnz, rfl⟩ .nil)
      obtain ⟨ext, hext⟩ := adds_keys cs s
      rw [← hs1] at hext
      have hall : ∀ b' ∈ bs, b'.inel s1.keys = b'.inel s.keys := by
        intro b' hb'
        rw [hext]
        exact inel_stable fun t ht => (G.mem _).2 ⟨b', hb', t, ht, rfl⟩
      refine (List.forall₂_iff_get.2 ⟨G.elems.length_eq, ?_⟩)
      intro i h1 h2
      obtain ⟨g1, g2, g3, g4⟩ := (List.forall₂_iff_get.1 G.elems).2 i h1 h2
      exact ⟨g1, g2, g3, g4.trans (hall _ (List.get_mem _ _)).symm⟩
  · intro hF
    rw [hst.2 hF] at hrun
    simp only at hrun
    rw [hadd, hrun]
    rfl

theorem GInv.build : ∀ {rs : List Req} {bs' : List Brick}, List.Forall₂ Req.Asks rs bs' → ∀ {g : Grid} {bs : List Brick} {s : Spec}
    {t : T} {h : Nat}, GInv g bs s t h →
    (Functional ((bs ++ bs').flatMap Brick.arcs) → ∃ g' s' t' h', g.build rs = .ok g' ∧ GInv g' (bs ++ bs') s' t' h') ∧
    (¬Functional ((bs ++ bs').flatMap Brick.arcs) → g.build rs = .ub) := by
  intro rs bs' hrs
  induction hrs with
  | nil =>
    intro g bs s t h G
    rw [List.append_nil]
    exact ⟨fun _ => ⟨g, s, t, h, rfl, G⟩, fun hn => absurd G.fit hn⟩
  | @cons r b rs bs' hr _ ih =>
    intro g bs s t h G
    have hadd := G.add hr
    rw [show bs ++ b :: bs' = (bs ++ [b]) ++ bs' by simp]
    by_cases hF : Functional ((bs ++ [b]).flatMap Brick.arcs)
    · obtain ⟨g1, s1, t1, h1, e1, G1⟩ := hadd.1 hF
      simp only [Grid.build, e1, Res.ok_bind]
      exact ih G1
    · simp only [Grid.build, hadd.2 hF]
      refine ⟨fun h => absurd ?_ hF, fun _ => rfl⟩
      rw [List.flatMap_append] at h
      exact h.left

theorem GInv.built {g : Grid} {bs : List Brick} {s : Spec} {t : T} {h : Nat} (G : GInv g bs s t h) : Built g bs s := by
  refine ⟨G.inv.agrees, ?_, ?_, ?_⟩
  · intro p
    rw [G.mem]
    constructor
    · rintro ⟨b, hb, ⟨i, j, k⟩, ht, rfl⟩
      exact ⟨b, hb, i, j, k, mem_triples.1 ht, rfl⟩
    · rintro ⟨b, hb, i, j, k, hin, rfl⟩
      exact ⟨b, hb, (i, j, k), mem_triples.2 hin, rfl⟩
  · refine List.forall₂_iff_get.2 ⟨G.elems.length_eq, ?_⟩
    intro n h1 h2
    obtain ⟨g1, g2, g3, g4⟩ := (List.forall₂_iff_get.1 G.elems).2 n h1 h2
    have hb : bs.get ⟨n, h2⟩ ∈ bs := List.get_mem _ _
    generalize bs.get ⟨n, h2⟩ = b at *
    refine ⟨g1, g2, g3, ?_, ?_⟩
    · rw [g4]
      unfold Brick.inel Brick.all
      rw [List.length_map, List.length_map, (triples_get b.nz b.nx b.ny).1]
    · intro i j k hin
      rw [g4, show (i * b.nx + j) * b.ny + k = b.ny * b.nx * i + b.ny * j + k by ring, inel_get b s.keys hin, Option.bind_some]
      exact get_idx ((G.mem _).2 ⟨b, hb, (i, j, k), mem_triples.2 hin, rfl⟩)
  · intro a p n d q ha
    have key : (d, p, q) ∈ bs.flatMap Brick.arcs ↔ ∃ b ∈ bs, b.Joins d p q := by
      rw [List.mem_flatMap]
      exact exists_congr fun b => and_congr_right fun _ => mem_arcs
    rw [← key]
    have hk := G.know.nbr a p n ha d
    constructor
    · intro hq
      obtain ⟨b, h1, h2⟩ := Option.bind_eq_some_iff.1 hq
      obtain ⟨q', h3, h4⟩ := (hk b).1 h1
      rw [h2] at h3
      cases h3
      exact h4
    · intro hm
      have hq := (G.know.ends d p q hm).2
      rw [(hk _).2 ⟨q, get_idx hq, hm⟩, Option.bind_some]
      exact get_idx hq

/-- C108: bricks that fit make a mesh whose nodes, elements and neighbours are theirs, however many there are and however they meet;
bricks that do not fit are refused. -/
theorem C108_bricks (rs : List Req) (bs : List Brick) (h : List.Forall₂ Req.Asks rs bs) :
    (Fit bs → ∃ g s, Grid.build {} rs = .ok g ∧ Built g bs s) ∧ (¬Fit bs → Grid.build {} rs = .ub) := by
  have := GInv.build h GInv.init
  rw [List.nil_append, ← fit_iff] at this
  refine ⟨fun hf => ?_, this.2⟩
  obtain ⟨g, s, t, h, e, G⟩ := this.1 hf
  exact ⟨g, s, e, G.built⟩

end OP.Fem.Nodes
