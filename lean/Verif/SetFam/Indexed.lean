import Verif.SetFam.Keyed
import Mathlib.Data.List.Perm.Basic
/-!
# Index-sorted sets: `iset` (include/set.h:561-778) and `kiset` (1072-1297)

`iset<V>` is `kiset<V,V>` with the identity as key (the code of the modelled functions is the same
text), except for `getorder`.
-/
namespace OP.SetFam.Keyed
open QS

/-- The arrays `value[0..size)` and `idx[0..size)`. -/
structure KI (V : Type) where
  vals : List V
  idx : List Nat
deriving DecidableEq

section
variable {K V : Type} [LinearOrder K] (key : V → K)

/-- `value[idx[i]]` as a key. -/
def KI.keyAt (s : KI V) (i : Nat) : Res K :=
  rd s.idx i >>= fun q => rd s.vals q >>= fun v => .ok (key v)

/-- `kiset::findkey` (include/set.h:1269-1279), `iset::findvalue` (750-760): the first position of
the index whose key is not less than `k`. -/
def KI.findkey (s : KI V) (k : K) : Res Nat := bsearch (s.keyAt key) k 0 s.idx.length

/-- `kiset::haskey` (include/set.h:1113-1119), `iset::hasvalue` (603-609). -/
def KI.haskey (s : KI V) (k : K) : Res (Option Nat) :=
  s.findkey key k >>= fun p =>
  if p < s.idx.length then
    s.keyAt key p >>= fun x =>
    if x = k then rd s.idx p >>= fun q => .ok (some q) else .ok none
  else .ok none

/-- `kiset::init` (include/set.h:1280-1288), `iset::init` (761-769). -/
def KI.init (s : KI V) (v : V) : Res (KI V) :=
  s.findkey key (key v) >>= fun p =>
  .ok ⟨s.vals ++ [v], s.idx.take p ++ s.vals.length :: s.idx.drop p⟩

/-- One round of `kiset::copy(s,v,true)` (include/set.h:1289-1296), `iset::copy` (770-777). -/
def KI.copyOne (s : KI V) (v : V) : Res (KI V) :=
  s.haskey key (key v) >>= fun o =>
  match o with
  | some p => if p < s.vals.length then .ok { s with vals := s.vals.set p v } else .ub
  | none => s.init key v

/-- The loop of `kiset::copy` / `iset::copy`. -/
def KI.copy (s : KI V) : List V → Res (KI V)
  | [] => .ok s
  | v :: vs => s.copyOne key v >>= fun s => s.copy vs

/-- The index fixing loop of `remove` (include/set.h:1202-1207, 686-691), from position `i`: the new
index and the last position that held `p`. -/
def fixIdx (p : Nat) : List Nat → Nat → List Nat × Option Nat
  | [], _ => ([], none)
  | x :: xs, i =>
    let r := fixIdx p xs (i + 1)
    if x = p then (x :: r.1, r.2.or (some i))
    else if x > p then ((x - 1) :: r.1, r.2)
    else (x :: r.1, r.2)

/-- The final move and shrink of `remove` (include/set.h:1208-1210, 692-694); `n` is the new size. -/
def closeIdx (l : List Nat) (q : Option Nat) (n : Nat) : List Nat :=
  match q with
  | some q => if q < n then (l.take q ++ l.drop (q + 1)).take n else l.take n
  | none => l.take n

/-- `kiset` (include/set.h:1186-1220) and, without `replace`, `iset` (669-698). -/
def KI.step (s : KI V) : Op K V → Res (KI V)
  | .add vs => if vs = [] then .throw else s.copy key vs
  | .remove k =>
    s.haskey key k >>= fun o =>
    match o with
    | none => .throw
    | some p =>
      let r := fixIdx p s.idx 0
      .ok ⟨s.vals.eraseIdx p, closeIdx r.1 r.2 (s.vals.length - 1)⟩
  | .replace v =>
    s.haskey key (key v) >>= fun o =>
    match o with
    | none => .throw
    | some p => .ok { s with vals := s.vals.set p v }
  | .empty => .ok ⟨[], []⟩

/-- `getindex(i)` (include/set.h:1149-1156, 634-640). -/
def KI.getindex (s : KI V) (i : Nat) : Res V := rd s.idx i >>= fun q => rd s.vals q

/-- `kiset::getorder(i)` (include/set.h:1157-1164). -/
def KI.getorder (s : KI V) (i : Nat) : Res Nat := rd s.vals i >>= fun v => s.findkey key (key v)

/-- `iset::getorder(i)` (include/set.h:641-648): returns `idx[i]`. -/
def isetGetorder (s : KI V) (i : Nat) : Res Nat := rd s.idx i

/-! ## Lemmas -/

/-- `a`'s key is below `b`'s key (positions in the value array). -/
def KLt (vals : List V) (a b : Nat) : Prop :=
  ∀ x ∈ vals[a]?, ∀ y ∈ vals[b]?, key x < key y

/-- Representation: the values hold the map, the index lists all positions by increasing key. -/
structure KIRep (s : KI V) (m : Map K V) : Prop where
  rep : KRep key s.vals m
  perm : s.idx.Perm (List.range s.vals.length)
  sorted : s.idx.Pairwise (KLt key s.vals)

variable {key}

theorem KIRep.len {s : KI V} {m : Map K V} (h : KIRep key s m) : s.idx.length = s.vals.length := by
  have := h.perm.length_eq; simpa using this

theorem KIRep.idx_lt {s : KI V} {m : Map K V} (h : KIRep key s m) {i : Nat} (hi : i < s.idx.length) :
    s.idx[i] < s.vals.length := by
  have := h.perm.mem_iff.1 (List.getElem_mem hi)
  simpa using this

theorem KIRep.keyAt {s : KI V} {m : Map K V} (h : KIRep key s m) {i : Nat} (hi : i < s.idx.length) :
    s.keyAt key i = .ok (key (s.vals[s.idx[i]]'(h.idx_lt hi))) := by
  simp [KI.keyAt, rd_ok hi, rd_ok (h.idx_lt hi)]

theorem KIRep.lt {s : KI V} {m : Map K V} (h : KIRep key s m) {i j : Nat} (hij : i < j)
    (hj : j < s.idx.length) :
    key (s.vals[s.idx[i]]'(h.idx_lt (by omega))) < key (s.vals[s.idx[j]]'(h.idx_lt hj)) := by
  have := (List.pairwise_iff_getElem.mp h.sorted) i j (by omega) hj hij
  exact this _ (by simp [h.idx_lt (show i < s.idx.length by omega)]) _ (by simp [h.idx_lt hj])

theorem KIRep.findkey {s : KI V} {m : Map K V} (h : KIRep key s m) (k : K) :
    ∃ p, s.findkey key k = .ok p ∧ p ≤ s.idx.length ∧
      (∀ i (hi : i < s.idx.length), i < p → key (s.vals[s.idx[i]]'(h.idx_lt hi)) < k) ∧
      (∀ i (hi : i < s.idx.length), p ≤ i → k ≤ key (s.vals[s.idx[i]]'(h.idx_lt hi))) := by
  obtain ⟨p, h1, h2, h3, h4⟩ := bsearch_ok' (s.keyAt key) k s.idx.length 0 s.idx.length
    (fun i hi => ⟨_, h.keyAt hi⟩)
    (fun i j x y hij hj hx hy => by
      rw [h.keyAt (by omega)] at hx
      rw [h.keyAt hj] at hy
      simp only [Res.ok.injEq] at hx hy
      rw [← hx, ← hy]
      exact le_of_lt (h.lt hij hj))
    (Nat.zero_le _) (Nat.le_refl _) (fun i x hi => by omega) (fun i x h1 h2 => by omega)
  exact ⟨p, h1, h2, fun i hi hip => h3 i _ hip (h.keyAt hi), fun i hi hpi => h4 i _ hpi hi (h.keyAt hi)⟩

/-- Every position occurs in the index. -/
theorem KIRep.exists_idx {s : KI V} {m : Map K V} (h : KIRep key s m) {q : Nat}
    (hq : q < s.vals.length) : ∃ i, ∃ hi : i < s.idx.length, s.idx[i] = q := by
  have : q ∈ s.idx := h.perm.mem_iff.2 (by simpa using hq)
  obtain ⟨i, hi, he⟩ := List.getElem_of_mem this
  exact ⟨i, hi, he⟩

theorem KIRep.haskey {s : KI V} {m : Map K V} (h : KIRep key s m) (k : K) :
    (s.haskey key k = .ok none ∧ k ∉ m.order) ∨
    (∃ p, s.haskey key k = .ok (some p) ∧ ∃ hp : p < s.vals.length, key s.vals[p] = k) := by
  obtain ⟨p, h1, h2, h3, h4⟩ := h.findkey k
  have hnot : (∀ i (hi : i < s.idx.length), key (s.vals[s.idx[i]]'(h.idx_lt hi)) ≠ k) →
      k ∉ m.order := by
    intro hall hm
    rw [← h.rep.order, List.mem_map] at hm
    obtain ⟨v, hv, hkv⟩ := hm
    obtain ⟨q, hq, rfl⟩ := List.getElem_of_mem hv
    obtain ⟨i, hi, he⟩ := h.exists_idx hq
    subst he
    exact hall i hi hkv
  unfold KI.haskey
  rw [h1]
  simp only [Res.ok_bind]
  by_cases hp : p < s.idx.length
  · rw [if_pos hp, h.keyAt hp]
    simp only [Res.ok_bind]
    by_cases he : key (s.vals[s.idx[p]]'(h.idx_lt hp)) = k
    · rw [if_pos he, rd_ok hp]
      exact .inr ⟨s.idx[p], rfl, h.idx_lt hp, he⟩
    · rw [if_neg he]
      refine .inl ⟨rfl, hnot fun i hi hik => ?_⟩
      rcases Nat.lt_trichotomy i p with hlt | heq | hgt
      · exact absurd hik (ne_of_lt (h3 i hi hlt))
      · subst heq; exact he hik
      · have a1 := h4 p hp (Nat.le_refl _)
        have a2 := h.lt hgt hi
        rw [hik] at a2
        exact absurd a1 (not_le.mpr a2)
  · rw [if_neg hp]
    exact .inl ⟨rfl, hnot fun i hi hik => absurd hik (ne_of_lt (h3 i hi (by omega)))⟩

theorem KIRep.nil : KIRep key (⟨[], []⟩ : KI V) (Map.nil : Map K V) :=
  ⟨KRep.nil key, by simp, List.Pairwise.nil⟩

theorem KIRep.set {s : KI V} {m : Map K V} (h : KIRep key s m) {p : Nat} (hp : p < s.vals.length)
    (v : V) (hk : key s.vals[p] = key v) :
    KIRep key { s with vals := s.vals.set p v } (m.put (key v) v) := by
  refine ⟨h.rep.set key hp v hk, by simpa using h.perm, ?_⟩
  refine h.sorted.imp ?_
  intro a b hab x hx y hy
  have hget : ∀ (c : Nat) (z : V), z ∈ (s.vals.set p v)[c]? →
      ∃ w, w ∈ s.vals[c]? ∧ key w = key z := by
    intro c z hz
    by_cases hcp : p = c
    · subst hcp
      rw [List.getElem?_set_self hp] at hz
      simp only [Option.mem_def, Option.some.injEq] at hz
      subst hz
      exact ⟨s.vals[p], by simp [hp], hk⟩
    · rw [List.getElem?_set_ne hcp] at hz
      exact ⟨z, hz, rfl⟩
  obtain ⟨x', hx', e1⟩ := hget a x hx
  obtain ⟨y', hy', e2⟩ := hget b y hy
  rw [← e1, ← e2]
  exact hab x' hx' y' hy'

theorem KIRep.init {s : KI V} {m : Map K V} (h : KIRep key s m) (v : V) (hk : key v ∉ m.order) :
    ∃ s', s.init key v = .ok s' ∧ KIRep key s' (m.put (key v) v) := by
  obtain ⟨p, h1, h2, h3, h4⟩ := h.findkey (key v)
  unfold KI.init
  rw [h1]
  refine ⟨_, rfl, h.rep.append key v hk, ?_, ?_⟩
  · simp only [List.length_append, List.length_cons, List.length_nil]
    rw [Nat.zero_add, List.range_succ]
    refine List.perm_middle.trans ?_
    rw [List.take_append_drop]
    exact (List.Perm.cons _ h.perm).trans (List.perm_append_singleton _ _).symm
  · have hold : ∀ a ∈ s.idx, (s.vals ++ [v])[a]? = s.vals[a]? := by
      intro a ha
      have : a < s.vals.length := by simpa using h.perm.mem_iff.1 ha
      rw [List.getElem?_append_left this]
    have hnew : (s.vals ++ [v])[s.vals.length]? = some v := by simp
    have hold2 : s.idx.Pairwise (KLt key (s.vals ++ [v])) := by
      refine List.Pairwise.imp_of_mem ?_ h.sorted
      intro a b ha hb hab
      unfold KLt
      rw [hold a ha, hold b hb]
      exact hab
    have hne : ∀ i (hi : i < s.idx.length), key (s.vals[s.idx[i]]'(h.idx_lt hi)) ≠ key v := by
      intro i hi he
      exact hk (by rw [← he, ← h.rep.order]; exact List.mem_map_of_mem (List.getElem_mem _))
    rw [List.pairwise_append]
    refine ⟨hold2.sublist (List.take_sublist _ _), ?_, ?_⟩
    · rw [List.pairwise_cons]
      refine ⟨?_, hold2.sublist (List.drop_sublist _ _)⟩
      intro b hb x hx y hy
      rw [hnew] at hx
      simp only [Option.mem_def, Option.some.injEq] at hx
      subst hx
      rw [hold b ((List.drop_sublist _ _).subset hb)] at hy
      obtain ⟨i, hi, rfl⟩ := List.getElem_of_mem hb
      have hi' : p + i < s.idx.length := by simp at hi; omega
      simp only [List.getElem_drop] at hy
      rw [List.getElem?_eq_getElem (h.idx_lt hi')] at hy
      simp only [Option.mem_def, Option.some.injEq] at hy
      subst hy
      exact lt_of_le_of_ne (h4 (p + i) hi' (by omega)) (hne _ hi').symm
    · intro a ha b hb x hx y hy
      rw [hold a ((List.take_sublist _ _).subset ha)] at hx
      obtain ⟨i, hi, rfl⟩ := List.getElem_of_mem ha
      have hi' : i < s.idx.length := by simp at hi; omega
      have hip : i < p := by simp at hi; omega
      simp only [List.getElem_take] at hx
      rw [List.getElem?_eq_getElem (h.idx_lt hi')] at hx
      simp only [Option.mem_def, Option.some.injEq] at hx
      subst hx
      have hxlt := h3 i hi' hip
      rcases List.mem_cons.mp hb with rfl | hb
      · rw [hnew] at hy
        simp only [Option.mem_def, Option.some.injEq] at hy
        subst hy; exact hxlt
      · rw [hold b ((List.drop_sublist _ _).subset hb)] at hy
        obtain ⟨j, hj, rfl⟩ := List.getElem_of_mem hb
        have hj' : p + j < s.idx.length := by simp at hj; omega
        simp only [List.getElem_drop] at hy
        rw [List.getElem?_eq_getElem (h.idx_lt hj')] at hy
        simp only [Option.mem_def, Option.some.injEq] at hy
        subst hy
        exact h.lt (by omega) hj'

theorem KIRep.copyOne {s : KI V} {m : Map K V} (h : KIRep key s m) (v : V) :
    ∃ s', s.copyOne key v = .ok s' ∧ KIRep key s' (m.put (key v) v) := by
  unfold KI.copyOne
  rcases h.haskey (key v) with ⟨h1, h2⟩ | ⟨p, h1, h2, h3⟩
  · rw [h1]; exact h.init v h2
  · rw [h1]
    simp only [Res.ok_bind]
    rw [if_pos h2]
    exact ⟨_, rfl, h.set h2 v h3⟩

theorem KIRep.copy {s : KI V} {m : Map K V} (h : KIRep key s m) (vs : List V) :
    ∃ s', s.copy key vs = .ok s' ∧ KIRep key s' (vs.foldl (fun m v => m.put (key v) v) m) := by
  induction vs generalizing s m with
  | nil => exact ⟨s, rfl, h⟩
  | cons v vs ih =>
    obtain ⟨s1, h1, h2⟩ := h.copyOne v
    obtain ⟨s2, h3, h4⟩ := ih h2
    exact ⟨s2, by rw [KI.copy, h1]; exact h3, h4⟩

/-- The renumbering of positions above a removed one. -/
def dec (p x : Nat) : Nat := if x > p then x - 1 else x

theorem fixIdx_fst (p : Nat) (l : List Nat) (i : Nat) : (fixIdx p l i).1 = l.map (dec p) := by
  induction l generalizing i with
  | nil => rfl
  | cons x l ih =>
    simp only [fixIdx]
    split
    · rename_i h; subst h; simp [ih, dec]
    · split
      · rename_i h1 h2; simp [ih, dec, h2]
      · rename_i h1 h2; simp [ih, dec, h2]

theorem fixIdx_none (p : Nat) (l : List Nat) (i : Nat) (h : p ∉ l) : (fixIdx p l i).2 = none := by
  induction l generalizing i with
  | nil => rfl
  | cons x l ih =>
    simp only [List.mem_cons, not_or] at h
    simp only [fixIdx]
    rw [if_neg (fun e => h.1 e.symm)]
    split <;> exact ih _ h.2

theorem fixIdx_snd (p : Nat) (l1 l2 : List Nat) (i : Nat) (h1 : p ∉ l1) (h2 : p ∉ l2) :
    (fixIdx p (l1 ++ p :: l2) i).2 = some (i + l1.length) := by
  induction l1 generalizing i with
  | nil => simp [fixIdx, fixIdx_none p l2 (i + 1) h2]
  | cons x l ih =>
    simp only [List.mem_cons, not_or] at h1
    simp only [List.cons_append, fixIdx]
    rw [if_neg (fun e => h1.1 e.symm)]
    split <;> (simp only; rw [ih _ h1.2]; simp; omega)

theorem KIRep.remove {s : KI V} {m : Map K V} (h : KIRep key s m) {p : Nat} (hp : p < s.vals.length) :
    KIRep key ⟨s.vals.eraseIdx p, closeIdx (fixIdx p s.idx 0).1 (fixIdx p s.idx 0).2
      (s.vals.length - 1)⟩ (m.del (key s.vals[p])) := by
  have hnd : s.idx.Nodup := h.perm.nodup_iff.2 List.nodup_range
  have hmem : p ∈ s.idx := h.perm.mem_iff.2 (by simpa using hp)
  obtain ⟨l1, l2, hl⟩ := List.append_of_mem hmem
  have hn := hnd
  rw [hl, List.nodup_append, List.nodup_cons] at hn
  obtain ⟨n1, ⟨n2, n3⟩, n4⟩ := hn
  have hp1 : p ∉ l1 := fun hc => n4 p hc p (by simp) rfl
  have hlen := h.len
  rw [hl] at hlen
  simp only [List.length_append, List.length_cons] at hlen
  have hclose : closeIdx (fixIdx p s.idx 0).1 (fixIdx p s.idx 0).2 (s.vals.length - 1)
      = (l1 ++ l2).map (dec p) := by
    rw [fixIdx_fst, hl, fixIdx_snd p l1 l2 0 hp1 n2, Nat.zero_add]
    unfold closeIdx
    simp only [List.map_append, List.map_cons]
    have e1 : List.take l1.length (List.map (dec p) l1 ++ dec p p :: List.map (dec p) l2)
        = List.map (dec p) l1 := by
      rw [List.take_append_of_le_length (by simp)]; exact List.take_of_length_le (by simp)
    split
    · have e2 : List.drop (l1.length + 1) (List.map (dec p) l1 ++ dec p p :: List.map (dec p) l2)
          = List.map (dec p) l2 := by
        rw [List.drop_append, List.drop_of_length_le (by simp)]; simp
      rw [e1, e2]
      exact List.take_of_length_le (by simp; omega)
    · have : l2 = [] := List.length_eq_zero_iff.mp (by omega)
      subst this
      have : s.vals.length - 1 = l1.length := by simp at hlen; omega
      rw [this, e1]; simp
  rw [hclose]
  refine ⟨h.rep.erase key hp, ?_, ?_⟩
  · -- the renumbered positions are 0 .. n-2
    have hle : (s.vals.eraseIdx p).length = s.vals.length - 1 := by simp [List.length_eraseIdx, hp]
    rw [hle]
    refine (List.perm_ext_iff_of_nodup ?_ List.nodup_range).2 ?_
    · have hnd12 : (l1 ++ l2).Nodup := by
        rw [List.nodup_append]
        exact ⟨n1, n3, fun a ha b hb => n4 a ha b (List.mem_cons_of_mem _ hb)⟩
      have hp12 : p ∉ l1 ++ l2 := by simp [hp1, n2]
      rw [List.nodup_map_iff_inj_on hnd12]
      intro x hx y hy hxy
      have hxp : x ≠ p := fun e => hp12 (e ▸ hx)
      have hyp : y ≠ p := fun e => hp12 (e ▸ hy)
      unfold dec at hxy
      split at hxy <;> split at hxy <;> omega
    · intro a
      have hin : ∀ x, x ∈ l1 ++ l2 ↔ x < s.vals.length ∧ x ≠ p := by
        intro x
        have := h.perm.mem_iff (a := x)
        rw [hl] at this
        simp only [List.mem_append, List.mem_cons, List.mem_range] at this ⊢
        constructor
        · intro hx
          refine ⟨this.1 (by tauto), ?_⟩
          rintro rfl
          rcases hx with hx | hx
          · exact hp1 hx
          · exact n2 hx
        · rintro ⟨hx, hne⟩
          rcases this.2 hx with h | h | h
          · exact .inl h
          · exact absurd h hne
          · exact .inr h
      rw [List.mem_map, List.mem_range]
      constructor
      · rintro ⟨x, hx, rfl⟩
        have := (hin x).1 hx
        unfold dec; split <;> omega
      · intro ha
        by_cases hap : a < p
        · exact ⟨a, (hin a).2 ⟨by omega, by omega⟩, by unfold dec; rw [if_neg (by omega)]⟩
        · exact ⟨a + 1, (hin (a + 1)).2 ⟨by omega, by omega⟩, by
            unfold dec; rw [if_pos (by omega)]; omega⟩
  · -- order
    have hs12 : (l1 ++ l2).Pairwise (KLt key s.vals) := by
      refine h.sorted.sublist ?_
      rw [hl]
      exact List.Sublist.append_left (List.sublist_cons_self _ _) _
    rw [List.pairwise_map]
    refine List.Pairwise.imp_of_mem ?_ hs12
    intro a b ha hb hab
    have hp12 : p ∉ l1 ++ l2 := by simp [hp1, n2]
    have hget : ∀ x, x ≠ p → (s.vals.eraseIdx p)[dec p x]? = s.vals[x]? := by
      intro x hx
      rw [List.getElem?_eraseIdx]
      unfold dec
      by_cases hxp : x > p
      · rw [if_pos hxp, if_neg (by omega)]; congr 1; omega
      · rw [if_neg hxp, if_pos (by omega)]
    unfold KLt
    rw [hget a (fun e => hp12 (e ▸ ha)), hget b (fun e => hp12 (e ▸ hb))]
    exact hab

theorem KI.step_ok (s : KI V) (m : Map K V) (op : Op K V) (h : KIRep key s m) :
    (∀ m', spec key m op = some m' → ∃ s', s.step key op = .ok s' ∧ KIRep key s' m') ∧
    (spec key m op = none → s.step key op = .throw) := by
  cases op with
  | add vs =>
    simp only [spec, KI.step]
    split
    · simp
    · simp only [Option.some.injEq, forall_eq', reduceCtorEq, false_implies, and_true]
      exact h.copy vs
  | remove k =>
    simp only [spec, KI.step]
    rcases h.haskey k with ⟨h1, h2⟩ | ⟨p, h1, h2, h3⟩
    · rw [if_neg h2, h1]; simp
    · have : k ∈ m.order := by
        rw [← h.rep.order, ← h3]; exact List.mem_map_of_mem (List.getElem_mem h2)
      rw [if_pos this, h1]
      simp only [Option.some.injEq, forall_eq', reduceCtorEq, false_implies, and_true, Res.ok_bind]
      refine ⟨_, rfl, ?_⟩
      rw [← h3]; exact h.remove h2
  | replace v =>
    simp only [spec, KI.step]
    rcases h.haskey (key v) with ⟨h1, h2⟩ | ⟨p, h1, h2, h3⟩
    · rw [if_neg h2, h1]; simp
    · have : key v ∈ m.order := by
        rw [← h.rep.order, ← h3]; exact List.mem_map_of_mem (List.getElem_mem h2)
      rw [if_pos this, h1]
      simp only [Option.some.injEq, forall_eq', reduceCtorEq, false_implies, and_true, Res.ok_bind]
      exact ⟨_, rfl, h.set h2 v h3⟩
  | empty =>
    simp only [spec, KI.step, Option.some.injEq, forall_eq', reduceCtorEq, false_implies, and_true]
    exact ⟨_, rfl, KIRep.nil⟩

theorem KIRep.shows {s : KI V} {m : Map K V} (h : KIRep key s m) :
    Shows key s.vals (s.haskey key) m := by
  have hs := h.rep.shows key
  refine ⟨hs.length, hs.elem, ?_, ?_⟩
  · intro k hk
    rcases h.haskey k with ⟨h1, h2⟩ | ⟨p, h1, h2, h3⟩
    · exact absurd hk h2
    · exact ⟨p, h1, h2, h3⟩
  · intro k hk
    refine ⟨?_, h.rep.out k hk⟩
    rcases h.haskey k with ⟨h1, h2⟩ | ⟨p, h1, h2, h3⟩
    · exact h1
    · exact absurd (by rw [← h.rep.order, ← h3]; exact List.mem_map_of_mem (List.getElem_mem h2)) hk

end
end OP.SetFam.Keyed
