import Verif.Table.Axis
import Verif.Table.TableLemmas
import Verif.Tree.AvlState
/-!
# Lemmas on `axis`
-/
namespace OP.Table
open OP.Tree
open OP.Tree.Avl (SRep kv kvs)

variable {K V : Type} [LinearOrder K]

/-- The keys in order. -/
def keysOf (t : T (Avl.D K Unit)) : List K := (kvs t).map fun e => e.2.1

/-- The tree holds the keys `L`, in increasing order. -/
def ARep (s : Me K) (L : List K) : Prop := ∃ t, SRep s t ∧ keysOf t = L

theorem ARep.sorted {s : Me K} {L : List K} (h : ARep s L) : L.Pairwise (· < ·) := by
  obtain ⟨t, h, rfl⟩ := h
  exact List.pairwise_map.2 h.sorted

theorem ARep.nodup {s : Me K} {L : List K} (h : ARep s L) : L.Nodup :=
  h.sorted.imp fun h => ne_of_lt h

theorem ARep.length {s : Me K} {L : List K} (h : ARep s L) : Avl.length s = L.length := by
  obtain ⟨t, h, rfl⟩ := h
  simp [keysOf, Avl.kvs_length, h.size, Avl.length]

theorem ARep.init : ARep (Avl.S.init : Me K) [] := ⟨.nil, SRep.init, rfl⟩

theorem ARep.haskey {s : Me K} {L : List K} (h : ARep s L) (k : K) : Avl.haskey s k = .ok (decide (k ∈ L)) := by
  obtain ⟨t, h, rfl⟩ := h
  rcases Avl.getposition_ok h k with ⟨i, v, h1, h2, -⟩ | ⟨h1, -, h2⟩
  · have : k ∈ keysOf t := List.mem_map.2 ⟨_, h2, rfl⟩
    simp [Avl.haskey, h1, this]
  · have : k ∉ keysOf t := fun hk => by
      obtain ⟨e, he, hk⟩ := List.mem_map.1 hk
      exact h2 e he hk
    simp [Avl.haskey, h1, this]

theorem ARep.getorderof {s : Me K} {L : List K} (h : ARep s L) {k : K} (hk : k ∈ L) :
    ∃ A B, L = A ++ k :: B ∧ Avl.getorderof s k = .ok (some A.length) := by
  obtain ⟨t, h, rfl⟩ := h
  rcases Avl.ofLoop_ok k s.mem t s.mem.length 0 h.rep h.inv h.sorted h.ht_le with ⟨A, v, B, h1, h2⟩ | ⟨-, h2⟩
  · refine ⟨A.map Prod.fst, B.map Prod.fst, ?_, ?_⟩
    · have : keysOf t = (kv (kvs t)).map Prod.fst := by simp [keysOf, kv]
      rw [this, h1]; simp
    · rw [Avl.getorderof, h.root, h2]; simp
  · obtain ⟨e, he, hk⟩ := List.mem_map.1 hk
    exact absurd hk (h2 e he)

theorem split_unique {L A B A' B' : List K} {k : K} (hn : L.Nodup) (h1 : L = A ++ k :: B) (h2 : L = A' ++ k :: B') :
    A = A' ∧ B = B' := by
  have hA : k ∉ A := by
    intro h
    rw [h1, List.nodup_append] at hn
    exact hn.2.2 k h k (by simp) rfl
  have hA' : k ∉ A' := by
    intro h
    rw [h2, List.nodup_append] at hn
    exact hn.2.2 k h k (by simp) rfl
  have e1 : L.idxOf k = A.length := by rw [h1, List.idxOf_append_of_notMem hA]; simp
  have e2 : L.idxOf k = A'.length := by rw [h2, List.idxOf_append_of_notMem hA']; simp
  rw [h1] at h2
  obtain ⟨a, b⟩ := List.append_inj h2 (by omega)
  simp only [List.cons.injEq, true_and] at b
  exact ⟨a, b⟩

theorem ARep.order {s : Me K} {L A B : List K} {k : K} (h : ARep s L) (hL : L = A ++ k :: B) :
    axisOrder s k = .ok A.length := by
  have hk : k ∈ L := by rw [hL]; simp
  obtain ⟨A', B', h1, h2⟩ := h.getorderof hk
  obtain ⟨rfl, rfl⟩ := split_unique h.nodup hL h1
  simp [axisOrder, h.haskey, hk, h2]

theorem ARep.order_missing {s : Me K} {L : List K} {k : K} (h : ARep s L) (hk : k ∉ L) :
    axisOrder s k = .throw := by
  simp [axisOrder, h.haskey, hk]

theorem ARep.add_dup {s : Me K} {L : List K} {k : K} (h : ARep s L) (hk : k ∈ L) : axisAdd s k = .throw := by
  simp [axisAdd, h.haskey, hk]

theorem ARep.remove_missing {s : Me K} {L : List K} {k : K} (h : ARep s L) (hk : k ∉ L) :
    axisRemove s k = .throw := by
  simp [axisRemove, h.haskey, hk]

theorem ARep.add {s : Me K} {L : List K} {k : K} (h : ARep s L) (hk : k ∉ L) :
    ∃ s' A B, axisAdd s k = .ok (s', A.length) ∧ L = A ++ B ∧ ARep s' (A ++ k :: B) ∧
      (∀ x ∈ A, x < k) ∧ (∀ x ∈ B, k < x) := by
  have hh := h.haskey k
  obtain ⟨t, h, rfl⟩ := h
  obtain ⟨s', t', p, h1, h2, h3⟩ := Avl.add_ok true h k ()
  rcases h3 with ⟨A, B, e1, e2, e3, e4, -⟩ | ⟨A, B, v0, e1, -⟩
  · have hr : ARep s' (A.map (·.2.1) ++ k :: B.map (·.2.1)) := ⟨t', h2, by simp [keysOf, e2]⟩
    refine ⟨s', A.map (·.2.1), B.map (·.2.1), ?_, by simp [keysOf, e1], hr, ?_, ?_⟩
    · obtain ⟨A', B', g1, g2⟩ := hr.getorderof (k := k) (by simp)
      obtain ⟨rfl, rfl⟩ := split_unique hr.nodup rfl g1
      rw [axisAdd, hh]
      simp only [hk, decide_false, Res.ok_bind, Bool.false_eq_true, if_false, h1, g2]
      simp
    · intro x hx
      obtain ⟨e, he, rfl⟩ := List.mem_map.1 hx
      exact e3 e he
    · intro x hx
      obtain ⟨e, he, rfl⟩ := List.mem_map.1 hx
      exact e4 e he
  · exact absurd (by simp [keysOf, e1]) hk

theorem ARep.avlRemove {s : Me K} {L A B : List K} {k : K} (h : ARep s L) (hL : L = A ++ k :: B) :
    ∃ s', Avl.remove true s (.ext k) = .ok s' ∧ ARep s' (A ++ B) := by
  have hn := h.nodup
  obtain ⟨t, h, rfl⟩ := h
  obtain ⟨s', t', h1, h2, h3⟩ := Avl.remove_ok true h k
  refine ⟨s', h1, t', h2, ?_⟩
  rcases h3 with ⟨h3, -⟩ | ⟨hm, -⟩ | ⟨q, M, ⟨A', v, B', I, J, e1, e2, -⟩, -, e⟩
  · have : k ∈ keysOf t := by rw [hL]; simp
    obtain ⟨e, he, hk⟩ := List.mem_map.1 this
    exact absurd hk (h3 e he)
  · simp at hm
  · have hk : ∀ M : List (Nat × K × Unit), M.map (fun e => e.2.1) = (kv M).map Prod.fst := by
      intro M; simp [kv]
    have e1' : keysOf t = A'.map Prod.fst ++ k :: B'.map Prod.fst := by rw [keysOf, hk, e1]; simp
    obtain ⟨rfl, rfl⟩ := split_unique hn hL e1'
    rw [keysOf, hk, e]
    have : kv (M.map fun e => (Avl.dec q e.1, e.2)) = kv M := by simp [kv]
    rw [this, e2]; simp

theorem ARep.remove {s : Me K} {L A B : List K} {k : K} (h : ARep s L) (hL : L = A ++ k :: B) :
    ∃ s', axisRemove s k = .ok (A.length, s') ∧ ARep s' (A ++ B) := by
  have hk : k ∈ L := by rw [hL]; simp
  obtain ⟨s', h1, h2⟩ := h.avlRemove hL
  obtain ⟨A', B', g1, g2⟩ := h.getorderof hk
  obtain ⟨rfl, rfl⟩ := split_unique h.nodup hL g1
  exact ⟨s', by simp [axisRemove, h.haskey, hk, g2, h1], h2⟩

theorem ARep.at_ {s : Me K} {L : List K} (h : ARep s L) (p : Nat) :
    axisAt s p = match L[p]? with | some k => .ok k | none => .throw := by
  have hl := h.length
  obtain ⟨t, h, rfl⟩ := h
  rw [axisAt, hl]
  by_cases hp : p < (keysOf t).length
  · rw [if_pos hp, Avl.getatorder_ok h, List.getElem?_eq_getElem hp]
    have : (kv (kvs t))[p]? = some ((keysOf t)[p], ()) := by
      have hp' : p < (kvs t).length := by simpa [keysOf] using hp
      simp only [kv, keysOf, List.getElem?_map, List.getElem?_eq_getElem hp', List.getElem_map, Option.map_some]
    rw [this]; rfl
  · rw [if_neg hp, List.getElem?_eq_none (by omega)]

end OP.Table
