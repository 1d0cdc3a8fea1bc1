import Verif.Num.Types
import Verif.Num.PropsSmall
import Mathlib.Data.Nat.Bitwise
import Mathlib.Data.Nat.ModEq
/-!
# C122: what the name and the hash of a type tell.  C123: the arrays deleted with their owner
-/
namespace OP.Num.Types

/-! ## The name -/

/-- **C122, the name.**  Whatever the name of the type, what is cut out of the text of each of the three compilers is the name. -/
theorem C122_name {c : Compiler} (hc : c = clang ∨ c = gcc ∨ c = msvc) (name : List Nat) (hn : name.length < 2 ^ 63) :
    deduce c (c.pre ++ name ++ c.suf) = .ok name := by
  have hs : c.pre.length < 100 ∧ c.suf.length < 100 := by
    rcases hc with rfl | rfl | rfl <;> decide +kernel
  unfold deduce chunk
  have h1 : ((c.pre ++ name ++ c.suf).length + 2 ^ 64 - c.suf.length) % 2 ^ 64 = c.pre.length + name.length := by
    simp only [List.length_append]; omega
  rw [h1, if_pos (by simp only [List.length_append]; omega)]
  congr 1
  rw [List.append_assoc, List.drop_left, Nat.add_sub_cancel_left, List.take_left]

example : deduce gcc (bytes "constexpr OP::type_info OP::type_deducer() [with T = std::vector<int>]") =
    .ok (bytes "std::vector<int>") := by decide +kernel

/-! ## The hash -/

/-- One byte of the hash. -/
def mix (h b : Nat) : Nat := ((h ^^^ sext b) * 0x100000001b3) % 2 ^ 64

theorem fnv1a_eq (s : List Nat) : fnv1a s = s.foldl mix 0xcbf29ce484222325 := rfl

theorem mix_lt (h b : Nat) : mix h b < 2 ^ 64 := Nat.mod_lt _ (by norm_num)

theorem fold_lt : ∀ (s : List Nat) {h : Nat}, h < 2 ^ 64 → s.foldl mix h < 2 ^ 64
  | [], _, hh => hh
  | b :: s, _, _ => fold_lt s (mix_lt _ b)

theorem sext_lt {b : Nat} (hb : b < 256) : sext b < 2 ^ 64 := by
  unfold sext; split <;> omega

/-- What `sext` says: bytes as signed numbers of 8 bits, in 64 bits. -/
theorem sext_signed : ∀ b < 256, sext b = ((BitVec.ofNat 8 b).signExtend 64).toNat := by decide +kernel

theorem sext_inj {b c : Nat} (hb : b < 256) (hc : c < 256) (h : sext b = sext c) : b = c := by
  unfold sext at h; split at h <;> split at h <;> omega

/-- Both a different state and a different byte make a different state. -/
theorem mix_cancel {g h b c : Nat} (hg : g < 2 ^ 64) (hh : h < 2 ^ 64) (hb : b < 256) (hc : c < 256)
    (e : mix g b = mix h c) : g ^^^ sext b = h ^^^ sext c := by
  have h1 : Nat.ModEq (2 ^ 64) ((g ^^^ sext b) * 0x100000001b3) ((h ^^^ sext c) * 0x100000001b3) := e
  have h2 := Nat.ModEq.cancel_right_of_coprime (by decide +kernel) h1
  have l1 := Nat.xor_lt_two_pow hg (sext_lt hb)
  have l2 := Nat.xor_lt_two_pow hh (sext_lt hc)
  have h3 : (g ^^^ sext b) % 2 ^ 64 = (h ^^^ sext c) % 2 ^ 64 := h2
  rwa [Nat.mod_eq_of_lt l1, Nat.mod_eq_of_lt l2] at h3

theorem fold_inj : ∀ (s : List Nat) (_ : ∀ b ∈ s, b < 256) {g h : Nat}, g < 2 ^ 64 → h < 2 ^ 64 →
    s.foldl mix g = s.foldl mix h → g = h
  | [], _, _, _, _, _, e => e
  | b :: s, hs, g, h, hg, hh, e => by
    have hb : b < 256 := hs b (by simp)
    have := fold_inj s (fun c hc => hs c (by simp [hc])) (mix_lt g b) (mix_lt h b) e
    have h2 := mix_cancel hg hh hb hb this
    have h3 := congrArg (· ^^^ sext b) h2
    simpa only [Nat.xor_xor_cancel_right] using h3

/-- **C122, the part that holds of the equality.**  Types with the same name are equal; types whose names differ in one byte are not
equal; and the equality and the inequality exclude each other.  What is missing: types with different names need not be different. -/
theorem C122_equal_partial :
    (∀ s : List Nat, Info.eq ⟨s⟩ ⟨s⟩ = true) ∧
    (∀ (p s : List Nat) (x y : Nat), (∀ b ∈ s, b < 256) → x < 256 → y < 256 → x ≠ y →
      Info.eq ⟨p ++ x :: s⟩ ⟨p ++ y :: s⟩ = false) ∧
    (∀ t r : Info, Info.ne t r = !Info.eq t r) := by
  refine ⟨fun s => by simp [Info.eq], ?_, fun t r => rfl⟩
  intro p s x y hs hx hy hxy
  unfold Info.eq Info.hashCode
  rw [beq_eq_false_iff_ne]
  intro e
  simp only [fnv1a_eq, List.foldl_append, List.foldl_cons] at e
  have h0 : p.foldl mix 0xcbf29ce484222325 < 2 ^ 64 := fold_lt p (by norm_num)
  have h1 := fold_inj s hs (mix_lt _ _) (mix_lt _ _) e
  have h2 := mix_cancel h0 h0 hx hy h1
  have h3 := congrArg (p.foldl mix 0xcbf29ce484222325 ^^^ ·) h2
  simp only [Nat.xor_xor_cancel_left] at h3
  exact hxy (sext_inj hx hy h3)

example : Info.eq ⟨bytes "layer<1>"⟩ ⟨bytes "layer<2>"⟩ = false := by decide +kernel

/-- **C122, the order of `type_index`.**  It is a strict order, of any two of them exactly one of less, equal and greater holds, the
other comparisons follow from these, and the order of the names is a total order too. -/
theorem C122_order :
    (∀ a b c : Index, a.lt b = true → b.lt c = true → a.lt c = true) ∧
    (∀ a b : Index, (a.lt b = true ∧ a.eq b = false ∧ a.gt b = false) ∨ (a.lt b = false ∧ a.eq b = true ∧ a.gt b = false) ∨
      (a.lt b = false ∧ a.eq b = false ∧ a.gt b = true)) ∧
    (∀ a b : Index, a.le b = (a.lt b || a.eq b) ∧ a.ge b = (a.gt b || a.eq b) ∧ a.ne b = !a.eq b ∧ a.gt b = b.lt a) ∧
    (∀ t r : Info, (Index.ofInfo t).eq (Index.ofInfo r) = t.eq r) ∧
    (∀ t r : Info, NoNull t.magic → NoNull r.magic →
      (t.before r = true ↔ t.magic < r.magic) ∧ (t.before r = false → r.before t = false → t.eq r = true)) := by
  refine ⟨?_, ?_, ?_, fun _ _ => rfl, ?_⟩
  · intro a b c h1 h2
    simp only [Index.lt, decide_eq_true_eq] at *
    omega
  · intro a b
    simp only [Index.lt, Index.eq, Index.gt, decide_eq_true_eq, decide_eq_false_iff_not, beq_iff_eq, beq_eq_false_iff_ne]
    omega
  · intro a b
    refine ⟨?_, ?_, rfl, rfl⟩
    · rw [Bool.eq_iff_iff]
      simp only [Index.le, Index.lt, Index.eq, Bool.or_eq_true, decide_eq_true_eq, beq_iff_eq]
      omega
    · rw [Bool.eq_iff_iff]
      simp only [Index.ge, Index.gt, Index.eq, Bool.or_eq_true, decide_eq_true_eq, beq_iff_eq]
      omega
  · intro t r ht hr
    have h := C32_conststr_partial ht hr
    have h' := C32_conststr_partial hr ht
    refine ⟨h.1, fun h1 h2 => ?_⟩
    have n1 : ¬ t.magic < r.magic := fun q => by rw [Info.before, h.1.2 q] at h1; exact absurd h1 (by simp)
    have n2 : ¬ r.magic < t.magic := fun q => by rw [Info.before, h'.1.2 q] at h2; exact absurd h2 (by simp)
    have e : t.magic = r.magic := by
      obtain ⟨c1, c2, c3⟩ := cmp_spec ht hr
      refine c2.1 ?_
      rcases lt_trichotomy (cmp t.magic r.magic) 0 with q | q | q
      · exact absurd (c1.1 q) n1
      · exact q
      · exact absurd (c3.1 q) n2
    simp [Info.eq, Info.hashCode, e]

/-- **C122, what is missing.**  `struct jeV2MGrGX5E` and `struct l_Ue8s5tsHl` are different types: for each, and for every longer name that begins so
with the same rest (as the members of a namespace, or the instances of a template), the two are equal, of the same index,
and yet one comes before the other. -/
theorem C122_equal_wrong (rest : List Nat) :
    let t : Info := ⟨bytes "jeV2MGrGX5E" ++ rest⟩
    let r : Info := ⟨bytes "l_Ue8s5tsHl" ++ rest⟩
    t.magic ≠ r.magic ∧ t.eq r = true ∧ (Index.ofInfo t).eq (Index.ofInfo r) = true ∧ t.before r = true ∧ r.before t = false := by
  have hh : (bytes "jeV2MGrGX5E").foldl mix 0xcbf29ce484222325 = (bytes "l_Ue8s5tsHl").foldl mix 0xcbf29ce484222325 := by decide +kernel
  have he : fnv1a (bytes "jeV2MGrGX5E" ++ rest) = fnv1a (bytes "l_Ue8s5tsHl" ++ rest) := by
    rw [fnv1a_eq, fnv1a_eq, List.foldl_append, List.foldl_append, hh]
  have ha : bytes "jeV2MGrGX5E" = [106, 101, 86, 50, 77, 71, 114, 71, 88, 53, 69] := by decide +kernel
  have hb : bytes "l_Ue8s5tsHl" = [108, 95, 85, 101, 56, 115, 53, 116, 115, 72, 108] := by decide +kernel
  refine ⟨?_, ?_, ?_, ?_, ?_⟩
  · rw [ha, hb]; intro e; simp at e
  · simp only [Info.eq, Info.hashCode, he, beq_self_eq_true]
  · simp only [Index.eq, Index.ofInfo, Info.hashCode, he, beq_self_eq_true]
  · simp only [Info.before, strLt, ha, hb, List.cons_append, cmp_cons]; simp
  · simp only [Info.before, strLt, ha, hb, List.cons_append, cmp_cons]; simp

/-! ## Arrays deleted with their owner -/

/-- The arrays held by an object at the moment another one is moved to it: one entry for each such assignment. -/
def lost (h : Heap) : List Op → List Nat
  | [] => []
  | o :: os =>
    (match o with
      | .moveTo b _ => match h.obj b with
        | some (some p) => [p]
        | _ => []
      | _ => []) ++
    match step h o with
    | .ok h' => lost h' os
    | _ => []

/-- The invariant; `L` are the arrays lost so far. -/
structure Inv (h : Heap) (L : List Nat) : Prop where
  fresh : ∀ i, h.objs ≤ i → h.obj i = none
  own : ∀ i p, h.obj i = some (some p) → p < h.next ∧ p ∉ h.dels ∧ p ∉ L
  uniq : ∀ i j p, h.obj i = some (some p) → h.obj j = some (some p) → i = j
  nodup : h.dels.Nodup
  nodupL : L.Nodup
  disj : ∀ p ∈ h.dels, p ∉ L
  lt : ∀ p, p ∈ h.dels ∨ p ∈ L → p < h.next
  all : ∀ p, p < h.next → p ∈ h.dels ∨ p ∈ L ∨ ∃ i, h.obj i = some (some p)

theorem Inv.start : Inv start [] where
  fresh := fun _ _ => rfl
  own := fun _ _ h => by simp [Types.start] at h
  uniq := fun _ _ _ h => by simp [Types.start] at h
  nodup := List.nodup_nil
  nodupL := List.nodup_nil
  disj := fun _ h => by simp [Types.start] at h
  lt := fun _ h => by simp [Types.start] at h
  all := fun _ h => by simp [Types.start] at h

/-- What one operation loses. -/
def lose (h : Heap) : Op → List Nat
  | .moveTo b _ => match h.obj b with
    | some (some p) => [p]
    | _ => []
  | _ => []

theorem lost_cons {h h' : Heap} {o : Op} {os : List Op} (e : step h o = .ok h') : lost h (o :: os) = lose h o ++ lost h' os := by
  cases o <;> simp only [lost, lose, e]

theorem put_same (f : Nat → Option (Option Nat)) (i : Nat) (v : Option (Option Nat)) : put f i v i = v := if_pos rfl
theorem put_ne (f : Nat → Option (Option Nat)) {i j : Nat} (v : Option (Option Nat)) (h : j ≠ i) : put f i v j = f j := if_neg h

theorem Inv.step {h h' : Heap} {L : List Nat} {o : Op} (I : Inv h L) (e : step h o = .ok h') : Inv h' (L ++ lose h o) := by
  cases o with
  | make =>
    simp only [Types.step, Res.ok.injEq] at e
    subst e
    simp only [lose, List.append_nil]
    have hn : h.next ∉ h.dels ∧ h.next ∉ L :=
      ⟨fun q => lt_irrefl _ (I.lt _ (.inl q)), fun q => lt_irrefl _ (I.lt _ (.inr q))⟩
    refine ⟨?_, ?_, ?_, I.nodup, I.nodupL, I.disj, fun p q => Nat.lt_succ_of_lt (I.lt p q), ?_⟩
    · intro i hi
      dsimp only at hi ⊢
      rw [put_ne _ _ (by omega)]; exact I.fresh i (by omega)
    · intro i p hp
      dsimp only at hp ⊢
      by_cases hi : i = h.objs
      · subst hi
        rw [put_same] at hp
        simp only [Option.some.injEq] at hp
        subst hp
        exact ⟨Nat.lt_succ_self _, hn⟩
      · rw [put_ne _ _ hi] at hp
        exact ⟨Nat.lt_succ_of_lt (I.own i p hp).1, (I.own i p hp).2⟩
    · intro i j p hi hj
      dsimp only at hi hj
      by_cases ei : i = h.objs
      · by_cases ej : j = h.objs
        · omega
        · rw [ei, put_same] at hi
          rw [put_ne _ _ ej] at hj
          simp only [Option.some.injEq] at hi
          have := (I.own j p hj).1; omega
      · by_cases ej : j = h.objs
        · rw [ej, put_same] at hj
          rw [put_ne _ _ ei] at hi
          simp only [Option.some.injEq] at hj
          have := (I.own i p hi).1; omega
        · rw [put_ne _ _ ei] at hi
          rw [put_ne _ _ ej] at hj
          exact I.uniq i j p hi hj
    · intro p hp
      dsimp only at hp ⊢
      by_cases hq : p = h.next
      · exact .inr (.inr ⟨h.objs, by rw [put_same, hq]⟩)
      · rcases I.all p (by omega) with q | q | ⟨i, q⟩
        · exact .inl q
        · exact .inr (.inl q)
        · refine .inr (.inr ⟨i, ?_⟩)
          rw [put_ne _ _ (fun ei => by rw [ei, I.fresh _ (le_refl _)] at q; simp at q)]; exact q
  | null =>
    simp only [Types.step, Res.ok.injEq] at e
    subst e
    simp only [lose, List.append_nil]
    have key : ∀ i p, put h.obj h.objs (some none) i = some (some p) → h.obj i = some (some p) := by
      intro i p q
      by_cases ei : i = h.objs
      · rw [ei, put_same] at q; simp at q
      · rwa [put_ne _ _ ei] at q
    refine ⟨?_, fun i p q => I.own i p (key i p q), fun i j p q r => I.uniq i j p (key i p q) (key j p r), I.nodup, I.nodupL,
      I.disj, I.lt, ?_⟩
    · intro i hi
      dsimp only at hi ⊢
      rw [put_ne _ _ (by omega)]; exact I.fresh i (by omega)
    · intro p hp
      rcases I.all p hp with q | q | ⟨i, q⟩
      · exact .inl q
      · exact .inr (.inl q)
      · refine .inr (.inr ⟨i, ?_⟩)
        dsimp only
        rw [put_ne _ _ (fun ei => by rw [ei, I.fresh _ (le_refl _)] at q; simp at q)]; exact q
  | moveNew a =>
    simp only [Types.step] at e
    cases ha : h.obj a with
    | none => rw [ha] at e; simp at e
    | some pa =>
      rw [ha] at e
      simp only [Res.ok.injEq] at e
      subst e
      simp only [lose, List.append_nil]
      have hao : a < h.objs := by
        by_contra c
        rw [I.fresh a (by omega)] at ha; simp at ha
      -- the new map: `objs` takes over from `a`
      have key : ∀ i p, put (put h.obj h.objs (some pa)) a (some none) i = some (some p) →
          (i = h.objs ∧ h.obj a = some (some p)) ∨ (i ≠ h.objs ∧ i ≠ a ∧ h.obj i = some (some p)) := by
        intro i p q
        by_cases ea : i = a
        · rw [ea, put_same] at q; simp at q
        · rw [put_ne _ _ ea] at q
          by_cases eo : i = h.objs
          · rw [eo, put_same] at q; exact .inl ⟨eo, by rw [ha]; exact q⟩
          · rw [put_ne _ _ eo] at q; exact .inr ⟨eo, ea, q⟩
      refine ⟨?_, ?_, ?_, I.nodup, I.nodupL, I.disj, I.lt, ?_⟩
      · intro i hi
        dsimp only at hi ⊢
        rw [put_ne _ _ (by omega), put_ne _ _ (by omega)]; exact I.fresh i (by omega)
      · intro i p q
        rcases key i p q with ⟨_, r⟩ | ⟨_, _, r⟩
        · exact I.own a p r
        · exact I.own i p r
      · intro i j p q r
        rcases key i p q with ⟨ei, q⟩ | ⟨_, ni, q⟩ <;> rcases key j p r with ⟨ej, r⟩ | ⟨_, nj, r⟩
        · omega
        · exact absurd (I.uniq j a p r q) nj
        · exact absurd (I.uniq i a p q r) ni
        · exact I.uniq i j p q r
      · intro p hp
        rcases I.all p hp with q | q | ⟨i, q⟩
        · exact .inl q
        · exact .inr (.inl q)
        · refine .inr (.inr ?_)
          dsimp only
          by_cases ei : i = a
          · refine ⟨h.objs, ?_⟩
            rw [put_ne _ _ (by omega), put_same, ← ha, ← ei]; exact q
          · refine ⟨i, ?_⟩
            rw [put_ne _ _ ei, put_ne _ _ (fun eo => by rw [eo, I.fresh _ (le_refl _)] at q; simp at q)]; exact q
  | moveTo b a =>
    simp only [Types.step] at e
    cases hb : h.obj b with
    | none => rw [hb] at e; simp at e
    | some pb =>
      cases ha : h.obj a with
      | none => rw [hb, ha] at e; simp at e
      | some pa =>
        rw [hb, ha] at e
        simp only [Res.ok.injEq] at e
        subst e
        have hao : a < h.objs := by
          by_contra c
          rw [I.fresh a (by omega)] at ha; simp at ha
        have hbo : b < h.objs := by
          by_contra c
          rw [I.fresh b (by omega)] at hb; simp at hb
        have key : ∀ i p, put (put h.obj b (some pa)) a (some none) i = some (some p) →
            i ≠ a ∧ ((i = b ∧ h.obj a = some (some p)) ∨ (i ≠ b ∧ h.obj i = some (some p))) := by
          intro i p q
          by_cases ea : i = a
          · rw [ea, put_same] at q; simp at q
          · rw [put_ne _ _ ea] at q
            by_cases eo : i = b
            · rw [eo, put_same] at q; exact ⟨ea, .inl ⟨eo, by rw [ha]; exact q⟩⟩
            · rw [put_ne _ _ eo] at q; exact ⟨ea, .inr ⟨eo, q⟩⟩
        have hl : ∀ p, p ∈ lose h (.moveTo b a) ↔ h.obj b = some (some p) := by
          intro p
          simp only [lose, hb]
          cases pb with
          | none => simp
          | some q => simp [eq_comm]
        have hnl : (lose h (.moveTo b a)).Nodup := by
          simp only [lose, hb]
          cases pb <;> simp
        refine ⟨?_, ?_, ?_, I.nodup, ?_, ?_, ?_, ?_⟩
        · intro i hi
          dsimp only at hi ⊢
          rw [put_ne _ _ (by omega), put_ne _ _ (by omega)]; exact I.fresh i (by omega)
        · intro i p q
          obtain ⟨ni, q⟩ := key i p q
          rcases q with ⟨ei, q⟩ | ⟨nb, q⟩
          · refine ⟨(I.own a p q).1, (I.own a p q).2.1, fun m => ?_⟩
            rcases List.mem_append.1 m with m | m
            · exact (I.own a p q).2.2 m
            · exact ni (by rw [ei]; exact I.uniq b a p ((hl p).1 m) q)
          · refine ⟨(I.own i p q).1, (I.own i p q).2.1, fun m => ?_⟩
            rcases List.mem_append.1 m with m | m
            · exact (I.own i p q).2.2 m
            · exact nb (I.uniq i b p q ((hl p).1 m))
        · intro i j p q r
          obtain ⟨ni, q⟩ := key i p q
          obtain ⟨nj, r⟩ := key j p r
          rcases q with ⟨ei, q⟩ | ⟨_, q⟩ <;> rcases r with ⟨ej, r⟩ | ⟨_, r⟩
          · omega
          · exact absurd (I.uniq j a p r q) nj
          · exact absurd (I.uniq i a p q r) ni
          · exact I.uniq i j p q r
        · refine List.nodup_append.2 ⟨I.nodupL, hnl, fun p hp q hq => ?_⟩
          rintro rfl
          exact (I.own b p ((hl p).1 hq)).2.2 hp
        · intro p hp m
          rcases List.mem_append.1 m with m | m
          · exact I.disj p hp m
          · exact (I.own b p ((hl p).1 m)).2.1 hp
        · rintro p (q | q)
          · exact I.lt p (.inl q)
          · rcases List.mem_append.1 q with q | q
            · exact I.lt p (.inr q)
            · exact (I.own b p ((hl p).1 q)).1
        · intro p hp
          rcases I.all p hp with q | q | ⟨i, q⟩
          · exact .inl q
          · exact .inr (.inl (List.mem_append_left _ q))
          · by_cases eb : i = b
            · exact .inr (.inl (List.mem_append_right _ ((hl p).2 (eb ▸ q))))
            · refine .inr (.inr ?_)
              dsimp only
              by_cases ei : i = a
              · refine ⟨b, ?_⟩
                rw [put_ne _ _ (by omega), put_same, ← ha, ← ei]; exact q
              · exact ⟨i, by rw [put_ne _ _ ei, put_ne _ _ eb]; exact q⟩
  | destroy a =>
    simp only [Types.step] at e
    have key : ∀ i p, put h.obj a none i = some (some p) → i ≠ a ∧ h.obj i = some (some p) := by
      intro i p q
      by_cases ea : i = a
      · rw [ea, put_same] at q; simp at q
      · rw [put_ne _ _ ea] at q; exact ⟨ea, q⟩
    have fr : ∀ i, h.objs ≤ i → put h.obj a none i = none := by
      intro i hi
      by_cases ea : i = a
      · rw [ea, put_same]
      · rw [put_ne _ _ ea]; exact I.fresh i hi
    cases ha : h.obj a with
    | none => rw [ha] at e; simp at e
    | some pa =>
      cases pa with
      | none =>
        rw [ha] at e
        simp only [Res.ok.injEq] at e
        subst e
        simp only [lose, List.append_nil]
        refine ⟨fr, fun i p q => I.own i p (key i p q).2, fun i j p q r => I.uniq i j p (key i p q).2 (key j p r).2, I.nodup,
          I.nodupL, I.disj, I.lt, ?_⟩
        intro p hp
        rcases I.all p hp with q | q | ⟨i, q⟩
        · exact .inl q
        · exact .inr (.inl q)
        · refine .inr (.inr ⟨i, ?_⟩)
          dsimp only
          rw [put_ne _ _ (fun ei => by rw [ei, ha] at q; simp at q)]; exact q
      | some pa =>
        rw [ha] at e
        simp only [Res.ok.injEq] at e
        subst e
        simp only [lose, List.append_nil]
        have hpa := I.own a pa ha
        refine ⟨fr, ?_, fun i j p q r => I.uniq i j p (key i p q).2 (key j p r).2, ?_, I.nodupL, ?_, ?_, ?_⟩
        · intro i p q
          obtain ⟨ni, q⟩ := key i p q
          refine ⟨(I.own i p q).1, fun m => ?_, (I.own i p q).2.2⟩
          rcases List.mem_cons.1 m with m | m
          · rw [m] at q; exact ni (I.uniq i a _ q ha)
          · exact (I.own i p q).2.1 m
        · exact List.nodup_cons.2 ⟨hpa.2.1, I.nodup⟩
        · intro p hp
          rcases List.mem_cons.1 hp with m | m
          · rw [m]; exact hpa.2.2
          · exact I.disj p m
        · rintro p (q | q)
          · rcases List.mem_cons.1 q with m | m
            · rw [m]; exact hpa.1
            · exact I.lt p (.inl m)
          · exact I.lt p (.inr q)
        · intro p hp
          rcases I.all p hp with q | q | ⟨i, q⟩
          · exact .inl (List.mem_cons_of_mem _ q)
          · exact .inr (.inl q)
          · by_cases ei : i = a
            · rw [ei, ha] at q
              simp only [Option.some.injEq] at q
              exact .inl (by simp [q])
            · refine .inr (.inr ⟨i, ?_⟩)
              dsimp only
              rw [put_ne _ _ ei]; exact q

theorem Inv.run : ∀ (os : List Op) {h h' : Heap} {L : List Nat}, Inv h L → run h os = .ok h' → Inv h' (L ++ lost h os)
  | [], h, h', L, I, e => by
    simp only [Types.run, Res.ok.injEq] at e
    subst e
    simpa [lost] using I
  | o :: os, h, h', L, I, e => by
    simp only [Types.run] at e
    obtain ⟨h1, e1, e2⟩ := Res.bind_eq_ok.1 e
    have := Inv.run os (I.step e1) e2
    rwa [List.append_assoc, ← lost_cons e1] at this

/-- **C123, nothing is deleted twice or used after.**  In every history of making, moving, assigning and destroying owners, no array is
passed to `delete []` twice, an owner that is alive never holds a deleted array, and no two owners hold the same one. -/
theorem C123_once {os : List Op} {h : Heap} (e : run start os = .ok h) :
    h.dels.Nodup ∧ (∀ i p, h.obj i = some (some p) → p ∉ h.dels) ∧
    (∀ i j p, h.obj i = some (some p) → h.obj j = some (some p) → i = j) := by
  have I := Inv.start.run os e
  exact ⟨I.nodup, fun i p q => (I.own i p q).2.1, I.uniq⟩

/-- **C123, what is deleted.**  Once no owner is alive, the arrays that were not deleted are exactly those held by an owner when another
was moved to it.  In particular all are deleted when no owner that holds an array is assigned to. -/
theorem C123_leak_partial {os : List Op} {h : Heap} (e : run start os = .ok h) (dead : ∀ i, h.obj i = none) :
    (∀ p, p < h.next → (p ∉ h.dels ↔ p ∈ lost start os)) ∧ (lost start os = [] → ∀ p, p < h.next → p ∈ h.dels) := by
  have I := Inv.start.run os e
  rw [List.nil_append] at I
  have h1 : ∀ p, p < h.next → (p ∉ h.dels ↔ p ∈ lost start os) := by
    intro p hp
    constructor
    · intro q
      rcases I.all p hp with r | r | ⟨i, r⟩
      · exact absurd r q
      · exact r
      · rw [dead i] at r; simp at r
    · exact fun q r => I.disj p r q
  refine ⟨h1, fun hl p hp => ?_⟩
  by_contra c
  have := (h1 p hp).1 c
  rw [hl] at this; simp at this

example : run start [.make, .moveNew 0, .null, .moveTo 2 1, .destroy 2, .destroy 1, .destroy 0] ≠ .ub ∧
    lost start [.make, .moveNew 0, .null, .moveTo 2 1, .destroy 2, .destroy 1, .destroy 0] = [] := by
  constructor
  · simp [run, step, start, put]
  · simp [lost, step, start, put]

/-- **C123, what is missing.**  An array held by an owner that another is moved to, itself included, is not deleted in any history
that follows. -/
theorem C123_leak_wrong {os os' : List Op} {h h' h'' : Heap} {a b p : Nat} (e : run start os = .ok h)
    (hb : h.obj b = some (some p)) (e1 : step h (.moveTo b a) = .ok h') (e2 : run h' os' = .ok h'') : p ∉ h''.dels := by
  have I := ((Inv.start.run os e).step e1).run os' e2
  intro q
  refine I.disj p q ?_
  simp [lose, hb]

example : ∃ h h', run start [.make] = .ok h ∧ h.obj 0 = some (some 0) ∧ step h (.moveTo 0 0) = .ok h' :=
  ⟨_, _, rfl, rfl, rfl⟩

end OP.Num.Types
