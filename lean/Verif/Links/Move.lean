import Verif.Links.PropsOwned
/-!
# Pavements that are moved (include/list.h:246-256, 416-432; src/pavement.h:382-419, 441-446)

Here the owner of an element is stored, because moving a pavement changes it.  Pavements and layers are numbered.  A pavement is seen through `view` as the
list of C24; the view holds only the layers whose owner is that pavement, so that an operation that met a layer of another owner would be undefined.
-/
namespace OP.Links

/-- The pavements, each with `first`, `last` and the state of its cache (`0` empty, `1` moduli, `2` all), and the layers with `prev`, `next` and `owner`. -/
structure World where
  obj : Nat → Option (Option Nat × Option Nat × Nat)
  lay : Nat → Option (Option Nat × Option Nat × Nat)

/-- The list of a pavement. -/
def World.view (w : World) (o : Nat) (v : Option Nat × Option Nat × Nat) : L2 :=
  ⟨v.1, v.2.1, fun i => match w.lay i with
    | some (p, n, a) => if a = o then some (p, n) else none
    | none => none⟩

/-- The list of a pavement changed. -/
def World.store (w : World) (o k : Nat) (s : L2) : World :=
  ⟨fun x => if x = o then some (s.first, s.last, k) else w.obj x, fun i => match s.nod i with
    | some (p, n) => some (p, n, o)
    | none => match w.lay i with
      | some (p, n, a) => if a = o then none else some (p, n, a)
      | none => none⟩

/-- The loop that tells the layers their new owner (include/list.h:418-422); `none` if it has not ended. -/
def reown (b : Nat) : Nat → Option Nat → World → Res (Option World)
  | 0, _, _ => .ok none
  | _ + 1, none, w => .ok (some w)
  | f + 1, some i, w => match w.lay i with
    | none => .ub
    | some (p, n, _) => reown b f n { w with lay := fun j => if j = i then some (p, n, b) else w.lay j }

/-- `LEsystem::LEsystem(LEsystem &&)` (src/pavement.h:441-446): the list is taken over, the cache is not, and that of the source is left as it is.  The loads, the
points and the results are copied, as their classes have no move constructors, and are not modelled here. -/
def World.move (w : World) (a b f : Nat) : Res World :=
  match w.obj a, w.obj b with
  | some (p, q, k), none =>
    reown b f p ⟨fun x => if x = b then some (p, q, 0) else if x = a then some (none, none, k) else w.obj x, w.lay⟩ >>= fun r => match r with
      | some w => .ok w
      | none => .ub
  | _, _ => .ub

/-- What a program can do with pavements. -/
inductive MOp where
  /-- `LEsystem o;` -/
  | make (o : Nat)
  /-- an operation on the layers of `o`, which marks its results as out of date (src/pavement.cpp:185-217) -/
  | edit (o : Nat) (op : OOp)
  /-- a calculation that succeeds -/
  | solve (o : Nat)
  /-- a layer is told to change its thickness (`0`) or its material (`1`), and tells its owner (src/pavement.cpp:154-183) -/
  | touch (e k : Nat)
  /-- `LEsystem b(std::move(a))`; the loop is given `f` rounds -/
  | move (a b f : Nat)
  /-- the end of a pavement, with its layers (include/list.h:257-259) -/
  | gone (o f : Nat)

/-- One operation. -/
def MOp.run (w : World) : MOp → Res World
  | make o => match w.obj o with
    | none => .ok { w with obj := fun x => if x = o then some (none, none, 0) else w.obj x }
    | some _ => .ub
  | edit o op => match w.obj o with
    | some v => op.run (w.view o v) >>= fun r => .ok (w.store o 0 r.1)
    | none => .ub
  | solve o => match w.obj o with
    | some (p, q, _) => .ok { w with obj := fun x => if x = o then some (p, q, 2) else w.obj x }
    | none => .ub
  | touch e k => match w.lay e with
    | some (_, _, o) => match w.obj o with
      | some (p, q, s) => .ok { w with obj := fun x => if x = o then some (p, q, min s k) else w.obj x }
      | none => .ub
    | none => .ub
  | move a b f => w.move a b f
  | gone o f => match w.obj o with
    | some v => (OOp.clear f).run (w.view o v) >>= fun r => .ok { w.store o 0 r.1 with obj := fun x => if x = o then none else w.obj x }
    | none => .ub

/-- A program. -/
def mrun : World → List MOp → Res World
  | w, [] => .ok w
  | w, o :: os => o.run w >>= fun w => mrun w os

/-- Nothing exists. -/
def World.init : World := ⟨fun _ => none, fun _ => none⟩

/-! ## Specification -/

/-- What a program sees: for each pavement the sequence of its layers and how much of its results is valid. -/
abbrev Pavs := Nat → Option (List Nat × Nat)

def Pavs.put (σ : Pavs) (o : Nat) (v : Option (List Nat × Nat)) : Pavs := fun x => if x = o then v else σ x

/-- The layer an operation creates. -/
def OOp.fresh : OOp → Option Nat
  | atEnd e | before e _ | after e _ | between e _ _ | addAt e _ => some e
  | _ => none

/-- Objects that are made are new, others exist, a new layer is not one of any pavement, and loops are given enough rounds. -/
def MOp.Valid (σ : Pavs) : MOp → Prop
  | make o => σ o = none
  | edit o op => ∃ L k, σ o = some (L, k) ∧ op.Valid L ∧ ∀ e, op.fresh = some e → ∀ o' L' k', σ o' = some (L', k') → e ∉ L'
  | solve o => ∃ v, σ o = some v
  | touch e _ => ∃ o L k, σ o = some (L, k) ∧ e ∈ L
  | move a b f => ∃ L k, σ a = some (L, k) ∧ σ b = none ∧ L.length < f
  | gone o f => ∃ L k, σ o = some (L, k) ∧ L.length < f

open Classical in
/-- What it does. -/
noncomputable def MOp.spec (σ : Pavs) : MOp → Pavs
  | make o => σ.put o (some ([], 0))
  | edit o op => match σ o with
    | some (L, _) => σ.put o (some ((op.spec L).1, 0))
    | none => σ
  | solve o => match σ o with
    | some (L, _) => σ.put o (some (L, 2))
    | none => σ
  | touch e k => fun o => match σ o with
    | some (L, s) => some (L, if e ∈ L then min s k else s)
    | none => none
  | move a b _ => match σ a with
    | some (L, k) => (σ.put a (some ([], k))).put b (some (L, 0))
    | none => σ
  | gone o _ => σ.put o none

/-- A history that respects the preconditions, and what it does. -/
def MValid : Pavs → List MOp → Prop
  | _, [] => True
  | σ, o :: os => o.Valid σ ∧ MValid (o.spec σ) os

noncomputable def mspec : Pavs → List MOp → Pavs
  | σ, [] => σ
  | σ, o :: os => mspec (o.spec σ) os

/-! ## Proofs -/

/-- The world is what the program sees: in particular each layer knows the pavement whose list it is in. -/
structure Seen (w : World) (σ : Pavs) : Prop where
  gone : ∀ o, σ o = none → w.obj o = none ∧ ∀ e p n a, w.lay e = some (p, n, a) → a ≠ o
  here : ∀ o L k, σ o = some (L, k) → ∃ p q, w.obj o = some (p, q, k) ∧ Exact (w.view o (p, q, k)) L

theorem Seen.mem {w : World} {σ : Pavs} (h : Seen w σ) {e o : Nat} {p n : Option Nat} (hl : w.lay e = some (p, n, o)) : ∃ L k, σ o = some (L, k) ∧ e ∈ L := by
  cases hs : σ o with
  | none => exact absurd rfl ((h.gone o hs).2 e p n o hl)
  | some v =>
    obtain ⟨p', q', h1, h2⟩ := h.here o v.1 v.2 hs
    refine ⟨v.1, v.2, rfl, ?_⟩
    by_contra hc
    have := h2.2 e hc
    simp [World.view, hl] at this

theorem Exact.alive {s : L2} {L : List Nat} (h : Exact s L) {e : Nat} (he : e ∈ L) : ∃ v, s.nod e = some v := by
  obtain ⟨A, B, hAB, -⟩ := split_of_mem he
  have := h.1
  rw [hAB] at this
  exact ⟨_, this.node⟩

theorem Seen.own {w : World} {σ : Pavs} (h : Seen w σ) {o : Nat} {L : List Nat} {k : Nat} (hs : σ o = some (L, k)) {e : Nat} (he : e ∈ L) : ∃ p n, w.lay e = some (p, n, o) := by
  obtain ⟨p, q, -, h2⟩ := h.here o L k hs
  obtain ⟨v, hv⟩ := h2.alive he
  simp only [World.view] at hv
  cases hl : w.lay e with
  | none => rw [hl] at hv; simp at hv
  | some x =>
    rw [hl] at hv
    obtain ⟨p', n', a⟩ := x
    dsimp only at hv
    by_cases ha : a = o
    · exact ⟨p', n', by rw [ha]⟩
    · rw [if_neg ha] at hv; simp at hv

theorem nod_kept {s : L2} {L : List Nat} {op : OOp} {s' : L2} (h' : Exact s' (op.spec L).1) {e : Nat} (he : s'.nod e ≠ none) : e ∈ L ∨ op.fresh = some e := by
  have hm : e ∈ (op.spec L).1 := by
    by_contra hc
    exact he (h'.2 e hc)
  have ins : ∀ i x, e ∈ L.insertIdx i x → e ∈ L ∨ some x = some e := by
    intro i x hx
    rcases List.eq_or_mem_of_mem_insertIdx hx with h | h
    · exact .inr (by rw [h])
    · exact .inl h
  cases op with
  | atEnd x => rcases List.mem_append.1 hm with h | h
               · exact .inl h
               · exact .inr (by rw [List.mem_singleton] at h; simp [OOp.fresh, h])
  | before x b => exact ins _ _ hm
  | after x b => exact ins _ _ hm
  | between x a b =>
    simp only [OOp.spec] at hm
    by_cases hc : L.idxOf b = L.idxOf a + 1
    · rw [if_pos hc] at hm; exact ins _ _ hm
    · rw [if_neg hc] at hm; exact .inl hm
  | destroy x => exact .inl (List.mem_of_mem_erase hm)
  | clear f => simp [OOp.spec] at hm
  | addAt x p => exact ins _ _ hm
  | removeAt l => exact .inl (List.mem_of_mem_eraseIdx hm)

/-- Another list in place of that of a pavement. -/
theorem view_store_same (w : World) (o k : Nat) (s : L2) : (w.store o k s).view o (s.first, s.last, k) = s := by
  unfold World.view World.store
  obtain ⟨f, l, nd⟩ := s
  congr 1
  funext i
  dsimp only
  cases hn : nd i with
  | some v => simp
  | none =>
    dsimp only
    cases hl : w.lay i with
    | none => simp
    | some x =>
      obtain ⟨p, n, a⟩ := x
      by_cases ha : a = o <;> simp [ha]

theorem view_store_ne (w : World) {o o' : Nat} (k : Nat) (s : L2) (v : Option Nat × Option Nat × Nat) (ho : o' ≠ o)
    (hf : ∀ i, s.nod i ≠ none → ∀ p n, w.lay i ≠ some (p, n, o')) : (w.store o k s).view o' v = w.view o' v := by
  unfold World.view World.store
  congr 1
  funext i
  dsimp only
  cases hn : s.nod i with
  | some x =>
    have hf' := hf i (by rw [hn]; simp)
    dsimp only
    rw [if_neg (Ne.symm ho)]
    cases hl : w.lay i with
    | none => rfl
    | some y =>
      obtain ⟨p, n, a⟩ := y
      dsimp only
      rw [if_neg]
      rintro rfl
      exact hf' p n hl
  | none =>
    dsimp only
    cases hl : w.lay i with
    | none => rfl
    | some y =>
      obtain ⟨p, n, a⟩ := y
      dsimp only
      by_cases ha : a = o
      · rw [if_pos ha, if_neg (by rw [ha]; exact Ne.symm ho)]
      · rw [if_neg ha]

/-- The loop over the layers: exactly those of the list get the new owner. -/
theorem reown_ok (b : Nat) : ∀ (L : List Nat) (f : Nat) (w : World) (h : Nat → Option (Option Nat × Option Nat)) (pr p la : Option Nat), L.Nodup → L.length < f → DSeg h pr p L la none →
    (∀ e ∈ L, ∃ a, w.lay e = (h e).map fun v => (v.1, v.2, a)) →
    ∃ w', reown b f p w = .ok (some w') ∧ w'.obj = w.obj ∧ (∀ e ∈ L, w'.lay e = (h e).map fun v => (v.1, v.2, b)) ∧ ∀ e, e ∉ L → w'.lay e = w.lay e
  | [], 0, _, _, _, _, _, _, hf, _, _ => absurd hf (by simp)
  | [], f + 1, w, h, pr, p, la, _, _, hs, _ => by
    obtain ⟨rfl, -⟩ := hs
    exact ⟨w, rfl, rfl, fun e he => by simp at he, fun _ _ => rfl⟩
  | x :: L, 0, _, _, _, _, _, _, hf, _, _ => absurd hf (by simp)
  | x :: L, f + 1, w, h, pr, p, la, hn, hf, hs, hw => by
    obtain ⟨rfl, r, h1, h2⟩ := hs
    obtain ⟨a, ha⟩ := hw x List.mem_cons_self
    rw [h1] at ha
    have hx : x ∉ L := (List.nodup_cons.1 hn).1
    obtain ⟨w', e1, e2, e3, e4⟩ := reown_ok b L f { w with lay := fun j => if j = x then some (pr, r, b) else w.lay j } h (some x) r la (List.nodup_cons.1 hn).2
      (by simp at hf; omega) h2 (fun e he => by
        obtain ⟨a', ha'⟩ := hw e (List.mem_cons_of_mem _ he)
        exact ⟨a', by dsimp only; rw [if_neg (by rintro rfl; exact hx he)]; exact ha'⟩)
    refine ⟨w', ?_, e2, fun e he => ?_, fun e he => ?_⟩
    · rw [reown, ha]; exact e1
    · rcases List.mem_cons.1 he with rfl | he
      · rw [e4 _ hx, h1]; simp
      · exact e3 e he
    · rw [e4 e (fun hh => he (List.mem_cons_of_mem _ hh))]
      dsimp only
      rw [if_neg (by rintro rfl; exact he List.mem_cons_self)]

theorem move_ok {w : World} {σ : Pavs} (h : Seen w σ) {a b f k : Nat} {L : List Nat} (ha : σ a = some (L, k)) (hb : σ b = none) (hf : L.length < f) :
    ∃ w', w.move a b f = .ok w' ∧ Seen w' ((σ.put a (some ([], k))).put b (some (L, 0))) := by
  obtain ⟨p, q, h1, h2⟩ := h.here a L k ha
  obtain ⟨h3, h4⟩ := h.gone b hb
  have hab : a ≠ b := by rintro rfl; rw [ha] at hb; simp at hb
  obtain ⟨w', e1, e2, e3, e4⟩ := reown_ok b L f ⟨fun x => if x = b then some (p, q, 0) else if x = a then some (none, none, k) else w.obj x, w.lay⟩
    (w.view a (p, q, k)).nod none p q h2.1.nodup hf h2.1.seg (fun e he => by
      obtain ⟨p', n', hl⟩ := h.own ha he
      exact ⟨a, by simp [World.view, hl]⟩)
  refine ⟨w', ?_, ?_, ?_⟩
  · simp only [World.move, h1, h3, e1, Res.ok_bind]
  · intro o ho
    unfold Pavs.put at ho
    by_cases hob : o = b
    · rw [if_pos hob] at ho; simp at ho
    rw [if_neg hob] at ho
    by_cases hoa : o = a
    · rw [if_pos hoa] at ho; simp at ho
    rw [if_neg hoa] at ho
    refine ⟨by rw [e2]; dsimp only; rw [if_neg hob, if_neg hoa]; exact (h.gone o ho).1, fun e p' n' a' hl => ?_⟩
    by_cases he : e ∈ L
    · rw [e3 e he] at hl
      obtain ⟨v, hv⟩ := h2.alive he
      rw [hv] at hl
      simp at hl
      rw [← hl.2.2]; exact Ne.symm hob
    · rw [e4 e he] at hl
      exact (h.gone o ho).2 e p' n' a' hl
  · intro o L' k' ho
    unfold Pavs.put at ho
    by_cases hob : o = b
    · rw [if_pos hob] at ho
      simp only [Option.some.injEq, Prod.mk.injEq] at ho
      obtain ⟨rfl, rfl⟩ := ho
      refine ⟨p, q, by rw [e2, hob]; simp, ?_, ?_⟩
      · refine ⟨h2.1.seg.frame fun e he => ?_, h2.1.nodup⟩
        obtain ⟨v, hv⟩ := h2.alive he
        have := e3 e he
        rw [hv] at this ⊢
        simp [World.view, this, hob]
      · intro e he
        have := e4 e he
        simp only [World.view, this]
        cases hl : w.lay e with
        | none => rfl
        | some x =>
          obtain ⟨p', n', a'⟩ := x
          dsimp only
          rw [if_neg]
          rw [hob]
          exact h4 e p' n' a' hl
    rw [if_neg hob] at ho
    by_cases hoa : o = a
    · rw [if_pos hoa] at ho
      simp only [Option.some.injEq, Prod.mk.injEq] at ho
      obtain ⟨rfl, rfl⟩ := ho
      refine ⟨none, none, by rw [e2, hoa]; dsimp only; rw [if_neg hab, if_pos rfl], ⟨⟨rfl, rfl⟩, List.nodup_nil⟩, fun e _ => ?_⟩
      by_cases he : e ∈ L
      · obtain ⟨v, hv⟩ := h2.alive he
        have := e3 e he
        rw [hv] at this
        simp [World.view, this, hoa, Ne.symm hab]
      · have h5 := h2.2 e he
        simp only [World.view, e4 e he] at h5 ⊢
        rw [hoa]; exact h5
    rw [if_neg hoa] at ho
    obtain ⟨p', q', g1, g2⟩ := h.here o L' k' ho
    refine ⟨p', q', by rw [e2]; dsimp only; rw [if_neg hob, if_neg hoa]; exact g1, ?_⟩
    have : w'.view o (p', q', k') = w.view o (p', q', k') := by
      unfold World.view
      congr 1
      funext i
      by_cases hi : i ∈ L
      · obtain ⟨v, hv⟩ := h2.alive hi
        have := e3 i hi
        rw [hv] at this
        obtain ⟨p1, n1, hl⟩ := h.own ha hi
        rw [this, hl]
        dsimp
        rw [if_neg (Ne.symm hob), if_neg (Ne.symm hoa)]
      · rw [e4 i hi]
    rw [this]
    exact g2

theorem mop_ok {w : World} {σ : Pavs} (h : Seen w σ) {o : MOp} (hv : o.Valid σ) : ∃ w', o.run w = .ok w' ∧ Seen w' (o.spec σ) := by
  cases o with
  | make o =>
    obtain ⟨h1, h2⟩ := h.gone o hv
    refine ⟨_, by simp only [MOp.run, h1]; exact rfl, ?_, ?_⟩
    · intro o' ho'
      simp only [MOp.spec, Pavs.put] at ho'
      by_cases hoo : o' = o
      · rw [if_pos hoo] at ho'; simp at ho'
      · rw [if_neg hoo] at ho'
        exact ⟨by dsimp only; rw [if_neg hoo]; exact (h.gone o' ho').1, (h.gone o' ho').2⟩
    · intro o' L k ho'
      simp only [MOp.spec, Pavs.put] at ho'
      by_cases hoo : o' = o
      · rw [if_pos hoo] at ho'
        simp only [Option.some.injEq, Prod.mk.injEq] at ho'
        obtain ⟨rfl, rfl⟩ := ho'
        refine ⟨none, none, by simp [hoo], ⟨⟨rfl, rfl⟩, List.nodup_nil⟩, fun e _ => ?_⟩
        simp only [World.view]
        cases hl : w.lay e with
        | none => rfl
        | some x =>
          obtain ⟨p, n, a⟩ := x
          dsimp only
          rw [if_neg]
          rw [hoo]; exact h2 e p n a hl
      · rw [if_neg hoo] at ho'
        obtain ⟨p, q, g1, g2⟩ := h.here o' L k ho'
        exact ⟨p, q, by dsimp only; rw [if_neg hoo]; exact g1, g2⟩
  | edit o op =>
    obtain ⟨L, k, h1, h2, h3⟩ := hv
    obtain ⟨p, q, g1, g2⟩ := h.here o L k h1
    obtain ⟨s', r1, r2⟩ := oop_ok g2 h2
    refine ⟨w.store o 0 s', by simp only [MOp.run, g1, r1, Res.ok_bind], ?_⟩
    have key : ∀ i, s'.nod i ≠ none → ∀ o', o' ≠ o → ∀ p n, w.lay i ≠ some (p, n, o') := by
      intro i hi o' ho' p n hl
      obtain ⟨L', k', m1, m2⟩ := h.mem hl
      rcases nod_kept (s := w.view o (p, q, k)) r2 hi with hm | hm
      · obtain ⟨p1, n1, hl'⟩ := h.own h1 hm
        rw [hl] at hl'
        simp at hl'
        exact ho' hl'.2.2
      · exact h3 i hm o' L' k' m1 m2
    simp only [MOp.spec, h1]
    refine ⟨fun o' ho' => ?_, fun o' L' k' ho' => ?_⟩
    · unfold Pavs.put at ho'
      by_cases hoo : o' = o
      · rw [if_pos hoo] at ho'; simp at ho'
      rw [if_neg hoo] at ho'
      obtain ⟨m1, m2⟩ := h.gone o' ho'
      refine ⟨by simp only [World.store]; rw [if_neg hoo]; exact m1, fun e p n a hl => ?_⟩
      simp only [World.store] at hl
      cases hn : s'.nod e with
      | some x =>
        rw [hn] at hl
        simp at hl
        rw [← hl.2.2]; exact Ne.symm hoo
      | none =>
        rw [hn] at hl
        cases hl2 : w.lay e with
        | none => rw [hl2] at hl; simp at hl
        | some y =>
          obtain ⟨p1, n1, a1⟩ := y
          rw [hl2] at hl
          dsimp only at hl
          by_cases ha : a1 = o
          · rw [if_pos ha] at hl; simp at hl
          · rw [if_neg ha] at hl
            simp at hl
            rw [← hl.2.2]
            exact m2 e p1 n1 a1 hl2
    · unfold Pavs.put at ho'
      by_cases hoo : o' = o
      · rw [if_pos hoo] at ho'
        simp only [Option.some.injEq, Prod.mk.injEq] at ho'
        obtain ⟨rfl, rfl⟩ := ho'
        refine ⟨s'.first, s'.last, by simp [World.store, hoo], ?_⟩
        rw [hoo, view_store_same]; exact r2
      · rw [if_neg hoo] at ho'
        obtain ⟨p', q', m1, m2⟩ := h.here o' L' k' ho'
        refine ⟨p', q', by simp only [World.store]; rw [if_neg hoo]; exact m1, ?_⟩
        rw [view_store_ne w 0 s' _ hoo fun i hi => key i hi o' hoo]
        exact m2
  | solve o =>
    obtain ⟨⟨L, k⟩, h1⟩ := hv
    obtain ⟨p, q, g1, g2⟩ := h.here o L k h1
    refine ⟨_, by simp only [MOp.run, g1]; exact rfl, ?_⟩
    simp only [MOp.spec, h1]
    refine ⟨fun o' ho' => ?_, fun o' L' k' ho' => ?_⟩
    · unfold Pavs.put at ho'
      by_cases hoo : o' = o
      · rw [if_pos hoo] at ho'; simp at ho'
      rw [if_neg hoo] at ho'
      exact ⟨by dsimp only; rw [if_neg hoo]; exact (h.gone o' ho').1, (h.gone o' ho').2⟩
    · unfold Pavs.put at ho'
      by_cases hoo : o' = o
      · rw [if_pos hoo] at ho'
        simp only [Option.some.injEq, Prod.mk.injEq] at ho'
        obtain ⟨rfl, rfl⟩ := ho'
        exact ⟨p, q, by simp [hoo], by rw [hoo]; exact g2⟩
      · rw [if_neg hoo] at ho'
        obtain ⟨p', q', m1, m2⟩ := h.here o' L' k' ho'
        exact ⟨p', q', by dsimp only; rw [if_neg hoo]; exact m1, m2⟩
  | touch e k =>
    obtain ⟨o, L, s, h1, h2⟩ := hv
    obtain ⟨p, n, hl⟩ := h.own h1 h2
    obtain ⟨p', q', g1, g2⟩ := h.here o L s h1
    refine ⟨_, by simp only [MOp.run, hl, g1]; exact rfl, ?_⟩
    refine ⟨fun o' ho' => ?_, fun o' L' k' ho' => ?_⟩
    · simp only [MOp.spec] at ho'
      cases hs : σ o' with
      | some v => rw [hs] at ho'; simp at ho'
      | none =>
        have hoo : o' ≠ o := by rintro rfl; rw [h1] at hs; simp at hs
        exact ⟨by dsimp only; rw [if_neg hoo]; exact (h.gone o' hs).1, (h.gone o' hs).2⟩
    · simp only [MOp.spec] at ho'
      cases hs : σ o' with
      | none => rw [hs] at ho'; simp at ho'
      | some v =>
        obtain ⟨L1, s1⟩ := v
        rw [hs] at ho'
        simp only [Option.some.injEq, Prod.mk.injEq] at ho'
        obtain ⟨rfl, rfl⟩ := ho'
        obtain ⟨p1, q1, m1, m2⟩ := h.here o' L1 s1 hs
        by_cases hoo : o' = o
        · subst hoo
          rw [h1] at hs
          simp only [Option.some.injEq, Prod.mk.injEq] at hs
          obtain ⟨rfl, rfl⟩ := hs
          exact ⟨p', q', by dsimp only; rw [if_pos rfl, if_pos h2], g2⟩
        · have hne : e ∉ L1 := by
            intro he
            obtain ⟨p2, n2, hl2⟩ := h.own hs he
            rw [hl] at hl2
            simp at hl2
            exact hoo hl2.2.2.symm
          exact ⟨p1, q1, by dsimp only; rw [if_neg hoo, if_neg hne]; exact m1, m2⟩
  | move a b f =>
    obtain ⟨L, k, h1, h2, h3⟩ := hv
    simp only [MOp.spec, h1]
    exact move_ok h h1 h2 h3
  | gone o f =>
    obtain ⟨L, k, h1, h2⟩ := hv
    obtain ⟨p, q, g1, g2⟩ := h.here o L k h1
    obtain ⟨s', r1, r2⟩ := oop_ok (o := OOp.clear f) g2 h2
    have hz : ∀ i, s'.nod i = none := fun i => r2.2 i (by simp [OOp.spec])
    refine ⟨_, by simp only [MOp.run, g1, r1, Res.ok_bind]; exact rfl, fun o' ho' => ?_, fun o' L' k' ho' => ?_⟩
    · simp only [MOp.spec, Pavs.put] at ho'
      have hlay : ∀ e p n a, (w.store o 0 s').lay e = some (p, n, a) → a ≠ o ∧ w.lay e = some (p, n, a) := by
        intro e p n a hl
        simp only [World.store, hz e] at hl
        cases hl2 : w.lay e with
        | none => rw [hl2] at hl; simp at hl
        | some y =>
          obtain ⟨p1, n1, a1⟩ := y
          rw [hl2] at hl
          dsimp only at hl
          by_cases ha : a1 = o
          · rw [if_pos ha] at hl; simp at hl
          · rw [if_neg ha] at hl
            simp at hl
            obtain ⟨rfl, rfl, rfl⟩ := hl
            exact ⟨ha, rfl⟩
      by_cases hoo : o' = o
      · exact ⟨by simp [hoo], fun e p n a hl => by rw [hoo]; exact (hlay e p n a hl).1⟩
      · rw [if_neg hoo] at ho'
        exact ⟨by dsimp only; rw [if_neg hoo]; exact (h.gone o' ho').1, fun e p n a hl => (h.gone o' ho').2 e p n a (hlay e p n a hl).2⟩
    · simp only [MOp.spec, Pavs.put] at ho'
      by_cases hoo : o' = o
      · rw [if_pos hoo] at ho'; simp at ho'
      · rw [if_neg hoo] at ho'
        obtain ⟨p', q', m1, m2⟩ := h.here o' L' k' ho'
        refine ⟨p', q', by dsimp only; rw [if_neg hoo]; exact m1, ?_⟩
        have := view_store_ne w 0 s' (p', q', k') hoo fun i hi => absurd (hz i) hi
        exact this ▸ m2

theorem mrun_ok : ∀ {os : List MOp} {w : World} {σ : Pavs}, Seen w σ → MValid σ os → ∃ w', mrun w os = .ok w' ∧ Seen w' (mspec σ os)
  | [], w, _, h, _ => ⟨w, rfl, h⟩
  | o :: os, w, σ, h, hv => by
    obtain ⟨w1, h1, h2⟩ := mop_ok h hv.1
    obtain ⟨w2, h3, h4⟩ := mrun_ok h2 hv.2
    exact ⟨w2, by rw [mrun, h1, Res.ok_bind, h3], h4⟩

theorem init_seen : Seen World.init fun _ => none :=
  ⟨fun _ _ => ⟨rfl, fun e p n a h => by simp [World.init] at h⟩, fun o L k h => by simp at h⟩

/-! ## C128 -/

/-- **C128.**  After any history of pavements that are made, moved and destroyed, with layers added, removed and changed in between, each pavement has exactly the
layers the history describes, in both directions, each layer names the pavement it is in as its owner, and a change of a layer marks the results of that pavement
and of no other. -/
theorem C128_moves (os : List MOp) (hv : MValid (fun _ => none) os) :
    ∃ w, mrun World.init os = .ok w ∧ ∀ o, match mspec (fun _ => none) os o with
      | none => w.obj o = none
      | some (L, k) => ∃ p q, w.obj o = some (p, q, k) ∧ L.Nodup ∧ p = L.head? ∧ q = L.getLast? ∧
        (∀ e, (∃ x y, w.lay e = some (x, y, o)) ↔ e ∈ L) ∧
        ∀ f, L.length ≤ f → L2.fwd (w.view o (p, q, k)) f p = .ok (some L) ∧ L2.bwd (w.view o (p, q, k)) f q = .ok (some L.reverse) := by
  obtain ⟨w, h1, h2⟩ := mrun_ok init_seen hv
  refine ⟨w, h1, fun o => ?_⟩
  cases hs : mspec (fun _ => none) os o with
  | none => exact (h2.gone o hs).1
  | some v =>
    obtain ⟨L, k⟩ := v
    obtain ⟨p, q, g1, g2⟩ := h2.here o L k hs
    refine ⟨p, q, g1, g2.1.nodup, g2.1.first_eq, g2.1.last_eq, fun e => ⟨fun ⟨x, y, hl⟩ => ?_, fun he => h2.own hs he⟩, fun f hf => ⟨?_, ?_⟩⟩
    · obtain ⟨L', k', m1, m2⟩ := h2.mem hl
      rw [hs] at m1
      simp only [Option.some.injEq, Prod.mk.injEq] at m1
      rw [m1.1]; exact m2
    · have := fwd_ok (A := []) g2.1 hf
      rw [← g2.1.first_eq] at this
      exact this
    · have := bwd_ok (A := []) rfl (by simpa using g2.1) hf
      rw [← g2.1.last_eq] at this
      exact this

/-- **C128**, negation: a pavement with results keeps the mark that they are valid when its layers are moved out of it, whatever was done before. -/
theorem C128_source_stale (os : List MOp) (hv : MValid (fun _ => none) os) (a b : Nat) (L : List Nat) (k : Nat) (ha : mspec (fun _ => none) os a = some (L, k))
    (hb : mspec (fun _ => none) os b = none) : ∃ w, mrun World.init (os ++ [.solve a, .move a b (L.length + 1)]) = .ok w ∧ w.obj a = some (none, none, 2) := by
  have happ : ∀ (os os' : List MOp) (w : World), mrun w (os ++ os') = mrun w os >>= fun w => mrun w os' := by
    intro os os'
    induction os with
    | nil => intro w; rfl
    | cons o os ih =>
      intro w
      rw [List.cons_append, mrun, mrun]
      cases o.run w with
      | ok w1 => simp only [Res.ok_bind]; exact ih w1
      | throw => rfl
      | ub => rfl
  obtain ⟨w, h1, h2⟩ := mrun_ok init_seen hv
  have hab : b ≠ a := by rintro rfl; rw [ha] at hb; simp at hb
  obtain ⟨w1, h3, h4⟩ := mop_ok h2 (o := .solve a) ⟨_, ha⟩
  have hs : (MOp.solve a).spec (mspec (fun _ => none) os) = (mspec (fun _ => none) os).put a (some (L, 2)) := by simp only [MOp.spec, ha]
  rw [hs] at h4
  obtain ⟨w2, h5, h6⟩ := move_ok h4 (a := a) (b := b) (f := L.length + 1) (k := 2) (L := L) (by simp [Pavs.put]) (by simp [Pavs.put, hab, hb]) (by omega)
  refine ⟨w2, ?_, ?_⟩
  · rw [happ, h1, Res.ok_bind, mrun, h3, Res.ok_bind, mrun, MOp.run, h5, Res.ok_bind, mrun]
  · obtain ⟨p, q, g1, g2⟩ := h6.here a [] 2 (by simp [Pavs.put, Ne.symm hab])
    have e1 := g2.1.first_eq
    have e2 := g2.1.last_eq
    simp [World.view] at e1 e2
    rw [g1, e1, e2]

/-- Two layers, moved, and one of them changed. -/
example : MValid (fun _ => none) [.make 0, .edit 0 (.atEnd 5), .edit 0 (.atEnd 6), .move 0 1 3, .solve 1, .touch 5 1, .edit 1 (.removeAt 0), .gone 0 1] ∧
    mspec (fun _ => none) [.make 0, .edit 0 (.atEnd 5), .edit 0 (.atEnd 6), .move 0 1 3, .solve 1, .touch 5 1] 1 = some ([5, 6], 1) := by
  simp [MValid, MOp.Valid, MOp.spec, Pavs.put, OOp.Valid, OOp.fresh, OOp.spec, mspec]
  refine ⟨fun o' L' k' h => ?_, 1, [5, 6], ⟨2, by simp⟩, by simp⟩
  by_cases ho : o' = 0
  · rw [if_pos ho] at h
    simp at h
    rw [← h.1]; simp
  · rw [if_neg ho, if_neg ho] at h; simp at h

end OP.Links
