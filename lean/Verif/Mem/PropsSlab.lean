import Verif.Mem.Slab
import Mathlib.Data.List.Basic
/-!
# Properties of the slab cache
-/
namespace OP.Mem

/-- Memory from the system: 16-byte aligned, and no two pieces overlap. -/
structure Fine (sys : Sys) : Prop where
  aligned : ∀ k, 16 ∣ (sys k).1
  apart : ∀ j k, j ≠ k → (sys j).1 + (sys j).2 ≤ (sys k).1 ∨ (sys k).1 + (sys k).2 ≤ (sys j).1

/-- The block is in the part of slab `k` that follows the header, as far as there is memory. -/
def Inside (sys : Sys) (k : Nat) (b : Nat × Nat) : Prop := (sys k).1 + 16 ≤ b.1 ∧ b.1 + b.2 ≤ (sys k).1 + (sys k).2

/-- Two blocks share no byte. -/
def Apart (a b : Nat × Nat) : Prop := a.1 + a.2 ≤ b.1 ∨ b.1 + b.2 ≤ a.1

theorem align_dvd (s : Nat) : 16 ∣ align s := by unfold align; omega
theorem le_align (s : Nat) : s ≤ align s := by unfold align; omega
theorem align_lt (s : Nat) : align s < s + 16 := by unfold align; omega
theorem align_of_dvd {s : Nat} (h : 16 ∣ s) : align s = s := by unfold align; omega
theorem align_add {q : Nat} (h : 16 ∣ q) (l : Nat) : align (q + l) = q + align l := by unfold align; omega
theorem align_mono {a b : Nat} (h : a ≤ b) : align a ≤ align b := by unfold align; omega
theorem room_small {len : Nat} (h : len ≤ page) : room len = page + 16 := by
  unfold room; rw [Nat.max_eq_right h]; rfl

/-- What is true of slab `k` with mark `m`. -/
structure SlabInv (sys : Sys) (k m : Nat) : Prop where
  dvd : 16 ∣ m
  ge : m = (sys k).1 ∨ (sys k).1 + 16 ≤ m
  le : m ≤ (sys k).1 + (page + 16)

/-- Block `b` is in one of the slabs from `k` on, below its mark, inside the memory, and aligned. -/
def Held (sys : Sys) : Nat → List Nat → Nat × Nat → Prop
  | _, [], _ => False
  | k, m :: ms, b => (16 ∣ b.1 ∧ Inside sys k b ∧ b.1 + b.2 ≤ m) ∨ Held sys (k + 1) ms b

def Slabs (sys : Sys) : Nat → List Nat → Prop
  | _, [] => True
  | k, m :: ms => SlabInv sys k m ∧ Slabs sys (k + 1) ms

theorem Held.inside {sys : Sys} : ∀ {ms : List Nat} {k : Nat} {b : Nat × Nat}, Held sys k ms b → ∃ j, k ≤ j ∧ 16 ∣ b.1 ∧ Inside sys j b
  | [], _, _, h => h.elim
  | _ :: _, k, _, .inl h => ⟨k, Nat.le_refl k, h.1, h.2.1⟩
  | _ :: ms, _, _, .inr h => by
    obtain ⟨j, h1, h2⟩ := Held.inside h
    exact ⟨j, by omega, h2⟩

theorem front_ge {sys : Sys} (hf : Fine sys) {k m : Nat} (h : SlabInv sys k m) :
    (sys k).1 + 16 ≤ front (sys k).1 m ∧ 16 ∣ front (sys k).1 m ∧ m ≤ front (sys k).1 m ∧
      front (sys k).1 m ≤ (sys k).1 + (page + 16) := by
  have ha := hf.aligned k
  have hd := h.dvd
  have hg := h.ge
  have hle := h.le
  have e : align ((sys k).1 + 16) = (sys k).1 + 16 := align_of_dvd (by omega)
  unfold front
  split
  · rename_i he; rw [e]; subst he; exact ⟨Nat.le_refl _, by omega, by omega, by omega⟩
  · rename_i he
    exact ⟨hg.resolve_left he, hd, Nat.le_refl _, hle⟩

theorem alloc_inv {sys : Sys} (hf : Fine sys) (hs : ∀ k, page + 16 ≤ (sys k).2) {len : Nat} (hl : len ≤ page) :
    ∀ (ms : List Nat) (k : Nat), ms ≠ [] → Slabs sys k ms →
      Slabs sys k (alloc sys len k ms).1 ∧ (alloc sys len k ms).1 ≠ [] ∧
      Held sys k (alloc sys len k ms).1 ((alloc sys len k ms).2, len) ∧
      (∀ b, Held sys k ms b → Held sys k (alloc sys len k ms).1 b ∧ Apart b ((alloc sys len k ms).2, len))
  | [], _, h, _ => absurd rfl h
  | m :: ms, k, _, hsl => by
    obtain ⟨h1, h2⟩ := hsl
    obtain ⟨f1, f2, f3, f4⟩ := front_ge hf h1
    have hle := h1.le
    have hr := room_small hl
    have hsk := hs k
    have hak := hf.aligned k
    unfold alloc
    simp only
    split
    · rename_i hfit
      rw [hr] at hfit
      have hal := le_align len
      have e : align (front (sys k).1 m + len) = front (sys k).1 m + align len := align_add f2 len
      rw [e]
      have hd := align_dvd len
      refine ⟨⟨⟨by omega, .inr (by omega), by omega⟩, h2⟩, by simp, ?_, ?_⟩
      · left
        exact ⟨f2, ⟨f1, by simp only; omega⟩, by simp only; omega⟩
      · rintro b (⟨b1, b2, b3⟩ | hb)
        · exact ⟨.inl ⟨b1, b2, by omega⟩, .inl (by simp only; omega)⟩
        · refine ⟨.inr hb, ?_⟩
          obtain ⟨j, hj, -, hin⟩ := hb.inside
          have hjk := hf.apart j k (by omega)
          unfold Inside at hin
          unfold Apart
          simp only
          omega
    · rename_i hno
      cases ms with
      | nil =>
        have ha1 := hf.aligned (k + 1)
        have e1 : align ((sys (k + 1)).1 + 16) = (sys (k + 1)).1 + 16 := align_of_dvd (by omega)
        have e2 : align ((sys k).1 + room len) = (sys k).1 + (page + 16) := by rw [hr]; exact align_of_dvd (by unfold page; omega)
        simp only [e1, e2]
        have e3 : align ((sys (k + 1)).1 + 16 + len) = (sys (k + 1)).1 + 16 + align len := align_add (by omega) len
        have hd := align_dvd len
        have hal := le_align len
        have hs1 := hs (k + 1)
        rw [e3]
        have hap := align_mono hl
        have hpp : align page = page := by decide
        refine ⟨⟨⟨by unfold page; omega, .inr (by omega), Nat.le_refl _⟩, ⟨by omega, .inr (by omega), by omega⟩, trivial⟩, by simp, ?_, ?_⟩
        · right; left
          exact ⟨by simp only; omega, ⟨Nat.le_refl _, by simp only; omega⟩, by simp only; omega⟩
        · rintro b (⟨b1, b2, b3⟩ | hb)
          · have hjk := hf.apart k (k + 1) (by omega)
            have hin := b2
            unfold Inside at hin
            refine ⟨.inl ⟨b1, b2, ?_⟩, ?_⟩
            · omega
            · unfold Apart; simp only; omega
          · exact hb.elim
      | cons d ms =>
        simp only
        obtain ⟨g1, g2, g3, g4⟩ := alloc_inv hf hs hl (d :: ms) (k + 1) (by simp) h2
        refine ⟨⟨⟨f2, .inr f1, f4⟩, g1⟩, by simp, .inr g3, ?_⟩
        rintro b (⟨b1, b2, b3⟩ | hb)
        · refine ⟨.inl ⟨b1, b2, by omega⟩, ?_⟩
          obtain ⟨j, hj, -, hin⟩ := g3.inside
          have hjk := hf.apart j k (by omega)
          unfold Inside at hin b2
          unfold Apart
          simp only at hin ⊢
          omega
        · exact ⟨.inr (g4 b hb).1, (g4 b hb).2⟩

theorem reset_slabs {sys : Sys} (hf : Fine sys) : ∀ (ms : List Nat) (k : Nat), Slabs sys k (resetFrom sys k ms)
  | [], _ => trivial
  | _ :: ms, k => ⟨⟨hf.aligned k, .inl rfl, by omega⟩, reset_slabs hf ms (k + 1)⟩

theorem run_inv {sys : Sys} (hf : Fine sys) (hs : ∀ k, page + 16 ≤ (sys k).2) {ops : List Op} (hl : ∀ len, Op.alloc len ∈ ops → len ≤ page)
    {c : Cache} (hn : c.marks ≠ []) (h1 : Slabs sys 0 c.marks) (h2 : ∀ b ∈ c.blocks, Held sys 0 c.marks b) (h3 : c.blocks.Pairwise Apart) :
    (∀ b ∈ (c.run sys ops).blocks, Held sys 0 (c.run sys ops).marks b) ∧ (c.run sys ops).blocks.Pairwise Apart := by
  induction ops generalizing c with
  | nil => exact ⟨h2, h3⟩
  | cons o ops ih =>
    have hl' : ∀ len, Op.alloc len ∈ ops → len ≤ page := fun len h => hl len (List.mem_cons_of_mem _ h)
    cases o with
    | reset =>
      refine ih (c := c.step sys .reset) hl' ?_ (reset_slabs hf _ _) (by simp [Cache.step]) (by simp [Cache.step])
      simp only [Cache.step]
      cases hc : c.marks with
      | nil => exact absurd hc hn
      | cons m ms => simp [resetFrom]
    | alloc len =>
      obtain ⟨g1, g2, g3, g4⟩ := alloc_inv hf hs (hl len (by simp)) c.marks 0 hn h1
      refine ih (c := c.step sys (.alloc len)) hl' g2 g1 ?_ ?_
      · intro b hb
        simp only [Cache.step, List.mem_append, List.mem_singleton] at hb
        rcases hb with hb | rfl
        · exact (g4 b (h2 b hb)).1
        · exact g3
      · simp only [Cache.step, List.pairwise_append]
        refine ⟨h3, by simp, ?_⟩
        intro a ha b hb
        simp only [List.mem_singleton] at hb
        subst hb
        exact (g4 a (h2 a ha)).2

/-- **C29, the part that holds.**  If the system gives every slab (the first one too) at least `page + 16` bytes and no request is
larger than a page, then after any history the blocks handed out since the last reset are 16-byte aligned, lie inside the
memory of a slab behind its header, and share no byte.  What is missing: the code asks for only `page` bytes for the first slab, and
puts requests larger than a page into any empty slab; see below. -/
theorem C29_blocks_partial {sys : Sys} (hf : Fine sys) (hs : ∀ k, page + 16 ≤ (sys k).2) {ops : List Op}
    (hl : ∀ len, Op.alloc len ∈ ops → len ≤ page) :
    (∀ b ∈ ((Cache.new sys).run sys ops).blocks, 16 ∣ b.1 ∧ ∃ k, Inside sys k b) ∧ ((Cache.new sys).run sys ops).blocks.Pairwise Apart := by
  have := run_inv hf hs hl (c := Cache.new sys) (by simp [Cache.new, create])
    ⟨⟨hf.aligned 0, .inl rfl, by simp⟩, trivial⟩ (by simp [Cache.new]) (by simp [Cache.new])
  refine ⟨fun b hb => ?_, this.2⟩
  obtain ⟨j, -, h1, h2⟩ := (this.1 b hb).inside
  exact ⟨h1, j, h2⟩

/-- A system that serves pieces of 2^23 bytes. -/
def sys8 : Sys := fun k => (k * 2 ^ 23, 2 ^ 23)

theorem sys8_fine : Fine sys8 := by
  refine ⟨fun k => ?_, fun j k h => ?_⟩ <;> simp only [sys8] <;> omega

example : (∀ k, page + 16 ≤ (sys8 k).2) ∧ ((Cache.new sys8).run sys8 [.alloc 100, .reset, .alloc 100, .alloc 4194000, .alloc 200, .alloc 17]).blocks =
    [(16, 100), (128, 4194000), (8388624, 200), (8388832, 17)] := ⟨fun _ => by simp only [sys8, page]; omega, by decide +kernel⟩

/-- **C29, what is missing: the first slab.**  With the `page` bytes the code asks for, filling the first slab hands out 16
bytes that are not there, whatever is requested first. -/
theorem C29_first_slab_overrun {sys : Sys} (h : (sys 0).2 = page) (hf : Fine sys) {a b : Nat} (ha : 16 ∣ a) (hab : a + b = page) :
    ((Cache.new sys).run sys [.alloc a, .alloc b]).blocks = [((sys 0).1 + 16, a), ((sys 0).1 + 16 + a, b)] ∧
      (sys 0).1 + (sys 0).2 < (sys 0).1 + 16 + a + b := by
  refine ⟨?_, by omega⟩
  have h0 := hf.aligned 0
  have e : align ((sys 0).1 + 16) = (sys 0).1 + 16 := align_of_dvd (by omega)
  have e2 : align ((sys 0).1 + 16 + a) = (sys 0).1 + 16 + a := align_of_dvd (by omega)
  have ra := room_small (len := a) (by omega)
  have rb := room_small (len := b) (by omega)
  have hb : 16 ∣ b := by unfold page at hab; omega
  have ea := align_of_dvd ha
  have eb := align_of_dvd hb
  have f1 : front (sys 0).1 (sys 0).1 = (sys 0).1 + 16 := by simp [front, e]
  have f2 : front (sys 0).1 ((sys 0).1 + 16 + a) = (sys 0).1 + 16 + a := by
    unfold front; rw [if_neg (by omega)]
  have s1 : alloc sys a 0 [(sys 0).1] = ([(sys 0).1 + 16 + a], (sys 0).1 + 16) := by
    unfold alloc
    simp only [f1, ea, ra, e2]
    rw [if_pos (by omega)]
  have s2 : alloc sys b 0 [(sys 0).1 + 16 + a] = ([align ((sys 0).1 + 16 + a + b)], (sys 0).1 + 16 + a) := by
    unfold alloc
    simp only [f2, eb, rb]
    rw [if_pos (by omega)]
  simp [Cache.run, Cache.step, Cache.new, create, s1, s2]

/-- **C29, what is missing: large requests.**  A first request of more than a page is put into the first slab, however small
that is. -/
theorem C29_large_request_overrun {sys : Sys} (hf : Fine sys) {len : Nat} (hp : page ≤ len) (hsmall : (sys 0).2 < 16 + len) :
    ((Cache.new sys).run sys [.alloc len]).blocks = [((sys 0).1 + 16, len)] ∧ (sys 0).1 + (sys 0).2 < (sys 0).1 + 16 + len := by
  refine ⟨?_, by omega⟩
  have h0 := hf.aligned 0
  have e : align ((sys 0).1 + 16) = (sys 0).1 + 16 := align_of_dvd (by omega)
  have f1 : front (sys 0).1 (sys 0).1 = (sys 0).1 + 16 := by simp [front, e]
  have r : room len = align len + 16 := by unfold room; rw [Nat.max_eq_left hp]; rfl
  have s1 : alloc sys len 0 [(sys 0).1] = ([align ((sys 0).1 + 16 + len)], (sys 0).1 + 16) := by
    unfold alloc
    simp only [f1, r]
    rw [if_pos (by omega)]
  simp [Cache.run, Cache.step, Cache.new, create, s1]

/-- A system that gives the first slab what the code asks for and serves the rest from further up. -/
example : ∃ sys : Sys, Fine sys ∧ (sys 0).2 = page :=
  ⟨fun k => (k * 2 ^ 23, page), ⟨fun k => by simp only; omega, fun j k h => by simp only [page]; omega⟩, rfl⟩

/-! ## Replay -/

/-- The addresses a list of requests gets, starting from a chain. -/
def addrs (sys : Sys) (ms : List Nat) (lens : List Nat) : List Nat :=
  ((⟨ms, []⟩ : Cache).run sys (lens.map .alloc)).blocks.map Prod.fst

/-- The chain after a list of requests. -/
def after (sys : Sys) (ms : List Nat) (lens : List Nat) : List Nat :=
  ((⟨ms, []⟩ : Cache).run sys (lens.map .alloc)).marks

/-- **C30, what is missing.**  A request that did not fit into the first slab closes it, but only the first time: after a reset the third
request goes to what was left of the first slab, and gets an address in another slab than before. -/
theorem C30_replay_wrong : ∃ lens : List Nat,
    addrs sys8 (create sys8) lens ≠ addrs sys8 (resetFrom sys8 0 (after sys8 (create sys8) lens)) lens :=
  ⟨[page - 160, 320, 16], by decide +kernel⟩

/-- No request of at least `len` bytes fits below mark `m` in slab `k`. -/
def Shut (sys : Sys) (len : Nat) : Nat → List Nat → Prop
  | _, [] => True
  | k, m :: ms => (sys k).1 + (page + 16) < front (sys k).1 m + align len ∧ Shut sys len (k + 1) ms

theorem Shut.mono {sys : Sys} {l l' : Nat} (h : l ≤ l') : ∀ {ms : List Nat} {k : Nat}, Shut sys l k ms → Shut sys l' k ms
  | [], _, _ => trivial
  | _ :: _, _, hs => ⟨by have := align_mono h; have := hs.1; omega, Shut.mono h hs.2⟩

theorem Shut.append {sys : Sys} {l : Nat} : ∀ {a b : List Nat} {k : Nat}, Shut sys l k a → Shut sys l (k + a.length) b → Shut sys l k (a ++ b)
  | [], _, _, _, h => h
  | m :: a, b, k, h, h' => ⟨h.1, Shut.append h.2 (by rw [Nat.add_assoc, Nat.add_comm 1]; exact h')⟩

/-- `allocate` walks past shut slabs. -/
theorem alloc_shut {sys : Sys} {len : Nat} (hl : len ≤ page) : ∀ (a : List Nat) {u : Nat} {r : List Nat} {k : Nat}, Shut sys len k a →
    ∃ a', a'.length = a.length ∧ (∀ l, Shut sys l k a → Shut sys l k a') ∧
      alloc sys len k (a ++ u :: r) = (a' ++ (alloc sys len (k + a.length) (u :: r)).1, (alloc sys len (k + a.length) (u :: r)).2)
  | [], _, _, _, _ => ⟨[], rfl, fun _ h => h, by simp⟩
  | m :: a, u, r, k, h => by
    obtain ⟨a', h1, h2, h3⟩ := alloc_shut hl a (u := u) (r := r) h.2
    refine ⟨front (sys k).1 m :: a', by simp [h1], ?_, ?_⟩
    · intro l hs
      refine ⟨?_, h2 l hs.2⟩
      have : front (sys k).1 (front (sys k).1 m) = front (sys k).1 m := by
        unfold front
        split
        · rename_i he
          split
          · rfl
          · rfl
        · rfl
      rw [this]; exact hs.1
    · have hno : ¬ front (sys k).1 m + align len ≤ (sys k).1 + room len := by rw [room_small hl]; have := h.1; omega
      have e : k + (a.length + 1) = k + 1 + a.length := by omega
      rw [List.cons_append, List.length_cons, e]
      cases hc : a ++ u :: r with
      | nil => simp at hc
      | cons d t =>
        rw [alloc]
        simp only [if_neg hno]
        rw [← hc, h3]
        rfl

theorem alloc_fit {sys : Sys} {len k u : Nat} (r : List Nat) (h : front (sys k).1 u + align len ≤ (sys k).1 + room len) :
    alloc sys len k (u :: r) = (align (front (sys k).1 u + len) :: r, front (sys k).1 u) := by
  cases r <;> (unfold alloc; simp only; rw [if_pos h])

theorem alloc_new {sys : Sys} {len k u : Nat} (h : ¬ front (sys k).1 u + align len ≤ (sys k).1 + room len) :
    alloc sys len k [u] = ([align ((sys k).1 + room len), align (align ((sys (k + 1)).1 + 16) + len)], align ((sys (k + 1)).1 + 16)) := by
  unfold alloc; simp only; rw [if_neg h]

theorem alloc_next {sys : Sys} {len k u d : Nat} {r : List Nat} (h : ¬ front (sys k).1 u + align len ≤ (sys k).1 + room len) :
    alloc sys len k (u :: d :: r) = (front (sys k).1 u :: (alloc sys len (k + 1) (d :: r)).1, (alloc sys len (k + 1) (d :: r)).2) := by
  conv_lhs => unfold alloc
  simp only; rw [if_neg h]

theorem front_front {sys : Sys} (hf : Fine sys) (k u : Nat) : front (sys k).1 (front (sys k).1 u) = front (sys k).1 u := by
  have h1 := hf.aligned k
  have e : align ((sys k).1 + 16) = (sys k).1 + 16 := align_of_dvd (by omega)
  unfold front
  rw [e]
  split
  · rw [if_neg (by omega)]
  · rfl

theorem replay_sim {sys : Sys} (hf : Fine sys) : ∀ (lens : List Nat), (∀ l ∈ lens, l ≤ page) → lens.Pairwise (· ≤ ·) →
    ∀ (a b r : List Nat) (u : Nat) (bl : List (Nat × Nat)), a.length = b.length →
      (∀ x ∈ lens, Shut sys x 0 a ∧ Shut sys x 0 b) →
      SlabInv sys a.length u →
      r = resetFrom sys (a.length + 1) r →
      ((⟨a ++ [u], bl⟩ : Cache).run sys (lens.map .alloc)).blocks = ((⟨b ++ u :: r, bl⟩ : Cache).run sys (lens.map .alloc)).blocks := by
  intro lens
  induction lens with
  | nil => intros; rfl
  | cons len lens ih =>
    intro hp hm a b r u bl hab hshut hu hr
    have hl := hp len (by simp)
    have hp' : ∀ l ∈ lens, l ≤ page := fun l h => hp l (by simp [h])
    rw [List.pairwise_cons] at hm
    obtain ⟨hm1, hm2⟩ := hm
    obtain ⟨sa, sb⟩ := hshut len (by simp)
    obtain ⟨a', ha1, ha2, ha3⟩ := alloc_shut hl a (u := u) (r := []) sa
    obtain ⟨b', hb1, hb2, hb3⟩ := alloc_shut hl b (u := u) (r := r) sb
    simp only [Nat.zero_add] at ha3 hb3
    rw [← hab] at hb3
    have hsh : ∀ x ∈ lens, Shut sys x 0 a' ∧ Shut sys x 0 b' :=
      fun x hx => ⟨ha2 x (sa.mono (hm1 x hx)), hb2 x (sb.mono (hm1 x hx))⟩
    simp only [List.map_cons, Cache.run, List.foldl_cons, Cache.step]
    rw [ha3, hb3]
    have h1 := hf.aligned (a.length + 1)
    have h0 := hf.aligned a.length
    have e : align ((sys (a.length + 1)).1 + 16) = (sys (a.length + 1)).1 + 16 := align_of_dvd (by omega)
    have hpp : align page = page := by decide
    have hal : align len ≤ page := by have := align_mono hl; omega
    obtain ⟨f1, f2, f3, f4⟩ := front_ge hf hu
    have hd := align_dvd len
    by_cases hfit : front (sys a.length).1 u + align len ≤ (sys a.length).1 + room len
    · rw [alloc_fit [] hfit, alloc_fit r hfit]
      refine ih hp' hm2 a' b' r _ _ (by omega) hsh ?_ (by rw [ha1]; exact hr)
      rw [room_small hl] at hfit
      rw [ha1, align_add f2]
      exact ⟨by omega, .inr (by omega), hfit⟩
    · have hno := hfit
      rw [room_small hl] at hno
      have efull : align ((sys a.length).1 + room len) = (sys a.length).1 + (page + 16) := by
        rw [room_small hl]; exact align_of_dvd (by unfold page; omega)
      have shutA : ∀ x ∈ lens, Shut sys x 0 (a' ++ [align ((sys a.length).1 + room len)]) := by
        intro x hx
        refine (hsh x hx).1.append ⟨?_, trivial⟩
        rw [efull, ha1, Nat.zero_add]
        have := align_mono (hm1 x hx)
        unfold front
        rw [if_neg (by omega)]
        omega
      have shutB : ∀ x ∈ lens, Shut sys x 0 (b' ++ [front (sys a.length).1 u]) := by
        intro x hx
        refine (hsh x hx).2.append ⟨?_, trivial⟩
        have e3 : 0 + b'.length = a.length := by omega
        rw [e3, front_front hf]
        have := align_mono (hm1 x hx)
        omega
      have newInv : SlabInv sys (a' ++ [align ((sys a.length).1 + room len)]).length (align ((sys (a.length + 1)).1 + 16 + len)) := by
        rw [List.length_append, ha1, List.length_singleton, align_add (by omega)]
        exact ⟨by omega, .inr (by omega), by omega⟩
      rw [alloc_new hfit, e]
      cases r with
      | nil =>
        rw [alloc_new hfit, e]
        have shutA' : ∀ x ∈ lens, Shut sys x 0 (b' ++ [align ((sys a.length).1 + room len)]) := by
          intro x hx
          refine (hsh x hx).2.append ⟨?_, trivial⟩
          have e3 : 0 + b'.length = a.length := by omega
          rw [efull, e3]
          have := align_mono (hm1 x hx)
          unfold front
          rw [if_neg (by omega)]
          omega
        have := ih hp' hm2 (a' ++ [align ((sys a.length).1 + room len)]) (b' ++ [align ((sys a.length).1 + room len)]) []
          (align ((sys (a.length + 1)).1 + 16 + len)) (bl ++ [((sys (a.length + 1)).1 + 16, len)]) (by simp; omega)
          (fun x hx => ⟨shutA x hx, shutA' x hx⟩) newInv rfl
        simpa [Cache.run] using this
      | cons d r =>
        simp only [resetFrom, List.cons.injEq] at hr
        rw [alloc_next hfit, alloc_fit r (by rw [hr.1]; simp only [front, if_true, e]; rw [room_small hl]; omega)]
        have ed : front (sys (a.length + 1)).1 d = (sys (a.length + 1)).1 + 16 := by rw [hr.1]; simp [front, e]
        rw [ed]
        have := ih hp' hm2 (a' ++ [align ((sys a.length).1 + room len)]) (b' ++ [front (sys a.length).1 u]) r
          (align ((sys (a.length + 1)).1 + 16 + len)) (bl ++ [((sys (a.length + 1)).1 + 16, len)]) (by simp; omega)
          (fun x hx => ⟨shutA x hx, shutB x hx⟩) newInv (by simp only [List.length_append, List.length_singleton, ha1]; exact hr.2)
        simpa [Cache.run] using this

theorem resetFrom_resetFrom (sys : Sys) : ∀ (ms : List Nat) (k : Nat), resetFrom sys k (resetFrom sys k ms) = resetFrom sys k ms
  | [], _ => rfl
  | _ :: ms, k => by simp [resetFrom, resetFrom_resetFrom sys ms (k + 1)]

theorem resetFrom_length (sys : Sys) : ∀ (a b : List Nat) (k : Nat), a.length = b.length → resetFrom sys k a = resetFrom sys k b
  | [], [], _, _ => rfl
  | [], _ :: _, _, h => by simp at h
  | _ :: _, [], _, h => by simp at h
  | _ :: a, _ :: b, k, h => by simp [resetFrom, resetFrom_length sys a b (k + 1) (by simpa using h)]

theorem alloc_ne_nil {sys : Sys} {len : Nat} {ms : List Nat} {k : Nat} (h : ms ≠ []) : (alloc sys len k ms).1 ≠ [] := by
  cases ms with
  | nil => exact absurd rfl h
  | cons m ms =>
    unfold alloc
    simp only
    split
    · simp
    · cases ms <;> simp

theorem after_ne_nil {sys : Sys} (lens : List Nat) : ∀ {c : Cache}, c.marks ≠ [] → (c.run sys (lens.map .alloc)).marks ≠ [] := by
  induction lens with
  | nil => exact id
  | cons l lens ih => intro c h; exact ih (c := c.step sys (.alloc l)) (alloc_ne_nil h)

/-- **C30, the part that holds.**  After a reset the same requests get the same addresses in the same order if they are in
increasing order of size and none is larger than a page; and, whatever the sizes, a replay that adds no slab is repeated exactly by
every later one.  What is missing: other orders, see above. -/
theorem C30_replay_partial {sys : Sys} (hf : Fine sys) (lens : List Nat) :
    ((∀ l ∈ lens, l ≤ page) → lens.Pairwise (· ≤ ·) →
      addrs sys (resetFrom sys 0 (after sys (create sys) lens)) lens = addrs sys (create sys) lens) ∧
    (∀ ms : List Nat, (after sys (resetFrom sys 0 ms) lens).length = ms.length →
      addrs sys (resetFrom sys 0 (after sys (resetFrom sys 0 ms) lens)) lens = addrs sys (resetFrom sys 0 ms) lens) := by
  constructor
  · intro hp hm
    have hne := after_ne_nil (sys := sys) lens (c := ⟨create sys, []⟩) (by simp [create])
    unfold addrs after
    generalize ((⟨create sys, []⟩ : Cache).run sys (lens.map .alloc)).marks = ms at *
    cases ms with
    | nil => exact absurd rfl hne
    | cons m ms =>
      have := replay_sim hf lens hp hm [] [] (resetFrom sys 1 ms) (sys 0).1 [] rfl (by simp [Shut]) ⟨hf.aligned 0, .inl rfl, by simp⟩
        (resetFrom_resetFrom sys ms 1).symm
      simp only [List.nil_append] at this
      simp only [resetFrom, create]
      rw [this]
  · intro ms h
    rw [resetFrom_length sys _ _ 0 h]

/-- Three requests over two slabs: the replay gets the same addresses, in both slabs. -/
example : addrs sys8 (create sys8) [1000, 3000000, 3000000] = [16, 1024, 8388624] ∧
    ([1000, 3000000, 3000000] : List Nat).Pairwise (· ≤ ·) ∧ (∀ l ∈ [1000, 3000000, 3000000], l ≤ page) := by decide +kernel

end OP.Mem
