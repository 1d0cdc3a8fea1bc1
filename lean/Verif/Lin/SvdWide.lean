import Verif.Lin.PropsSvdAcc
/-!
# Singular values of matrices with fewer rows than columns

The routine does with such a matrix what it does with the same matrix and rows of zeros below it: in every part, the numbers of the rows that are there are the same.
-/
namespace OP.Lin
variable {K : Type} [Field K] [LinearOrder K]

theorem loopFrom_app {S : Type} (f : Nat → S → S) : ∀ (a b i : Nat) (s : S), loopFrom f (a + b) i s = loopFrom f b (i + a) (loopFrom f a i s)
  | 0, b, i, s => by rw [Nat.zero_add, Nat.add_zero]; rfl
  | a + 1, b, i, s => by
    rw [show a + 1 + b = (a + b) + 1 by omega, loopFrom, loopFrom_app f a b, loopFrom, show i + 1 + a = i + (a + 1) by omega]

theorem loop_split {S : Type} (f : Nat → S → S) {lo m n : Nat} (h1 : lo ≤ m) (h2 : m ≤ n) (s : S) : loop lo n f s = loop m n f (loop lo m f s) := by
  unfold loop
  rw [show n - lo = (m - lo) + (n - m) by omega, loopFrom_app, show lo + (m - lo) = m by omega]

theorem loopFrom_rel {S T : Type} {f : Nat → S → S} {g : Nat → T → T} (R : S → T → Prop) : ∀ (q i : Nat) (s : S) (t : T),
    (∀ k s t, i ≤ k → k < i + q → R s t → R (f k s) (g k t)) → R s t → R (loopFrom f q i s) (loopFrom g q i t)
  | 0, _, _, _, _, h => h
  | q + 1, i, s, t, hs, h => loopFrom_rel R q (i + 1) (f i s) (g i t) (fun k s t h1 h2 => hs k s t (by omega) (by omega)) (hs i s t le_rfl (by omega) h)

/-- Two loops with the same bounds -/
theorem loop_rel {S T : Type} {f : Nat → S → S} {g : Nat → T → T} (R : S → T → Prop) {lo hi : Nat} {s : S} {t : T}
    (hs : ∀ k s t, lo ≤ k → k < hi → R s t → R (f k s) (g k t)) (h : R s t) : R (loop lo hi f s) (loop lo hi g t) :=
  loopFrom_rel R _ _ _ _ (fun k s t h1 h2 => hs k s t h1 (by omega)) h

/-- A loop, and one that goes on -/
theorem loop_wide {S T : Type} {f : Nat → S → S} {g : Nat → T → T} (R : S → T → Prop) {lo m n : Nat} (h1 : lo ≤ m) (h2 : m ≤ n) {s : S} {t : T}
    (hs : ∀ k s t, lo ≤ k → k < m → R s t → R (f k s) (g k t)) (ht : ∀ k s t, m ≤ k → k < n → R s t → R s (g k t)) (h : R s t) : R (loop lo m f s) (loop lo n g t) := by
  rw [loop_split g h1 h2]
  exact loop_rule (fun _ t => R (loop lo m f s) t) h2 (loop_rel R hs h) fun k t a b c => ht k _ t a b c

/-- The second array has the same first `m` rows, and zeros in the first `q` columns of the rows after them. -/
structure Ext (m n q : Nat) (A B : Nat → K) : Prop where
  top : ∀ r < m, ∀ c < n, B (r * n + c) = A (r * n + c)
  zero : ∀ r, m ≤ r → ∀ c < q, B (r * n + c) = 0

omit [LinearOrder K] in
theorem Ext.set {m n q : Nat} {A B : Nat → K} (h : Ext m n q A B) (hq : q ≤ n) {r c : Nat} (hr : r < m) (hc : c < n) {v w : K} (e : w = v) :
    Ext m n q (OP.Lin.set A (r * n + c) v) (OP.Lin.set B (r * n + c) w) := by
  subst e
  constructor
  · intro k hk l hl
    rw [set_addr _ _ hc hl, set_addr _ _ hc hl, h.top k hk l hl]
  · intro k hk l hl
    rw [set_addr _ _ hc (by omega), if_neg (by omega), h.zero k hk l hl]

omit [LinearOrder K] in
theorem Ext.low {m n q : Nat} {A B : Nat → K} (h : Ext m n q A B) (hq : q ≤ n) {r c : Nat} (hr : m ≤ r) (hc : c < n) {w : K} (e : c < q → w = 0) :
    Ext m n q A (OP.Lin.set B (r * n + c) w) := by
  constructor
  · intro k hk l hl
    rw [set_addr _ _ hc hl, if_neg (by omega), h.top k hk l hl]
  · intro k hk l hl
    rw [set_addr _ _ hc (by omega)]
    by_cases a : k = r ∧ l = c
    · rw [if_pos a, e (by omega)]
    · rw [if_neg a, h.zero k hk l hl]

/-! ## The reduction -/

/-- The states of the two reductions -/
def Pair (m n : Nat) (t t' : Svd K) : Prop := ∃ B, t' = { t with A := B } ∧ Ext m n n t.A B

/-- The column divided by its scale -/
def colP (m n i : Nat) (scale : K) (A : Nat → K) : (Nat → K) × K :=
  loop i m (fun k (p : (Nat → K) × K) =>
      let A := set p.1 (k * n + i) (p.1 (k * n + i) / scale)
      (A, p.2 + A (k * n + i) * A (k * n + i))) (A, 0)

/-- The rest of the round -/
def colA (m n i : Nat) (scale H G : K) (A : Nat → K) : Nat → K :=
  let A := set A (i * n + i) (A (i * n + i) - G)
  let A := loop (i + 1) n (fun j A =>
      let S := loop i m (fun k S => S + A (k * n + i) * A (k * n + j)) 0
      loop i m (fun k A => set A (k * n + j) (A (k * n + j) + S * A (k * n + i) / H)) A) A
  loop i m (fun k A => set A (k * n + i) (A (k * n + i) * scale)) A

theorem svdCol_parts (rt : K → K) (m n i : Nat) (t : Svd K) : svdCol rt m n i t =
    let scale := loop i m (fun k v => v + |t.A (k * n + i)|) 0
    if scale = 0 then { t with scale := scale }
    else
      let p := colP m n i scale t.A
      let G := (if 0 < p.1 (i * n + i) then -1 else 1) * rt p.2
      { t with A := colA m n i scale (p.1 (i * n + i) * G - p.2) G p.1, W := set t.W i (scale * G), G := G, scale := scale } := rfl

omit [LinearOrder K] in
theorem colP_wide {m n i : Nat} (hmn : m ≤ n) (hi : i < m) (scale : K) {A B : Nat → K} (h : Ext m n n A B) :
    Ext m n n (colP m n i scale A).1 (colP n n i scale B).1 ∧ (colP n n i scale B).2 = (colP m n i scale A).2 := by
  have hn : i < n := by omega
  refine loop_wide (fun (p q : (Nat → K) × K) => Ext m n n p.1 q.1 ∧ q.2 = p.2) hi.le hmn ?_ ?_ ⟨h, rfl⟩
  · rintro k p q a b ⟨e1, e2⟩
    refine ⟨e1.set le_rfl b hn (by rw [e1.top k b i hn]), ?_⟩
    simp only [set_same, e2, e1.top k b i hn]
  · rintro k p q a b ⟨e1, e2⟩
    refine ⟨e1.low le_rfl a hn fun _ => by rw [e1.zero k a i hn, zero_div], ?_⟩
    simp only [set_same, e2, e1.zero k a i hn, zero_div, mul_zero, add_zero]

omit [LinearOrder K] in
theorem colA_wide {m n i : Nat} (hmn : m ≤ n) (hi : i < m) (scale H G : K) {A B : Nat → K} (h : Ext m n n A B) : Ext m n n (colA m n i scale H G A) (colA n n i scale H G B) := by
  have hn : i < n := by omega
  unfold colA
  dsimp only
  refine loop_wide (Ext m n n) hi.le hmn (fun k A B a b e => e.set le_rfl b hn (by rw [e.top k b i hn])) (fun k A B a b e => e.low le_rfl a hn fun _ => by rw [e.zero k a i hn, zero_mul]) ?_
  refine loop_rel (Ext m n n) (fun j A B a b e => ?_) (h.set le_rfl hi hn (by rw [h.top i hi i hn]))
  have es : loop i m (fun k S => S + A (k * n + i) * A (k * n + j)) 0 = loop i n (fun k S => S + B (k * n + i) * B (k * n + j)) 0 :=
    loop_wide (fun u v : K => u = v) hi.le hmn (fun k u v c d w => by rw [w, e.top k d i hn, e.top k d j b]) (fun k u v c d w => by rw [w, e.zero k c i hn, zero_mul, add_zero]) rfl
  rw [← es]
  exact loop_wide (Ext m n n) hi.le hmn (fun k A B c d e => e.set le_rfl d b (by rw [e.top k d i hn, e.top k d j b]))
    (fun k A B c d e => e.low le_rfl c b fun _ => by rw [e.zero k c i hn, e.zero k c j b, mul_zero, zero_div, add_zero]) e

variable [IsStrictOrderedRing K]

theorem svdCol_wide (rt : K → K) {m n i : Nat} (hmn : m ≤ n) (hn : i < n) {t t' : Svd K} (h : Pair m n t t') : Pair m n (svdCol rt m n i t) (svdCol rt n n i t') := by
  obtain ⟨B, rfl, h⟩ := h
  by_cases hi : i < m
  · have es : loop i n (fun k v => v + |B (k * n + i)|) 0 = loop i m (fun k v => v + |t.A (k * n + i)|) 0 :=
      loop_wide (fun u v : K => v = u) hi.le hmn (fun k u v c d w => by rw [w, h.top k d i hn]) (fun k u v c d w => by rw [w, h.zero k c i hn, abs_zero, add_zero]) rfl
    rw [svdCol_parts, svdCol_parts]
    dsimp only
    rw [es]
    generalize loop i m (fun k v => v + |t.A (k * n + i)|) 0 = scale
    by_cases h0 : scale = 0
    · rw [if_pos h0, if_pos h0]
      exact ⟨B, rfl, h⟩
    rw [if_neg h0, if_neg h0]
    obtain ⟨e1, e2⟩ := colP_wide hmn hi scale h
    rw [e2, e1.top i hi i hn]
    exact ⟨_, rfl, colA_wide hmn hi _ _ _ e1⟩
  · rw [svdCol_zero rt t (loop_nil (by omega) _), svdCol_zero rt (m := n)]
    · exact ⟨B, rfl, h⟩
    · exact loop_rule (fun _ v => v = 0) hn.le rfl fun k v a b e => by
        dsimp only
        rw [e, h.zero k (by omega) i hn, abs_zero, add_zero]

/-- The row divided by its scale -/
def rowP (n i : Nat) (scale : K) (A : Nat → K) : (Nat → K) × K :=
  loop (i + 1) n (fun k (p : (Nat → K) × K) =>
      let A := set p.1 (i * n + k) (p.1 (i * n + k) / scale)
      (A, p.2 + A (i * n + k) * A (i * n + k))) (A, 0)

/-- The rest of the round -/
def rowA (m n i : Nat) (scale : K) (rv1 A : Nat → K) : Nat → K :=
  let A := loop (i + 1) m (fun j A =>
      let S := loop (i + 1) n (fun k S => S + A (j * n + k) * A (i * n + k)) 0
      loop (i + 1) n (fun k A => set A (j * n + k) (A (j * n + k) + S * rv1 k)) A) A
  loop (i + 1) n (fun k A => set A (i * n + k) (A (i * n + k) * scale)) A

omit [IsStrictOrderedRing K] in
theorem svdRow_parts (rt : K → K) (m n i : Nat) (t : Svd K) : svdRow rt m n i t =
    let scale := if i < m then loop (i + 1) n (fun k v => v + |t.A (i * n + k)|) 0 else 0
    if scale = 0 then { t with scale := scale }
    else
      let p := rowP n i scale t.A
      let G := (if 0 < p.1 (i * n + i + 1) then -1 else 1) * rt p.2
      let H := p.1 (i * n + i + 1) * G - p.2
      let A := set p.1 (i * n + i + 1) (p.1 (i * n + i + 1) - G)
      let rv1 := loop (i + 1) n (fun k r => set r k (A (i * n + k) / H)) t.rv1
      { t with A := rowA m n i scale rv1 A, rv1 := rv1, G := G, scale := scale } := rfl

omit [IsStrictOrderedRing K] [LinearOrder K] in
theorem rowP_wide {m n i : Nat} (hi : i < m) (scale : K) {A B : Nat → K} (h : Ext m n n A B) :
    Ext m n n (rowP n i scale A).1 (rowP n i scale B).1 ∧ (rowP n i scale B).2 = (rowP n i scale A).2 := by
  refine loop_rel (fun (p q : (Nat → K) × K) => Ext m n n p.1 q.1 ∧ q.2 = p.2) ?_ ⟨h, rfl⟩
  rintro k p q a b ⟨e1, e2⟩
  refine ⟨e1.set le_rfl hi b (by rw [e1.top i hi k b]), ?_⟩
  simp only [set_same, e2, e1.top i hi k b]

omit [IsStrictOrderedRing K] [LinearOrder K] in
theorem rowA_wide {m n i : Nat} (hmn : m ≤ n) (hi : i < m) (scale : K) (rv1 : Nat → K) {A B : Nat → K} (h : Ext m n n A B) : Ext m n n (rowA m n i scale rv1 A) (rowA n n i scale rv1 B) := by
  unfold rowA
  dsimp only
  refine loop_rel (Ext m n n) (fun k A B a b e => e.set le_rfl hi b (by rw [e.top i hi k b])) ?_
  refine loop_wide (Ext m n n) hi hmn (fun j A B a b e => ?_) (fun j A B a b e => ?_) h
  · have es : loop (i + 1) n (fun k S => S + A (j * n + k) * A (i * n + k)) 0 = loop (i + 1) n (fun k S => S + B (j * n + k) * B (i * n + k)) 0 :=
      loop_rel (fun u v : K => u = v) (fun k u v c d w => by rw [w, e.top i hi k d, e.top j b k d]) rfl
    rw [← es]
    exact loop_rel (Ext m n n) (fun k A B c d e => e.set le_rfl b d (by rw [e.top j b k d])) e
  · by_cases hn : i + 1 ≤ n
    · have es : loop (i + 1) n (fun k S => S + B (j * n + k) * B (i * n + k)) 0 = 0 :=
        loop_rule (fun _ v => v = 0) hn rfl fun k v c d w => by rw [w, e.zero j a k d, zero_mul, add_zero]
      rw [es]
      exact loop_rule (fun _ B => Ext m n n A B) hn e fun k B c d e => e.low le_rfl a d fun _ => by rw [e.zero j a k d, zero_mul, add_zero]
    · omega

theorem svdRow_wide (rt : K → K) {m n i : Nat} (hmn : m ≤ n) (hn : i < n) {t t' : Svd K} (h : Pair m n t t') : Pair m n (svdRow rt m n i t) (svdRow rt n n i t') := by
  obtain ⟨B, rfl, h⟩ := h
  by_cases hi : i < m
  · have es : loop (i + 1) n (fun k v => v + |B (i * n + k)|) 0 = loop (i + 1) n (fun k v => v + |t.A (i * n + k)|) 0 :=
      loop_rel (fun u v : K => u = v) (fun k u v c d w => by rw [w, h.top i hi k d]) rfl
    rw [svdRow_parts, svdRow_parts]
    dsimp only
    rw [if_pos hn, if_pos hi, es]
    by_cases h0 : loop (i + 1) n (fun k v => v + |t.A (i * n + k)|) 0 = 0
    · rw [if_pos h0, if_pos h0]
      exact ⟨B, rfl, h⟩
    have hn1 : i + 1 < n := by
      by_contra hn1
      exact h0 (loop_nil (by omega) _)
    generalize loop (i + 1) n (fun k v => v + |t.A (i * n + k)|) 0 = scale at h0 ⊢
    rw [if_neg h0, if_neg h0]
    obtain ⟨e1, e2⟩ := rowP_wide hi scale h
    have e3 := e1.top i hi (i + 1) hn1
    rw [← Nat.add_assoc] at e3
    rw [e2, e3]
    generalize (if 0 < (rowP n i scale t.A).1 (i * n + i + 1) then (-1 : K) else 1) * rt (rowP n i scale t.A).2 = G
    have e4 : Ext m n n (set (rowP n i scale t.A).1 (i * n + i + 1) ((rowP n i scale t.A).1 (i * n + i + 1) - G)) (set (rowP n i scale B).1 (i * n + i + 1) ((rowP n i scale t.A).1 (i * n + i + 1) - G)) :=
      e1.set le_rfl hi hn1 rfl
    have e5 : ∀ H : K, loop (i + 1) n (fun k r => set r k (set (rowP n i scale B).1 (i * n + i + 1) ((rowP n i scale t.A).1 (i * n + i + 1) - G) (i * n + k) / H)) t.rv1 =
        loop (i + 1) n (fun k r => set r k (set (rowP n i scale t.A).1 (i * n + i + 1) ((rowP n i scale t.A).1 (i * n + i + 1) - G) (i * n + k) / H)) t.rv1 := fun H =>
      loop_rel (fun u v : Nat → K => u = v) (fun k u v c d w => by rw [w, e4.top i hi k d]) rfl
    rw [e5]
    exact ⟨_, rfl, rowA_wide hmn hi _ _ e4⟩
  · rw [svdRow_zero rt t (if_neg hi), svdRow_zero rt (m := n)]
    · exact ⟨B, rfl, h⟩
    · rw [if_pos hn]
      exact loop_rule (fun _ v => v = 0) hn rfl fun k v a b e => by
        dsimp only
        rw [e, h.zero i (by omega) k b, abs_zero, add_zero]

theorem svdReduce_wide (rt : K → K) {m n i : Nat} (hmn : m ≤ n) (hn : i < n) {t t' : Svd K} (h : Pair m n t t') : Pair m n (svdReduce rt m n i t) (svdReduce rt n n i t') := by
  obtain ⟨B, rfl, h⟩ := h
  obtain ⟨C, e, h'⟩ := svdRow_wide rt hmn hn (svdCol_wide rt hmn hn (⟨B, rfl, h⟩ : Pair m n { t with rv1 := set t.rv1 i (t.scale * t.G) } { t with rv1 := set t.rv1 i (t.scale * t.G), A := B }))
  refine ⟨C, ?_, h'⟩
  unfold svdReduce
  dsimp only
  rw [e]

/-! ## The left-hand transformations -/

omit [IsStrictOrderedRing K] in
theorem svdLeft_wide {m n i : Nat} (hmn : m ≤ n) (h1 : 0 < i) (hi : i ≤ m) (W : Nat → K) {A B : Nat → K} (h : Ext m n m A B) : Ext m n m (svdLeft m n i W A) (svdLeft n n i W B) := by
  have hm : i - 1 < m := by omega
  have hn : i - 1 < n := by omega
  unfold svdLeft
  dsimp only
  have h2 : Ext m n m (loop i n (fun j A => set A ((i - 1) * n + j) 0) A) (loop i n (fun j A => set A ((i - 1) * n + j) 0) B) := loop_rel (Ext m n m) (fun k A B a b e => e.set hmn hm b rfl) h
  generalize loop i n (fun j A => set A ((i - 1) * n + j) 0) A = A2, loop i n (fun j A => set A ((i - 1) * n + j) 0) B = B2 at h2
  by_cases h0 : W (i - 1) ≠ 0
  · rw [if_pos h0, if_pos h0]
    have h3 : ∀ A B : Nat → K, Ext m n m A B → Ext m n m (loop i n (fun j A =>
        loop (i - 1) m (fun k A' => set A' (k * n + j) (A' (k * n + j) + loop i m (fun k S => S + A (k * n + (i - 1)) * A (k * n + j)) 0 / A ((i - 1) * n + (i - 1)) / W (i - 1) * A' (k * n + (i - 1)))) A) A)
        (loop i n (fun j A =>
        loop (i - 1) n (fun k A' => set A' (k * n + j) (A' (k * n + j) + loop i n (fun k S => S + A (k * n + (i - 1)) * A (k * n + j)) 0 / A ((i - 1) * n + (i - 1)) / W (i - 1) * A' (k * n + (i - 1)))) A) B) := by
      intro A B h
      refine loop_rel (Ext m n m) (fun j A B a b e => ?_) h
      have es : loop i m (fun k S => S + A (k * n + (i - 1)) * A (k * n + j)) 0 = loop i n (fun k S => S + B (k * n + (i - 1)) * B (k * n + j)) 0 :=
        loop_wide (fun u v : K => u = v) hi hmn (fun k u v c d w => by rw [w, e.top k d _ hn, e.top k d j b]) (fun k u v c d w => by rw [w, e.zero k c _ hm, zero_mul, add_zero]) rfl
      rw [← es, e.top _ hm _ hn]
      exact loop_wide (Ext m n m) hm.le hmn (fun k A B c d e => e.set hmn d b (by rw [e.top k d _ hn, e.top k d j b]))
        (fun k A B c d e => e.low hmn c b fun l => by rw [e.zero k c _ hm, e.zero k c j l, mul_zero, add_zero]) e
    have h4 := h3 _ _ h2
    have h5 := loop_wide (f := fun j A => set A (j * n + (i - 1)) (A (j * n + (i - 1)) / W (i - 1))) (g := fun j A => set A (j * n + (i - 1)) (A (j * n + (i - 1)) / W (i - 1))) (Ext m n m) hm.le hmn
      (fun k A B a b e => e.set hmn b hn (by rw [e.top k b _ hn])) (fun k A B a b e => e.low hmn a hn fun _ => by rw [e.zero k a _ hm, zero_div]) h4
    exact h5.set hmn hm hn (by rw [h5.top _ hm _ hn])
  · rw [if_neg h0, if_neg h0]
    have h5 := loop_wide (f := fun j (A : Nat → K) => set A (j * n + (i - 1)) 0) (g := fun j (A : Nat → K) => set A (j * n + (i - 1)) 0) (Ext m n m) hm.le hmn
      (fun k A B a b e => e.set hmn b hn rfl) (fun k A B a b e => e.low hmn a hn fun _ => rfl) h2
    exact h5.set hmn hm hn (by rw [h5.top _ hm _ hn])

omit [IsStrictOrderedRing K] in
theorem svdLeft_below {m n i : Nat} (hmn : m ≤ n) (hi : m < i) (hn : i ≤ n) {W : Nat → K} (hW : W (i - 1) = 0) {A B : Nat → K} (h : Ext m n m A B) : Ext m n m A (svdLeft n n i W B) := by
  unfold svdLeft
  dsimp only
  rw [if_neg (not_not.2 hW)]
  refine Ext.low ?_ hmn (by omega) (by omega) fun l => by omega
  refine loop_rule (fun _ B => Ext m n m A B) (by omega) ?_ fun k B a b e => e.low hmn (by omega) (by omega) fun _ => rfl
  exact loop_rule (fun _ B => Ext m n m A B) hn h fun k B a b e => e.low hmn (by omega) b fun _ => rfl

omit [IsStrictOrderedRing K] in
theorem svdLefts_wide {m n : Nat} (hmn : m ≤ n) (W : Nat → K) : ∀ (q : Nat), q ≤ m → ∀ {A B : Nat → K}, Ext m n m A B → Ext m n m (svdLefts m n W q A) (svdLefts n n W q B)
  | 0, _, _, _, h => h
  | q + 1, hq, _, _, h => svdLefts_wide hmn W q (by omega) (svdLeft_wide hmn (by omega) hq W h)

omit [IsStrictOrderedRing K] in
theorem svdLefts_below {m n : Nat} (hmn : m ≤ n) {W : Nat → K} (hW : ∀ c, m ≤ c → c < n → W c = 0) : ∀ (q : Nat), m + q ≤ n → ∀ {A B : Nat → K}, Ext m n m A B →
    Ext m n m (svdLefts m n W m A) (svdLefts n n W (m + q) B)
  | 0, _, _, _, h => svdLefts_wide hmn W m le_rfl h
  | q + 1, hq, _, _, h => svdLefts_below hmn hW q (by omega) (svdLeft_below hmn (by omega) hq (hW _ (by omega) (by omega)) h)

/-! ## The right-hand transformations -/

omit [IsStrictOrderedRing K] in
/-- No row that is not there is read. -/
theorem svdRightAt_congr {n i : Nat} {A B : Nat → K} {v : K} (V : Nat → K) (h : v = 0 ∨ n ≤ i ∨ ∀ j < n, B ((i - 1) * n + j) = A ((i - 1) * n + j)) : svdRightAt n i B v V = svdRightAt n i A v V := by
  unfold svdRightAt
  dsimp only
  rcases h with h | h | h
  · rw [if_neg (not_not.2 h), if_neg (not_not.2 h)]
  · simp only [loop_nil h]
  · by_cases hi : i < n
    · have e1 : loop i n (fun j V => set V (j * n + (i - 1)) (B ((i - 1) * n + j) / B ((i - 1) * n + i) / v)) V = loop i n (fun j V => set V (j * n + (i - 1)) (A ((i - 1) * n + j) / A ((i - 1) * n + i) / v)) V :=
        loop_rel (fun u w : Nat → K => u = w) (fun k u w a b e => by rw [e, h k b, h i hi]) rfl
      rw [e1]
      have e2 : ∀ V : Nat → K, loop i n (fun j V => loop i n (fun k V' => set V' (k * n + j) (V' (k * n + j) + loop i n (fun k S => S + B ((i - 1) * n + k) * V (k * n + j)) 0 * V' (k * n + (i - 1)))) V) V =
          loop i n (fun j V => loop i n (fun k V' => set V' (k * n + j) (V' (k * n + j) + loop i n (fun k S => S + A ((i - 1) * n + k) * V (k * n + j)) 0 * V' (k * n + (i - 1)))) V) V := fun V =>
        loop_rel (fun u w : Nat → K => u = w) (fun j u w a b e => by
          have e3 : loop i n (fun k S => S + B ((i - 1) * n + k) * w (k * n + j)) 0 = loop i n (fun k S => S + A ((i - 1) * n + k) * w (k * n + j)) 0 :=
            loop_rel (fun x y : K => x = y) (fun k x y c d e => by rw [e, h k d]) rfl
          rw [e, e3]) rfl
      rw [e2]
    · simp only [loop_nil (Nat.le_of_not_lt hi)]

omit [IsStrictOrderedRing K] in
theorem svdRightsAt_congr {m n : Nat} {A B rv : Nat → K} (h : ∀ r < m, ∀ c < n, B (r * n + c) = A (r * n + c)) (hr : ∀ c, m < c → c < n → rv c = 0) : ∀ (q : Nat) (V : Nat → K), svdRightsAt n B rv q V = svdRightsAt n A rv q V
  | 0, _ => rfl
  | q + 1, V => by
    rw [svdRightsAt, svdRightsAt, svdRightAt_congr, svdRightsAt_congr h hr q]
    by_cases h1 : n ≤ q + 1
    · exact Or.inr (Or.inl h1)
    by_cases h2 : q < m
    · exact Or.inr (Or.inr fun j hj => h q h2 j hj)
    · exact Or.inl (hr _ (by omega) (by omega))

/-! ## The diagonalization -/

/-- The states of the two iterations -/
def Same (m n : Nat) (t t' : Dg K) : Prop := ∃ B, t' = { t with A := B } ∧ Ext m n 0 t.A B

omit [IsStrictOrderedRing K] [LinearOrder K] in
theorem rotCols_wide {m n a b : Nat} (hmn : m ≤ n) (ha : a < n) (hb : b < n) (S C : K) {A B : Nat → K} (h : Ext m n 0 A B) : Ext m n 0 (rotCols m n a b S C A) (rotCols n n a b S C B) := by
  unfold rotCols
  refine loop_wide (Ext m n 0) (Nat.zero_le _) hmn (fun k A B c d e => ?_) (fun k A B c d e => ?_) h
  · have e1 : Ext m n 0 (set A (k * n + a) (A (k * n + b) * S + A (k * n + a) * C)) (set B (k * n + a) (B (k * n + b) * S + B (k * n + a) * C)) := e.set (Nat.zero_le _) d ha (by rw [e.top k d a ha, e.top k d b hb])
    exact e1.set (Nat.zero_le _) d hb (by rw [e1.top k d b hb, e.top k d a ha])
  · exact (e.low (Nat.zero_le _) c ha fun l => absurd l (Nat.not_lt_zero _)).low (Nat.zero_le _) c hb fun l => absurd l (Nat.not_lt_zero _)

omit [IsStrictOrderedRing K] in
theorem svdCancel_wide (rt : K → K) (neg : K → K → Bool) (anorm : K) {m n i q : Nat} (hmn : m ≤ n) (hi : i < n) (hq : q ≤ i) {t t' : Dg K} (h : Same m n t t') : Same m n (svdCancel rt neg anorm m n i q t) (svdCancel rt neg anorm n n i q t') := by
  obtain ⟨B, rfl, h⟩ := h
  unfold svdCancel
  dsimp only
  have h' : (1 : K) = 1 ∧ Same m n { t with good := t.good && decide (q = i) } { t with A := B, good := t.good && decide (q = i) } := ⟨rfl, B, rfl, h⟩
  refine (loop_rel (fun p p' : K × Dg K => p'.1 = p.1 ∧ Same m n p.2 p'.2) (fun k p p' a b e => ?_) (s := (1, _)) (t := (1, _)) h').2
  obtain ⟨x, t⟩ := p
  obtain ⟨x', t'⟩ := p'
  obtain ⟨e1, B, e2, e3⟩ := e
  dsimp only at e1 e2 e3 ⊢
  subst e1 e2
  dsimp only
  by_cases h0 : neg |x' * t.rv k| anorm = true
  · rw [if_pos h0, if_pos h0]
    exact ⟨rfl, B, rfl, e3⟩
  · rw [if_neg h0, if_neg h0]
    exact ⟨rfl, _, rfl, rotCols_wide hmn (by omega) (by omega) _ _ e3⟩

omit [IsStrictOrderedRing K] in
theorem svdPass_wide (rt : K → K) {m n i q : Nat} (hmn : m ≤ n) (hi : i < n) {t t' : Dg K} (h : Same m n t t') : Same m n (svdPass rt m n i q t) (svdPass rt n n i q t') := by
  obtain ⟨B, rfl, h⟩ := h
  unfold svdPass
  dsimp only
  have h1 : ∀ (F : K), ∃ B', loop q i (svdStep rt n n) ⟨{ t with A := B }, F, 1, 1, t.W q⟩ =
      { loop q i (svdStep rt m n) ⟨t, F, 1, 1, t.W q⟩ with d := { (loop q i (svdStep rt m n) ⟨t, F, 1, 1, t.W q⟩).d with A := B' } } ∧ Ext m n 0 (loop q i (svdStep rt m n) ⟨t, F, 1, 1, t.W q⟩).d.A B' := by
    intro F
    refine loop_rel (fun s s' : Qs K => ∃ B', s' = { s with d := { s.d with A := B' } } ∧ Ext m n 0 s.d.A B') (fun k s s' a b e => ?_) ⟨B, rfl, h⟩
    obtain ⟨B', rfl, e⟩ := e
    exact ⟨_, rfl, rotCols_wide hmn (by omega) (by omega) _ _ e⟩
  choose B' e1 e2 using h1
  rw [e1]
  exact ⟨_, rfl, e2 _⟩

omit [IsStrictOrderedRing K] in
theorem svdSign_wide {m n i : Nat} {t t' : Dg K} (h : Same m n t t') : Same m n (svdSign n i t) (svdSign n i t') := by
  obtain ⟨B, rfl, h⟩ := h
  unfold svdSign
  dsimp only
  by_cases h0 : t.W i < 0
  · rw [if_pos h0, if_pos h0]; exact ⟨B, rfl, h⟩
  · rw [if_neg h0, if_neg h0]; exact ⟨B, rfl, h⟩

omit [IsStrictOrderedRing K] in
theorem svdSplit_le (neg : K → K → Bool) (anorm : K) (W rv : Nat → K) : ∀ (q : Nat) (p : Nat × Bool), svdSplit neg anorm W rv (q + 1) = .ok p → p.1 ≤ q
  | 0, p, h => by
    rw [svdSplit] at h
    split at h
    · cases h; rfl
    · rw [if_pos rfl] at h; cases h
  | q + 1, p, h => by
    rw [svdSplit] at h
    split at h
    · cases h; rfl
    rw [if_neg (by omega)] at h
    split at h
    · cases h; rfl
    exact (svdSplit_le neg anorm W rv q p h).trans (Nat.le_succ q)

omit [IsStrictOrderedRing K] in
theorem svdOne_wide (rt : K → K) (neg : K → K → Bool) (anorm : K) {m n i : Nat} (hmn : m ≤ n) (hi : i < n) : ∀ (k : Nat) {t t' : Dg K}, Same m n t t' → ∀ s', svdOne rt neg anorm n n i k t' = .ok s' →
    ∃ s, svdOne rt neg anorm m n i k t = .ok s ∧ Same m n s s'
  | 0, t, t', h, s', e => by
    obtain ⟨B, rfl, h⟩ := h
    rw [svdOne] at e
    cases e
    exact ⟨_, rfl, B, rfl, h⟩
  | k + 1, t, t', h, s', e => by
    rw [svdOne] at e ⊢
    have eW : t'.W = t.W ∧ t'.rv = t.rv := by obtain ⟨B, rfl, -⟩ := h; exact ⟨rfl, rfl⟩
    rw [eW.1, eW.2] at e
    cases hs : svdSplit neg anorm t.W t.rv (i + 1) with
    | ok p =>
      rw [hs] at e
      have hp := svdSplit_le neg anorm _ _ _ _ hs
      rw [Res.ok_bind] at e ⊢
      have h2 : Same m n (if p.2 then svdCancel rt neg anorm m n i p.1 t else t) (if p.2 then svdCancel rt neg anorm n n i p.1 t' else t') := by
        split
        · exact svdCancel_wide rt neg anorm hmn hi hp h
        · exact h
      dsimp only at e ⊢
      by_cases h0 : p.1 = i
      · rw [if_pos h0] at e ⊢
        cases e
        exact ⟨_, rfl, svdSign_wide h2⟩
      · rw [if_neg h0] at e ⊢
        exact svdOne_wide rt neg anorm hmn hi k (svdPass_wide rt hmn hi h2) s' e
    | throw => rw [hs] at e; cases e
    | ub => rw [hs] at e; cases e

omit [IsStrictOrderedRing K] in
theorem svdDiag_wide (rt : K → K) (neg : K → K → Bool) (anorm : K) {m n : Nat} (hmn : m ≤ n) : ∀ (i : Nat), i ≤ n → ∀ {t t' : Dg K}, Same m n t t' → ∀ s', svdDiag rt neg anorm n n i t' = .ok s' →
    ∃ s, svdDiag rt neg anorm m n i t = .ok s ∧ Same m n s s'
  | 0, _, t, t', h, s', e => by
    rw [svdDiag] at e
    cases e
    exact ⟨_, rfl, h⟩
  | i + 1, hi, t, t', h, s', e => by
    rw [svdDiag] at e ⊢
    cases h1 : svdOne rt neg anorm n n i 30 t' with
    | ok u' =>
      rw [h1, Res.ok_bind] at e
      obtain ⟨u, e1, e2⟩ := svdOne_wide rt neg anorm hmn hi 30 h u' h1
      rw [e1, Res.ok_bind]
      exact svdDiag_wide rt neg anorm hmn i (by omega) e2 s' e
    | throw => rw [h1] at e; cases e
    | ub => rw [h1] at e; cases e

/-! ## The whole -/

omit [IsStrictOrderedRing K] in
theorem row_red_W (rt : K → K) (m n i : Nat) (t : Svd K) : (svdRow rt m n i t).W = t.W := by
  rw [svdRow_parts]
  generalize (if i < m then loop (i + 1) n (fun k v => v + |t.A (i * n + k)|) 0 else 0) = sc
  dsimp only
  split <;> rfl

omit [IsStrictOrderedRing K] in
theorem col_W (rt : K → K) (m n i : Nat) (t : Svd K) (c : Nat) (hc : c ≠ i) : (svdCol rt m n i t).W c = t.W c := by
  rw [svdCol_parts]
  dsimp only
  split
  · rfl
  · exact set_ne _ _ hc

omit [IsStrictOrderedRing K] in
/-- What the reduction leaves where there are no rows. -/
theorem reduce_below (rt : K → K) {m n : Nat} (A W g : Nat → K) (hW : ∀ c < n, W c = 0) (t : Svd K) (ht : t = loop 0 n (fun i t => svdReduce rt m n i t) ⟨A, W, g, 0, 0, 0⟩) :
    (∀ c, m ≤ c → c < n → t.W c = 0) ∧ ∀ c, m < c → c < n → t.rv1 c = 0 := by
  have h := loop_rule (f := fun i t => svdReduce rt m n i t) (fun i t => (∀ c, m ≤ c → c < n → t.W c = 0) ∧ (m < i → t.scale = 0) ∧ ∀ c, m < c → c < i → t.rv1 c = 0) (Nat.zero_le n)
    (s := ⟨A, W, g, 0, 0, 0⟩) ⟨fun c _ h => hW c h, fun h => by omega, fun c _ h => by omega⟩ (by
      rintro i t - hi ⟨h1, h2, h3⟩
      unfold svdReduce
      dsimp only
      obtain ⟨t0, ht0⟩ : ∃ t0 : Svd K, t0 = { t with rv1 := set t.rv1 i (t.scale * t.G) } := ⟨_, rfl⟩
      rw [← ht0]
      have e1 : t0.W = t.W := by rw [ht0]
      have e2 : t0.rv1 = set t.rv1 i (t.scale * t.G) := by rw [ht0]
      by_cases hm : i < m
      · refine ⟨fun c a b => ?_, fun h => by omega, fun c a b => by omega⟩
        rw [(row_red_W rt m n i _), col_W rt m n i t0 c (by omega), e1]
        exact h1 c a b
      · rw [svdCol_zero rt t0 (loop_nil (by omega) _), svdRow_zero rt (m := m) _ (if_neg hm)]
        refine ⟨fun c a b => by rw [e1]; exact h1 c a b, fun _ => rfl, fun c a b => ?_⟩
        dsimp only
        rw [e2]
        by_cases hc : c = i
        · rw [hc, set_same, h2 (by omega), zero_mul]
        · rw [set_ne _ _ hc]; exact h3 c a (by omega))
  rw [← ht] at h
  exact ⟨h.1, h.2.2⟩

/-- The matrix with rows of zeros below it -/
def below (m n : Nat) (A : Nat → K) (p : Nat) : K := if p < m * n then A p else 0

theorem svdWhole_wide (rt : K → K) (neg : K → K → Bool) {m n : Nat} (hmn : m ≤ n) (A W V g : Nat → K) (out : K) (hW : ∀ c < n, W c = 0) (s' : Dg K) (e : svdWhole rt neg n n (below m n A) W V g out = .ok s') :
    ∃ s, svdWhole rt neg m n A W V g out = .ok s ∧ s.V = s'.V ∧ s.W = s'.W ∧ s.good = s'.good ∧ ∀ r < m, ∀ c < n, s.A (r * n + c) = s'.A (r * n + c) := by
  have h0 : Ext m n n A (below m n A) := ⟨fun r hr c hc => if_pos (addr_lt hr hc), fun r hr c hc => if_neg (by have := Nat.mul_le_mul_right n hr; omega)⟩
  have h1 : Pair m n (loop 0 n (fun i t => svdReduce rt m n i t) ⟨A, W, g, 0, 0, 0⟩) (loop 0 n (fun i t => svdReduce rt n n i t) ⟨below m n A, W, g, 0, 0, 0⟩) :=
    loop_rel (Pair m n) (fun k s t a b e => svdReduce_wide rt hmn b e) ⟨_, rfl, h0⟩
  unfold svdWhole at e ⊢
  dsimp only at e ⊢
  obtain ⟨t, ht⟩ : ∃ t, t = loop 0 n (fun i t => svdReduce rt m n i t) ⟨A, W, g, 0, 0, 0⟩ := ⟨_, rfl⟩
  obtain ⟨hw, hr⟩ := reduce_below rt A W g hW t ht
  rw [← ht] at h1 ⊢
  obtain ⟨B, eB, h1⟩ := h1
  rw [eB, Nat.min_self] at e
  rw [Nat.min_eq_left hmn]
  dsimp only at e
  rw [svdRightsAt_congr (m := m) h1.top fun c a b => by rw [if_pos b]; exact hr c a b] at e
  have h2 := svdLefts_below hmn hw (n - m) (by omega) (A := t.A) (B := B) ⟨h1.top, fun r hr c hc => h1.zero r hr c (by omega)⟩
  rw [show m + (n - m) = n by omega] at h2
  obtain ⟨s, e1, C, rfl, e3⟩ := svdDiag_wide rt neg t.anorm hmn n le_rfl
    (t := ⟨svdLefts m n t.W m t.A, svdRightsAt n t.A (fun i => if i < n then t.rv1 i else out) n V, t.W, t.rv1, true⟩) ⟨_, rfl, h2.top, fun r _ c hc => absurd hc (Nat.not_lt_zero c)⟩ s' e
  exact ⟨s, e1, rfl, rfl, rfl, fun r hr c hc => (e3.top r hr c hc).symm⟩

end OP.Lin
