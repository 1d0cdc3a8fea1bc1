import Verif.Fem.Depth
/-!
# C113: the depths of the nodes of a layer that varies
-/
namespace OP.Fem.Depth

variable {K : Type} [Field K] [LinearOrder K] [IsStrictOrderedRing K]

/-- How far the interface on top of layer `i` moves down: by the first variation at the surface, by the second below the
first layer, by the third below the third, by the mean of the two in between, and not at all deeper. -/
def shift (L : Nat → Nat → K) (n : Nat) : Nat → K
  | 0 => L 0 n
  | 1 => L 1 n
  | 2 => (L 1 n + L 2 n) / 2
  | 3 => L 2 n
  | _ => 0

/-- The layers: each lies on the next, has some thickness, and has its own material. -/
structure Stack (layers : List (Layer K)) : Prop where
  thick : ∀ l ∈ layers, l.top < l.bot
  joined : ∀ (i : Nat) (l m : Layer K), layers[i]? = some l → layers[i + 1]? = some m → l.bot = m.top
  own : ∀ (i j : Nat) (l m : Layer K), layers[i]? = some l → layers[j]? = some m → l.mat = m.mat → i = j

omit [IsStrictOrderedRing K] in
theorem search_at {layers : List (Layer K)} (h : Stack layers) {i : Nat} {l : Layer K} (hi : layers[i]? = some l) :
    search layers l.mat = .ok (i, l) := by
  have hlt : i < layers.length := by
    by_contra hn
    rw [List.getElem?_eq_none (by omega)] at hi
    cases hi
  have hl : layers[i] = l := by
    rw [List.getElem?_eq_getElem hlt] at hi
    exact Option.some.inj hi
  have : layers.findIdx? (fun m => decide (m.mat = l.mat)) = some i := by
    rw [List.findIdx?_eq_some_iff_getElem]
    refine ⟨hlt, by simp [hl], fun j hj => ?_⟩
    simp only [decide_eq_true_eq]
    intro e
    have := h.own j i layers[j] l (List.getElem?_eq_getElem (by omega)) hi e
    omega
  unfold search
  rw [this]
  simp only [hi]

/-- **C113** Every node of a layer whose surface node is known: its depth divides the moved layer as the given one divides
the layer, the first interface being the surface. -/
theorem C113_depth {layers : List (Layer K)} (h : Stack layers) {i : Nat} {l : Layer K} (hi : layers[i]? = some l)
    (L : Nat → Nat → K) {np n : Nat} (hn : n < np) (s : K) :
    depthAt layers L np (some n) l.mat (-((1 - s) * l.top + s * l.bot))
      = .ok (-((1 - s) * (l.top + shift L n i) + s * (l.bot + shift L n (i + 1)))) := by
  have hl : l.top < l.bot := by
    refine h.thick l ?_
    exact List.mem_of_getElem? hi
  have hne : l.bot - l.top ≠ 0 := by
    intro e
    rw [sub_eq_zero] at e
    exact hl.ne' e
  have e : ∀ x : K, x * (- -((1 - s) * l.top + s * l.bot) - l.top) / (l.bot - l.top) = x * s := by
    intro x
    rw [div_eq_iff hne]
    ring
  have hv : ∀ v, v < 3 → variation L np v (some n) = .ok (L v n) := by
    intro v hv
    simp only [variation]
    rw [if_pos ⟨hv, hn⟩]
  unfold depthAt
  rw [search_at h hi]
  rcases i with _ | _ | _ | _ | i
  · simp only [Res.ok_bind, if_true, hv 0 (by omega), hv 1 (by omega), e, shift]
    congr 1; ring
  · simp only [Res.ok_bind, if_true, hv 1 (by omega), hv 2 (by omega), e, shift]
    simp
    ring
  · simp only [Res.ok_bind, if_true, hv 1 (by omega), hv 2 (by omega), e, shift]
    simp
    ring
  · simp only [Res.ok_bind, if_true, hv 2 (by omega), e, shift]
    simp
    ring
  · simp only [Res.ok_bind, e, shift]
    simp
    ring

/-- **C113** An interface moves as one: a node on it is given the same depth by the layer above and the layer below. -/
theorem C113_interface {layers : List (Layer K)} (h : Stack layers) {i : Nat} {l m : Layer K}
    (hi : layers[i]? = some l) (hm : layers[i + 1]? = some m) (L : Nat → Nat → K) {np n : Nat} (hn : n < np) :
    depthAt layers L np (some n) l.mat (-l.bot) = .ok (-(l.bot + shift L n (i + 1))) ∧
      depthAt layers L np (some n) m.mat (-l.bot) = .ok (-(l.bot + shift L n (i + 1))) := by
  have a := C113_depth h hi L hn 1
  have b := C113_depth h hm L hn 0
  have e := h.joined i l m hi hm
  simp only [sub_self, zero_mul, one_mul, zero_add, sub_zero, add_zero] at a b
  rw [← e] at b
  exact ⟨a, b⟩

/-- **C113** Where nothing varies every node stays where it is. -/
theorem C113_still {layers : List (Layer K)} (h : Stack layers) {i : Nat} {l : Layer K} (hi : layers[i]? = some l)
    (L : Nat → Nat → K) {np n : Nat} (hn : n < np) (hL : ∀ v < numVar, L v n = 0) (z : K) :
    depthAt layers L np (some n) l.mat z = .ok z := by
  have hl : l.top < l.bot := h.thick l (List.mem_of_getElem? hi)
  have hne : l.bot - l.top ≠ 0 := sub_ne_zero.2 hl.ne'
  have a := C113_depth h hi L hn ((-z - l.top) / (l.bot - l.top))
  have hs : ∀ j, shift L n j = 0 := by
    intro j
    have h0 := hL 0 (by decide)
    have h1 := hL 1 (by decide)
    have h2 := hL 2 (by decide)
    rcases j with _ | _ | _ | _ | j <;> simp [shift, h0, h1, h2]
  have e : (1 - (-z - l.top) / (l.bot - l.top)) * l.top + (-z - l.top) / (l.bot - l.top) * l.bot = -z := by
    field_simp
    ring
  rw [hs, hs, add_zero, add_zero, e, neg_neg] at a
  exact a

/-- **C113** Two nodes of a layer, one above the other, stay in order exactly when the moved layer still has some
thickness: the elements between them are turned inside out by variations that take the layer away. -/
theorem C113_order {layers : List (Layer K)} (h : Stack layers) {i : Nat} {l : Layer K} (hi : layers[i]? = some l)
    (L : Nat → Nat → K) {np n : Nat} (hn : n < np) {z w : K} (hz : w < z) :
    ∃ a b, depthAt layers L np (some n) l.mat z = .ok a ∧ depthAt layers L np (some n) l.mat w = .ok b ∧
      (b < a ↔ l.top + shift L n i < l.bot + shift L n (i + 1)) := by
  have hl : l.top < l.bot := h.thick l (List.mem_of_getElem? hi)
  have hp : 0 < l.bot - l.top := sub_pos.2 hl
  have e : ∀ z : K, -((1 - (-z - l.top) / (l.bot - l.top)) * l.top + (-z - l.top) / (l.bot - l.top) * l.bot) = z := by
    intro z
    have := hp.ne'
    field_simp
    ring
  have a := C113_depth h hi L hn ((-z - l.top) / (l.bot - l.top))
  have b := C113_depth h hi L hn ((-w - l.top) / (l.bot - l.top))
  rw [e] at a b
  refine ⟨_, _, a, b, ?_⟩
  have hlt : (-z - l.top) / (l.bot - l.top) < (-w - l.top) / (l.bot - l.top) :=
    div_lt_div_of_pos_right (by linarith) hp
  generalize (-z - l.top) / (l.bot - l.top) = s at hlt
  generalize (-w - l.top) / (l.bot - l.top) = t at hlt
  generalize l.top + shift L n i = p
  generalize l.bot + shift L n (i + 1) = q
  have hst : 0 < t - s := sub_pos.2 hlt
  constructor
  · intro hh
    by_contra hq
    have : 0 ≤ (t - s) * (p - q) := mul_nonneg hst.le (by linarith [not_lt.1 hq])
    nlinarith
  · intro hh
    have : 0 < (t - s) * (q - p) := mul_pos hst (by linarith)
    nlinarith

omit [IsStrictOrderedRing K] in
/-- **C113** The depth of a node of the first four layers with no node on the surface above it reads outside the
variations. -/
theorem C113_above_wrong {layers : List (Layer K)} (h : Stack layers) {i : Nat} {l : Layer K} (hi : layers[i]? = some l)
    (h4 : i < 4) (L : Nat → Nat → K) (np : Nat) (z : K) : depthAt layers L np none l.mat z = .ub := by
  unfold depthAt
  rw [search_at h hi]
  rcases i with _ | _ | _ | _ | i
  · simp [variation]
  · simp [variation]
  · simp [variation]
  · simp [variation]
  · omega

omit [Field K] [LinearOrder K] [IsStrictOrderedRing K] in
/-- **C113** The variation of the modulus of any node reads outside the variations. -/
theorem C113_modulus_wrong (layers : List (Layer K)) (L : Nat → Nat → K) (np : Nat) (n : Option Nat) (mat : Nat) :
    emodAt layers L np n mat = .ub := by
  unfold emodAt
  cases hs : search layers mat with
  | ub => rfl
  | throw =>
    unfold search at hs
    split at hs
    · cases hs
    · split at hs <;> cases hs
  | ok p =>
    simp only [Res.ok_bind]
    cases n with
    | none => rfl
    | some n =>
      simp only [variation]
      rw [if_neg]
      unfold numVar
      rintro ⟨hv, -⟩
      omega

/-- The corner of a side from which the heights are taken: the near one of a side that reaches to infinity. -/
def near (s : Inf) (c : Nat) : Nat := match s with
  | .no => c
  | .pos => 0
  | .neg => 1

omit [Field K] [LinearOrder K] [IsStrictOrderedRing K] in
/-- **C113** In every group of four nodes of an infinite element (two along each side), the height of a node that reaches
to infinity is that of the node it starts from, also when both sides do; the others keep theirs. -/
theorem C113_infinite (nnd : Nat) (sx sy : Inf) (z : Nat → K) {g a c : Nat} (hg : g < nnd / 4) (ha : a < 2)
    (hc : c < 2) : heights nnd sx sy z (4 * g + 2 * a + c) = z (4 * g + 2 * near sx a + near sy c) := by
  have d : ∀ k, k < 4 → (4 * g + k) / 4 = g := by omega
  have m : ∀ k, k < 4 → (4 * g + k) % 4 = k := by omega
  have r : ∀ t1 f1 t2 f2 (z : Nat → K) k, k < 4 → copyFour nnd t1 f1 t2 f2 z (4 * g + k)
      = if k = t1 then z (4 * g + f1) else if k = t2 then z (4 * g + f2) else z (4 * g + k) := by
    intro t1 f1 t2 f2 z k hk
    unfold copyFour
    rw [d k hk, m k hk, if_pos hg]
  have r0 : ∀ t1 f1 t2 f2 (z : Nat → K), copyFour nnd t1 f1 t2 f2 z (4 * g)
      = if 0 = t1 then z (4 * g + f1) else if 0 = t2 then z (4 * g + f2) else z (4 * g) :=
    fun t1 f1 t2 f2 z => r t1 f1 t2 f2 z 0 (by omega)
  have e : 4 * g + 2 * a + c = 4 * g + (2 * a + c) := by omega
  have e' : 4 * g + 2 * near sx a + near sy c = 4 * g + (2 * near sx a + near sy c) := by omega
  rw [e, e']
  have ha' : a = 0 ∨ a = 1 := by omega
  have hc' : c = 0 ∨ c = 1 := by omega
  unfold heights
  rcases ha' with rfl | rfl <;> rcases hc' with rfl | rfl <;> cases sx <;> cases sy <;>
    simp [r, r0, near]

/-- Four layers on the ground, the surface worn by one, the base one thicker: the middle of the second layer. -/
example : Stack [(⟨0, 4, 0⟩ : Layer ℚ), ⟨4, 10, 1⟩, ⟨10, 20, 2⟩, ⟨20, 50, 3⟩] :=
  ⟨by decide +kernel, by
    intro i l m h h'
    rcases i with _ | _ | _ | _ | i <;> simp at h h' <;> (try subst h) <;> (try subst h') <;> rfl, by
    intro i j l m h h' e
    rcases i with _ | _ | _ | _ | i <;> rcases j with _ | _ | _ | _ | j <;> simp at h h' <;>
      (subst h; subst h'; simp at e ⊢)⟩

example : depthAt [(⟨0, 4, 0⟩ : Layer ℚ), ⟨4, 10, 1⟩, ⟨10, 20, 2⟩, ⟨20, 50, 3⟩]
    (fun v _ => [1, 0, 2].getD v 0) 9 (some 5) 1 (-7) = .ok (-15 / 2) := by decide +kernel

end OP.Fem.Depth
