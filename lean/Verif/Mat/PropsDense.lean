import Verif.Mat.Dense
import Mathlib.Algebra.BigOperators.Fin
import Mathlib.LinearAlgebra.Matrix.Notation
import Mathlib.Tactic.FinCases
import Mathlib.Algebra.Field.Rat
/-!
# Properties C37 and C83: arithmetic of dense and of fixed-size matrices
-/
namespace OP.Mat
open Matrix

variable {K : Type}

/-! ## Specification -/

/-- An array holds a matrix, row after row. -/
def BufHolds {m n : Nat} (b : Buf K) (A : Matrix (Fin m) (Fin n) K) : Prop :=
  b.length = m * n ∧ ∀ (i : Fin m) (j : Fin n), b[i.1 * n + j.1]? = some (some (A i j))

/-- A dense matrix holds a matrix. -/
def Dense.Holds {m n : Nat} (d : Dense K) (A : Matrix (Fin m) (Fin n) K) : Prop :=
  d.M = m ∧ d.N = n ∧ BufHolds d.data A

/-! ## Helpers -/

theorem cell_lt {m n i j : Nat} (hi : i < m) (hj : j < n) : i * n + j < m * n := by
  calc i * n + j < i * n + n := by omega
    _ = (i + 1) * n := by ring
    _ ≤ m * n := Nat.mul_le_mul_right _ hi

theorem cell_div {n i j : Nat} (hj : j < n) : (i * n + j) / n = i := by
  have hn : 0 < n := by omega
  rw [Nat.mul_comm, Nat.mul_add_div hn, Nat.div_eq_of_lt hj, Nat.add_zero]

theorem cell_mod {n i j : Nat} (hj : j < n) : (i * n + j) % n = j := by
  rw [Nat.mul_comm, Nat.mul_add_mod, Nat.mod_eq_of_lt hj]

theorem fillRow_ok (m n i : Nat) (f : Nat → Res K) (g : Nat → K) (hi : i < m) (js : List Nat)
    (hjs : ∀ j ∈ js, j < n ∧ f j = .ok (g j)) (b : Buf K) (hb : b.length = m * n) :
    ∃ b', fillRow n i f js b = .ok b' ∧ b'.length = m * n ∧
      ∀ k, b'[k]? = if ∃ j ∈ js, k = i * n + j then some (some (g (k % n))) else b[k]? := by
  induction js generalizing b with
  | nil => exact ⟨b, rfl, hb, by simp⟩
  | cons j js ih =>
    obtain ⟨hj, hf⟩ := hjs j (by simp)
    have hlt : i * n + j < b.length := by rw [hb]; exact cell_lt hi hj
    obtain ⟨b', e1, e2, e3⟩ := ih (fun j hj => hjs j (by simp [hj])) (b.set (i * n + j) (some (g j))) (by simp [hb])
    refine ⟨b', ?_, e2, ?_⟩
    · rw [fillRow, hf]
      simp only [Res.ok_bind, Buf.write, if_pos hlt]
      exact e1
    · intro k
      rw [e3]
      by_cases h1 : ∃ j' ∈ js, k = i * n + j'
      · rw [if_pos h1, if_pos]
        obtain ⟨j', h2, h3⟩ := h1
        exact ⟨j', by simp [h2], h3⟩
      · rw [if_neg h1]
        by_cases h2 : k = i * n + j
        · subst h2
          rw [if_pos ⟨j, by simp, rfl⟩, List.getElem?_set_self hlt, cell_mod hj]
        · rw [List.getElem?_set_ne (Ne.symm h2), if_neg]
          rintro ⟨j', h3, h4⟩
          rcases List.mem_cons.1 h3 with rfl | h3
          · exact h2 h4
          · exact h1 ⟨j', h3, h4⟩

theorem fillRows_ok (m n : Nat) (f : Nat → Nat → Res K) (g : Nat → Nat → K) (is : List Nat)
    (his : ∀ i ∈ is, i < m) (hf : ∀ i < m, ∀ j < n, f i j = .ok (g i j)) (b : Buf K) (hb : b.length = m * n) :
    ∃ b', fillRows n f is b = .ok b' ∧ b'.length = m * n ∧
      ∀ i < m, ∀ j < n, b'[i * n + j]? = if i ∈ is then some (some (g i j)) else b[i * n + j]? := by
  induction is generalizing b with
  | nil => exact ⟨b, rfl, hb, by simp⟩
  | cons i is ih =>
    have hi := his i (by simp)
    obtain ⟨b1, e1, e2, e3⟩ := fillRow_ok m n i (f i) (g i) hi (List.range n)
      (fun j hj => ⟨List.mem_range.1 hj, hf i hi j (List.mem_range.1 hj)⟩) b hb
    obtain ⟨b', h1, h2, h3⟩ := ih (fun i hi => his i (by simp [hi])) b1 e2
    refine ⟨b', by rw [fillRows, e1]; exact h1, h2, ?_⟩
    intro i' hi' j hj
    rw [h3 i' hi' j hj, e3]
    by_cases h4 : i' ∈ is
    · simp [h4]
    · rw [if_neg h4]
      by_cases h5 : i' = i
      · subst h5
        rw [if_pos ⟨j, List.mem_range.2 hj, rfl⟩, if_pos (by simp), cell_mod hj]
      · rw [if_neg, if_neg (by simp [h4, h5])]
        rintro ⟨j', h6, h7⟩
        apply h5
        have := congrArg (· / n) h7
        simpa [cell_div hj, cell_div (List.mem_range.1 h6)] using this

theorem eachCell_ok (f : Nat → K → Res K) (g : Nat → K → K) (ks : List Nat) (hnd : ks.Nodup) (b : Buf K)
    (hb : ∀ k ∈ ks, ∃ x, b[k]? = some (some x) ∧ f k x = .ok (g k x)) :
    ∃ b', eachCell f ks b = .ok b' ∧ b'.length = b.length ∧
      ∀ k, b'[k]? = if k ∈ ks then (b[k]?).map (fun c => c.map (g k)) else b[k]? := by
  induction ks generalizing b with
  | nil => exact ⟨b, rfl, rfl, by simp⟩
  | cons k ks ih =>
    obtain ⟨x, hx, hf⟩ := hb k (by simp)
    have hlt : k < b.length := (List.getElem?_eq_some_iff.1 hx).1
    have hk := (List.nodup_cons.1 hnd).1
    obtain ⟨b', e1, e2, e3⟩ := ih (List.nodup_cons.1 hnd).2 (b.set k (some (g k x))) (by
      intro k' hk'
      rw [List.getElem?_set_ne (by rintro rfl; exact hk hk')]
      exact hb k' (by simp [hk']))
    refine ⟨b', ?_, by simpa using e2, ?_⟩
    · simp only [eachCell, Buf.read, hx, Res.ok_bind, hf, Buf.write, if_pos hlt]
      exact e1
    · intro k'
      rw [e3]
      by_cases h1 : k' = k
      · subst h1
        rw [if_neg hk, if_pos (by simp), List.getElem?_set_self hlt, hx]; rfl
      · rw [List.getElem?_set_ne (Ne.symm h1)]
        simp [h1]

section
variable [Field K]

theorem build_ok {m n : Nat} (f : Nat → Nat → Res K) (A : Matrix (Fin m) (Fin n) K)
    (hf : ∀ (i : Fin m) (j : Fin n), f i j = .ok (A i j)) : ∃ d, Dense.build m n f = .ok d ∧ d.Holds A := by
  let g : Nat → Nat → K := fun i j => if h : i < m ∧ j < n then A ⟨i, h.1⟩ ⟨j, h.2⟩ else 0
  have hg : ∀ i (hi : i < m) j (hj : j < n), g i j = A ⟨i, hi⟩ ⟨j, hj⟩ := by
    intro i hi j hj; simp only [g]; rw [dif_pos ⟨hi, hj⟩]
  obtain ⟨b, e1, e2, e3⟩ := fillRows_ok m n f g (List.range m) (fun i hi => List.mem_range.1 hi)
    (fun i hi j hj => by rw [hg i hi j hj]; exact hf ⟨i, hi⟩ ⟨j, hj⟩) (Dense.alloc m n).data (by simp [Dense.alloc])
  refine ⟨⟨m, n, b⟩, by rw [Dense.build, e1]; rfl, rfl, rfl, e2, ?_⟩
  intro i j
  rw [e3 i.1 i.2 j.1 j.2, if_pos (List.mem_range.2 i.2), hg i.1 i.2 j.1 j.2]

theorem Dense.Holds.get {m n : Nat} {d : Dense K} {A : Matrix (Fin m) (Fin n) K} (h : d.Holds A) (i : Fin m)
    (j : Fin n) : d.get i j = .ok (A i j) := by
  obtain ⟨rfl, rfl, -, h4⟩ := h
  rw [Dense.get, Buf.read, h4 i j]

theorem cell_split {m n k : Nat} (hk : k < m * n) : k / n < m ∧ k % n < n ∧ k = k / n * n + k % n := by
  have hn : 0 < n := by
    rcases Nat.eq_zero_or_pos n with h | h
    · subst h; simp at hk
    · exact h
  refine ⟨Nat.div_lt_of_lt_mul (by rwa [Nat.mul_comm]), Nat.mod_lt _ hn, ?_⟩
  rw [Nat.mul_comm]; exact (Nat.div_add_mod k n).symm

theorem each_ok {m n : Nat} {d : Dense K} {A : Matrix (Fin m) (Fin n) K} (h : d.Holds A) (f : Nat → K → Res K)
    (B : Matrix (Fin m) (Fin n) K) (hf : ∀ (i : Fin m) (j : Fin n), f (i.1 * n + j.1) (A i j) = .ok (B i j)) :
    ∃ d', d.each f = .ok d' ∧ d'.Holds B := by
  obtain ⟨rfl, rfl, h3, h4⟩ := h
  let g : Nat → K → K := fun k _ => if h : k < d.M * d.N then
    B ⟨k / d.N, (cell_split h).1⟩ ⟨k % d.N, (cell_split h).2.1⟩ else 0
  have hg : ∀ (i : Fin d.M) (j : Fin d.N) x, g (i.1 * d.N + j.1) x = B i j := by
    intro i j x
    simp only [g]
    rw [dif_pos (cell_lt i.2 j.2)]
    congr 1
    · exact Fin.ext (cell_div j.2)
    · exact Fin.ext (cell_mod j.2)
  obtain ⟨b', e1, e2, e3⟩ := eachCell_ok f g (List.range (d.M * d.N)) List.nodup_range d.data (by
    intro k hk
    obtain ⟨k1, k2, k3⟩ := cell_split (List.mem_range.1 hk)
    have := h4 ⟨_, k1⟩ ⟨_, k2⟩
    simp only [← k3] at this
    refine ⟨_, this, ?_⟩
    have h5 := hf ⟨_, k1⟩ ⟨_, k2⟩
    have h6 := hg ⟨_, k1⟩ ⟨_, k2⟩ (A ⟨_, k1⟩ ⟨_, k2⟩)
    simp only [← k3] at h5 h6
    rw [h5, h6])
  refine ⟨{ d with data := b' }, by rw [Dense.each, e1]; rfl, rfl, rfl, by rw [e2]; exact h3, ?_⟩
  intro i j
  rw [e3, if_pos (List.mem_range.2 (cell_lt i.2 j.2)), h4 i j]
  simp [hg]

theorem dotLoop_ok (f : Nat → Res K) (g : Nat → K) (ks : List Nat) (hf : ∀ k ∈ ks, f k = .ok (g k)) (s : K) :
    dotLoop f ks s = .ok (s + (ks.map g).sum) := by
  induction ks generalizing s with
  | nil => simp [dotLoop]
  | cons k ks ih =>
    rw [dotLoop, hf k (by simp)]
    simp only [Res.ok_bind]
    rw [ih (fun k hk => hf k (by simp [hk]))]
    simp [add_assoc]

theorem sum_range_fin (n : Nat) (g : Nat → K) : ((List.range n).map g).sum = ∑ k : Fin n, g k := by
  induction n with
  | zero => simp
  | succ n ih => rw [List.range_succ, Fin.sum_univ_castSucc]; simp [ih]

/-! ## C37: dense matrices -/

variable [DecidableEq K]
variable {m n l : Nat}

/-- **C37**: making a matrix from an array and reading it. -/
theorem C37_dense_entries (A : Matrix (Fin m) (Fin n) K) :
    (∃ d : Dense K, Dense.ofArray m n (List.ofFn fun k : Fin (m * n) =>
      A ⟨k / n, (cell_split k.2).1⟩ ⟨k % n, (cell_split k.2).2.1⟩) = .ok d ∧ d.Holds A) ∧
    ∀ d : Dense K, d.Holds A → ∀ i j, d.get (i : Fin m) (j : Fin n) = .ok (A i j) := by
  refine ⟨⟨_, by rw [Dense.ofArray, if_pos (by simp)], rfl, rfl, by simp, ?_⟩, fun d h i j => h.get i j⟩
  intro i j
  have hk := cell_lt i.2 j.2
  have e1 : ∀ h1 h2, A ⟨(i.1 * n + j.1) / n, h1⟩ ⟨(i.1 * n + j.1) % n, h2⟩ = A i j := by
    intro h1 h2
    congr 1
    · exact Fin.ext (cell_div j.2)
    · exact Fin.ext (cell_mod j.2)
  simp only [List.getElem?_map, List.getElem?_take, if_pos hk, List.getElem?_ofFn, dif_pos hk, Option.map_some, e1]

/-- **C37**: the arithmetic of dense matrices is matrix arithmetic, for every size and every entry. -/
theorem C37_dense_arithmetic {a b : Dense K} {A B : Matrix (Fin m) (Fin n) K} (ha : a.Holds A) (hb : b.Holds B) (d : K) :
    (∃ t, a.trans = .ok t ∧ t.Holds A.transpose) ∧
    (∃ t, a.neg = .ok t ∧ t.Holds (-A)) ∧
    (∃ t, a.add b = .ok t ∧ t.Holds (A + B)) ∧
    (∃ t, a.sub b = .ok t ∧ t.Holds (A - B)) ∧
    (∃ t, a.plusVal d = .ok t ∧ t.Holds (A + Matrix.of fun _ _ => d)) ∧
    (∃ t, a.minusVal d = .ok t ∧ t.Holds (A - Matrix.of fun _ _ => d)) ∧
    (∃ t, Dense.valMinus d a = .ok t ∧ t.Holds ((Matrix.of fun _ _ => d) - A)) ∧
    (∃ t, a.timesVal d = .ok t ∧ t.Holds (d • A)) ∧
    (d ≠ 0 → ∃ t, a.overVal d = .ok t ∧ t.Holds (d⁻¹ • A)) ∧
    ((∀ i j, A i j ≠ 0) → ∃ t, Dense.valOver d a = .ok t ∧ t.Holds (Matrix.of fun i j => d / A i j)) := by
  have hplus : ∀ d : K, ∃ t, a.plusVal d = .ok t ∧ t.Holds (A + Matrix.of fun _ _ => d) := by
    intro d
    rw [Dense.plusVal, Dense.addVal]
    split_ifs with h
    · exact each_ok ha _ _ fun i j => rfl
    · refine ⟨a, rfl, ?_⟩
      push Not at h
      have : (A + Matrix.of fun _ _ => d) = A := by ext i j; simp [h]
      rw [this]; exact ha
  have htimes : ∀ d : K, ∃ t, a.timesVal d = .ok t ∧ t.Holds (d • A) := by
    intro d
    rw [Dense.timesVal, Dense.mulVal]
    split_ifs with h
    · obtain ⟨rfl, rfl, h3, h4⟩ := ha
      refine ⟨_, rfl, rfl, rfl, by simp, ?_⟩
      intro i j
      simp only [List.getElem?_replicate, if_pos (cell_lt i.2 j.2)]
      simp [h]
    · exact each_ok ha _ _ fun i j => by simp [mul_comm]
  have hother : ∀ k : Fin m × Fin n, Buf.read b.data (k.1.1 * n + k.2.1) = .ok (B k.1 k.2) := by
    intro k
    rw [Buf.read, hb.2.2.2 k.1 k.2]
  refine ⟨?_, ?_, ?_, ?_, hplus d, ?_, ?_, htimes d, ?_, ?_⟩
  · obtain ⟨hm, hn, -⟩ := id ha
    rw [Dense.trans, hm, hn]
    exact build_ok _ _ fun i j => ha.get j i
  · obtain ⟨hm, hn, -⟩ := id ha
    rw [Dense.neg, hm, hn]
    exact build_ok _ _ fun i j => by rw [ha.get]; rfl
  · exact each_ok ha _ _ fun i j => by rw [hother (i, j)]; rfl
  · exact each_ok ha _ _ fun i j => by rw [hother (i, j)]; rfl
  · obtain ⟨t, t1, t2⟩ := hplus (-d)
    refine ⟨t, t1, ?_⟩
    have : (A - Matrix.of fun _ _ => d) = A + Matrix.of fun _ _ => -d := by
      ext i j; simp [sub_eq_add_neg]
    rw [this]; exact t2
  · obtain ⟨hm, hn, -⟩ := id ha
    rw [Dense.valMinus, hm, hn]
    exact build_ok _ _ fun i j => by rw [ha.get]; rfl
  · intro _
    obtain ⟨t, t1, t2⟩ := htimes (1 / d)
    exact ⟨t, t1, by rwa [one_div] at t2⟩
  · intro _
    obtain ⟨hm, hn, -⟩ := id ha
    rw [Dense.valOver, hm, hn]
    exact build_ok _ _ fun i j => by rw [ha.get]; rfl

/-- **C37**: the product. -/
theorem C37_dense_product {a b : Dense K} {A : Matrix (Fin m) (Fin l) K} {B : Matrix (Fin l) (Fin n) K} (ha : a.Holds A)
    (hb : b.Holds B) : ∃ t, a.mul b = .ok t ∧ t.Holds (A * B) := by
  obtain ⟨hm, hl, -⟩ := id ha
  obtain ⟨-, hn, -⟩ := id hb
  rw [Dense.mul, hm, hl, hn]
  refine build_ok _ _ fun i j => ?_
  let g : Nat → K := fun k => if h : k < l then A i ⟨k, h⟩ * B ⟨k, h⟩ j else 0
  rw [dotLoop_ok _ g _ (by
    intro k hk
    have hk := List.mem_range.1 hk
    have e1 := ha.get i ⟨k, hk⟩
    have e2 := hb.get ⟨k, hk⟩ j
    simp only at e1 e2
    rw [e1, e2]
    simp only [Res.ok_bind, g, dif_pos hk])]
  rw [sum_range_fin, zero_add, Matrix.mul_apply]
  congr 1
  refine Finset.sum_congr rfl fun k _ => ?_
  simp only [g, dif_pos k.2]

/-- **C37**: a matrix of one value, or with one value on the diagonal. -/
theorem C37_dense_const (d : K) :
    (∃ t, Dense.const m n d false = .ok t ∧ t.Holds (Matrix.of fun (_ : Fin m) (_ : Fin n) => d)) ∧
    (∃ t, Dense.const m m d true = .ok t ∧ t.Holds (Matrix.diagonal fun _ : Fin m => d)) := by
  constructor
  · exact build_ok _ _ fun i j => by simp
  · refine build_ok _ _ fun i j => ?_
    simp only [Matrix.diagonal_apply, Fin.ext_iff]
    simp

/-- A 2 by 3 matrix times a 3 by 2 one. -/
example : (Dense.mul ⟨2, 3, [1, 2, 3, 4, 5, 6].map some⟩ ⟨3, 2, [1, 0, 0, 1, 1, 1].map some⟩ : Res (Dense ℚ)) =
    .ok ⟨2, 2, [4, 5, 10, 11].map some⟩ := by
  have : (List.range 2 = [0, 1]) ∧ (List.range 3 = [0, 1, 2]) := by decide
  simp [Dense.mul, Dense.build, fillRows, fillRow, this, dotLoop, Dense.get, Buf.read, Buf.write, Dense.alloc]
  norm_num

example : (⟨2, 3, [1, 2, 3, 4, 5, 6].map some⟩ : Dense ℚ).Holds !![1, 2, 3; 4, 5, 6] := by
  refine ⟨rfl, rfl, rfl, ?_⟩
  intro i j
  fin_cases i <;> fin_cases j <;> rfl

/-! ## C83: fixed sizes -/

/-- What an expression denotes: matrix algebra on the matrices it contains.  A division needs a divisor that is not 0,
and a product an inner size that is not 0. -/
inductive Expr.Means : {M N : Nat} → Expr K M N → Matrix (Fin M) (Fin N) K → Prop
  | mat {M N : Nat} {b : Buf K} {A : Matrix (Fin M) (Fin N) K} (h : BufHolds b A) : Means (.mat b) A
  | trans {M N : Nat} {e : Expr K M N} {A : Matrix (Fin M) (Fin N) K} (h : Means e A) : Means (.trans e) A.transpose
  | neg {M N : Nat} {e : Expr K M N} {A : Matrix (Fin M) (Fin N) K} (h : Means e A) : Means (.neg e) (-A)
  | addD {M N : Nat} {e : Expr K M N} {A : Matrix (Fin M) (Fin N) K} (d : K) (h : Means e A) :
      Means (.addD e d) (A + Matrix.of fun _ _ => d)
  | subD {M N : Nat} {e : Expr K M N} {A : Matrix (Fin M) (Fin N) K} (d : K) (h : Means e A) :
      Means (.subD e d) ((Matrix.of fun _ _ => d) - A)
  | mulD {M N : Nat} {e : Expr K M N} {A : Matrix (Fin M) (Fin N) K} (d : K) (h : Means e A) : Means (.mulD e d) (d • A)
  | divD {M N : Nat} {e : Expr K M N} {A : Matrix (Fin M) (Fin N) K} (d : K) (hd : d ≠ 0) (h : Means e A) :
      Means (.divD e d) (d⁻¹ • A)
  | dDiv {M N : Nat} {e : Expr K M N} {A : Matrix (Fin M) (Fin N) K} (d : K) (hA : ∀ i j, A i j ≠ 0) (h : Means e A) :
      Means (.dDiv e d) (Matrix.of fun i j => d / A i j)
  | add {M N : Nat} {e1 e2 : Expr K M N} {A B : Matrix (Fin M) (Fin N) K} (h1 : Means e1 A) (h2 : Means e2 B) :
      Means (.add e1 e2) (A + B)
  | sub {M N : Nat} {e1 e2 : Expr K M N} {A B : Matrix (Fin M) (Fin N) K} (h1 : Means e1 A) (h2 : Means e2 B) :
      Means (.sub e1 e2) (A - B)
  | prod {M L N : Nat} {e1 : Expr K M L} {e2 : Expr K L N} {A : Matrix (Fin M) (Fin L) K} {B : Matrix (Fin L) (Fin N) K}
      (hL : 0 < L) (h1 : Means e1 A) (h2 : Means e2 B) : Means (.prod e1 e2) (A * B)
  | diag {N : Nat} {e : Expr K N N} {A : Matrix (Fin N) (Fin N) K} (h : Means e A) :
      Means (.diag e) (Matrix.of fun i _ => A i i)

theorem metaProd_ok (f g : Nat → Res K) (x y : Nat → K) (k : Nat) (hf : ∀ i ≤ k, f i = .ok (x i))
    (hg : ∀ i ≤ k, g i = .ok (y i)) : metaProd f g k = .ok (∑ i : Fin (k + 1), x i * y i) := by
  induction k with
  | zero => simp [metaProd, hf 0 (le_refl _), hg 0 (le_refl _)]
  | succ k ih =>
    rw [metaProd, hf _ (le_refl _), hg _ (le_refl _), ih (fun i hi => hf i (by omega)) (fun i hi => hg i (by omega))]
    simp only [Res.ok_bind]
    rw [Fin.sum_univ_castSucc (n := k + 1)]
    simp [add_comm]

/-- **C83**: every entry of an expression of fixed size is that of the matrix it denotes. -/
theorem C83_expression {M N : Nat} {e : Expr K M N} {A : Matrix (Fin M) (Fin N) K} (h : e.Means A) (i : Fin M)
    (j : Fin N) : e.at i j = .ok (A i j) := by
  induction h with
  | mat h => rw [Expr.at, tget, if_pos ⟨i.2, j.2⟩, Buf.read, h.2]
  | trans h ih => rw [Expr.at, ih]; rfl
  | neg h ih => rw [Expr.at, ih]; rfl
  | addD d h ih => rw [Expr.at, ih]; rfl
  | subD d h ih => rw [Expr.at, ih]; rfl
  | mulD d h ih => rw [Expr.at, ih]; rfl
  | divD d hd h ih => rw [Expr.at, ih]; simp [mul_comm]
  | dDiv d hd h ih => rw [Expr.at, ih]; rfl
  | add h1 h2 ih1 ih2 => rw [Expr.at, ih1, ih2]; rfl
  | sub h1 h2 ih1 ih2 => rw [Expr.at, ih1, ih2]; rfl
  | @prod M L N e1 e2 A B hL h1 h2 ih1 ih2 =>
    obtain ⟨L, rfl⟩ : ∃ L', L = L' + 1 := ⟨L - 1, by omega⟩
    let x : Nat → K := fun k => if h : k < L + 1 then A i ⟨k, h⟩ else 0
    let y : Nat → K := fun k => if h : k < L + 1 then B ⟨k, h⟩ j else 0
    rw [Expr.at]
    simp only [Nat.add_sub_cancel]
    rw [metaProd_ok _ _ x y]
    · rw [Matrix.mul_apply]
      congr 1
      refine Finset.sum_congr rfl fun k _ => ?_
      simp only [x, y, dif_pos k.2]
    · intro k hk
      have := ih1 i ⟨k, by omega⟩
      simp only [x, dif_pos (show k < L + 1 by omega)]
      exact this
    · intro k hk
      have := ih2 ⟨k, by omega⟩ j
      simp only [y, dif_pos (show k < L + 1 by omega)]
      exact this
  | diag h ih => rw [Expr.at, ih]; rfl

/-- **C83**: reading by one index goes row after row. -/
theorem C83_single_index {M N : Nat} {e : Expr K M N} {A : Matrix (Fin M) (Fin N) K} (h : e.Means A) (i : Fin M)
    (j : Fin N) : e.at1 (i * N + j) = .ok (A i j) := by
  rw [Expr.at1, if_neg (by have := j.2; omega), cell_div j.2, cell_mod j.2]
  exact C83_expression h i j

theorem assignR_ok {M N : Nat} (f : Buf K → Nat → Nat → Res K) (b0 : Buf K) (A : Matrix (Fin M) (Fin N) K)
    (hf : ∀ (b : Buf K) (i : Fin M) (j : Fin N), b.length = M * N → b[i.1 * N + j.1]? = b0[i.1 * N + j.1]? →
      f b i j = .ok (A i j)) (i : Fin M) (J : Nat) (hJ : J ≤ N) (b : Buf K) (hb : b.length = M * N)
    (hrow : ∀ j : Fin N, b[i.1 * N + j.1]? = b0[i.1 * N + j.1]?) :
    ∃ b', assignR M N f (i + 1) J b = .ok b' ∧ b'.length = M * N ∧
      (∀ j : Fin N, j.1 < J → b'[i.1 * N + j.1]? = some (some (A i j))) ∧
      (∀ j : Fin N, J ≤ j.1 → b'[i.1 * N + j.1]? = b0[i.1 * N + j.1]?) ∧
      ∀ (i' : Fin M) (j : Fin N), i' ≠ i → b'[i'.1 * N + j.1]? = b[i'.1 * N + j.1]? := by
  induction J with
  | zero => exact ⟨b, rfl, hb, by simp, fun j _ => hrow j, by simp⟩
  | succ J ih =>
    obtain ⟨b', e1, e2, e3, e4, e5⟩ := ih (by omega)
    have hJ' : J < N := by omega
    have hlt : i.1 * N + J < b'.length := by rw [e2]; exact cell_lt i.2 hJ'
    have hv := hf b' i ⟨J, hJ'⟩ e2 (e4 ⟨J, hJ'⟩ (le_refl _))
    simp only at hv
    refine ⟨b'.set (i.1 * N + J) (some (A i ⟨J, hJ'⟩)), ?_, by simp [e2], ?_, ?_, ?_⟩
    · rw [assignR, e1]
      simp only [Res.ok_bind, Nat.add_sub_cancel, hv, tput, if_pos (show i.1 < M ∧ J < N from ⟨i.2, hJ'⟩), Buf.write,
        if_pos hlt]
    · intro j hj
      by_cases h1 : j.1 = J
      · have : j = ⟨J, hJ'⟩ := Fin.ext h1
        subst this
        rw [List.getElem?_set_self hlt]
      · rw [List.getElem?_set_ne (by omega)]
        exact e3 j (by omega)
    · intro j hj
      rw [List.getElem?_set_ne (by omega)]
      exact e4 j (by omega)
    · intro i' j hi'
      rw [List.getElem?_set_ne]
      · exact e5 i' j hi'
      · intro he
        apply hi'
        have := congrArg (· / N) he
        simp only [cell_div hJ', cell_div j.2] at this
        exact (Fin.ext this).symm

theorem assign_ok {M N : Nat} (f : Buf K → Nat → Nat → Res K) (b0 : Buf K) (A : Matrix (Fin M) (Fin N) K)
    (hb : b0.length = M * N)
    (hf : ∀ (b : Buf K) (i : Fin M) (j : Fin N), b.length = M * N → b[i.1 * N + j.1]? = b0[i.1 * N + j.1]? →
      f b i j = .ok (A i j)) : ∃ b', assign M N f M b0 = .ok b' ∧ BufHolds b' A := by
  have key : ∀ I, I ≤ M → ∃ b', assign M N f I b0 = .ok b' ∧ b'.length = M * N ∧
      ∀ (i : Fin M) (j : Fin N), b'[i.1 * N + j.1]? = if i.1 < I then some (some (A i j)) else b0[i.1 * N + j.1]? := by
    intro I
    induction I with
    | zero => intro _; exact ⟨b0, rfl, hb, by simp⟩
    | succ I ih =>
      intro hI
      obtain ⟨b1, e1, e2, e3⟩ := ih (by omega)
      obtain ⟨b2, g1, g2, g3, -, g5⟩ := assignR_ok f b0 A hf ⟨I, by omega⟩ N (le_refl _) b1 e2
        (fun j => by rw [e3]; simp)
      refine ⟨b2, by rw [assign, e1]; exact g1, g2, ?_⟩
      intro i j
      by_cases h1 : i.1 = I
      · have : i = ⟨I, by omega⟩ := Fin.ext h1
        rw [this]
        rw [g3 j j.2]; simp
      · rw [g5 i j (by intro h; apply h1; rw [h]), e3]
        by_cases h2 : i.1 < I
        · rw [if_pos h2, if_pos (by omega)]
        · rw [if_neg h2, if_neg (by omega)]
  obtain ⟨b', e1, e2, e3⟩ := key M (le_refl _)
  exact ⟨b', e1, e2, fun i j => by rw [e3, if_pos i.2]⟩

theorem tget_of {M N : Nat} {b0 b : Buf K} {B : Matrix (Fin M) (Fin N) K} (hB : BufHolds b0 B) (i : Fin M) (j : Fin N)
    (h : b[i.1 * N + j.1]? = b0[i.1 * N + j.1]?) : tget M N b i j = .ok (B i j) := by
  rw [tget, if_pos ⟨i.2, j.2⟩, Buf.read, h, hB.2]

/-- **C83**: assignment of an expression, which may contain the matrix assigned to, and of sums and differences. -/
theorem C83_assign {M N : Nat} {e : Expr K M N} {A : Matrix (Fin M) (Fin N) K} (h : e.Means A) (b : Buf K)
    (hb : b.length = M * N) :
    (∃ b', tAssign b e = .ok b' ∧ BufHolds b' A) ∧
    ∀ B : Matrix (Fin M) (Fin N) K, BufHolds b B →
      (∃ b', tAdd b e = .ok b' ∧ BufHolds b' (B + A)) ∧ ∃ b', tSub b e = .ok b' ∧ BufHolds b' (B - A) := by
  refine ⟨assign_ok _ b A hb fun _ i j _ _ => C83_expression h i j, fun B hB => ⟨?_, ?_⟩⟩
  · exact assign_ok _ b _ hb fun b' i j _ hc => by rw [tget_of hB i j hc, C83_expression h i j]; rfl
  · exact assign_ok _ b _ hb fun b' i j _ hc => by rw [tget_of hB i j hc, C83_expression h i j]; rfl

/-- **C83**: a matrix of fixed size filled with a value, on the diagonal or everywhere; the array may be unset before. -/
theorem C83_fill {M N : Nat} (b : Buf K) (hb : b.length = M * N) (d : K) :
    (∃ b', tFill (M := M) (N := N) b d false = .ok b' ∧ BufHolds b' (Matrix.of fun (_ : Fin M) (_ : Fin N) => d)) ∧
    (∃ b', tFill (M := M) (N := N) b d true = .ok b' ∧
      BufHolds b' (Matrix.of fun (i : Fin M) (j : Fin N) => if i.1 = j.1 then d else 0)) ∧
    ∃ b', tSetD (M := M) (N := N) b d = .ok b' ∧ BufHolds b' (Matrix.of fun (_ : Fin M) (_ : Fin N) => d) := by
  refine ⟨?_, ?_, ?_⟩
  · exact assign_ok _ b _ hb fun _ i j _ _ => by simp
  · exact assign_ok _ b _ hb fun _ i j _ _ => by simp
  · exact assign_ok _ b _ hb fun _ i j _ _ => by simp

/-- **C83**: updates of a matrix of fixed size by itself or by a value. -/
theorem C83_update {M N : Nat} (b : Buf K) (B : Matrix (Fin M) (Fin N) K) (hB : BufHolds b B) (d : K) :
    (∃ b', tAddSelf (M := M) (N := N) b = .ok b' ∧ BufHolds b' (B + B)) ∧
    (∃ b', tSubSelf (M := M) (N := N) b = .ok b' ∧ BufHolds b' (0 : Matrix (Fin M) (Fin N) K)) ∧
    (∃ b', tAddD (M := M) (N := N) b d = .ok b' ∧ BufHolds b' (B + Matrix.of fun _ _ => d)) ∧
    (∃ b', tSubD (M := M) (N := N) b d = .ok b' ∧ BufHolds b' (B - Matrix.of fun _ _ => d)) ∧
    (∃ b', tMulD (M := M) (N := N) b d = .ok b' ∧ BufHolds b' (d • B)) ∧
    (d ≠ 0 → ∃ b', tDivD (M := M) (N := N) b d = .ok b' ∧ BufHolds b' (d⁻¹ • B)) := by
  have hb := hB.1
  refine ⟨?_, ?_, ?_, ?_, ?_, fun hd => ?_⟩
  · exact assign_ok _ b _ hb fun b' i j _ hc => by rw [tget_of hB i j hc]; rfl
  · exact assign_ok _ b _ hb fun b' i j _ hc => by rw [tget_of hB i j hc]; simp
  · exact assign_ok _ b _ hb fun b' i j _ hc => by rw [tget_of hB i j hc]; rfl
  · exact assign_ok _ b _ hb fun b' i j _ hc => by rw [tget_of hB i j hc]; simp [sub_eq_add_neg]
  · exact assign_ok _ b _ hb fun b' i j _ hc => by rw [tget_of hB i j hc]; simp [mul_comm]
  · exact assign_ok _ b _ hb fun b' i j _ hc => by rw [tget_of hB i j hc]; simp [mul_comm]

/-- A matrix replaced by its own transpose: nothing is read after it was written. -/
example : ∃ b' : Buf ℚ, tAssign (M := 2) (N := 2) ([1, 2, 3, 4].map some) (.trans (.mat ([1, 2, 3, 4].map some))) = .ok b' ∧
    BufHolds b' (Matrix.transpose !![1, 2; 3, 4]) := by
  have h : BufHolds ([1, 2, 3, 4].map some : Buf ℚ) !![1, 2; 3, 4] := by
    refine ⟨rfl, ?_⟩
    intro i j
    fin_cases i <;> fin_cases j <;> rfl
  exact (C83_assign (.trans (.mat h)) _ rfl).1

end
end OP.Mat
