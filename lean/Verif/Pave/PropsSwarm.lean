import Verif.Pave.Swarm
import Verif.Lin.PropsOrth
import Mathlib.Tactic.Linarith
import Mathlib.Tactic.Ring
import Mathlib.Tactic.Positivity
import Mathlib.Tactic.NormNum
import Mathlib.Analysis.SpecialFunctions.Log.Basic
/-!
# C134: the particle swarm of the back-calculation
-/
namespace OP.Pave.Swarm

open OP.Lin Finset

variable {K : Type} [Field K] [LinearOrder K]

/-- What is known about the best points. -/
structure Best (f : (Nat → K) → K) (lg : K → K) (big : K) (s : Sw K) : Prop where
  own : ∀ p, s.E0 p = big ∨ (s.E0 p = lg (f (s.B p)) ∧ s.B p ∈ s.seen)
  all : (s.seen = [] ∧ s.derr = big) ∨
    (s.derr = f (s.B s.best) ∧ s.E0 s.best = lg s.derr ∧ s.B s.best ∈ s.seen ∧ ∀ y ∈ s.seen, s.derr ≤ f y)

theorem lookAt_best {f : (Nat → K) → K} {lg : K → K} {big : K} (mono : ∀ x y, lg (f x) < lg (f y) ↔ f x < f y)
    (hb : ∀ x, f x < big) (hlb : ∀ x, lg (f x) < big) {s : Sw K} (h : Best f lg big s) (p : Nat) :
    Best f lg big (lookAt f lg p s) ∧ (lookAt f lg p s).X = s.X ∧ (lookAt f lg p s).seen = s.X p :: s.seen ∧
      (lookAt f lg p s).E1 = set s.E1 p (lg (f (s.X p))) := by
  by_cases h2 : f (s.X p) < s.derr
  · have h1 : lg (f (s.X p)) < s.E0 p := by
      rcases h.own p with e | ⟨e, hm⟩
      · rw [e]; exact hlb _
      · rw [e, mono]
        rcases h.all with ⟨e', -⟩ | ⟨-, -, -, ha⟩
        · rw [e'] at hm; simp at hm
        · exact h2.trans_le (ha _ hm)
    have e : lookAt f lg p s = ⟨s.X, s.V, set s.B p (s.X p), set s.E0 p (lg (f (s.X p))), set s.E1 p (lg (f (s.X p))), p, f (s.X p),
        s.X p :: s.seen⟩ := by
      dsimp only [lookAt]
      rw [if_pos h1]
      dsimp only
      rw [if_pos h2]
    rw [e]
    refine ⟨⟨fun q => ?_, Or.inr ⟨?_, ?_, ?_, ?_⟩⟩, rfl, rfl, rfl⟩
    · dsimp only
      by_cases q1 : q = p
      · rw [q1, set_same, set_same]; exact Or.inr ⟨rfl, List.mem_cons_self⟩
      · rw [set_ne _ _ q1, set_ne _ _ q1]
        exact (h.own q).imp_right fun w => ⟨w.1, List.mem_cons_of_mem _ w.2⟩
    · dsimp only; rw [set_same]
    · dsimp only; rw [set_same]
    · dsimp only; rw [set_same]; exact List.mem_cons_self
    · intro y hy
      dsimp only at hy ⊢
      rcases List.mem_cons.1 hy with rfl | hy
      · exact le_rfl
      · rcases h.all with ⟨e', -⟩ | ⟨-, -, -, ha⟩
        · rw [e'] at hy; simp at hy
        · exact h2.le.trans (ha _ hy)
  · have hall : s.derr = f (s.B s.best) ∧ s.E0 s.best = lg s.derr ∧ s.B s.best ∈ s.seen ∧ ∀ y ∈ s.seen, s.derr ≤ f y := by
      rcases h.all with ⟨-, e'⟩ | w
      · exact absurd (hb (s.X p)) (by rw [← e']; exact h2)
      · exact w
    by_cases h1 : lg (f (s.X p)) < s.E0 p
    · have e : lookAt f lg p s = ⟨s.X, s.V, set s.B p (s.X p), set s.E0 p (lg (f (s.X p))), set s.E1 p (lg (f (s.X p))), s.best, s.derr,
          s.X p :: s.seen⟩ := by
        dsimp only [lookAt]
        rw [if_pos h1]
        dsimp only
        rw [if_neg h2]
      have hp : s.best ≠ p := by
        intro q
        rw [← q, hall.2.1, hall.1, mono, q, ← q, ← hall.1] at h1
        rw [← q] at h2
        exact h2 h1
      rw [e]
      refine ⟨⟨fun q => ?_, Or.inr ?_⟩, rfl, rfl, rfl⟩
      · dsimp only
        by_cases q1 : q = p
        · rw [q1, set_same, set_same]; exact Or.inr ⟨rfl, List.mem_cons_self⟩
        · rw [set_ne _ _ q1, set_ne _ _ q1]
          exact (h.own q).imp_right fun w => ⟨w.1, List.mem_cons_of_mem _ w.2⟩
      · dsimp only
        rw [set_ne _ _ hp, set_ne _ _ hp]
        refine ⟨hall.1, hall.2.1, List.mem_cons_of_mem _ hall.2.2.1, fun y hy => ?_⟩
        rcases List.mem_cons.1 hy with rfl | hy
        · exact not_lt.1 h2
        · exact hall.2.2.2 y hy
    · have e : lookAt f lg p s = { s with E1 := set s.E1 p (lg (f (s.X p))), seen := s.X p :: s.seen } := by
        dsimp only [lookAt]
        rw [if_neg h1]
        dsimp only
        rw [if_neg h2]
      rw [e]
      refine ⟨⟨fun q => (h.own q).imp_right fun w => ⟨w.1, List.mem_cons_of_mem _ w.2⟩, Or.inr ⟨hall.1, hall.2.1,
        List.mem_cons_of_mem _ hall.2.2.1, fun y hy => ?_⟩⟩, rfl, rfl, rfl⟩
      rcases List.mem_cons.1 hy with rfl | hy
      · exact not_lt.1 h2
      · exact hall.2.2.2 y hy

/-- The places stay between one and nine. -/
def Inside (nl : Nat) (x : Nat → K) : Prop := ∀ i < nl, 1 ≤ x i ∧ x i ≤ 9

theorem sweep_best {f : (Nat → K) → K} {lg : K → K} {big : K} (mono : ∀ x y, lg (f x) < lg (f y) ↔ f x < f y)
    (hb : ∀ x, f x < big) (hlb : ∀ x, lg (f x) < big) {s : Sw K} (h : Best f lg big s) {N nl : Nat}
    (hX : ∀ p, Inside nl (s.X p)) (hS : ∀ y ∈ s.seen, Inside nl y) :
    Best f lg big (sweep f lg N s) ∧ (sweep f lg N s).X = s.X ∧ (∀ p < N, (sweep f lg N s).E1 p = lg (f (s.X p))) ∧
      (∀ y ∈ (sweep f lg N s).seen, Inside nl y) ∧ (∀ p < N, s.X p ∈ (sweep f lg N s).seen) ∧
      (∀ y ∈ (sweep f lg N s).seen, y ∈ s.seen ∨ ∃ p < N, y = s.X p) := by
  refine loop_rule (f := lookAt f lg) (fun k t => Best f lg big t ∧ t.X = s.X ∧ (∀ p < k, t.E1 p = lg (f (s.X p))) ∧
    (∀ y ∈ t.seen, Inside nl y) ∧ (∀ p < k, s.X p ∈ t.seen) ∧ ∀ y ∈ t.seen, y ∈ s.seen ∨ ∃ p < k, y = s.X p) (Nat.zero_le N)
    ⟨h, rfl, fun p hp => absurd hp (Nat.not_lt_zero p), hS, fun p hp => absurd hp (Nat.not_lt_zero p), fun y hy => Or.inl hy⟩ ?_
  intro k t _ _ ⟨a, b, c, d, e, g⟩
  obtain ⟨q1, q2, q3, q4⟩ := lookAt_best mono hb hlb a k
  refine ⟨q1, q2.trans b, fun p hp => ?_, fun y hy => ?_, fun p hp => ?_, fun y hy => ?_⟩
  · rw [q4, b]
    by_cases w : p = k
    · rw [w, set_same]
    · rw [set_ne _ _ w]; exact c p (by omega)
  · rw [q3] at hy
    rcases List.mem_cons.1 hy with rfl | hy
    · rw [b]; exact hX k
    · exact d y hy
  · rw [q3]
    by_cases w : p = k
    · rw [w, b]; exact List.mem_cons_self
    · exact List.mem_cons_of_mem _ (e p (by omega))
  · rw [q3] at hy
    rcases List.mem_cons.1 hy with rfl | hy
    · exact Or.inr ⟨k, by omega, by rw [b]⟩
    · exact (g y hy).imp_right fun ⟨p, hp, e⟩ => ⟨p, by omega, e⟩

section Ord
variable [IsStrictOrderedRing K]

theorem root_ne {rt : K → K} (hrt : IsRoot0 rt) {nl : Nat} {x y : Nat → K} (h : ∃ i < nl, x i ≠ y i) :
    rt (loop 0 nl (fun i a => a + (x i - y i) * (x i - y i)) 0) ≠ 0 := by
  intro e
  rw [loop_add _ _ (Nat.zero_le _), zero_add] at e
  have hn : 0 ≤ ∑ i ∈ Ico 0 nl, (x i - y i) * (x i - y i) := sum_nonneg fun i _ => mul_self_nonneg _
  have := (hrt _ hn).2
  rw [e, mul_zero] at this
  obtain ⟨i, hi, hne⟩ := h
  have z := (sum_eq_zero_iff_of_nonneg fun i _ => mul_self_nonneg (x i - y i)).1 this.symm i (by simp [hi])
  exact hne (sub_eq_zero.1 (mul_self_eq_zero.1 z))

theorem pull_ok {rt : K → K} (hrt : IsRoot0 rt) {f : (Nat → K) → K} {lg : K → K} {big : K} {nl p : Nat}
    (hf : ∀ x y : Nat → K, (∀ i < nl, x i = y i) → f x = f y) (hlb : ∀ x, lg (f x) < big) {s : Sw K} (h : Best f lg big s)
    (h1 : s.E1 p = lg (f (s.X p))) (q : Nat) (v : Nat → K) : ∃ v', pull rt nl p s q v = .ok v' := by
  dsimp only [pull]
  split_ifs with a b
  · exact ⟨_, rfl⟩
  · exfalso
    refine root_ne hrt ?_ b
    by_contra w
    push Not at w
    rcases h.own q with e | ⟨e, -⟩
    · exact a (by rw [e, h1]; exact (hlb _).le)
    · exact a (by rw [e, h1, hf _ _ w])
  · exact ⟨_, rfl⟩

theorem moveOne_ok {rt : K → K} (hrt : IsRoot0 rt) {f : (Nat → K) → K} {lg : K → K} {big : K} {N nl p : Nat}
    (hf : ∀ x y : Nat → K, (∀ i < nl, x i = y i) → f x = f y) (hlb : ∀ x, lg (f x) < big) {t : Sw K × K} (h : Best f lg big t.1)
    (h1 : t.1.E1 p = lg (f (t.1.X p))) : ∃ t', moveOne rt N nl p t = .ok t' ∧ Best f lg big t'.1 ∧ t'.1.E1 = t.1.E1 ∧
      t'.1.seen = t.1.seen ∧ (∀ q ≠ p, t'.1.X q = t.1.X q) ∧ Inside nl (t'.1.X p) := by
  obtain ⟨v, ev, -⟩ := loopM_total (f := pull rt nl p t.1) (fun _ _ => True) (Nat.zero_le N) (s := fun i => t.1.V p i * 0) trivial
    (fun q v _ _ _ => (pull_ok hrt hf hlb h h1 q v).imp fun _ w => ⟨w, trivial⟩)
  simp only [moveOne, ev, Res.ok_bind]
  refine ⟨_, rfl, ⟨h.own, h.all⟩, rfl, rfl, fun q hq => set_ne _ _ hq, fun i hi => ?_⟩
  dsimp only
  rw [set_same]
  simp only [if_pos hi]
  exact ⟨le_min (le_max_left _ _) (by norm_num), min_le_right _ _⟩

theorem moves_ok {rt : K → K} (hrt : IsRoot0 rt) {f : (Nat → K) → K} {lg : K → K} {big : K} {N nl : Nat}
    (hf : ∀ x y : Nat → K, (∀ i < nl, x i = y i) → f x = f y) (hlb : ∀ x, lg (f x) < big) {s : Sw K} (h : Best f lg big s)
    (h1 : ∀ p < N, s.E1 p = lg (f (s.X p))) (hX : ∀ p, Inside nl (s.X p)) : ∃ t, loopM 0 N (moveOne rt N nl) (s, 0) = .ok t ∧
      Best f lg big t.1 ∧ t.1.seen = s.seen ∧ ∀ p, Inside nl (t.1.X p) := by
  obtain ⟨t, e, h2⟩ := loopM_total (f := moveOne rt N nl) (fun k t => Best f lg big t.1 ∧ t.1.E1 = s.E1 ∧ t.1.seen = s.seen ∧
      (∀ q, k ≤ q → t.1.X q = s.X q) ∧ ∀ q, Inside nl (t.1.X q)) (Nat.zero_le N) (s := (s, 0)) ⟨h, rfl, rfl, fun _ _ => rfl, hX⟩ (by
    intro p t _ hp ⟨a, b, c, d, e⟩
    obtain ⟨t', e1, e2, e3, e4, e5, e6⟩ := moveOne_ok (p := p) (N := N) hrt hf hlb a (by rw [b, d p le_rfl]; exact h1 p hp)
    refine ⟨t', e1, e2, e3.trans b, e4.trans c, fun q hq => by rw [e5 q (by omega), d q (by omega)], fun q => ?_⟩
    by_cases w : q = p
    · rw [w]; exact e6
    · rw [e5 q w]; exact e q)
  exact ⟨t, e, h2.1, h2.2.2.1, h2.2.2.2.2⟩

theorem swarmLoop_ok {rt : K → K} (hrt : IsRoot0 rt) {f : (Nat → K) → K} {lg : K → K} {big lim tol : K} {N nl : Nat}
    (hf : ∀ x y : Nat → K, (∀ i < nl, x i = y i) → f x = f y) (mono : ∀ x y, lg (f x) < lg (f y) ↔ f x < f y)
    (hb : ∀ x, f x < big) (hlb : ∀ x, lg (f x) < big) : ∀ (k : Nat) (s : Sw K), Best f lg big s → (∀ p, Inside nl (s.X p)) →
      (∀ y ∈ s.seen, Inside nl y) → ∃ t, swarmLoop rt f lg lim tol N nl k s = .ok t ∧ Best f lg big t ∧ (∀ y ∈ t.seen, Inside nl y) ∧
        (∀ y ∈ s.seen, y ∈ t.seen) ∧ (0 < k → ∀ p < N, s.X p ∈ t.seen)
  | 0, s, h, _, hS => ⟨s, rfl, h, hS, fun _ q => q, fun q => absurd q (by omega)⟩
  | k + 1, s, h, hX, hS => by
    obtain ⟨a, b, c, d, e, -⟩ := sweep_best mono hb hlb h (N := N) hX hS
    have keep : ∀ y ∈ s.seen, y ∈ (sweep f lg N s).seen := by
      intro y hy
      have := loop_rule (f := lookAt f lg) (fun _ t => y ∈ t.seen) (Nat.zero_le N) hy (by
        intro k t _ _ q
        have : (lookAt f lg k t).seen = t.X k :: t.seen := by
          dsimp only [lookAt]; split_ifs <;> rfl
        rw [this]; exact List.mem_cons_of_mem _ q)
      exact this
    simp only [swarmLoop]
    split_ifs with q
    · exact ⟨_, rfl, a, d, keep, fun _ => e⟩
    · obtain ⟨t, e1, e2, e3, e4⟩ := moves_ok (N := N) hrt hf hlb a (by rw [b]; exact c) (by rw [b]; exact hX)
      simp only [e1, Res.ok_bind]
      split_ifs with q'
      · exact ⟨_, rfl, e2, by rw [e3]; exact d, by rw [e3]; exact keep, fun _ => by rw [e3]; exact e⟩
      · obtain ⟨u, u1, u2, u3, u4, -⟩ := swarmLoop_ok hrt hf mono hb hlb k t.1 e2 e4 (by rw [e3]; exact d)
        rw [e3] at u4
        exact ⟨u, u1, u2, u3, fun y hy => u4 y (keep y hy), fun _ p hp => u4 _ (e p hp)⟩

theorem scatter_in (big : K) (P : Nat → K) (u g : Nat → Nat → K) {nl : Nat} (hP : ∀ i < nl, 1 ≤ P i ∧ P i ≤ 9)
    (hu : ∀ p i, 0 ≤ u p i ∧ u p i ≤ 1) (p i : Nat) (hi : i < nl) : 2 ≤ (scatter big P u g).X p i ∧ (scatter big P u g).X p i ≤ 8 := by
  obtain ⟨p1, p2⟩ := hP i hi
  obtain ⟨u1, u2⟩ := hu p i
  dsimp only [scatter]
  have h1 : 2 ≤ max 2 (P i - 6) := le_max_left _ _
  have h2 : min (P i + 4) 8 ≤ 8 := min_le_right _ _
  have h3 : max 2 (P i - 6) ≤ min (P i + 4) 8 := max_le (le_min (by linarith) (by norm_num)) (le_min (by linarith) (by linarith))
  constructor
  · have := mul_nonneg (sub_nonneg.2 h3) u1
    linarith
  · have := mul_le_mul_of_nonneg_left u2 (sub_nonneg.2 h3)
    linarith

/-- **C134**: from every start between one and nine, with whatever random numbers, and for every error function (`big` is the largest
double, and the logarithm is taken to grow strictly), the swarm ends without dividing by zero.  All places tried lie between one and
nine, and the new logarithms are the best of them; no place tried has a smaller error. -/
theorem C134_best {rt : K → K} (hrt : IsRoot0 rt) (f : (Nat → K) → K) (lg : K → K) (big lim tol : K) (N nl : Nat) (hN : 0 < N)
    (hf : ∀ x y : Nat → K, (∀ i < nl, x i = y i) → f x = f y) (mono : ∀ x y, lg (f x) < lg (f y) ↔ f x < f y)
    (hb : ∀ x, f x < big) (hlb : ∀ x, lg (f x) < big) (u g : Nat → Nat → K) (hu : ∀ p i, 0 ≤ u p i ∧ u p i ≤ 1) (P : Nat → K)
    (hP : ∀ i < nl, 1 ≤ P i ∧ P i ≤ 9) :
    ∃ Q len s, swarm rt f lg big lim tol N nl u g P = .ok (Q, len, s) ∧ (∀ i < nl, 1 ≤ Q i ∧ Q i ≤ 9) ∧
      (∃ y ∈ s.seen, ∀ i < nl, Q i = y i) ∧ (∀ y ∈ s.seen, f Q ≤ f y) ∧
      (∀ p < N, (fun i => max 2 (P i - 6) + (min (P i + 4) 8 - max 2 (P i - 6)) * u p i) ∈ s.seen) ∧
      len = rt (∑ i ∈ range nl, (P i - Q i) ^ 2) := by
  have hX : ∀ p, Inside nl ((scatter big P u g).X p) := fun p i hi => by
    have := scatter_in big P u g hP hu p i hi
    constructor <;> linarith [this.1, this.2]
  obtain ⟨s, e, s1, s2, -, s3⟩ := swarmLoop_ok (lim := lim) (tol := tol) (N := N) hrt hf mono hb hlb 10000 (scatter big P u g)
    ⟨fun p => Or.inl rfl, Or.inl ⟨rfl, rfl⟩⟩ hX (fun y hy => by simp [scatter] at hy)
  have s3 := s3 (by omega)
  have hs := s1.all.resolve_left (fun q => by
    have := s3 0 hN
    rw [q.1] at this
    simp at this)
  have hin : Inside nl (s.B s.best) := s2 _ hs.2.2.1
  have hQ : ∀ i < nl, min (max 1 (s.B s.best i)) 9 = s.B s.best i := fun i hi => by
    rw [max_eq_right (hin i hi).1, min_eq_left (hin i hi).2]
  refine ⟨fun i => if i < nl then min (max 1 (s.B s.best i)) 9 else P i,
    rt (loop 0 nl (fun i a => a + (P i - s.B s.best i) * (P i - s.B s.best i)) 0), s, by unfold swarm; rw [e]; rfl, fun i hi => ?_, ⟨s.B s.best, hs.2.2.1, fun i hi => ?_⟩, fun y hy => ?_, s3, ?_⟩
  · simp only [if_pos hi, hQ i hi]; exact hin i hi
  · simp only [if_pos hi, hQ i hi]
  · rw [hf _ (s.B s.best) (fun i hi => by simp only [if_pos hi, hQ i hi]), ← hs.1]
    exact hs.2.2.2 y hy
  · rw [loop_add _ _ (Nat.zero_le _), zero_add, range_eq_Ico]
    congr 1
    refine sum_congr rfl fun i hi => ?_
    rw [mem_Ico] at hi
    simp only [if_pos hi.2, hQ i hi.2]
    ring

/-- **C134** (the end): if one of the starting places has an error below the limit, no other places than these are tried, and the result has an error below the limit. -/
theorem C134_stop {rt : K → K} (hrt : IsRoot0 rt) (f : (Nat → K) → K) (lg : K → K) (big lim tol : K) (N nl : Nat)
    (hf : ∀ x y : Nat → K, (∀ i < nl, x i = y i) → f x = f y) (mono : ∀ x y, lg (f x) < lg (f y) ↔ f x < f y)
    (hb : ∀ x, f x < big) (hlb : ∀ x, lg (f x) < big) (u g : Nat → Nat → K) (hu : ∀ p i, 0 ≤ u p i ∧ u p i ≤ 1) (P : Nat → K)
    (hP : ∀ i < nl, 1 ≤ P i ∧ P i ≤ 9)
    (hl : ∃ p < N, f (fun i => max 2 (P i - 6) + (min (P i + 4) 8 - max 2 (P i - 6)) * u p i) < lim) :
    ∃ Q len s, swarm rt f lg big lim tol N nl u g P = .ok (Q, len, s) ∧ f Q < lim ∧
      ∀ y ∈ s.seen, ∃ p < N, y = fun i => max 2 (P i - 6) + (min (P i + 4) 8 - max 2 (P i - 6)) * u p i := by
  obtain ⟨p, hp, hl⟩ := hl
  obtain ⟨Q, len, s, e, -, -, h1, h2, -⟩ := C134_best hrt f lg big lim tol N nl (by omega) hf mono hb hlb u g hu P hP
  refine ⟨Q, len, s, e, (h1 _ (h2 p hp)).trans_lt hl, ?_⟩
  have hX : ∀ p, Inside nl ((scatter big P u g).X p) := fun p i hi => by
    have := scatter_in big P u g hP hu p i hi
    constructor <;> linarith [this.1, this.2]
  obtain ⟨a, -, -, -, m, o⟩ := sweep_best (s := scatter big P u g) (N := N) (nl := nl) mono hb hlb ⟨fun p => Or.inl rfl, Or.inl ⟨rfl, rfl⟩⟩ hX
    (fun y hy => by simp [scatter] at hy)
  have hs := a.all.resolve_left (fun q => by
    have := m p hp
    rw [q.1] at this
    simp at this)
  have h3 : (sweep f lg N (scatter big P u g)).derr < lim := by
    rw [hs.1]
    exact (hs.1 ▸ hs.2.2.2 _ (m p hp)).trans_lt hl
  have h4 : swarmLoop rt f lg lim tol N nl 10000 (scatter big P u g) = .ok (sweep f lg N (scatter big P u g)) := by
    rw [show (10000 : Nat) = 9999 + 1 from rfl, swarmLoop, if_pos h3]
  unfold swarm at e
  rw [h4, Res.ok_bind] at e
  cases e
  intro y hy
  exact (o y hy).resolve_left (fun w => by simp [scatter] at w)

/-- The particles stay where they are when all errors are the same. -/
theorem moves_still {rt : K → K} (hrt : IsRoot0 rt) {f : (Nat → K) → K} {lg : K → K} {big e : K} {N nl : Nat}
    (hlb : ∀ x, lg (f x) < big) {s : Sw K} (h : Best f lg big s) (h1 : ∀ p < N, s.E1 p = lg (f (s.X p)))
    (hX : ∀ p, Inside nl (s.X p)) (he : ∀ y ∈ s.seen, f y = e) (hm : ∀ p < N, s.X p ∈ s.seen) :
    ∃ t, loopM 0 N (moveOne rt N nl) (s, 0) = .ok (t, 0) ∧ Best f lg big t ∧ t.seen = s.seen := by
  have hr0 : rt 0 = 0 := mul_self_eq_zero.1 (hrt 0 le_rfl).2
  obtain ⟨t, e', h2⟩ := loopM_total (f := moveOne rt N nl) (fun _ t => Best f lg big t.1 ∧ t.1.E1 = s.E1 ∧ t.1.seen = s.seen ∧
      t.1.X = s.X ∧ t.2 = 0) (Nat.zero_le N) (s := (s, 0)) ⟨h, rfl, rfl, rfl, rfl⟩ (by
    intro p t _ hp ⟨a, b, c, d, g⟩
    have hv : loopM 0 N (pull rt nl p t.1) (fun i => t.1.V p i * 0) = .ok (fun _ => 0) := by
      obtain ⟨v, ev, hv⟩ := loopM_total (f := pull rt nl p t.1) (fun _ v => v = fun _ => 0) (Nat.zero_le N)
        (s := fun i => t.1.V p i * 0) (by funext i; exact mul_zero _) (by
          intro q v _ _ hv
          refine ⟨v, ?_, hv⟩
          dsimp only [pull]
          rw [if_pos]
          rw [b, h1 p hp, he _ (hm p hp)]
          rcases a.own q with w | ⟨w, w'⟩
          · have := hlb (s.X p)
            rw [he _ (hm p hp)] at this
            rw [w]; exact this.le
          · rw [c] at w'
            rw [w, he _ w'])
      rw [ev, hv]
    have hx : ∀ i, (if i < nl then min (max 1 (t.1.X p i + (0 : K) / max 1 (rt (loop 0 nl (fun _ a => a + 0 * 0) 0)))) 9
        else t.1.X p i) = t.1.X p i := by
      intro i
      split_ifs with hi
      · rw [zero_div, add_zero, d, max_eq_right (hX p i hi).1, min_eq_left (hX p i hi).2]
      · rfl
    have hz : loop 0 nl (fun i a => a + (t.1.X p i - t.1.X p i) * (t.1.X p i - t.1.X p i)) (0 : K) = 0 := by
      rw [loop_add _ _ (Nat.zero_le _), zero_add]
      exact sum_eq_zero fun i _ => by rw [sub_self, mul_zero]
    simp only [moveOne, hv, Res.ok_bind]
    refine ⟨_, rfl, ⟨a.own, a.all⟩, b, c, ?_, ?_⟩
    · dsimp only
      rw [funext hx, ← d]
      funext q
      by_cases w : q = p
      · rw [w, set_same]
      · rw [set_ne _ _ w]
    · dsimp only
      rw [g, zero_add]
      simp only [hx]
      rw [hz, hr0, zero_div])
  obtain ⟨t1, t2⟩ := t
  obtain ⟨a, -, c, -, g⟩ := h2
  dsimp only at a c g
  exact ⟨t1, by rw [e', g], a, c⟩

/-- **C134**, the place where the code fails: the moduli the swarm starts from are not among those it tries.  If the error is the same
everywhere but smaller at the start, and no random particle hits the start, the swarm returns moduli with a larger error than it was
given. -/
theorem C134_start_wrong {rt : K → K} (hrt : IsRoot0 rt) (lg : K → K) (big lim tol e e' : K) (N nl : Nat) (hN : 0 < N) (he : e' < e)
    (hl : lg e' < lg e) (hb : e < big) (hlb : lg e < big) (ht : 0 < tol) (u g : Nat → Nat → K) (hu : ∀ p i, 0 ≤ u p i ∧ u p i ≤ 1)
    (P : Nat → K) (hP : ∀ i < nl, 1 ≤ P i ∧ P i ≤ 9)
    (hit : ∀ p < N, ∃ i < nl, max 2 (P i - 6) + (min (P i + 4) 8 - max 2 (P i - 6)) * u p i ≠ P i) (f : (Nat → K) → K)
    (fP : ∀ x, (∀ i < nl, x i = P i) → f x = e') (fx : ∀ x, (∃ i < nl, x i ≠ P i) → f x = e) :
    ∃ Q len s, swarm rt f lg big lim tol N nl u g P = .ok (Q, len, s) ∧ f P < f Q := by
  have two : ∀ x, f x = e ∨ f x = e' := fun x => by
    by_cases w : ∀ i < nl, x i = P i
    · exact Or.inr (fP x w)
    · push Not at w; exact Or.inl (fx x w)
  have mono : ∀ x y, lg (f x) < lg (f y) ↔ f x < f y := fun x y => by
    rcases two x with a | a <;> rcases two y with b | b <;> rw [a, b]
    · exact ⟨fun q => absurd q (lt_irrefl _), fun q => absurd q (lt_irrefl _)⟩
    · exact ⟨fun q => absurd (q.trans hl) (lt_irrefl _), fun q => absurd (q.trans he) (lt_irrefl _)⟩
    · exact ⟨fun _ => he, fun _ => hl⟩
    · exact ⟨fun q => absurd q (lt_irrefl _), fun q => absurd q (lt_irrefl _)⟩
  have hb' : ∀ x, f x < big := fun x => by rcases two x with a | a <;> rw [a]; exacts [hb, he.trans hb]
  have hlb' : ∀ x, lg (f x) < big := fun x => by rcases two x with a | a <;> rw [a]; exacts [hlb, hl.trans hlb]
  have hX : ∀ p, Inside nl ((scatter big P u g).X p) := fun p i hi => by
    have := scatter_in big P u g hP hu p i hi
    constructor <;> linarith [this.1, this.2]
  obtain ⟨a, b, c, d, m, o⟩ := sweep_best (s := scatter big P u g) (N := N) mono hb' hlb' ⟨fun p => Or.inl rfl, Or.inl ⟨rfl, rfl⟩⟩ hX
    (fun y hy => by simp [scatter] at hy)
  have same : ∀ y ∈ (sweep f lg N (scatter big P u g)).seen, f y = e := fun y hy => by
    rcases o y hy with w | ⟨p, hp, rfl⟩
    · simp [scatter] at w
    · exact fx _ (hit p hp)
  have key : ∀ k, ∃ s, swarmLoop rt f lg lim tol N nl (k + 1) (scatter big P u g) = .ok s ∧ Best f lg big s ∧
      s.seen = (sweep f lg N (scatter big P u g)).seen := by
    intro k
    simp only [swarmLoop]
    split_ifs with q
    · exact ⟨_, rfl, a, rfl⟩
    · obtain ⟨t, t1, t2, t3⟩ := moves_still (e := e) (N := N) hrt hlb' a (by rw [b]; exact c) (by rw [b]; exact hX) same
        (by rw [b]; exact m)
      simp only [t1, Res.ok_bind, if_pos ht]
      exact ⟨t, rfl, t2, t3⟩
  obtain ⟨s, s1, s2, s3⟩ := key 9999
  have hs := s2.all.resolve_left (fun q => by
    have := m 0 hN
    rw [← s3, q.1] at this
    simp at this)
  have hmem := hs.2.2.1
  rw [s3] at hmem
  refine ⟨fun i => if i < nl then min (max 1 (s.B s.best i)) 9 else P i,
    rt (loop 0 nl (fun i a => a + (P i - s.B s.best i) * (P i - s.B s.best i)) 0), s, by unfold swarm; rw [s1]; rfl, ?_⟩
  rw [fP P (fun _ _ => rfl), fx _ ?_]
  · exact he
  · rcases o _ hmem with w | ⟨p, hp, w⟩
    · simp [scatter] at w
    · obtain ⟨i, hi, hne⟩ := hit p hp
      refine ⟨i, hi, ?_⟩
      have hin := d _ hmem i hi
      simp only [if_pos hi]
      rw [max_eq_right hin.1, min_eq_left hin.2, w]
      exact hne

end Ord

/-- Two particles, one layer: the error is the distance to four plus one, the logarithm the real one. -/
example : ∃ Q len s, swarm Real.sqrt (fun x => |max 1 (min (x 0) 9) - 4| + 1) Real.log 1000 0 (1 / 100) 2 1 (fun p _ => if p = 0 then 0 else 1)
    (fun _ _ => 0) (fun _ => 5) = .ok (Q, len, s) ∧ (∀ y ∈ s.seen, |max 1 (min (Q 0) 9) - 4| + 1 ≤ |max 1 (min (y 0) 9) - 4| + 1) := by
  have pos : ∀ x : Nat → ℝ, 0 < |max 1 (min (x 0) 9) - 4| + 1 := fun x => by positivity
  have up : ∀ x : Nat → ℝ, |max 1 (min (x 0) 9) - 4| + 1 < 1000 := fun x => by
    have h1 : 1 ≤ max 1 (min (x 0) 9) := le_max_left _ _
    have h2 : max 1 (min (x 0) 9) ≤ 9 := max_le (by norm_num) (min_le_right _ _)
    have : |max 1 (min (x 0) 9) - 4| ≤ 5 := abs_le.2 ⟨by linarith, by linarith⟩
    linarith
  obtain ⟨Q, len, s, h1, -, -, h2, -⟩ := C134_best (rt := Real.sqrt) (fun x hx => ⟨Real.sqrt_nonneg x, Real.mul_self_sqrt hx⟩)
    (fun x => |max 1 (min (x 0) 9) - 4| + 1) Real.log 1000 0 (1 / 100) 2 1 (by norm_num) (fun x y h => by rw [h 0 (by norm_num)])
    (fun x y => Real.log_lt_log_iff (pos x) (pos y)) up (fun x => by
      have := Real.log_le_sub_one_of_pos (pos x)
      linarith [up x]) (fun p _ => if p = 0 then 0 else 1) (fun _ _ => 0) (fun p i => by split_ifs <;> norm_num) (fun _ => 5)
    (fun i _ => by norm_num)
  exact ⟨Q, len, s, h1, h2⟩

/-- The same with the limit ten: the first place, 2, has the error three, and the search ends at once. -/
example : ∃ Q len s, swarm Real.sqrt (fun x => |max 1 (min (x 0) 9) - 4| + 1) Real.log 1000 10 (1 / 100) 2 1 (fun p _ => if p = 0 then 0 else 1)
    (fun _ _ => 0) (fun _ => 5) = .ok (Q, len, s) ∧ |max 1 (min (Q 0) 9) - 4| + 1 < 10 := by
  have pos : ∀ x : Nat → ℝ, 0 < |max 1 (min (x 0) 9) - 4| + 1 := fun x => by positivity
  have up : ∀ x : Nat → ℝ, |max 1 (min (x 0) 9) - 4| + 1 < 10 := fun x => by
    have h1 : 1 ≤ max 1 (min (x 0) 9) := le_max_left _ _
    have h2 : max 1 (min (x 0) 9) ≤ 9 := max_le (by norm_num) (min_le_right _ _)
    have : |max 1 (min (x 0) 9) - 4| ≤ 5 := abs_le.2 ⟨by linarith, by linarith⟩
    linarith
  obtain ⟨Q, len, s, h1, h2, -⟩ := C134_stop (rt := Real.sqrt) (fun x hx => ⟨Real.sqrt_nonneg x, Real.mul_self_sqrt hx⟩)
    (fun x => |max 1 (min (x 0) 9) - 4| + 1) Real.log 1000 10 (1 / 100) 2 1 (fun x y h => by rw [h 0 (by norm_num)])
    (fun x y => Real.log_lt_log_iff (pos x) (pos y)) (fun x => by linarith [up x]) (fun x => by
      have := Real.log_le_sub_one_of_pos (pos x)
      linarith [up x]) (fun p _ => if p = 0 then 0 else 1) (fun _ _ => 0) (fun p i => by split_ifs <;> norm_num) (fun _ => 5)
    (fun i _ => by norm_num) ⟨0, by norm_num, up fun _ => max 2 (5 - 6) + (min (5 + 4) 8 - max 2 (5 - 6)) * if (0 : Nat) = 0 then 0 else 1⟩
  exact ⟨Q, len, s, h1, h2⟩

open Classical in
/-- A start at modulus 10⁵ with the particles at 10² and 10⁸: the swarm loses the exact answer. -/
example : ∃ Q len s, swarm Real.sqrt (fun x => if x 0 = 5 then 1 else 10) Real.log 1000 0 (1 / 100) 2 1
    (fun p _ => if p = 0 then 0 else 1) (fun _ _ => 0) (fun _ => 5) = .ok (Q, len, s) ∧ (1 : ℝ) < if Q 0 = 5 then 1 else 10 := by
  obtain ⟨Q, len, s, h1, h2⟩ := C134_start_wrong (rt := Real.sqrt) (fun x hx => ⟨Real.sqrt_nonneg x, Real.mul_self_sqrt hx⟩)
    Real.log 1000 0 (1 / 100) 10 1 2 1 (by norm_num) (by norm_num) (Real.log_lt_log (by norm_num) (by norm_num)) (by norm_num)
    (by have := Real.log_le_sub_one_of_pos (x := 10) (by norm_num); linarith) (by norm_num) (fun p _ => if p = 0 then 0 else 1)
    (fun _ _ => 0) (fun p i => by split_ifs <;> norm_num) (fun _ => 5) (fun i _ => by norm_num)
    (fun p _ => ⟨0, by norm_num, by split_ifs <;> norm_num⟩) (fun x => if x 0 = 5 then 1 else 10)
    (fun x h => if_pos (h 0 (by norm_num))) (fun x ⟨i, hi, h⟩ => if_neg (by rw [show i = 0 by omega] at h; exact h))
  refine ⟨Q, len, s, h1, ?_⟩
  simpa using h2

end OP.Pave.Swarm
