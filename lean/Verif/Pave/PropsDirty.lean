import Verif.Pave.Dirty
import Verif.Pave.PropsQuad
import Mathlib.Analysis.Convex.Deriv
import Mathlib.Tactic.Linarith
import Mathlib.Tactic.FieldSimp
/-!
# C121: the dirty procedure integrates a piecewise linear interpolant
-/
namespace OP.Pave.Dirty
open List OP.Pave

/-- `P` is `T` up to the end of the early intervals, and from there on the piecewise linear interpolant of `T` through the values at
the points. -/
def Interpolates (pts : List ℝ) (a first : ℝ) (T P : ℝ → V4) : Prop :=
  ∀ lo hi, [lo, hi] <:+: pts → ∀ m, lo ≤ m → m ≤ hi →
    (hi * a ≤ first → P m = T m) ∧
    (¬ hi * a ≤ first → ∀ i, P m i = T lo i + (m - lo) / (hi - lo) * (T hi i - T lo i))

theorem contrib_eq (bs : Bessel) (l : Lim) (p : Pav) (disp : Bool) (a : ℝ) (x : Spot) (n : ℝ × ℝ) :
    contrib bs l p disp a x n = contribT bs (p.v x.il) disp a x (buildT l n.1 x.z (abcd l p n.1 x.il)) n := rfl

theorem foldl_add_congr {f f' : ℝ × ℝ → Ax} : ∀ (ns : List (ℝ × ℝ)) (s : Ax), (∀ n ∈ ns, f n = f' n) →
    ns.foldl (fun s n => s + f n) s = ns.foldl (fun s n => s + f' n) s
  | [], _, _ => rfl
  | n :: ns, s, h => by
    rw [foldl_cons, foldl_cons, h n (by simp)]
    exact foldl_add_congr ns _ fun n hn => h n (by simp [hn])

theorem panelStep_congr {f f' : ℝ × ℝ → Ax} (disp : Bool) (eps : ℝ) (q : Panel) (c : Cell) (h : ∀ n ∈ q.nodes, f n = f' n) :
    panelStep f disp eps q c = panelStep f' disp eps q c := by
  simp only [panelStep, foldl_add_congr q.nodes c.pend h]

theorem cut_cons (rule : List (ℝ × ℝ)) (a first : ℝ) (full : ℝ → Bool) (lo hi : ℝ) (rest : List ℝ) :
    cut rule a first full (lo :: hi :: rest) =
      { lo, hi, early := @decide (hi * a ≤ first) (Classical.dec _), full := full hi
        nodes := rule.map fun g => ((hi + lo) / 2 + g.1 * ((hi - lo) / 2), g.2 * ((hi - lo) / 2)) } ::
        cut rule a first full (hi :: rest) := rfl

theorem dirty_aux (bs : Bessel) (v : Nat → ℝ) (disp : Bool) (eps a first : ℝ) (rule : List (ℝ × ℝ)) (full : ℝ → Bool)
    (T P : ℝ → Nat → ℝ → V4) (hrule : ∀ g ∈ rule, -1 ≤ g.1 ∧ g.1 ≤ 1) : ∀ (pts : List ℝ) (g : List Entry),
    pts.Pairwise (· < ·) → (∀ z il, Interpolates pts a first (T z il) (P z il)) →
    ((∀ e ∈ g, ∀ lo, pts.head? = some lo → e.new = T e.spot.z e.spot.il lo) ∨ ∀ hi, pts[1]? = some hi → hi * a ≤ first) →
    (parts bs v disp eps a T (cut rule a first full pts) g).map (fun e => (e.spot, e.cell)) =
      panels (fun x n => contribT bs (v x.il) disp a x (P x.z x.il n.1) n) disp eps
        ((cut rule a first full pts).map fun q => ⟨q.nodes, q.full⟩) (g.map fun e => (e.spot, e.cell))
  | [], g, _, _, _ => by simp [cut, parts, panels]
  | [_], g, _, _, _ => by simp [cut, parts, panels]
  | lo :: hi :: rest, g, hs, hP, hg => by
    have hlt : lo < hi := (pairwise_cons.1 hs).1 hi (by simp)
    rw [cut_cons, parts, map_cons, panels]
    simp only [all_map, Function.comp_def]
    by_cases hex : (rule.map fun g : ℝ × ℝ => ((hi + lo) / 2 + g.1 * ((hi - lo) / 2), g.2 * ((hi - lo) / 2))) = [] ∨
        (g.all fun e => !e.cell.active) = true
    · rw [if_pos hex, if_pos hex]
    · rw [if_neg hex, if_neg hex, dirty_aux bs v disp eps a first rule full T P hrule (hi :: rest) _ (pairwise_cons.1 hs).2
        (fun z il lo' hi' h => hP z il lo' hi' (h.trans (suffix_cons _ _).isInfix)) ?_]
      · congr 1
        simp only [map_map]
        refine map_congr_left fun e he => ?_
        simp only [Function.comp_def, partStep, Prod.mk.injEq, true_and]
        refine panelStep_congr _ _ _ _ fun n hn => ?_
        obtain ⟨r, hr, rfl⟩ := mem_map.1 hn
        obtain ⟨h1, h2⟩ := hrule r hr
        obtain ⟨p1, p2⟩ := hP e.spot.z e.spot.il lo hi ⟨[], rest, rfl⟩ ((hi + lo) / 2 + r.1 * ((hi - lo) / 2))
          (by nlinarith) (by nlinarith)
        by_cases hf : hi * a ≤ first
        · rw [p1 hf]
          simp only [hf, decide_true, if_true]
        · have hnew : e.new = T e.spot.z e.spot.il lo := by
            rcases hg with hg | hg
            · exact hg e he lo rfl
            · exact absurd (hg hi rfl) hf
          simp only [hf, decide_false, Bool.false_eq_true, if_false, hnew]
          congr 1
          funext i
          rw [p2 hf i]
          have : hi - lo ≠ 0 := by linarith
          field_simp
          ring
      · left
        intro e he lo' hlo
        obtain ⟨e', -, rfl⟩ := mem_map.1 he
        simp only [head?_cons, Option.some.injEq] at hlo
        subst hlo
        rfl

/-- **C121**: with points in order, of which the second ends an early interval, the dirty procedure is the procedure of C71 with
the values at the wave numbers replaced by their piecewise linear interpolant, whatever `iT` held before. -/
theorem C121_dirty (bs : Bessel) (v : Nat → ℝ) (disp : Bool) (eps a first : ℝ) (rule : List (ℝ × ℝ)) (full : ℝ → Bool)
    (T P : ℝ → Nat → ℝ → V4) (hrule : ∀ g ∈ rule, -1 ≤ g.1 ∧ g.1 ≤ 1) (pts : List ℝ) (g : List Entry)
    (hs : pts.Pairwise (· < ·)) (hfirst : ∀ hi, pts[1]? = some hi → hi * a ≤ first)
    (hP : ∀ z il, Interpolates pts a first (T z il) (P z il)) :
    (parts bs v disp eps a T (cut rule a first full pts) g).map (fun e => (e.spot, e.cell)) =
      panels (fun x n => contribT bs (v x.il) disp a x (P x.z x.il n.1) n) disp eps
        ((cut rule a first full pts).map fun q => ⟨q.nodes, q.full⟩) (g.map fun e => (e.spot, e.cell)) :=
  dirty_aux bs v disp eps a first rule full T P hrule pts g hs hP (Or.inr hfirst)

/-- **C121**: there is such an interpolant for all points in order, and it has the values of the function at the points. -/
theorem C121_exists (a first : ℝ) (T : ℝ → V4) : ∀ pts : List ℝ, pts.Pairwise (· < ·) →
    ∃ P, Interpolates pts a first T P ∧ ∀ m ∈ pts, P m = T m
  | [], _ => ⟨T, by simp [Interpolates], fun _ _ => rfl⟩
  | [b], _ => ⟨T, fun lo hi h => absurd h.length_le (by simp), fun _ _ => rfl⟩
  | lo :: hi :: rest, hs => by
    have hlt : lo < hi := (pairwise_cons.1 hs).1 hi (by simp)
    obtain ⟨P, h1, h2⟩ := C121_exists a first T (hi :: rest) (pairwise_cons.1 hs).2
    have hd : hi - lo ≠ 0 := by linarith
    refine ⟨fun m => open Classical in if m < hi then (if hi * a ≤ first then T m else fun i =>
      T lo i + (m - lo) / (hi - lo) * (T hi i - T lo i)) else P m, ?_, ?_⟩
    · intro lo' hi' h m hm1 hm2
      rcases (infix_cons_iff.1 h) with h | h
      · obtain ⟨t, ht⟩ := h
        simp only [cons_append, nil_append, cons.injEq] at ht
        obtain ⟨rfl, rfl, -⟩ := ht
        by_cases hm : m < hi'
        · simp only [if_pos hm]
          exact ⟨fun hf => by rw [if_pos hf], fun hf i => by rw [if_neg hf]⟩
        · have : m = hi' := le_antisymm hm2 (not_lt.1 hm)
          subst this
          simp only [lt_irrefl, if_false, h2 m (by simp)]
          exact ⟨fun _ => trivial, fun _ i => by field_simp; ring⟩
      · have hl : hi ≤ lo' := by
          have hmem : lo' ∈ hi :: rest := h.subset (by simp)
          rcases mem_cons.1 hmem with rfl | hmem
          · exact le_refl _
          · exact ((pairwise_cons.1 (pairwise_cons.1 hs).2).1 _ hmem).le
        simp only [if_neg (not_lt.2 (hl.trans hm1))]
        exact h1 lo' hi' h m hm1 hm2
    · intro m hm
      rcases mem_cons.1 hm with rfl | hm
      · simp only [if_pos hlt]
        by_cases hf : hi * a ≤ first
        · rw [if_pos hf]
        · rw [if_neg hf]; funext i; simp
      · have : hi ≤ m := by
          rcases mem_cons.1 hm with rfl | hmem
          · exact le_refl _
          · exact ((pairwise_cons.1 (pairwise_cons.1 hs).2).1 _ hmem).le
        simp only [if_neg (not_lt.2 this)]
        exact h2 m hm

/-- **C121**: the results of the dirty procedure for a depth and a distance belong to the sum over the points of an initial part of
the intervals, with the interpolated values; unless that is all of them, the last block changed every sum by at most the fraction
`eps`. -/
theorem C121_results (bs : Bessel) (v : Nat → ℝ) (disp : Bool) (eps a E first : ℝ) (rule : List (ℝ × ℝ)) (full : ℝ → Bool)
    (T P : ℝ → Nat → ℝ → V4) (hne : rule ≠ []) (hrule : ∀ g ∈ rule, -1 ≤ g.1 ∧ g.1 ≤ 1) (pts : List ℝ) (g : List Entry)
    (hs : pts.Pairwise (· < ·)) (hfirst : ∀ hi, pts[1]? = some hi → hi * a ≤ first)
    (hP : ∀ z il, Interpolates pts a first (T z il) (P z il)) (hg : ∀ e ∈ g, e.cell = ⟨0, 0, true⟩) (k : Nat) (x : Spot)
    (hk : (g[k]?).map Entry.spot = some x) :
    let f := fun n : ℝ × ℝ => contribT bs (v x.il) disp a x (P x.z x.il n.1) n
    let qs : List Panel := (cut rule a first full pts).map fun q => ⟨q.nodes, q.full⟩
    ∃ e done block rest, (parts bs v disp eps a T (cut rule a first full pts) g)[k]? = some e ∧ e.spot = x ∧
      qs = done ++ block ++ rest ∧
      finalize disp x.r a (v x.il) E e.cell = physical disp x.r a (v x.il) E (total f (done ++ block)) ∧
      (rest = [] ∨ Small disp eps (total f block) (total f (done ++ block))) := by
  intro f qs
  have hq : ∀ q ∈ qs, q.nodes ≠ [] := by
    have : ∀ pts : List ℝ, ∀ q ∈ cut rule a first full pts, q.nodes ≠ [] := by
      intro pts
      induction pts with
      | nil => simp [cut]
      | cons lo t ih => cases t with
        | nil => simp [cut]
        | cons hi rest =>
          intro q h
          rw [cut_cons] at h
          rcases mem_cons.1 h with rfl | h
          · simpa using hne
          · exact ih q h
    intro q h
    obtain ⟨q', h', rfl⟩ := mem_map.1 h
    exact this pts q' h'
  have hd := C121_dirty bs v disp eps a first rule full T P hrule pts g hs hfirst hP
  rw [C71_independent _ _ _ _ _ hq] at hd
  have hd' := congrArg (fun l => l[k]?) hd
  simp only [getElem?_map] at hd'
  obtain ⟨e0, he0, hx⟩ := Option.map_eq_some_iff.1 hk
  rw [he0] at hd'
  simp only [Option.map_some] at hd'
  obtain ⟨e, he, hee⟩ := Option.map_eq_some_iff.1 hd'
  rw [Prod.mk.injEq] at hee
  obtain ⟨hsp, hc⟩ := hee
  have hc0 : e0.cell = ⟨0, 0, true⟩ := hg e0 (mem_of_getElem? he0)
  rw [hx, hc0] at hc
  have hf : ∀ n, Only disp (f n) := by
    intro n h
    simp [f, contribT, h]
  have hc' : e.cell = qs.foldl (fun c q => panelStep f disp eps q c) ⟨0, 0, true⟩ := hc
  rcases held f disp eps hf qs with ⟨-, done, block, hq', hs', hp'⟩ | ⟨-, h0, done, block, rest, hq', hs', hp', hsm⟩
  · refine ⟨e, done, block, [], he, hsp.trans hx, by rw [append_nil, hq'], ?_, Or.inl rfl⟩
    rw [hc', finalize_eq _ _ _ _ _ _ (by rw [hs']; exact only_total hf _) (by rw [hp']; exact only_total hf _), hs', hp',
      ← total_append]
  · refine ⟨e, done, block, rest, he, hsp.trans hx, hq', ?_, Or.inr hsm⟩
    rw [hc', finalize_eq _ _ _ _ _ _ (by rw [hs']; exact only_total hf _) (by rw [hp']; exact only_zero _), hs', hp', add_zero]

end OP.Pave.Dirty
