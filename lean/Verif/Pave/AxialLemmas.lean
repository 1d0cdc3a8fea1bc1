import Verif.Pave.Axial
import Verif.Pave.PrincLemmas
/-!
# Lemmas on the axisymmetric results
-/
namespace OP.Pave

open List

namespace Ax
theorem ext6 {a b : Ax} (h : a.vse = b.vse ∧ a.rse = b.rse ∧ a.tse = b.tse ∧ a.sse = b.sse ∧ a.rdp = b.rdp ∧ a.vdp = b.vdp) :
    a = b := Ax.ext h.1 h.2.1 h.2.2.1 h.2.2.2.1 h.2.2.2.2.1 h.2.2.2.2.2
@[simp] theorem zvse : (0 : Ax).vse = 0 := rfl
@[simp] theorem zrse : (0 : Ax).rse = 0 := rfl
@[simp] theorem ztse : (0 : Ax).tse = 0 := rfl
@[simp] theorem zsse : (0 : Ax).sse = 0 := rfl
@[simp] theorem zrdp : (0 : Ax).rdp = 0 := rfl
@[simp] theorem zvdp : (0 : Ax).vdp = 0 := rfl
@[simp] theorem avse (a b : Ax) : (a + b).vse = a.vse + b.vse := rfl
@[simp] theorem arse (a b : Ax) : (a + b).rse = a.rse + b.rse := rfl
@[simp] theorem atse (a b : Ax) : (a + b).tse = a.tse + b.tse := rfl
@[simp] theorem asse (a b : Ax) : (a + b).sse = a.sse + b.sse := rfl
@[simp] theorem ardp (a b : Ax) : (a + b).rdp = a.rdp + b.rdp := rfl
@[simp] theorem avdp (a b : Ax) : (a + b).vdp = a.vdp + b.vdp := rfl

instance : AddCommMonoid Ax where
  add_assoc a b c := by ext <;> simp [add_assoc]
  zero_add a := by ext <;> simp
  add_zero a := by ext <;> simp
  add_comm a b := by ext <;> simp [add_comm]
  nsmul := nsmulRec
end Ax

/-! ## addtodata -/

theorem addtodata_x (disp : Bool) (s : Ax) (d : PD) (l : Load) (r : ℝ) : (addtodata disp s d l r).x = d.x := by
  simp only [addtodata]; split_ifs <;> rfl

theorem addtodata_y (disp : Bool) (s : Ax) (d : PD) (l : Load) (r : ℝ) : (addtodata disp s d l r).y = d.y := by
  simp only [addtodata]; split_ifs <;> rfl

theorem addtodata_uz (disp : Bool) (s : Ax) (d : PD) (l : Load) (r : ℝ) :
    (addtodata disp s d l r).uz = d.uz + l.pressure * s.vdp := by
  simp only [addtodata]; split_ifs <;> rfl

theorem sgn_unit (t : ℝ) (h : t ^ 2 = 1) : sgn t = t := by
  unfold sgn
  rcases mul_self_eq_one_iff.1 ((sq t).symm.trans h) with h | h
  · rw [if_neg (by linarith), h]
  · rw [if_pos (by linarith), h]

theorem distance_sq (l : Load) (x y : ℝ) : l.distance x y ^ 2 = (x - l.x) ^ 2 + (y - l.y) ^ 2 := by
  unfold Load.distance hyp2
  rw [Real.sq_sqrt (by positivity)]
  ring

theorem distance_nonneg (l : Load) (x y : ℝ) : 0 ≤ l.distance x y := Real.sqrt_nonneg _

/-- All branches off the axis of the load do the same. -/
theorem addtodata_general (s : Ax) (d : PD) (l : Load) (h : l.distance d.x d.y ≠ 0) :
    let r := l.distance d.x d.y
    let c := (d.x - l.x) / r
    let t := (d.y - l.y) / r
    let p := l.pressure
    addtodata false s d l r = { d with
      sxx := d.sxx + p * (c * c * s.rse + t * t * s.tse), syy := d.syy + p * (c * c * s.tse + t * t * s.rse)
      szz := d.szz + p * s.vse
      sxy := d.sxy + p * (c * t * (s.rse - s.tse)), sxz := d.sxz + p * (c * s.sse), syz := d.syz + p * (t * s.sse)
      ux := d.ux + p * (c * s.rdp), uy := d.uy + p * (t * s.rdp), uz := d.uz + p * s.vdp } := by
  intro r c t p
  have hr : r ≠ 0 := h
  have hu : c ^ 2 + t ^ 2 = 1 := by
    have h2 : r ^ 2 = (d.x - l.x) ^ 2 + (d.y - l.y) ^ 2 := distance_sq l d.x d.y
    simp only [c, t, div_pow]
    rw [← add_div, ← h2, div_self (pow_ne_zero 2 hr)]
  simp only [addtodata, Bool.false_eq_true, if_false, if_neg hr]
  change (if c = 0 then _ else if t = 0 then _ else _) = _
  by_cases hc : c = 0
  · rw [if_pos hc]
    have ht : t ^ 2 = 1 := by rw [hc] at hu; linarith
    have ht' : t * t = 1 := by rw [← ht]; ring
    change PD.mk _ _ _ _ _ _ _ _ _ _ _ = _
    rw [show (d.y - l.y) / r = t from rfl, sgn_unit t ht, hc, ht']
    ext <;> simp [p] <;> ring
  · rw [if_neg hc]
    by_cases ht : t = 0
    · rw [if_pos ht]
      have hc2 : c ^ 2 = 1 := by rw [ht] at hu; linarith
      have hc' : c * c = 1 := by rw [← hc2]; ring
      rw [show (d.x - l.x) / r = c from rfl, sgn_unit c hc2, ht, hc']
      ext <;> simp [p] <;> ring
    · rw [if_neg ht]
      ext <;> simp [p, c, t] <;> ring

/-! ## Sums over loads and radii -/

theorem translate_xy (dmin : ℝ) (disp : Bool) (ax : ℝ → Ax) (a : ℝ) : ∀ (ls : List Load) (d : PD),
    (translate dmin disp ax a ls d).x = d.x ∧ (translate dmin disp ax a ls d).y = d.y
  | [], d => ⟨rfl, rfl⟩
  | l :: ls, d => by
    have := translate_xy dmin disp ax a ls
    unfold translate at *
    rw [foldl_cons]
    split_ifs
    · exact this d
    · exact ⟨(this _).1.trans (addtodata_x ..), (this _).2.trans (addtodata_y ..)⟩

/-- A quantity to which every load adds its share. -/
theorem translate_obs (O : PD → ℝ) (dmin : ℝ) (disp : Bool) (ax : ℝ → Ax) (a x y : ℝ) (c : Load → ℝ) :
    ∀ (ls : List Load) (d : PD), d.x = x → d.y = y →
    (∀ l ∈ ls, ∀ d : PD, d.x = x → d.y = y →
      O (addtodata disp (ax (l.distance x y)) d l (l.distance x y)) = O d + c l) →
    O (translate dmin disp ax a ls d) = O d + (ls.map fun l => if |l.radius - a| > dmin then 0 else c l).sum
  | [], d, _, _, _ => by simp [translate]
  | l :: ls, d, hx, hy, h => by
    have ih := translate_obs O dmin disp ax a x y c ls
    have hl := h l (by simp)
    have hls : ∀ l ∈ ls, ∀ d : PD, d.x = x → d.y = y →
      O (addtodata disp (ax (l.distance x y)) d l (l.distance x y)) = O d + c l := fun k hk => h k (by simp [hk])
    unfold translate at *
    rw [foldl_cons, map_cons, sum_cons]
    split_ifs with hr
    · rw [ih d hx hy hls, zero_add]
    · rw [ih _ (by rw [addtodata_x, hx]) (by rw [addtodata_y, hy]) hls, hx, hy, hl d hx hy, add_assoc]

theorem translateGrad_eq (dmin : ℝ) (ax : ℝ → Ax) (a : ℝ) (d : PD) : ∀ (ls : List Load) (g : ℝ),
    translateGrad dmin ax a ls d g = g + (ls.map fun l => if |l.radius - a| > dmin then 0
      else l.pressure * (ax (l.distance d.x d.y)).vdp).sum
  | [], g => by simp [translateGrad]
  | l :: ls, g => by
    have ih := translateGrad_eq dmin ax a d ls
    unfold translateGrad at *
    rw [foldl_cons, map_cons, sum_cons, ih]
    split_ifs <;> ring

/-- The radii are separated: no two of them lie within `dmin`. -/
theorem sum_one (dmin t : ℝ) (hd : 0 ≤ dmin) (F : ℝ → ℝ) : ∀ as : List ℝ, as.Nodup → t ∈ as →
    (∀ a ∈ as, |t - a| ≤ dmin → t = a) → (as.map fun a => if |t - a| > dmin then 0 else F a).sum = F t
  | [], _, h, _ => absurd h not_mem_nil
  | a :: as, hn, h, hs => by
    have hz : t ∉ as → (as.map fun a => if |t - a| > dmin then 0 else F a).sum = 0 := by
      intro hta
      apply sum_eq_zero
      intro v hv
      obtain ⟨b, hb, rfl⟩ := mem_map.1 hv
      rw [if_pos]
      by_contra hcon
      exact hta (hs b (by simp [hb]) (not_lt.1 hcon) ▸ hb)
    rw [map_cons, sum_cons]
    by_cases hta : t = a
    · subst hta
      rw [hz (nodup_cons.1 hn).1, if_neg (by rw [sub_self, abs_zero, not_lt]; exact hd), add_zero]
    · have hm : t ∈ as := by simpa [hta] using h
      rw [sum_one dmin t hd F as (nodup_cons.1 hn).2 hm fun b hb => hs b (by simp [hb]), if_pos, zero_add]
      by_contra hcon
      exact hta (hs a (by simp) (not_lt.1 hcon))

theorem sum_swap (as : List ℝ) (f : ℝ → Load → ℝ) : ∀ ls : List Load,
    (as.map fun a => (ls.map fun l => f a l).sum).sum = (ls.map fun l => (as.map fun a => f a l).sum).sum
  | [] => by simp
  | l :: ls => by
    simp only [map_cons, sum_cons, sum_map_add, sum_swap as f ls]

theorem mem_radii {groups : List (List Load)} {a : ℝ} : a ∈ radii groups ↔ ∃ ls ∈ groups, ∃ l ∈ ls, l.radius = a := by
  simp only [radii, mem_insertionSort, mem_dedup, mem_map, mem_flatten]
  constructor
  · rintro ⟨l, ⟨ls, h1, h2⟩, h3⟩; exact ⟨ls, h1, l, h2, h3⟩
  · rintro ⟨ls, h1, l, h2, h3⟩; exact ⟨l, ⟨ls, h1, h2⟩, h3⟩

theorem radii_nodup (groups : List (List Load)) : (radii groups).Nodup :=
  (perm_insertionSort _ _).nodup_iff.2 (nodup_dedup _)

/-- Every load is counted once, with its own radius. -/
theorem sum_loads (dmin : ℝ) (hd : 0 ≤ dmin) (groups : List (List Load)) (ls : List Load) (hls : ls ∈ groups)
    (hsep : ∀ a ∈ radii groups, ∀ b ∈ radii groups, |a - b| ≤ dmin → a = b) (f : ℝ → Load → ℝ) :
    ((radii groups).map fun a => (ls.map fun l => if |l.radius - a| > dmin then 0 else f a l).sum).sum =
      (ls.map fun l => f l.radius l).sum := by
  rw [sum_swap]
  congr 1
  apply map_congr_left
  intro l hl
  have hm : l.radius ∈ radii groups := mem_radii.2 ⟨ls, hls, l, hl, rfl⟩
  exact sum_one dmin l.radius hd (fun a => f a l) _ (radii_nodup groups) hm fun a ha => hsep _ hm a ha

theorem radLoop_obs (O : PD → ℝ) (dmin : ℝ) (disp : Bool) (ax : Bool → (Nat → ℝ) → ℝ → ℝ → Ax) (E : Nat → ℝ)
    (Q : Option (Nat → ℝ)) (nl : Nat) (x y : ℝ) (c : ℝ → Load → ℝ) (ls : List Load)
    (h : ∀ a, ∀ l ∈ ls, ∀ d : PD, d.x = x → d.y = y →
      O (addtodata disp (ax disp E a (l.distance x y)) d l (l.distance x y)) = O d + c a l) :
    ∀ (as : List ℝ) (s : GSt), s.E = E → s.d.x = x → s.d.y = y →
    O (radLoop dmin disp false ax E Q nl ls as s).d =
      O s.d + (as.map fun a => (ls.map fun l => if |l.radius - a| > dmin then 0 else c a l).sum).sum
  | [], s, _, _, _ => by simp [radLoop]
  | a :: as, s, he, hx, hy => by
    rw [radLoop]
    simp only [Bool.false_eq_true, if_false, map_cons, sum_cons]
    have hxy := translate_xy dmin disp (ax disp s.E a) a ls s.d
    rw [radLoop_obs O dmin disp ax E Q nl x y c ls h as ⟨s.E, translate dmin disp (ax disp s.E a) a ls s.d, s.g⟩ he (hxy.1.trans hx) (hxy.2.trans hy)]
    simp only
    rw [he, translate_obs O dmin disp (ax disp E a) a x y (c a) ls s.d hx hy (h a)]
    ring

theorem radLoop_E (dmin : ℝ) (disp : Bool) (ax : Bool → (Nat → ℝ) → ℝ → ℝ → Ax) (E : Nat → ℝ)
    (Q : Option (Nat → ℝ)) (nl : Nat) (ls : List Load) : ∀ (as : List ℝ) (s : GSt),
    (radLoop dmin disp false ax E Q nl ls as s).E = s.E
  | [], s => by simp [radLoop]
  | a :: as, s => by
    rw [radLoop, radLoop_E]
    simp

/-! ## The gradient loop -/

theorem gradLoop_d (dmin : ℝ) (ax : Bool → (Nat → ℝ) → ℝ → ℝ → Ax) (E : Nat → ℝ) (Q : Option (Nat → ℝ)) (nl : Nat)
    (a : ℝ) (ls : List Load) : ∀ (k : Nat) (s : GSt), (gradLoop dmin ax E Q nl a ls k s).d = s.d
  | 0, s => rfl
  | k + 1, s => by rw [gradLoop, gradLoop_d]

theorem gradLoop_E (dmin : ℝ) (ax : Bool → (Nat → ℝ) → ℝ → ℝ → Ax) (E : Nat → ℝ) (Q : Option (Nat → ℝ)) (nl : Nat)
    (a : ℝ) (ls : List Load) : ∀ (k : Nat) (s : GSt),
    (gradLoop dmin ax E Q nl a ls k s).E = if k = 0 then s.E else perturb E Q nl (nl - 1)
  | 0, s => rfl
  | k + 1, s => by
    rw [gradLoop, gradLoop_E, if_neg (Nat.succ_ne_zero k)]
    split_ifs with h
    · rw [h]
    · rfl

theorem gradLoop_g (dmin : ℝ) (ax : Bool → (Nat → ℝ) → ℝ → ℝ → Ax) (E : Nat → ℝ) (Q : Option (Nat → ℝ)) (nl : Nat)
    (a : ℝ) (ls : List Load) : ∀ (k : Nat) (_ : k ≤ nl) (s : GSt) (i : Nat), i < nl →
    (gradLoop dmin ax E Q nl a ls k s).g i =
      if nl - k ≤ i then translateGrad dmin (ax true (perturb E Q nl i) a) a ls s.d (s.g i) else s.g i
  | 0, _, s, i, hi => by rw [gradLoop, if_neg (by omega)]
  | k + 1, hk, s, i, hi => by
    rw [gradLoop, gradLoop_g dmin ax E Q nl a ls k (by omega) _ i hi]
    simp only
    by_cases h1 : i = nl - (k + 1)
    · rw [if_neg (by omega), if_pos h1, if_pos (by omega), h1]
    · by_cases h2 : nl - k ≤ i
      · rw [if_pos h2, if_neg h1, if_pos (by omega)]
      · rw [if_neg h2, if_neg h1, if_neg (by omega)]

end OP.Pave
