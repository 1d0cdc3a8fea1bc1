import Verif.Pave.Axial
/-!
# A load given by two of its three numbers (src/pavement.h:215-247)

Real arithmetic.  A radius that is not a finite number (a quotient by zero, the root of a negative number) is `none`.
-/
namespace OP.Pave

/-- The constructor `paveload(l,lf,lp,lr)` (src/pavement.h:220-227), which `addload` calls (src/pavement.h:487-491,
libop/libop.cpp:341-356). -/
noncomputable def mkload (x y lf lp lr : ℝ) : Option Load :=
  if lf = 0 then some ⟨x, y, Real.pi * lr * lr * lp, lr⟩
  else if lr = 0 then
    if lp = 0 then none
    else if lf / (lp * Real.pi) < 0 then none
    else some ⟨x, y, lf, Real.sqrt (lf / (lp * Real.pi))⟩
  else some ⟨x, y, lf, lr⟩

/-- `paveload::area` (src/pavement.h:240-242) -/
noncomputable def Load.area (l : Load) : ℝ := Real.pi * l.radius * l.radius

/-- **C130**: the force of every load is its pressure on its area; a load without area has no pressure. -/
theorem C130_area (l : Load) : (l.radius ≠ 0 → l.pressure * l.area = l.force) ∧ (l.radius = 0 → l.pressure = 0) := by
  constructor
  · intro h
    rw [Load.pressure, if_neg h, Load.area]
    have := Real.pi_ne_zero
    field_simp
  · intro h
    rw [Load.pressure, if_pos h]

/-- **C130**: pressure and radius. -/
theorem C130_pressure_radius (x y p r : ℝ) (hr : r ≠ 0) : ∃ l, mkload x y 0 p r = some l ∧ l.x = x ∧ l.y = y ∧
    l.pressure = p ∧ l.radius = r ∧ l.force = p * l.area := by
  refine ⟨_, by rw [mkload, if_pos rfl], rfl, rfl, ?_, rfl, ?_⟩
  · rw [Load.pressure, if_neg hr]
    have := Real.pi_ne_zero
    field_simp
  · simp only [Load.area]; ring

/-- **C130**: force and pressure, if they have the same sign. -/
theorem C130_force_pressure (x y f p : ℝ) (h : 0 < f * p) : ∃ l, mkload x y f p 0 = some l ∧ l.x = x ∧ l.y = y ∧
    l.force = f ∧ l.pressure = p ∧ 0 < l.radius := by
  have hf : f ≠ 0 := fun e => by rw [e, zero_mul] at h; exact lt_irrefl _ h
  have hp : p ≠ 0 := fun e => by rw [e, mul_zero] at h; exact lt_irrefl _ h
  have hpi := Real.pi_pos
  have hq : 0 < f / (p * Real.pi) := by
    have e : f / (p * Real.pi) = f * p / (p ^ 2 * Real.pi) := by field_simp
    rw [e]
    exact div_pos h (mul_pos (by positivity) hpi)
  have hr := Real.sqrt_pos.2 hq
  refine ⟨⟨x, y, f, Real.sqrt (f / (p * Real.pi))⟩, ?_, rfl, rfl, rfl, ?_, hr⟩
  · rw [mkload, if_neg hf, if_pos rfl, if_neg hp, if_neg (not_lt.2 hq.le)]
  · simp only [Load.pressure]
    rw [if_neg hr.ne', mul_assoc, Real.mul_self_sqrt hq.le]
    field_simp

/-- **C130**: force and radius; a pressure given as well is not used. -/
theorem C130_force_radius (x y f p r : ℝ) (hf : f ≠ 0) (hr : r ≠ 0) : ∃ l, mkload x y f p r = some l ∧ l.x = x ∧ l.y = y ∧
    l.force = f ∧ l.radius = r ∧ l.pressure * (Real.pi * r ^ 2) = f ∧ (l.pressure = p ↔ f = p * (Real.pi * r ^ 2)) := by
  have hpi := Real.pi_ne_zero
  refine ⟨⟨x, y, f, r⟩, by rw [mkload, if_neg hf, if_neg hr], rfl, rfl, rfl, rfl, ?_, ?_⟩
  · simp only [Load.pressure]
    rw [if_neg hr]
    field_simp
  · simp only [Load.pressure]
    rw [if_neg hr, div_eq_iff (by positivity)]
    constructor <;> intro h <;> rw [h] <;> ring

/-- **C130**: there is no load exactly when no load has the numbers asked for: a force other than zero without a radius, and
a pressure that is zero or of the other sign. -/
theorem C130_none (x y f p r : ℝ) : mkload x y f p r = none ↔ f ≠ 0 ∧ r = 0 ∧
    ¬∃ l : Load, l.radius ≠ 0 ∧ l.force = f ∧ l.pressure = p := by
  have hpi := Real.pi_pos
  constructor
  · intro h
    rw [mkload] at h
    by_cases hf : f = 0
    · rw [if_pos hf] at h; cases h
    rw [if_neg hf] at h
    by_cases hr : r = 0
    swap
    · rw [if_neg hr] at h; cases h
    refine ⟨hf, hr, ?_⟩
    rintro ⟨l, hl, h1, h2⟩
    have ha := (C130_area l).1 hl
    rw [h1, h2, Load.area] at ha
    have hpos : 0 < Real.pi * l.radius * l.radius := by rw [mul_assoc]; exact mul_pos hpi (mul_self_pos.2 hl)
    have hp0 : p ≠ 0 := fun e => hf (by rw [← ha, e, zero_mul])
    rw [if_pos hr, if_neg hp0, if_neg] at h
    · cases h
    · rw [← ha, not_lt]
      have e : p * (Real.pi * l.radius * l.radius) / (p * Real.pi) = l.radius * l.radius := by
        have := hpi.ne'
        field_simp
      rw [e]
      exact mul_self_nonneg _
  · rintro ⟨hf, hr, hn⟩
    by_contra h
    rw [mkload, if_neg hf, if_pos hr] at h
    by_cases hp : p = 0
    · rw [if_pos hp] at h; exact h rfl
    rw [if_neg hp] at h
    by_cases hq : f / (p * Real.pi) < 0
    · rw [if_pos hq] at h; exact h rfl
    · have : 0 < f * p := by
        have e : f * p = f / (p * Real.pi) * (p ^ 2 * Real.pi) := by field_simp
        rw [e]
        refine mul_pos (lt_of_le_of_ne (not_lt.1 hq) ?_) (by positivity)
        exact (div_ne_zero hf (mul_ne_zero hp hpi.ne')).symm
      obtain ⟨l, -, -, -, h1, h2, h3⟩ := C130_force_pressure x y f p this
      exact hn ⟨l, h3.ne', h1, h2⟩

/-- **C130**: a load made again from any two numbers of a load is the same load. -/
theorem C130_again (l : Load) (hr : 0 < l.radius) (hf : l.force ≠ 0) : mkload l.x l.y 0 l.pressure l.radius = some l ∧
    mkload l.x l.y l.force l.pressure 0 = some l ∧ ∀ p, mkload l.x l.y l.force p l.radius = some l := by
  have ha := (C130_area l).1 hr.ne'
  have hpi := Real.pi_pos
  obtain ⟨x, y, f, r⟩ := l
  simp only [Load.area] at *
  refine ⟨?_, ?_, fun p => by rw [mkload, if_neg hf, if_neg hr.ne']⟩
  · rw [mkload, if_pos rfl, mul_comm, ha]
  · have hp : Load.pressure ⟨x, y, f, r⟩ ≠ 0 := fun e => hf (by rw [← ha, e, zero_mul])
    have e : f / (Load.pressure ⟨x, y, f, r⟩ * Real.pi) = r * r := by
      rw [div_eq_iff (mul_ne_zero hp hpi.ne')]
      linarith
    rw [mkload, if_neg hf, if_pos rfl, if_neg hp, e, if_neg (not_lt.2 (mul_self_nonneg r)), Real.sqrt_mul_self hr.le]

/-- A wheel of 40 kN with a pressure of π⁻¹·10⁴ kPa on a radius of two units. -/
example : ∃ l, mkload 0 0 40 (10 / Real.pi) 0 = some l ∧ l.radius = 2 := by
  have hpi := Real.pi_pos
  have h := (C130_again ⟨0, 0, 40, 2⟩ (by norm_num) (by norm_num)).2.1
  have e : Load.pressure ⟨0, 0, 40, 2⟩ = 10 / Real.pi := by
    simp only [Load.pressure]
    rw [if_neg (by norm_num)]
    field_simp
    norm_num
  rw [e] at h
  exact ⟨_, h, rfl⟩

end OP.Pave
