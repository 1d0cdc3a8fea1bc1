import Verif.Pave.Abcd
/-!
# Specification for C48: the boundary value problem of a layered half space
-/
namespace OP.Pave

/-- Depth of the upper boundary of layer `i`. -/
def top (p : Pav) (i : Nat) : ℝ := if i = 0 then 0 else p.h (i - 1)

/-- The pavements `check()` accepts, with the depths `bottom()` gives. -/
structure Valid (p : Pav) : Prop where
  pos : 0 < p.nl
  E : ∀ i, i < p.nl → 0 < p.E i
  v : ∀ i, i < p.nl → 0 < p.v i ∧ p.v i ≤ 1 / 2
  h : ∀ i, i + 1 < p.nl → top p i < p.h i
  hl : p.h (p.nl - 1) = 0 ∨ top p (p.nl - 1) < p.h (p.nl - 1)

/-- All layers fully bonded; a finite last layer is fixed or frictionless at its base. -/
structure Bonded (p : Pav) : Prop where
  f : ∀ i, i + 1 < p.nl → p.f i = 1
  base : p.h (p.nl - 1) = 0 ∨ p.f (p.nl - 1) = 1 ∨ p.f (p.nl - 1) = 0

/-- A positive wave number for which no exponential is cut off at an interface. -/
structure InRange (l : Lim) (p : Pav) (m : ℝ) : Prop where
  pos : 0 < m
  e : ∀ i, i < p.nl → 2 * (m * p.h i) < l.maxExp

/-- The boundary value problem for one wave number: coefficients `c i` of the layers are a solution for the surface
pressure `q`. -/
structure Solves (l : Lim) (p : Pav) (m q : ℝ) (c : Nat → V4) : Prop where
  /-- No shear stress at the surface. -/
  shear : ksse l m (p.v 0) 0 (c 0) = 0
  /-- The given pressure at the surface. -/
  press : kvse l m (p.v 0) 0 (c 0) = -q
  /-- Stresses and displacements are continuous. -/
  inter : ∀ i, i + 1 < p.nl →
    kvse l m (p.v i) (p.h i) (c i) = kvse l m (p.v (i + 1)) (p.h i) (c (i + 1)) ∧
    ksse l m (p.v i) (p.h i) (c i) = ksse l m (p.v (i + 1)) (p.h i) (c (i + 1)) ∧
    kvdp l m (p.v i) (p.E i) (p.h i) (c i) = kvdp l m (p.v (i + 1)) (p.E (i + 1)) (p.h i) (c (i + 1)) ∧
    krdp l m (p.v i) (p.E i) (p.h i) (c i) = krdp l m (p.v (i + 1)) (p.E (i + 1)) (p.h i) (c (i + 1))
  /-- An infinite last layer has no part growing with depth; a finite one does not move vertically at its base, and
  there does not move horizontally (`f = 1`) or has no friction (`f = 0`). -/
  base : let n := p.nl - 1
    if p.h n > 0 then kvdp l m (p.v n) (p.E n) (p.h n) (c n) = 0 ∧
      p.f n * krdp l m (p.v n) (p.E n) (p.h n) (c n) = m * (1 - p.f n) * ksse l m (p.v n) (p.h n) (c n)
    else c n 0 = 0 ∧ c n 1 = 0

end OP.Pave
