import Verif.Lin.Loop
import Mathlib.Analysis.SpecialFunctions.Trigonometric.Basic
/-!
# Fast Fourier transforms

Model of include/fft.h in exact arithmetic.  The templates are indexed by the length N; here N = 2^e, which are the lengths for which they can be
instantiated.  A `complex` is a complex number given by its two parts, an array is a function of the address, a pointer an address.
The truncated series `SIN<A,B>::sin()` (include/fft.h:52-65) is replaced by the sine it approximates, `M_SQRT1_2` by the root of one half.
-/
namespace OP.Fft
open OP.Lin

/-- `SIN<A,B>::sin()` (include/fft.h:52-65), exactly. -/
noncomputable def sinT (A B : Nat) : ℝ := Real.sin (A * Real.pi / B)

/-- `M_SQRT1_2` -/
noncomputable def rtHalf : ℝ := Real.sqrt 2 / 2

/-- `TRANSFORM(a0,a1,a2,a3,wr,wi)` (include/fft.h:67-88) on the entries at four addresses -/
noncomputable def TRANSFORM (p0 p1 p2 p3 : Nat) (wr wi : ℝ) (a : Nat → ℂ) : Nat → ℂ :=
  let a0 := a p0
  let a1 := a p1
  let a2 := a p2
  let a3 := a p3
  let t1 := a0.re - a2.re
  let t2 := a0.im - a2.im
  let t3 := a1.re - a3.re
  let t4 := a1.im - a3.im
  let t5 := t1 - t4
  let t6 := t2 + t3
  let t7 := t1 + t4
  let t8 := t2 - t3
  let a := set a p0 ⟨a0.re + a2.re, a0.im + a2.im⟩
  let a := set a p1 ⟨a1.re + a3.re, a1.im + a3.im⟩
  let a := set a p2 ⟨t5 * wr - t6 * wi, t6 * wr + t5 * wi⟩
  set a p3 ⟨t7 * wr + t8 * wi, t8 * wr - t7 * wi⟩

/-- `UNTRANSFORM(a0,a1,a2,a3,wr,wi)` (include/fft.h:171-192) -/
noncomputable def UNTRANSFORM (p0 p1 p2 p3 : Nat) (wr wi : ℝ) (a : Nat → ℂ) : Nat → ℂ :=
  let a0 := a p0
  let a1 := a p1
  let a2 := a p2
  let a3 := a p3
  let t5 := a2.re * wr + a2.im * wi
  let t6 := a2.im * wr - a2.re * wi
  let t7 := a3.re * wr - a3.im * wi
  let t8 := a3.im * wr + a3.re * wi
  let t1 := t5 + t7
  let t2 := t6 + t8
  let t3 := t6 - t8
  let t4 := t7 - t5
  let a := set a p2 ⟨a0.re - t1, a0.im - t2⟩
  let a := set a p3 ⟨a1.re - t3, a1.im - t4⟩
  let a := set a p0 ⟨a0.re + t1, a0.im + t2⟩
  set a p1 ⟨a1.re + t3, a1.im + t4⟩

/-- The part of `fftc<N>` and `fftc_un<N>` that visits the quarters (include/fft.h:94-103, 201-210), with the butterfly as a parameter; `o` is the
address held by the pointer `a`. -/
noncomputable def quarters (bf : Nat → Nat → Nat → Nat → ℝ → ℝ → (Nat → ℂ) → (Nat → ℂ)) (N o : Nat) (a : Nat → ℂ) : Nat → ℂ :=
  let n := N / 8
  let a := bf (o + 0) (o + 2 * n) (o + 4 * n) (o + 6 * n) 1 0 a
  let a := bf (o + n) (o + 3 * n) (o + 5 * n) (o + 7 * n) rtHalf rtHalf a
  let wt := -sinT 1 N
  let wpr := -2 * wt * wt
  let wpi := -sinT 2 N
  (loop 1 n (fun i (s : (Nat → ℂ) × ℝ × ℝ) =>
    let wt := s.2.1
    let wr := s.2.1 + (s.2.1 * wpr - s.2.2 * wpi)
    let wi := s.2.2 + (s.2.2 * wpr + wt * wpi)
    let a := bf (o + i) (o + (2 * n + i)) (o + (4 * n + i)) (o + (6 * n + i)) wr (-wi) s.1
    let a := bf (o + (2 * n - i)) (o + (4 * n - i)) (o + (6 * n - i)) (o + (8 * n - i)) (-wi) wr a
    (a, wr, wi)) (a, 1, 0)).1

/-- `fftc<2>` and `fftc_un<2>` (include/fft.h:108-115, 212-219) -/
noncomputable def fft2 (o : Nat) (a : Nat → ℂ) : Nat → ℂ :=
  let a0 := a (o + 0)
  let a1 := a (o + 1)
  let t0 := a0.re - a1.re
  let t1 := a0.im - a1.im
  let a := set a (o + 0) ⟨a0.re + a1.re, a0.im + a1.im⟩
  set a (o + 1) ⟨t0, t1⟩

/-- `fftc<2^e>` (include/fft.h:90-122); `fftc<1>` is never instantiated. -/
noncomputable def fftc : Nat → Nat → (Nat → ℂ) → (Nat → ℂ)
  | 0, _, a => a
  | 1, o, a => fft2 o a
  | 2, o, a => fft2 o (TRANSFORM (o + 0) (o + 1) (o + 2) (o + 3) 1 0 a)
  | e + 3, o, a =>
    let N := 2 ^ (e + 3)
    let a := quarters TRANSFORM N o a
    let a := fftc (e + 2) o a
    let a := fftc (e + 1) (o + N / 2) a
    fftc (e + 1) (o + 3 * N / 4) a

/-- `fftc_un<2^e>` (include/fft.h:194-226) -/
noncomputable def fftcUn : Nat → Nat → (Nat → ℂ) → (Nat → ℂ)
  | 0, _, a => a
  | 1, o, a => fft2 o a
  | 2, o, a => UNTRANSFORM (o + 0) (o + 1) (o + 2) (o + 3) 1 0 (fft2 o a)
  | e + 3, o, a =>
    let N := 2 ^ (e + 3)
    let a := fftcUn (e + 2) o a
    let a := fftcUn (e + 1) (o + N / 2) a
    let a := fftcUn (e + 1) (o + 3 * N / 4) a
    quarters UNTRANSFORM N o a

/-- `fftc_scale<N>` (include/fft.h:277-284) -/
noncomputable def fftcScale (N : Nat) (a : Nat → ℂ) : Nat → ℂ :=
  let n : ℝ := 1 / N
  loop 0 N (fun i a => set a i ⟨(a i).re * n, (a i).im * n⟩) a

/-- `fftc_mul<N>(a,b)` (include/fft.h:297-306) -/
noncomputable def fftcMul (N : Nat) (a b : Nat → ℂ) : Nat → ℂ :=
  loop 0 N (fun i a =>
    let t1 := (a i).re
    let t2 := (a i).im
    set a i ⟨t1 * (b i).re - t2 * (b i).im, t1 * (b i).im + t2 * (b i).re⟩) a

end OP.Fft
