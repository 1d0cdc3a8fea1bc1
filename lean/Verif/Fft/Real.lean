import Verif.Fft.Fft
/-!
# Transforms of real data

Model of the real transforms of include/fft.h.  The code only ever calls them with the pointer it was given, so the array starts at address 0.
-/
namespace OP.Fft
open OP.Lin

/-- `reinterpret_cast<complex *>(a+o)`: read the doubles from address `o` as complex numbers. -/
noncomputable def asC (o : Nat) (a : Nat → ℝ) : Nat → ℂ := fun i => ⟨a (o + 2 * i), a (o + (2 * i + 1))⟩

/-- What is left in the doubles when the complex numbers at that address become `c`. -/
noncomputable def ofC (o : Nat) (c : Nat → ℂ) (a : Nat → ℝ) : Nat → ℝ :=
  fun q => if q < o then a q else if (q - o) % 2 = 0 then (c ((q - o) / 2)).re else (c ((q - o) / 2)).im

/-- `R(a0,a1,b0,b1,wr,wi)` (include/fft.h:124-137) -/
noncomputable def R (p0 p1 q0 q1 : Nat) (wr wi : ℝ) (a : Nat → ℝ) : Nat → ℝ :=
  let t1 := a p0 - a p1
  let t2 := a q0 - a q1
  let t3 := a p0 + a p1
  let t4 := a q0 + a q1
  let a := set a q0 (t1 * wr - t2 * wi)
  let a := set a q1 (t2 * wr + t1 * wi)
  let a := set a p0 t3
  set a p1 t4

/-- `V(a0,a1,b0,b1,wr,wi)` (include/fft.h:228-243) -/
noncomputable def V (p0 p1 q0 q1 : Nat) (wr wi : ℝ) (a : Nat → ℝ) : Nat → ℝ :=
  let t5 := a q0 * wr + a q1 * wi
  let t6 := a q1 * wr - a q0 * wi
  let t1 := a p0 + t5
  let t2 := a p0 - t5
  let t3 := a p1 + t6
  let t4 := a p1 - t6
  let a := set a p0 t1
  let a := set a p1 t2
  let a := set a q0 t3
  set a q1 t4

/-- The part of `fftr<N>` and `fftr_un<N>` that visits the halves (include/fft.h:143-152, 251-260) -/
noncomputable def halves (bf : Nat → Nat → Nat → Nat → ℝ → ℝ → (Nat → ℝ) → (Nat → ℝ)) (N : Nat) (a : Nat → ℝ) : Nat → ℝ :=
  let n := N / 8
  let a := bf 0 1 (4 * n) (4 * n + 1) 1 0 a
  let a := bf (2 * n) (2 * n + 1) (6 * n) (6 * n + 1) rtHalf rtHalf a
  let wt := -sinT 1 N
  let wpr := -2 * wt * wt
  let wpi := -sinT 2 N
  (loop 1 n (fun i (s : (Nat → ℝ) × ℝ × ℝ) =>
    let wt := s.2.1
    let wr := s.2.1 + (s.2.1 * wpr - s.2.2 * wpi)
    let wi := s.2.2 + (s.2.2 * wpr + wt * wpi)
    let a := bf (2 * i) (1 + 2 * i) (4 * n + 2 * i) (4 * n + 1 + 2 * i) wr (-wi) s.1
    let a := bf (4 * n - 2 * i) (4 * n + 1 - 2 * i) (8 * n - 2 * i) (8 * n + 1 - 2 * i) (-wi) wr a
    (a, wr, wi)) (a, 1, 0)).1

/-- `fftr<2>` and `fftr_un<2>` (include/fft.h:156-162, 262-268) -/
noncomputable def fftr2 (a : Nat → ℝ) : Nat → ℝ :=
  let t1 := a 0 + a 1
  let t2 := a 0 - a 1
  let a := set a 0 t1
  set a 1 t2

/-- `fftr<2^e>` (include/fft.h:139-169); `fftr<1>` is never instantiated. -/
noncomputable def fftr : Nat → (Nat → ℝ) → (Nat → ℝ)
  | 0, a => a
  | 1, a => fftr2 a
  | 2, a => fftr2 (R 0 1 2 3 1 0 a)
  | e + 3, a =>
    let N := 2 ^ (e + 3)
    let a := halves R N a
    let a := fftr (e + 2) a
    ofC (N / 2) (fftc (e + 1) 0 (asC (N / 2) a)) a

/-- `fftr_un<2^e>` (include/fft.h:245-275) -/
noncomputable def fftrUn : Nat → (Nat → ℝ) → (Nat → ℝ)
  | 0, a => a
  | 1, a => fftr2 a
  | 2, a => V 0 1 2 3 1 0 (fftr2 a)
  | e + 3, a =>
    let N := 2 ^ (e + 3)
    let a := ofC (N / 2) (fftcUn (e + 1) 0 (asC (N / 2) a)) a
    let a := fftrUn (e + 2) a
    halves V N a

/-- `fftr_scale<N>` (include/fft.h:286-295) -/
noncomputable def fftrScale (N : Nat) (a : Nat → ℝ) : Nat → ℝ :=
  let a := set a 0 (a 0 / N)
  let a := set a 1 (a 1 / N)
  let n : ℝ := 2 / N
  loop 2 N (fun i a => set a i (a i * n)) a

/-- `fftr_mul<N>(a,b)` (include/fft.h:308-323) -/
noncomputable def fftrMul (N : Nat) (a b : Nat → ℝ) : Nat → ℝ :=
  if N = 2 then
    let a := set a 0 (a 0 * b 0)
    set a 1 (a 1 * b 1)
  else
    let t0 := a 0 * b 0
    let t1 := a 1 * b 1
    let a := ofC 0 (fftcMul (N / 2) (asC 0 a) (asC 0 b)) a
    let a := set a 0 t0
    set a 1 t1

end OP.Fft
