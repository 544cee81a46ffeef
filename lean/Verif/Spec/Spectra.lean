import Verif.Model.Fourier

/-!
# Specification vocabulary for averaged spectra

Only `Cx`, `Segment` (the data types) and the transform `fft` (any function) are used.
-/

namespace Stingray.Spec

open Stingray.Fourier

variable {K : Type} [Field K] [LinearOrder K]

/-- arithmetic mean -/
def mean (l : List K) : K := l.sum / l.length

/-- arithmetic mean of complex numbers -/
def meanCx (l : List (Cx K)) : Cx K := ⟨mean (l.map Cx.re), mean (l.map Cx.im)⟩

/-- `|F_k|²`, for the transform `F` of the fluxes `f` -/
def fourierPower (fft : List K → List (Cx K)) (f : List K) (k : Nat) : K :=
  ((fft f).getD k ⟨0, 0⟩).re ^ 2 + ((fft f).getD k ⟨0, 0⟩).im ^ 2

/-- `conj(F_k) G_k`, for the transforms `F` and `G` of `f` and `g` -/
def crossPower (fft : List K → List (Cx K)) (f g : List K) (k : Nat) : Cx K :=
  let a := (fft f).getD k ⟨0, 0⟩
  let b := (fft g).getD k ⟨0, 0⟩
  ⟨a.re * b.re + a.im * b.im, a.re * b.im - a.im * b.re⟩

/-- the fluxes of a segment -/
def fluxes : Segment K → List K
  | .missing => []
  | .flux f => f
  | .fluxErr f _ => f

/-- the segments that are averaged: not missing, and with a non-zero flux or with errors -/
def usable : Segment K → Bool
  | .missing => false
  | .flux f => f.any (fun x => decide (x ≠ 0))
  | .fluxErr _ _ => true

/-- number of strictly positive Fourier frequencies of `n` samples -/
def nPositive (n : Nat) : Nat := (n - 1) / 2

end Stingray.Spec
