import Verif.Model.Fourier

/-!
# Errors of cross spectra, and covariance: `stingray/fourier.py` 1083-1195
-/

namespace Stingray.Fourier

variable {K : Type} [Field K] [LinearOrder K]

/-- A quotient in numpy: no (finite) value when the denominator is zero. -/
def ratio (a b : K) : Option K := if b = 0 then none else some (a / b)

/-- `np.sqrt`: no value for negative numbers. `sqrt` is the root of the others. -/
def root (sqrt : K → K) (x : Option K) : Option K :=
  match x with
  | none => none
  | some x => if x < 0 then none else some (sqrt x)

/-- The errors of the real part, imaginary part, phase and modulus. -/
structure CrossErr (K : Type) where
  re : Option K
  im : Option K
  phase : Option K
  modulus : Option K
deriving DecidableEq

/-- `error_on_averaged_cross_spectrum`, `stingray/fourier.py` 1140-1164, for one frequency: `c` is the cross power, `seg` and `ref` the powers in the two bands. `n_ave` is not zero. -/
def crossErrors (sqrt : K → K) (c : Cx K) (seg ref nAve segNoise refNoise : K) (commonRef : Bool) : CrossErr K :=
  if commonRef then
    let gsq := (c * c.conj).re
    let bsq := biasTerm seg ref segNoise refNoise nAve 1
    let over := ref / (2 * nAve)
    let d := root sqrt ((ratio (gsq - bsq) (ref - refNoise)).map fun frac => over * (seg - frac))
    let phase := match ratio seg (gsq - bsq), ratio 1 (ref - refNoise) with
      | some x, some y => root sqrt (some (over * (x - y)))
      | _, _ => none
    ⟨d, d, phase, d⟩
  else
    let coh := rawCoherence c seg ref segNoise refNoise nAve 1
    ⟨root sqrt (some ((ref * seg + c.re ^ 2 - c.im ^ 2) / (2 * nAve))), root sqrt (some ((ref * seg - c.re ^ 2 + c.im ^ 2) / (2 * nAve))),
      root sqrt (ratio (1 - coh) (2 * coh * nAve)), root sqrt (some (ref * seg / nAve))⟩

/-- Whether a warning is given, `stingray/fourier.py` 1131-1139: for an array of numbers of averaged spectra, `np.any(n_ave) < 30` compares a truth value (0 or 1) with 30. -/
def warns : Nat ⊕ List Nat → Bool
  | .inl n => decide (n < 30)
  | .inr l => decide ((if l.any fun n => decide (n ≠ 0) then 1 else 0) < 30)

/-- `cross_to_covariance`, `stingray/fourier.py` 1195. -/
def crossToCovariance (sqrt : K → K) (c : Cx K) (ref refNoise df : K) : Option (Cx K) :=
  (root sqrt (ratio df (ref - refNoise))).map fun s => ⟨c.re * s, c.im * s⟩

end Stingray.Fourier
