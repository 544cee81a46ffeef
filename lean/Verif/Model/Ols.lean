import Verif.Model.Basic
import Mathlib.Analysis.SpecialFunctions.Trigonometric.Basic
import Mathlib.Algebra.BigOperators.Group.List.Basic

/-!
# Overlap-and-save convolution: `stingray/pulse/overlapandsave/ols.py`, in one dimension

The Fourier transforms are the complex ones (as `accelsearch` passes them), in exact arithmetic.
-/

namespace Stingray.Ols

open Complex

/-- `numpy.fft.fft(x, n)[k]`, the input being extended with zeros (it is never longer than `n` here). -/
noncomputable def fft (n : Nat) (x : List ℂ) (k : Nat) : ℂ :=
  ((List.range n).map fun a => x.getD a 0 * exp (-(2 * Real.pi * I * a * k / n))).sum

/-- `numpy.fft.ifft(X, n)[a]` -/
noncomputable def ifft (n : Nat) (X : Nat → ℂ) (a : Nat) : ℂ :=
  ((List.range n).map fun k => X k * exp (2 * Real.pi * I * a * k / n)).sum / n

/-- `prepareh`, `stingray/pulse/overlapandsave/ols.py` 172-199. -/
noncomputable def prepareh (h : List ℂ) (nfft k : Nat) : ℂ :=
  starRingEnd ℂ (fft nfft ((h.map (starRingEnd ℂ)).reverse) k)

/-- `padEdges` with `mode='constant'`, `stingray/pulse/overlapandsave/ols.py` 233-250, 253-276, for the slice `lo:hi`. -/
noncomputable def padEdges (x : List ℂ) (lo hi : Int) : List ℂ :=
  if 0 ≤ lo ∧ hi ≤ x.length then (x.take hi.toNat).drop lo.toNat
  else
    let before := if lo < 0 then (-lo).toNat else 0
    let after := if (x.length : Int) < hi then (hi - x.length).toNat else 0
    let part := (x.take (min (x.length : Int) hi).toNat).drop (max 0 lo).toNat
    (List.replicate before 0 ++ part ++ List.replicate after 0).take (hi - lo).toNat

/-- `olsStep`, `stingray/pulse/overlapandsave/ols.py` 279-371. -/
noncomputable def olsStep (x h : List ℂ) (start size nfft : Nat) : Except PyErr (List ℂ) :=
  let length := min size (x.length - start)
  let nh := h.length
  if ¬ (length + nh - 1 ≤ nfft) then .error .assertionError
  else
    let border := nh / 2
    let xpart := padEdges x ((start : Int) - border) ((start : Int) + length + nh - 1 - border)
    .ok ((List.range length).map fun n => ifft nfft (fun k => fft nfft xpart k * prepareh h nfft k) n)

/-- The loop of `ols`, lines 461-473, over the starts of the blocks: `k` blocks from `start` on. -/
noncomputable def olsLoop (x h : List ℂ) (size nfft : Nat) : Nat → Nat → Except PyErr (List ℂ)
  | _, 0 => .ok []
  | start, k + 1 =>
    match olsStep x h start size nfft with
    | .error e => .error e
    | .ok out =>
      match olsLoop x h size nfft (start + size) k with
      | .error e => .error e
      | .ok rest => .ok (out ++ rest)

/-- `ols`, `stingray/pulse/overlapandsave/ols.py` 374-474, in one dimension, without `out`; `size` and `nfft` are given. The output array has the type of `x`, so that complex (or real) input is assumed: integer arrays would truncate the result. -/
noncomputable def ols (x h : List ℂ) (size nfft : Nat) : Except PyErr (List ℂ) :=
  if size = 0 then .error .assertionError
  else olsLoop x h size nfft 0 ((x.length + size - 1) / size)

end Stingray.Ols
