import Verif.Model.Gti
import Verif.Model.Hist

/-!
# Segments for Fourier analysis, and shift-and-add: `stingray/fourier.py` 1198-1586
-/

namespace Stingray.Segments

open Stingray Stingray.Gti Stingray.Hist

variable {K : Type} [Field K] [LinearOrder K] [IsStrictOrderedRing K]

section
variable [FloorRing K]

/-- What is yielded for one segment of events, `stingray/fourier.py` 1351-1361: nothing for fewer than two events,
else the histogram of the times from the start of the segment. -/
def eventFlux (times : List K) (size : K) (nBin : Nat) (s : K) (idx : Nat × Nat) : Option (List Nat) :=
  if idx.2 - idx.1 < 2 then none
  else some (hist1d (((times.take idx.2).drop idx.1).map (· - s)) nBin (0, size))

/-- `get_flux_iterable_from_segments(times, gti, segment_size, n_bin)` for events, `stingray/fourier.py` 1283-1367. The times are not checked to be
sorted here (lines 1211-1219); the model is for sorted ones, as `searchsorted` needs. -/
def eventSegments (times : List K) (gti : List (K × K)) (size : Option K) (nBin : Nat) (eps : K) : Except PyErr (List (Option (List Nat))) :=
  match size with
  | none =>
    match gti.head?, gti.getLast? with
    | some g, some h => .ok [eventFlux times (h.2 - g.1) nBin g.1 (0, times.length)]
    | _, _ => .error .indexError
  | some size =>
    (timeIntervalsFromGtis gti size 1 eps).map fun segs =>
      segs.map fun s => eventFlux times size nBin s.1 (searchsortedLeft times s.1, searchsortedLeft times s.2)

/-- `get_average_ctrate(times, gti, segment_size)` for events, `stingray/fourier.py` 1230-1280. -/
def averageCtrate (times : List K) (gti : List (K × K)) (size eps : K) : Except PyErr K :=
  (timeIntervalsFromGtis gti size 1 eps).map fun segs =>
    (segs.map fun s => ((searchsortedLeft times s.2 : Nat) : K) - ((searchsortedLeft times s.1 : Nat) : K)).sum / ((segs.length : K) * size)

end

/-- `get_flux_iterable_from_segments(times, gti, segment_size, dt=dt, fluxes=fluxes)` for evenly binned data, the same lines; `nbin` is `rint(segment_size / dt)`. With errors, their slices are the
same. -/
def binnedSegments {V : Type} (times : List K) (fluxes : List V) (gti : List (K × K)) (size : Option K) (dt eps : K) (nbin : Nat) :
    Except PyErr (List (Option (List V))) :=
  let cut (idx : Nat × Nat) : Option (List V) := if idx.2 - idx.1 < 2 then none else some ((fluxes.take idx.2).drop idx.1)
  match size with
  | none =>
    match gti.head?, gti.getLast? with
    | some _, some _ => .ok [cut (0, times.length)]
    | _, _ => .error .indexError
  | some size => (binIntervalsFromGtis gti size times dt eps nbin nbin).map fun l => l.map cut

/-! ## Shift-and-add -/

/-- `_safe_array_slice_indices`, `stingray/fourier.py` 1371-1425: the slices of the input and of the output. All the bounds are not negative. -/
def safeSlice (size center nbins : Nat) : (Nat × Nat) × (Nat × Nat) :=
  let minbin : Int := (center : Int) - ((nbins / 2 : Nat) : Int)
  let maxbin : Int := minbin + nbins
  if minbin < 0 then ((0, (minbin + nbins).toNat), ((-minbin).toNat, (min (nbins : Int) (size - minbin)).toNat))
  else if maxbin > size then ((minbin.toNat, size), (0, (nbins - (maxbin - size)).toNat))
  else ((minbin.toNat, maxbin.toNat), (0, nbins))

/-- The inner loop of `_shift_and_average_core`, `stingray/fourier.py` 1498-1501, on pairs (sum, sum of weights). Reading beyond the end of the array is an `IndexError` in
Python (undefined when compiled). -/
def addSlice (array : List K) (w : K) (in0 out0 : Nat) (st : List (K × K)) (i : Nat) : Except PyErr (List (K × K)) :=
  match array[in0 + i]? with
  | none => .error .indexError
  | some x => .ok (st.modify (out0 + i) fun p => (p.1 + x * w, p.2 + w))

/-- One turn of the loop, `stingray/fourier.py` 1495-1501. -/
def addOne (size nbins : Nat) (st : List (K × K)) (item : Nat × List K × K) : Except PyErr (List (K × K)) :=
  let sl := safeSlice size item.1 nbins
  (List.range (sl.1.2 - sl.1.1)).foldlM (addSlice item.2.1 item.2.2 sl.1.1 sl.2.1) st

/-- `_shift_and_average_core`, `stingray/fourier.py` 1470-1505: weighted means (`none` where the sum of the weights vanishes: NaN or infinite) and sums of weights. -/
def shiftCore (items : List (Nat × List K × K)) (nbins : Nat) : Except PyErr (List (Option K) × List K) :=
  match items with
  | [] => .error .indexError
  | it :: _ =>
    (items.foldlM (addOne it.2.1.length nbins) (List.replicate nbins (0, 0))).map fun st =>
      (st.map fun p => if p.2 = 0 then none else some (p.1 / p.2), st.map Prod.snd)

/-- The frequencies given to the result, `stingray/fourier.py` 1578-1579. -/
def shiftedFreqs (nbins : Nat) (df meanF0 : K) : List K :=
  let base := ((List.range (nbins + 1)).map fun i : Nat => (((-((nbins : Int) - ((nbins / 2 : Nat) : Int)) + (i : Int) : Int) : K) * df)).take nbins
  base.map fun f => f - (base.headD 0 + base.getLastD 0) / 2 + meanF0

/-- `shift_and_add(freqs, power_list, f0_list, nbins, M=M)`, `stingray/fourier.py` 1508-1586, without rebinning. -/
def shiftAndAdd (freqs : List K) (spectra : List (List K × K)) (f0 : List K) (nbins : Nat) : Except PyErr (List K × List (Option K) × List K) :=
  match freqs with
  | a :: b :: _ =>
    (shiftCore (List.zipWith (fun s f => (searchsortedLeft freqs f, s)) spectra f0) nbins).map fun r =>
      (shiftedFreqs nbins (b - a) (f0.sum / (f0.length : K)), r)
  | _ => .error .indexError

end Stingray.Segments
