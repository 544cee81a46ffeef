import Verif.Model.Pulsar

/-!
# Folding searches with weights or exposure correction: `stingray/pulse/search.py` 30-69, 145-163, 315-332

The searches with `use_times=True`, at one trial. The statistic of a profile is a parameter (`ef_profile_stat` for an epoch folding search, `z_n` for a `Z²` search); entries of the profile that are not numbers are `none`.
-/

namespace Stingray.WeightedSearch

open Stingray Stingray.Pulsar

variable {K : Type} [Field K] [LinearOrder K] [FloorRing K]

/-- `a[good]` for a boolean array. -/
def masked {T : Type} (a : List T) (good : List Bool) : List T := ((a.zip good).filter Prod.snd).map Prod.fst

/-- The weights handed to `fold_events`, lines 54-59, for `n` events in all. -/
def selectWeights (n : Nat) (good : List Bool) : Weights K → Weights K
  | .array w => if w.length = n then .array (masked w good) else .array w
  | .scalar w => .scalar w

/-- The GTIs handed to `fold_events`, lines 54-59: as any other sequence, they are masked if they are as many as the events. -/
def selectGti (n : Nat) (good : List Bool) : Option (List (K × K)) → Option (List (K × K))
  | some g => if g.length = n then some (masked g good) else some g
  | none => none

/-- One segment, lines 44-60: `none` if it is skipped, otherwise its statistic. -/
def segmentStat (stat : List (Option K) → K) (times : List K) (nbin : Nat) (weights : Weights K) (gti : Option (List (K × K))) (expocorr : Bool) (f fdot seg s : K) : Option (Except PyErr K) :=
  let good := times.map fun t => decide (s ≤ t) && decide (t < s + seg)
  let ts := masked times good
  match ts.head?, ts.getLast? with
  | some a, some b =>
    if b - a < 1 / 5 * seg then none
    else some ((foldEvents ts [f, fdot] { nbin := nbin, weights := selectWeights times.length good weights, gti := selectGti times.length good gti, refTime := 0, expocorr := expocorr }).map fun p => stat p.2)
  | _, _ => none

/-- The mean of the statistics, lines 66-69: the first error raises, and nothing divided by zero is NaN. -/
def meanStat (l : List (Except PyErr K)) : Except PyErr (Option K) :=
  match l.mapM id with
  | .error e => .error e
  | .ok [] => .ok none
  | .ok v => .ok (some (v.sum / v.length))

/-- `epoch_folding_search` (lines 145-163) and `z_n_search` (lines 315-332) with an array of weights or exposure correction, through `_folding_search`, lines 30-69. The default segment size is `none`. -/
def weightedSearch (stat : List (Option K) → K) (times : List K) (nbin : Nat) (weights : Weights K) (gti : Option (List (K × K))) (expocorr : Bool) (f fdot : K) (segmentSize : Option K) : Except PyErr (Option K) :=
  if expocorr && gti.isNone then .error .valueError
  else match times.head? with
    | none => .error .indexError
    | some t0 =>
      let ts := times.map (· - t0)
      let length := ts.getLastD 0
      let seg := match segmentSize with
        | none => length
        | some s => if length < s then length else s
      if seg = 0 then .error .valueError
      else meanStat (((List.range (⌈length / seg⌉).toNat).map fun (i : Nat) => (i : K) * seg).filterMap (segmentStat stat ts nbin weights gti expocorr f fdot seg))

end Stingray.WeightedSearch
