import Verif.Model.Gti

/-!
# Time series objects (`stingray/base.py`)

A `StingrayTimeseries` is its sample times, the arrays attached to them, the GTIs and the cached
GTI mask (both possibly `None`), the reference MJD and the (scalar) bin size.  `time = []` stands
for `None`; the empty NumPy array left behind by `apply_mask` when nothing is selected is
identified with it.  Array-valued `dt` is not modelled, nor are the free-form metadata
(`header`, `notes`, ...), which no modelled operation reads.
-/

namespace Stingray.TimeSeries

open Stingray.Gti

/-- `StingrayTimeseries`, `stingray/base.py` 1093-1232.  The cached properties `_gti` and `_mask`
are part of the state. -/
structure TS (K V : Type) where
  /-- `_time` -/
  time : List K
  /-- the attributes returned by `array_attrs()`: same length as `time` (lines 146-164) -/
  attrs : List (String × List V)
  /-- `_gti` -/
  gti : Option (List (K × K))
  /-- `_mask` -/
  mask : Option (List Bool)
  /-- `mjdref` -/
  mjdref : K
  /-- `dt` -/
  dt : K
  deriving DecidableEq

variable {K V : Type} [Field K] [LinearOrder K] [IsStrictOrderedRing K]

/-- The `gti` getter, `stingray/base.py` 1243-1252: value read, and state left behind. -/
def gtiGet (s : TS K V) : Option (List (K × K)) × TS K V :=
  match s.gti with
  | some g => (some g, s)
  | none =>
    match s.time.head?, s.time.getLast? with
    | some t0, some t1 =>
      let g := [(t0 - s.dt / 2, t1 + s.dt / 2)]
      (some g, { s with gti := some g })
    | _, _ => (none, s)

/-- The `gti` setter, `stingray/base.py` 1254-1261: `None` returns before the mask is reset. -/
def setGti (s : TS K V) : Option (List (K × K)) → TS K V
  | none => { s with gti := none }
  | some g => { s with gti := some g, mask := none }

/-- The `mask` getter, `stingray/base.py` 1263-1271: value read, and state left behind. -/
def maskGet (median : List K → K) (eps : K) (s : TS K V) :
    Except PyErr (List Bool × TS K V) :=
  match s.mask with
  | some m => .ok (m, s)
  | none =>
    match s.gti with
    | some g => do
      let m ← createGtiMask median s.time g none 0 (some s.dt) eps
      return (m, { s with mask := some m })
    | none =>
      let m := List.replicate s.time.length true
      .ok (m, { s with mask := some m })

/-- The `time` setter, `stingray/base.py` 1235-1241 and 1273-1318, for an array value: the shape
has to be that of the present time array, if any; the cached mask is left alone. -/
def setTime (s : TS K V) (v : List K) : Except PyErr (TS K V) :=
  if s.time ≠ [] ∧ v.length ≠ s.time.length then .error .valueError
  else .ok { s with time := v }

/-- `attr in filtered_attrs`, `stingray/base.py` 747-748 and 773. -/
def kept (filtered : Option (List String)) (a : String) : Bool :=
  match filtered with
  | none => true
  | some l => l.contains a

/-- `apply_mask`, `stingray/base.py` 723-778, for a boolean mask.  `filtered = none` is the
default.  The attributes left out of `filtered_attrs` are set to `None`.  The cached mask is one
of the internal arrays: it is filtered too, or removed when `_mask` is not listed.
With `inplace=False` the metadata are read through their getters, so that a missing GTI is
filled in; the second component is the state in which `self` is left. -/
def applyMask (s : TS K V) (mask : List Bool) (inplace : Bool) (filtered : Option (List String)) :
    Except PyErr (TS K V × TS K V) :=
  if mask.length ≠ s.time.length ∨ s.time = [] then .error .indexError
  else
    let base := if inplace then s else (gtiGet s).2
    let new : TS K V :=
      { base with
        time := select mask s.time
        attrs := (s.attrs.filter (fun a => kept filtered a.1)).map (fun a => (a.1, select mask a.2))
        mask := if kept filtered "_mask" then s.mask.map (select mask) else none }
    .ok (new, if inplace then new else base)

/-- `apply_mask` with an array of positions (`a[idx]`), as `sort` calls it:
`stingray/base.py` 723-778. -/
def applyIdx (s : TS K V) (idx : List Nat) (inplace : Bool) : TS K V × TS K V :=
  let base := if inplace then s else (gtiGet s).2
  let new : TS K V :=
    { base with
      time := idx.filterMap (s.time[·]?)
      attrs := s.attrs.map (fun a => (a.1, idx.filterMap (a.2[·]?)))
      mask := s.mask.map (fun m => idx.filterMap (m[·]?)) }
  (new, if inplace then new else base)

/-- `sort`, `stingray/base.py` 2167-2202; `argsort` is `np.argsort` of line 2199 applied to the
pairs (time, position). -/
def sort (argsort : KeySort (fun (x : K × Nat) => x.1)) (s : TS K V) (reverse inplace : Bool) :
    TS K V × TS K V :=
  let idx := (argsort.sort s.time.zipIdx).map Prod.snd
  applyIdx s (if reverse then idx.reverse else idx) inplace

/-- `shift`, `stingray/base.py` 1534-1564 (the two copying modes give the same result). -/
def shift (s : TS K V) (d : K) : TS K V :=
  { s with
    time := s.time.map (· + d)
    gti := s.gti.map (List.map fun g => (g.1 + d, g.2 + d)) }

/-- `change_mjdref`, `stingray/base.py` 1507-1532. -/
def changeMjdref (s : TS K V) (new : K) : TS K V :=
  { shift s ((s.mjdref - new) * 86400) with mjdref := new }

/-- `apply_gtis`, `stingray/base.py` 1360-1384: the returned series, and `self` afterwards. -/
def applyGtis (median : List K → K) (eps : K) (s : TS K V) (newGti : Option (List (K × K)))
    (inplace : Bool) : Except PyErr (TS K V × TS K V) := do
  let (g, s) := match newGti with
    | some g => (some g, s)
    | none => gtiGet s
  match g with
  | none => .error .typeError
  | some g =>
    checkGtis g
    let good ← createGtiMask median s.time g none 0 (some s.dt) eps
    let (new, self) ← applyMask s good inplace none
    if inplace then return (setGti new (some g), setGti new (some g))
    else return (new, self)

/-- `StingrayObject._operation_with_other_obj`, `stingray/base.py` 780-867, when both operands
have the same type: `op` on every array, `errOp` on those holding errors. -/
def baseOperation (op errOp : V → V → V) (isErr : String → Bool) (s o : TS K V) :
    Except PyErr (TS K V) :=
  if s.time ≠ o.time then .error .valueError
  else do
    let attrs ← s.attrs.mapM fun a =>
      match o.attrs.lookup a.1 with
      | none => Except.error PyErr.attributeError
      | some b => .ok (a.1, List.zipWith (if isErr a.1 then errOp else op) a.2 b)
    return { (gtiGet s).2 with attrs := attrs, mask := none }

/-- `StingrayTimeseries._operation_with_other_obj`, `stingray/base.py` 1566-1629: `self` and
`other` afterwards, and the result.  The warnings are not modelled. -/
def operation (order : KeySort (fun (x : (K × K) × Bool) => x.1.2)) (median : List K → K) (eps : K)
    (op errOp : V → V → V) (isErr : String → Bool) (s o : TS K V) :
    Except PyErr (TS K V × TS K V × TS K V) := do
  let same := decide (s.mjdref = o.mjdref)
  -- `other = other.change_mjdref(self.mjdref)` works on a copy
  let o' := if same then o else changeMjdref o s.mjdref
  let (g, s1) := gtiGet s
  let (h, o1) := gtiGet o'
  if g = h then
    let r ← baseOperation op errOp isErr s1 o1
    return (s1, if same then o1 else o, r)
  else
    match g, h with
    | some g, some h =>
      let common ← crossTwoGtis order g h
      let (s2, _) ← applyGtis median eps s1 (some common) true
      let (o2, _) ← applyGtis median eps o1 (some common) true
      let r ← baseOperation op errOp isErr s2 o2
      return (s2, if same then o2 else o, r)
    | _, _ => .error .typeError

/-- Python's `a[start:stop:step]` for given bounds: the positions selected in an array of `n`
elements (CPython's `PySlice_AdjustIndices`). -/
def sliceIdx (n : Nat) (start stop step : Int) : List Nat :=
  let clip (x : Int) : Int :=
    let x := if x < 0 then x + n else x
    if x < 0 then (if step < 0 then -1 else 0)
    else if (n : Int) ≤ x then (if step < 0 then (n : Int) - 1 else n)
    else x
  let a := clip start
  let b := clip stop
  let count : Nat :=
    if step < 0 then (if b < a then ((a - b - 1) / (-step) + 1).toNat else 0)
    else (if a < b then ((b - a - 1) / step + 1).toNat else 0)
  (List.range count).map (fun (k : Nat) => (a + step * k).toNat)

/-- An index given to `__getitem__`. -/
inductive Index where
  | int (i : Int)
  | slice (start stop step : Option Int)
  | other

/-- `StingrayObject.__getitem__`, `stingray/base.py` 1049-1083: the new object (metadata, and so
GTIs, are copied). -/
def objGetItem (s : TS K V) (i : Index) : Except PyErr (TS K V) :=
  let go (start stop step : Int) : Except PyErr (TS K V) :=
    if step = 0 then .error .valueError
    else
      let idx := sliceIdx s.time.length start stop step
      .ok { (gtiGet s).2 with
            time := idx.filterMap (s.time[·]?)
            attrs := s.attrs.map (fun a => (a.1, idx.filterMap (a.2[·]?)))
            mask := none }
  match i with
  | .int i => go i (i + 1) 1
  | .slice a b c => go (a.getD 0) (b.getD s.time.length) (c.getD 1)
  | .other => .error .indexError

/-- `StingrayTimeseries.__getitem__`, `stingray/base.py` 1684-1732, for scalar `dt`.  An empty
selection leaves `time` at `None`, and `None[0]` raises `TypeError`. -/
def getItem (order : KeySort (fun (x : (K × K) × Bool) => x.1.2)) (s : TS K V) (i : Index) :
    Except PyErr (TS K V) := do
  let new ← objGetItem s i
  let step : Int := match i with
    | .slice _ _ c => c.getD 1
    | _ => 1
  match new.time.head?, new.time.getLast?, (gtiGet s).1 with
  | some t0, some t1, some g =>
    let gti := [(t0 - s.dt / 2, t1 + s.dt / 2)]
    let gti ← if 1 < step ∧ 0 < s.dt then
        crossTwoGtis order gti (new.time.map fun t => (t - s.dt / 2, t + s.dt / 2))
      else pure gti
    let gti ← crossTwoGtis order g gti
    return setGti new (some gti)
  | _, _, _ => .error .typeError

/-- One piece of `split_by_gti`, `stingray/base.py` 1417-1422: `create_gti_mask` is called without
`dt`, so it uses the median spacing of the samples, not the bin size of the series. -/
def splitPiece (median : List K → K) (eps : K) (s : TS K V) (g : K × K) : Except PyErr (TS K V) := do
  let mask ← createGtiMask median s.time [g] none 0 none eps
  let (new, _) ← applyMask s mask false none
  return setGti new (some [g])

/-- `split_by_gti`, `stingray/base.py` 1386-1426. -/
def splitByGti (median : List K → K) (eps : K) (s : TS K V) (gti : Option (List (K × K)))
    (minPoints : Nat) : Except PyErr (List (TS K V)) := do
  let g := match gti with
    | some g => some g
    | none => (gtiGet s).1
  match g with
  | none => .error .typeError
  | some g =>
    let bins ← gtiBorderBins g s.time s.dt eps
    ((g.zip bins).filter (fun p => decide ((minPoints : Int) ≤ (p.2.2 : Int) - (p.2.1 : Int)))).mapM
      (fun p => splitPiece median eps s p.1)

/-- `StingrayTimeseries.__eq__`, `stingray/base.py` 292-335 and 1357-1358: attribute names,
metadata (with the GTIs read through their getter), array attributes, and the internal arrays
*of `self`* other than the main one, the cached mask being one of them. -/
def eq [DecidableEq V] (s o : TS K V) : Bool :=
  decide (s.attrs.map Prod.fst ⊆ o.attrs.map Prod.fst) &&
  decide (o.attrs.map Prod.fst ⊆ s.attrs.map Prod.fst) &&
  decide (s.mjdref = o.mjdref) && decide (s.dt = o.dt) && decide ((gtiGet s).1 = (gtiGet o).1) &&
  s.attrs.all (fun a => decide (o.attrs.lookup a.1 = some a.2)) &&
  (match s.mask with
   | none => true
   | some m => decide (o.mask = some m))

end Stingray.TimeSeries
