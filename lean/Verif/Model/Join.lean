import Verif.Model.TimeSeries

/-!
# Joining time series: `_join_timeseries`, `stingray/base.py` 1869-2034

An array attribute has values `Option V`: `none` is NaN.  Not modelled: the free-form metadata (lines 1998-2030), and objects of another type.
-/

namespace Stingray.Join

open Stingray.Gti Stingray.TimeSeries

/-- `dt` of the result: a number, or an array (lines 1959-1966). -/
inductive Dt (K : Type) where
  | scalar (dt : K)
  | array (dts : List K)
  deriving DecidableEq

/-- What is set in the joined series.  `_mask` is one of the internal array attributes (lines 1975-1996): it is joined as the others,
with NaN where an operand has no cached mask. -/
structure Joined (K V : Type) where
  time : List K
  attrs : List (String × List (Option V))
  gti : Option (List (K × K))
  mask : Option (List (Option Bool))
  mjdref : K
  dt : Dt K
  deriving DecidableEq

variable {K V : Type} [Field K] [LinearOrder K] [IsStrictOrderedRing K] [DecidableEq V]

/-- Lines 1922-1929: the loop goes through the list, by position, while empty objects are removed from it.  `others.remove(obj)` removes
the first object that is equal to `obj`. -/
def dropEmpty : Nat → Nat → List (TS K (Option V)) → List (TS K (Option V))
  | 0, _, l => l
  | fuel + 1, i, l =>
    match l[i]? with
    | none => l
    | some o => if o.time = [] then dropEmpty fuel (i + 1) (l.erase o) else dropEmpty fuel (i + 1) l

/-- The values of one attribute in one object (lines 1985-1993): `NaN` for each sample if it has none.
`numpy.concatenate` refuses what this gives for an object without times. -/
def attrOf (a : String) (o : TS K (Option V)) : Except PyErr (List (Option V)) :=
  match o.attrs.lookup a with
  | some v => .ok v
  | none => if o.time = [] then .error .valueError else .ok (o.time.map fun _ => none)

/-- The same for `_mask`. -/
def maskOf (o : TS K (Option V)) : Except PyErr (List (Option Bool)) :=
  match o.mask with
  | some m => .ok (m.map some)
  | none => if o.time = [] then .error .valueError else .ok (o.time.map fun _ => none)

/-- `a[order]` -/
def take {α : Type} (idx : List Nat) (l : List α) : List α := idx.filterMap (l[·]?)

/-- The GTIs of the joined series, lines 1945-1953: none if no object has any or if the strategy is "none". -/
def joinGti (orderC : KeySort (fun (x : (K × K) × Bool) => x.1.2)) (orderJ : KeySort (fun (b : K × Int) => b.1))
    (orderA : KeySort (fun (g : K × K) => g.1)) (all : List (TS K (Option V))) (strategy : MergeStrategy) :
    Except PyErr (Option (List (K × K))) :=
  if (all.all fun o => o.gti.isNone) || decide (strategy = .none) then .ok none
  else mergeGtis orderC orderJ orderA (all.map fun o => (gtiGet o).1) strategy

/-- The time resolution of the joined series, lines 1955-1976: one array if the resolutions differ. -/
def joinDt (idx : List Nat) (d : K) (all : List (TS K (Option V))) : Except PyErr (Dt K) :=
  if all.all fun o => decide (o.dt = d) then .ok (.scalar d)
  else if all.any fun o => decide (o.time = []) then .error .valueError
  else .ok (.array (take idx (all.map fun o => o.time.map fun _ => o.dt).flatten))

/-- The cached mask of the joined series, lines 1978-2000: it is joined like an attribute. -/
def joinMask (idx : List Nat) (all : List (TS K (Option V))) : Except PyErr (Option (List (Option Bool))) :=
  if all.all fun o => o.mask.isNone then .ok none
  else (all.mapM maskOf).map fun ms => some (take idx ms.flatten)

/-- `self.join(others, strategy)`, `stingray/base.py` 1910-2034, for a list of time series: the joined series, and the list of the caller
afterwards (lines 1929 and 1938 change it).  If there are no others the copy of `self` is given in the same form. -/
def join (isclose : K → K → Bool) (orderC : KeySort (fun (x : (K × K) × Bool) => x.1.2)) (orderJ : KeySort (fun (b : K × Int) => b.1))
    (orderA : KeySort (fun (g : K × K) => g.1)) (argsort : KeySort (fun (x : K × Nat) => x.1))
    (self : TS K (Option V)) (others : List (TS K (Option V))) (strategy : MergeStrategy) :
    Except PyErr (Joined K V × List (TS K (Option V))) := do
  let others := dropEmpty others.length 0 others
  if others = [] then
    return ({ time := self.time, attrs := self.attrs, gti := self.gti, mask := self.mask.map (List.map some), mjdref := self.mjdref,
              dt := .scalar self.dt }, others)
  else
    let others := others.map fun o => if isclose self.mjdref o.mjdref then o else changeMjdref o self.mjdref
    let all := self :: others
    let gti ← joinGti orderC orderJ orderA all strategy
    let time := (all.map TS.time).flatten
    let idx := (argsort.sort time.zipIdx).map Prod.snd
    let dt ← joinDt idx self.dt all
    let names := (all.flatMap fun o => o.attrs.map Prod.fst).dedup
    let attrs ← names.mapM fun a => (all.mapM (attrOf a)).map fun vs => (a, take idx vs.flatten)
    let mask ← joinMask idx all
    return ({ time := take idx time, attrs := attrs, gti := gti, mask := mask, mjdref := self.mjdref, dt := dt }, others)

end Stingray.Join
