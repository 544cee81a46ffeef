import Verif.Model.Basic
import Mathlib.Algebra.Order.Field.Basic

/-!
Model of the conversion of objects to tables and back, of complex columns in text files and of the interpretation of times
(`stingray/base.py` 64-72, 109-221, 344-445, 588-721, 1231-1285 and 2787-2876).

Not modelled: astropy's `Table` beyond an ordered list of named columns of the same length and a list of metadata, the files
themselves, extended precision, and attributes that are zero-dimensional arrays.
-/

namespace Stingray.Tables

/-- Names of attributes, columns and metadata. -/
abbrev Name := List Char

/-! ## Complex columns -/

/-- A column of a table: real or complex, with complex numbers as pairs. -/
inductive Col (K : Type) where
  | re (l : List K)
  | cplx (l : List (K × K))
  deriving Repr, DecidableEq

/-- A table: the columns in their order. -/
abbrev Table (K : Type) := List (Name × Col K)

/-- `table[name]` of astropy. -/
def getCol {K : Type} (t : Table K) (name : Name) : Option (Col K) :=
  (t.find? fun c => c.1 == name).map Prod.snd

/-- `table[name] = column` of astropy: replaces the column, or appends it. -/
def setCol {K : Type} (t : Table K) (name : Name) (c : Col K) : Table K :=
  if t.any fun x => x.1 == name then t.map fun x => if x.1 == name then (name, c) else x
  else t ++ [(name, c)]

/-- `table.remove_column(name)` of astropy. -/
def removeCol {K : Type} (t : Table K) (name : Name) : Table K :=
  t.filter fun x => !(x.1 == name)

def realSuffix : Name := ['.', 'r', 'e', 'a', 'l']

def imagSuffix : Name := ['.', 'i', 'm', 'a', 'g']

/-- `s.replace(pat, "")` of Python, with a bound on the number of steps. -/
def removeAllFuel (pat : Name) : Nat → Name → Name
  | 0, s => s
  | _ + 1, [] => []
  | fuel + 1, c :: cs =>
    if pat.isPrefixOf (c :: cs) then removeAllFuel pat fuel ((c :: cs).drop pat.length)
    else c :: removeAllFuel pat fuel cs

/-- `s.replace(pat, "")` of Python, for a nonempty `pat`. -/
def removeAll (pat s : Name) : Name := removeAllFuel pat s.length s

section Complex

variable {K : Type} [Field K] [LinearOrder K]

/-- One turn of the loop of `StingrayObject.write` over the columns, `stingray/base.py` 712-716: `np.iscomplex` of the first value, which says whether its imaginary part is not zero. An empty column raises an `IndexError`. -/
def splitStep (t : Table K) (name : Name) : Except PyErr (Table K) :=
  match getCol t name with
  | none => .error .keyError
  | some (.re []) => .error .indexError
  | some (.cplx []) => .error .indexError
  | some (.re (_ :: _)) => .ok t
  | some (.cplx (z :: l)) =>
    if z.2 = 0 then .ok t
    else
      let t1 := setCol t (name ++ realSuffix) (.re ((z :: l).map Prod.fst))
      let t2 := setCol t1 (name ++ imagSuffix) (.re ((z :: l).map Prod.snd))
      .ok (removeCol t2 name)

/-- The table that `StingrayObject.write` hands to astropy for a text format, `stingray/base.py` 711-716. -/
def splitComplex (t : Table K) : Except PyErr (Table K) :=
  (t.map Prod.fst).foldlM splitStep t

/-- The values of a column as complex numbers, times `1j` for an imaginary part, `stingray/base.py` 645-651. -/
def asComplex (c : Col K) (isImag : Bool) : List (K × K) :=
  match c, isImag with
  | .re l, false => l.map fun x => (x, 0)
  | .re l, true => l.map fun x => (0, x)
  | .cplx l, false => l
  | .cplx l, true => l.map fun z => (-z.2, z.1)

/-- `table[name] = value` or `table[name] += value`, `stingray/base.py` 655-661. Adding complex values to a real column in place raises a `TypeError`. -/
def addInto (t : Table K) (name : Name) (v : List (K × K)) : Except PyErr (Table K) :=
  match getCol t name with
  | none => .ok (setCol t name (.cplx v))
  | some (.re _) => .error .typeError
  | some (.cplx l) => .ok (setCol t name (.cplx (List.zipWith (fun a b => (a.1 + b.1, a.2 + b.2)) l v)))

/-- The part of the loop of `StingrayObject.read` for a column with one of the suffixes, `stingray/base.py` 645-663, given the value of the variable `is_imag`. -/
def joinColumn (t : Table K) (name : Name) (isImag : Option Bool) : Except PyErr (Option Bool × Table K) :=
  match getCol t name with
  | none => .error .keyError
  | some c =>
    match isImag with
    | none => .error .nameError
    | some b => (addInto t (removeAll imagSuffix (removeAll realSuffix name)) (asComplex c b)).map fun t' => (some b, removeCol t' name)

/-- One turn of the loop of `StingrayObject.read`, `stingray/base.py` 641-663. The variable `is_imag` is assigned in the second operand of `or` (line 642), so that it keeps its value from the previous turn when the name ends in `.real`. -/
def joinStep (s : Option Bool × Table K) (name : Name) : Except PyErr (Option Bool × Table K) :=
  if realSuffix.isSuffixOf name then joinColumn s.2 name s.1
  else if imagSuffix.isSuffixOf name then joinColumn s.2 name (some true)
  else .ok (some false, s.2)

/-- The columns of the table that `StingrayObject.read` converts into an object for a text format, `stingray/base.py` 640-663. -/
def joinComplex (t : Table K) : Except PyErr (Table K) :=
  ((t.map Prod.fst).foldlM joinStep ((none : Option Bool), t)).map Prod.snd

end Complex

/-! ## Objects and tables -/

/-- The value of an attribute: `None`, something of dtype object or callable, a string, a number or flag, or an array or list with the rows `l`. -/
inductive Val (β : Type) where
  | none
  | obj
  | str (s : Name)
  | num (x : β)
  | arr (l : List β)
  deriving Repr, DecidableEq

/-- A `StingrayTimeseries`: `_time`, `_gti`, `_mask` and the other attributes. -/
structure Obj (β : Type) where
  time : Option (List β)
  gti : Option (List β)
  mask : Option (List β)
  attrs : List (Name × Val β)
  deriving Repr, DecidableEq

/-- An astropy table with its metadata. -/
structure MetaTable (β : Type) where
  cols : List (Name × List β)
  info : List (Name × Val β)
  deriving Repr, DecidableEq

def timeName : Name := ['t', 'i', 'm', 'e']

def gtiName : Name := ['g', 't', 'i']

def maskName : Name := ['_', 'm', 'a', 's', 'k']

/-- The properties of `StingrayTimeseries` that have no setter: `mask`, `n` and `exposure`, `stingray/base.py` 1263-1275 and 1344-1355. -/
def readOnly : List Name := [['m', 'a', 's', 'k'], ['n'], ['e', 'x', 'p', 'o', 's', 'u', 'r', 'e']]

section Objects

variable {β : Type}

/-- `getattr(self, name)` for an attribute in `attrs`. -/
def getAttr (o : Obj β) (name : Name) : Option (Val β) :=
  (o.attrs.find? fun a => a.1 == name).map Prod.snd

/-- `StingrayObject.data_attributes`, `stingray/base.py` 109-135, without `_time`, `_gti` and `_mask`. -/
def isData (a : Name × Val β) : Bool :=
  !(['_', '_'].isPrefixOf a.1) && (match a.2 with | .none => false | .obj => false | _ => true)

/-- `StingrayObject.array_attrs`, `stingray/base.py` 137-164, for an object with `n` times. -/
def isArray (n : Nat) (a : Name × Val β) : Bool :=
  isData a && !(['_'].isPrefixOf a.1) && (match a.2 with | .arr l => l.length == n | _ => false)

/-- `StingrayObject.internal_array_attrs`, `stingray/base.py` 166-199, for an object with `n` times. -/
def isInternal (n : Nat) (a : Name × Val β) : Bool :=
  isData a && ['_'].isPrefixOf a.1 && (match a.2 with | .arr l => l.length != 0 && l.length == n | _ => false)

/-- `StingrayObject.meta_attrs`, `stingray/base.py` 201-221, without `gti`. -/
def isMeta (n : Nat) (a : Name × Val β) : Bool :=
  isData a && !(isArray n a) && !(['_'].isPrefixOf a.1)

/-- The `gti` property, `stingray/base.py` 1243-1252, for an object with times; `auto` makes the interval from the times and the attributes (`dt`). -/
def effectiveGti (auto : List β → List (Name × Val β) → List β) (o : Obj β) (t : List β) : List β :=
  o.gti.getD (auto t o.attrs)

/-- The rows of an array. -/
def rows (v : Val β) : List β :=
  match v with
  | .arr l => l
  | _ => []

/-- `StingrayObject.to_astropy_table`, `stingray/base.py` 354-393, for an object with the times `t`. The column of `_mask` is only there when the mask has been computed and has the length of the times. -/
def toTable (auto : List β → List (Name × Val β) → List β) (o : Obj β) (t : List β) : MetaTable β :=
  { cols := ((o.attrs.filter (isArray t.length)).map fun a => (a.1, rows a.2)) ++ [(timeName, t)] ++
      (match o.mask with
        | none => []
        | some m => if m.length != 0 && m.length == t.length then [(maskName, m)] else []) ++
      ((o.attrs.filter (isInternal t.length)).map fun a => (a.1, rows a.2)),
    info := (o.attrs.filter (isMeta t.length)) ++ [(gtiName, .arr (effectiveGti auto o t))] }

/-- Assigning to `time`, `stingray/base.py` 1235-1241, 1277-1285 and 1321-1342: refuses what is not an array and arrays of another length. `None` empties all arrays; an empty array is stored as `None`. -/
def setTime (o : Obj β) (v : Val β) : Except PyErr (Obj β) :=
  match v with
  | .none => .ok { o with time := none, mask := none,
                          attrs := o.attrs.map fun a => if (match o.time with
                            | none => false
                            | some t => isArray t.length a || isInternal t.length a) then (a.1, .none) else a }
  | .arr l =>
    match o.time with
    | some t => if l.length = t.length then .ok { o with time := if l = [] then none else some l } else .error .valueError
    | none => .ok { o with time := if l = [] then none else some l }
  | _ => .error .valueError

/-- The update of an attribute that is not a property. -/
def putAttr (o : Obj β) (name : Name) (v : Val β) : Obj β :=
  { o with attrs := if o.attrs.any fun a => a.1 == name then o.attrs.map fun a => if a.1 == name then (name, v) else a
                    else o.attrs ++ [(name, v)] }

/-- Assigning to `gti`, `stingray/base.py` 1254-1261. Simplification: a value that is not an array is refused. -/
def setGti (o : Obj β) (v : Val β) : Except PyErr (Obj β) :=
  match v with
  | .none => .ok { o with gti := none }
  | .arr l => .ok { o with gti := some l, mask := none }
  | _ => .error .valueError

/-- `setattr(obj, name, value)` for a `StingrayTimeseries`. -/
def setAttr (o : Obj β) (name : Name) (v : Val β) : Except PyErr (Obj β) :=
  if name ∈ readOnly then .error .attributeError
  else if name = timeName then setTime o v
  else if name = gtiName then setGti o v
  else if name = maskName then .ok { o with mask := match v with | .arr l => some l | _ => none }
  else .ok (putAttr o name v)

/-- The loop over the other columns, `stingray/base.py` 421-424. -/
def setColumn (lower : Name → Name) (o : Obj β) (c : Name × List β) : Except PyErr (Obj β) :=
  if lower c.1 = timeName then .ok o else setAttr o (lower c.1) (.arr c.2)

/-- The loop over the metadata, `stingray/base.py` 427-435: properties without a setter are left alone. -/
def setMeta (lower : Name → Name) (o : Obj β) (a : Name × Val β) : Except PyErr (Obj β) :=
  if lower a.1 ∈ readOnly then .ok o else setAttr o (lower a.1) a.2

/-- The main array, `stingray/base.py` 415-419. -/
def setMain (lower : Name → Name) (o : Obj β) (t : MetaTable β) : Except PyErr (Obj β) :=
  match t.cols.find? fun c => lower c.1 == timeName with
  | none => .ok o
  | some c => setTime o (.arr c.2)

/-- The number of rows of a table. -/
def numRows (t : MetaTable β) : Nat :=
  match t.cols with
  | [] => 0
  | c :: _ => c.2.length

/-- `StingrayObject.from_astropy_table`, `stingray/base.py` 396-445; `new` is the object made by `cls()`. -/
def fromTable (lower : Name → Name) (new : Obj β) (t : MetaTable β) : Except PyErr (Obj β) :=
  if numRows t = 0 then .ok new
  else ((setMain lower new t).bind fun o => t.cols.foldlM (setColumn lower) o).bind fun o => t.info.foldlM (setMeta lower) o

end Objects

/-! ## Times -/

/-- What can be given as times: `None`, an astropy `TimeDelta` or a quantity (in seconds), an astropy `Time` (as MJDs; `scalar` when it is a single time), a list or array, a single number, or something else. -/
inductive Times (K : Type) where
  | none
  | delta (l : List K)
  | time (scalar : Bool) (mjd : List K)
  | quantity (l : List K)
  | plain (l : List K)
  | number (x : K)
  | other

section Interpret

variable {K : Type} [Field K] [LinearOrder K]

/-- The reference time that `interpret_times` chooses, `stingray/base.py` 2852-2857: `np.all` of no times is true, and their first element raises an `IndexError`. -/
def chooseRef (mjd : List K) (ref : K) : Except PyErr K :=
  if ref = 0 ∧ mjd.all fun m => decide (m > 10000) then
    match mjd with
    | [] => .error .indexError
    | m :: _ => .ok m
  else .ok ref

/-- `interpret_times`, `stingray/base.py` 2787-2876: the times and the reference. The reference may be `None` (`stingray/base.py` 1488), in which case the subtraction on line 2859 raises a `TypeError`. -/
def interpretTimes (t : Times K) (ref : Option K) : Except PyErr (Option (List K) × Option K) :=
  match t with
  | .none => .ok (none, ref)
  | .delta l => .ok (some l, ref)
  | .time _ mjd =>
    match ref with
    | none => .error .typeError
    | some r => (chooseRef mjd r).map fun r' => (some (mjd.map fun m => (m - r') * 86400), some r')
  | .quantity l => .ok (some l, ref)
  | .plain l => .ok (some l, ref)
  | .number x => .ok (some [x], ref)
  | .other => .error .valueError

/-- `np.size(time) == 0` for what is not `None`. -/
def Times.isEmpty (t : Times K) : Bool :=
  match t with
  | .delta l | .quantity l | .plain l | .time _ l => l.isEmpty
  | _ => false

/-- The times and the reference of `Lightcurve(time, ..., mjdref=ref)`, `stingray/lightcurve.py` 255-267: both are kept. A single number or time has no length. -/
def lightcurveTimes (t : Times K) (ref : K) : Except PyErr (Option (List K) × Option K) :=
  match t with
  | .none => .ok (none, some ref)
  | .number _ => .error .typeError
  | .time true _ => .error .typeError
  | t => if t.isEmpty then .ok (none, some ref) else interpretTimes t (some ref)

/-- The times and the reference of `StingrayTimeseries(time, mjdref=ref)` or `EventList(time, mjdref=ref)`, `stingray/base.py` 1207, 1216 and 1277-1285: the reference returned by `interpret_times` is dropped (line 1281). -/
def timeseriesTimes (t : Times K) (ref : K) : Except PyErr (Option (List K) × Option K) :=
  match t with
  | .none => .ok (none, some ref)
  | t => if t.isEmpty then .ok (none, some ref) else (interpretTimes t (some ref)).map fun r => (r.1, some ref)

/-- The times and the reference of `StingrayTimeseries.from_astropy_timeseries`, `stingray/base.py` 1467-1505: the reference is the one in the metadata, or the default 0 of the class when there is none. -/
def fromTimeseriesTimes (t : Times K) (metaRef : Option K) : Except PyErr (Option (List K) × Option K) :=
  (interpretTimes t metaRef).map fun r => (if r.1 = some [] then none else r.1, some (metaRef.getD 0))

end Interpret

end Stingray.Tables
