import Verif.Model.RxteTable
import Mathlib.Tactic.Linarith
import Mathlib.Tactic.NormNum
import Mathlib.Tactic.FieldSimp
import Mathlib.Tactic.Positivity
import Mathlib.Algebra.Order.Ring.Rat

/-!
Mission databases (C163, C164) and channels (C165).
-/

set_option linter.unusedSectionVars false

namespace Stingray.Missions

/-! ## Dictionaries -/

theorem get_set (k k' : Str) (v : Val) : ∀ d : Dict, (d.set k v).get k' = if k = k' then some v else d.get k'
  | .nil => by simp [Dict.set, Dict.get]
  | .cons a w d => by
    simp only [Dict.set]
    by_cases h : a = k
    · subst h
      simp only [if_true, Dict.get]
      split_ifs <;> rfl
    · simp only [if_neg h, Dict.get, get_set k k' v d]
      by_cases h1 : a = k'
      · have : k ≠ k' := fun h2 => h (h1.trans h2.symm)
        simp [h1, this]
      · simp [h1]

theorem get_pop (k k' : Str) : ∀ d : Dict, (d.pop k).get k' = if k = k' then none else d.get k'
  | .nil => by simp [Dict.pop, Dict.get]
  | .cons a w d => by
    simp only [Dict.pop]
    by_cases h : a = k
    · subst h
      simp only [if_true, Dict.get, get_pop a k' d]
      split_ifs <;> rfl
    · simp only [if_neg h, Dict.get, get_pop k k' d]
      by_cases h1 : a = k'
      · have : k ≠ k' := fun h2 => h (h1.trans h2.symm)
        simp [h1, this]
      · simp [h1]

/-- no key twice -/
def Dict.Uniq : Dict → Prop
  | .nil => True
  | .cons k _ d => d.get k = none ∧ d.Uniq

theorem uniq_set (k : Str) (v : Val) : ∀ d : Dict, d.Uniq → (d.set k v).Uniq
  | .nil, _ => by simp [Dict.set, Dict.Uniq, Dict.get]
  | .cons a w d, h => by
    simp only [Dict.set]
    split_ifs with ha
    · exact h
    · refine ⟨?_, uniq_set k v d h.2⟩
      rw [get_set, if_neg (fun h' => ha h'.symm)]
      exact h.1

theorem get_update (k : Str) : ∀ (e d : Dict), e.Uniq → (d.update e).get k = (e.get k).or (d.get k)
  | .nil, d, _ => by simp [Dict.update, Dict.get]
  | .cons a w e, d, h => by
    simp only [Dict.update, Dict.get]
    rw [get_update k e _ h.2, get_set]
    by_cases ha : a = k
    · subst ha
      simp [h.1]
    · simp [ha]

/-- Specification: the entry of a dictionary for a name, whatever the case; the last one counts. -/
def Dict.find (low : Str → Str) (name : Str) : Dict → Option Val
  | .nil => none
  | .cons k v d => (d.find low name).or (if low k = low name then some v else none)

theorem lowerInto_get (low : Str → Str) (name : Str) : ∀ (d acc : Dict),
    (lowerInto low d acc).get (low name) = ((d.find low name).map (lowerVal low)).or (acc.get (low name))
  | .nil, acc => by simp [lowerInto, Dict.find]
  | .cons k v d, acc => by
    simp only [lowerInto, Dict.find]
    rw [lowerInto_get low name d, get_set]
    cases h : d.find low name with
    | some w => simp
    | none =>
      by_cases hk : low k = low name <;> simp [hk]

theorem lowerInto_uniq (low : Str → Str) : ∀ (d acc : Dict), acc.Uniq → (lowerInto low d acc).Uniq
  | .nil, acc, h => by simpa [lowerInto] using h
  | .cons k v d, acc, h => by
    simp only [lowerInto]
    exact lowerInto_uniq low d _ (uniq_set _ _ _ h)

theorem lower_get (low : Str → Str) (name : Str) (d : Dict) : (lowerDict low d).get (low name) = (d.find low name).map (lowerVal low) := by
  unfold lowerDict
  rw [lowerInto_get]
  simp [Dict.get]

theorem lower_uniq (low : Str → Str) (d : Dict) : (lowerDict low d).Uniq := lowerInto_uniq low d .nil trivial

/-! ## C163: keys -/

/-- Specification: the table of an instrument or mode in a dictionary; an empty one if there is none. -/
def Dict.table (low : Str → Str) (name : Option Str) (d : Dict) : Dict :=
  match name.bind fun n => d.find low n with
  | some (.dict e) => e
  | _ => .nil

/-- Specification: the table of the mode: the one of the instrument if it has one, else that of the mission. -/
def modeTable (low : Str → Str) (mode : Option Str) (instTable info : Dict) : Dict :=
  if (mode.bind fun n => instTable.find low n).isSome then instTable.table low mode else info.table low mode

/-- Specification: not the name of a key that is a string. -/
def Dict.Sub (low : Str → Str) (name : Option Str) (d : Dict) : Prop := ∀ n, name = some n → ∀ w, d.find low n ≠ some (.leaf w)

theorem find_nil (low : Str → Str) (name : Str) : Dict.find low name .nil = none := rfl

theorem opt_cases {α : Type} (x : Option α) : x = none ∨ ∃ v, x = some v := by cases x <;> simp

/-- **C163.** `get_key_from_mission_info` gives the entry for the key in the table of the mode, or else of the instrument, or else of the mission, or else the default. The table of the mode is the one in the table of the instrument if it has one, else that of the mission. All names are compared whatever their case. -/
theorem get_key_value (low : Str → Str) (info : Dict) (key : Str) (inst mode : Option Str)
    (hi : info.Sub low inst) (hm : info.Sub low mode) (hm' : (info.table low inst).Sub low mode)
    (hki : ∀ n, inst = some n → low n ≠ low key) (hkm : ∀ n, mode = some n → low n ≠ low key)
    (him : ∀ n k, inst = some n → mode = some k → low n ≠ low k) :
    getKey low info key inst mode =
      .ok (((((modeTable low mode (info.table low inst) info).find low key).or ((info.table low inst).find low key)).or (info.find low key)).map (lowerVal low)) := by
  obtain ⟨D, hD, hDget⟩ : ∃ D, enter low inst (lowerDict low info) = .ok D ∧
      ∀ name, (∀ n, inst = some n → low n ≠ low name) → D.get (low name) = (((info.table low inst).find low name).or (info.find low name)).map (lowerVal low) := by
    cases inst with
    | none =>
      refine ⟨_, rfl, fun name _ => ?_⟩
      rw [lower_get]
      simp [Dict.table, find_nil]
    | some i =>
      simp only [enter, lower_get, Dict.table, Option.bind_some]
      cases h : info.find low i with
      | none =>
        refine ⟨_, rfl, fun name _ => ?_⟩
        rw [lower_get]
        simp [find_nil]
      | some v =>
        cases v with
        | leaf w => exact absurd h (hi i rfl w)
        | dict e =>
          simp only [Option.map_some, lowerVal]
          refine ⟨_, rfl, fun name hn => ?_⟩
          rw [get_pop, if_neg (hn i rfl)]
          show ((lowerDict low info).update (lowerDict low e)).get (low name) = _
          rw [get_update _ _ _ (lower_uniq low e), lower_get, lower_get]
          cases e.find low name <;> simp
  unfold getKey
  simp only [hD, bind, Except.bind]
  cases mode with
  | none =>
    simp only [enter, hDget key hki, modeTable, Dict.table, Option.bind_none]
    simp [find_nil]
  | some m =>
    have hmD := hDget m (fun n hn => him n m hn rfl)
    simp only [enter, hmD, modeTable, Option.bind_some]
    have htab : ∀ d : Dict, d.table low (some m) = match d.find low m with | some (.dict e) => e | _ => .nil := fun d => rfl
    have fin : ∀ e : Dict, ((D.update (lowerDict low e)).pop (low m)).get (low key) =
        (((e.find low key).or ((info.table low inst).find low key)).or (info.find low key)).map (lowerVal low) := by
      intro e
      rw [get_pop, if_neg (hkm m rfl), get_update _ _ _ (lower_uniq low e), lower_get, hDget key hki]
      cases e.find low key <;> simp
    rcases opt_cases ((info.table low inst).find low m) with h1 | ⟨v, h1⟩
    · simp only [h1, Option.none_or, Option.isSome_none, Bool.false_eq_true, if_false, htab]
      rcases opt_cases (info.find low m) with h2 | ⟨v, h2⟩
      · simp only [h2, Option.map_none, find_nil, Option.none_or]
        rw [hDget key hki]
      · cases v with
        | leaf w => exact absurd h2 (hm m rfl w)
        | dict e =>
          simp only [h2, Option.map_some, lowerVal]
          congr 1
          exact fin e
    · cases v with
      | leaf w => exact absurd h1 (hm' m rfl w)
      | dict e =>
        simp only [htab, h1, Option.some_or, Option.map_some, lowerVal, Option.isSome_some, if_true]
        congr 1
        exact fin e

/-- **C163 (case).** The case in which the key, the instrument and the mode are written does not matter. -/
theorem get_key_case (low : Str → Str) (info : Dict) (key key' : Str) (inst inst' mode mode' : Option Str) (hk : low key = low key')
    (hi : inst.map low = inst'.map low) (hm : mode.map low = mode'.map low) :
    getKey low info key inst mode = getKey low info key' inst' mode' := by
  have h : ∀ (a b : Option Str) (d : Dict), a.map low = b.map low → enter low a d = enter low b d := by
    intro a b d hab
    cases a <;> cases b <;> simp at hab
    · rfl
    · simp [enter, hab]
  simp only [getKey, h _ _ _ hi, hk]
  congr 1
  funext d
  rw [h _ _ _ hm]

/-- **C163 (errors).** An instrument that has the name of a keyword of the mission is refused. -/
theorem get_key_refuses (low : Str → Str) (info : Dict) (key i : Str) (mode : Option Str) (w : List Str) (h : info.find low i = some (.leaf w)) :
    getKey low info key (some i) mode = .error .valueError := by
  simp [getKey, enter, lower_get, h, lowerVal, bind, Except.bind]

/-- lower case, for the examples -/
def lowA (s : Str) : Str := s.map Char.toLower

/-- the database of the docstring -/
def docInfo : Dict :=
  .cons "ecol".toList (.leaf ["PI".toList]) (.cons "A".toList (.dict (.cons "ecol".toList (.leaf ["BLA".toList]) .nil))
    (.cons "C".toList (.dict (.cons "M1".toList (.dict (.cons "ecol".toList (.leaf ["X".toList]) .nil)) .nil)) .nil))

def leafOf : Option Val → Option (List Str)
  | some (.leaf w) => some w
  | _ => none

example : (getKey lowA docInfo "ECOL".toList (some "c".toList) (some "m1".toList)).map leafOf = .ok (some ["X".toList]) ∧
    (getKey lowA docInfo "ecol".toList (some "A".toList) (some "M1".toList)).map leafOf = .ok (some ["BLA".toList]) ∧
    (getKey lowA docInfo "ecol".toList (some "B".toList) none).map leafOf = .ok (some ["PI".toList]) ∧
    (getKey lowA docInfo "ghghg".toList (some "C".toList) none).map leafOf = .ok none := by decide +kernel

example : docInfo.Sub lowA (some "C".toList) ∧ docInfo.Sub lowA (some "M1".toList) ∧ (docInfo.table lowA (some "C".toList)).Sub lowA (some "M1".toList) := by
  have h1 : docInfo.find lowA "C".toList = some (.dict (.cons "M1".toList (.dict (.cons "ecol".toList (.leaf ["X".toList]) .nil)) .nil)) := by rfl
  have h2 : docInfo.find lowA "M1".toList = none := by rfl
  refine ⟨?_, ?_, ?_⟩
  · intro n hn w; cases hn; rw [h1]; simp
  · intro n hn w; cases hn; rw [h2]; simp
  · intro n hn w; cases hn
    simp only [Dict.table, Option.bind_some, h1]
    have : Dict.find lowA "M1".toList (.cons "M1".toList (.dict (.cons "ecol".toList (.leaf ["X".toList]) .nil)) .nil) = some (.dict (.cons "ecol".toList (.leaf ["X".toList]) .nil)) := rfl
    rw [this]; simp

/-! ## C164: the database -/

/-- Specification: the entry at the end of a path of names. -/
def Dict.getPath : List Str → Dict → Option Val
  | [], _ => none
  | [k], d => d.get k
  | k :: k' :: p, d =>
    match d.get k with
    | some (.dict e) => e.getPath (k' :: p)
    | _ => none

theorem setPath_same (v : Val) : ∀ (p : List Str) (d d' : Dict), d.setPath v p = .ok d' → d'.getPath p = some v
  | [], d, d', h => by simp [Dict.setPath] at h
  | [k], d, d', h => by
    simp only [Dict.setPath, Except.ok.injEq] at h
    rw [← h]
    simp [Dict.getPath, get_set]
  | k :: k' :: p, d, d', h => by
    have key : ∀ e0 : Dict, (do let e ← Dict.setPath v (k' :: p) e0; Except.ok (d.set k (.dict e)) : Except PyErr Dict) = .ok d' →
        d'.getPath (k :: k' :: p) = some v := by
      intro e0 h
      cases he : Dict.setPath v (k' :: p) e0 with
      | error x => rw [he] at h; cases h
      | ok e =>
        rw [he] at h
        cases h
        have := setPath_same v (k' :: p) e0 e he
        simpa [Dict.getPath, get_set] using this
    simp only [Dict.setPath] at h
    split at h
    · exact key _ h
    · exact key _ h
    · cases h

theorem setPath_get (v : Val) (k : Str) (p : List Str) (d d' : Dict) (h : d.setPath v (k :: p) = .ok d') (n : Str) (hn : k ≠ n) : d'.get n = d.get n := by
  cases p with
  | nil =>
    simp only [Dict.setPath, Except.ok.injEq] at h
    rw [← h, get_set, if_neg hn]
  | cons k' p =>
    have key : ∀ e0 : Dict, (do let e ← Dict.setPath v (k' :: p) e0; Except.ok (d.set k (.dict e)) : Except PyErr Dict) = .ok d' → d'.get n = d.get n := by
      intro e0 h
      cases he : Dict.setPath v (k' :: p) e0 with
      | error x => rw [he] at h; cases h
      | ok e =>
        rw [he] at h
        cases h
        rw [get_set, if_neg hn]
    simp only [Dict.setPath] at h
    split at h
    · exact key _ h
    · exact key _ h
    · cases h

theorem setPath_other (v : Val) : ∀ (p q : List Str) (d d' : Dict), d.setPath v p = .ok d' → ¬ p <+: q → ¬ q <+: p → d'.getPath q = d.getPath q
  | [], q, d, d', h, _, _ => by simp [Dict.setPath] at h
  | k :: p, [], d, d', h, _, hq => by simp at hq
  | k :: p, [n], d, d', h, h1, h2 => by
    have hn : k ≠ n := by rintro rfl; simp [List.cons_prefix_cons] at h2
    simpa [Dict.getPath] using setPath_get v k p d d' h n hn
  | k :: p, n :: n' :: q, d, d', h, h1, h2 => by
    by_cases hn : k = n
    · subst hn
      cases p with
      | nil => exact absurd (by simp [List.cons_prefix_cons]) h1
      | cons k' p =>
        have h1' : ¬ (k' :: p) <+: (n' :: q) := fun hh => h1 (List.cons_prefix_cons.2 ⟨rfl, hh⟩)
        have h2' : ¬ (n' :: q) <+: (k' :: p) := fun hh => h2 (List.cons_prefix_cons.2 ⟨rfl, hh⟩)
        simp only [Dict.setPath] at h
        split at h
        · next hg =>
          cases he : Dict.setPath v (k' :: p) .nil with
          | error x => rw [he] at h; cases h
          | ok e =>
            rw [he] at h
            cases h
            have := setPath_other v (k' :: p) (n' :: q) .nil e he h1' h2'
            simp only [Dict.getPath, get_set, if_true, hg, this]
            cases q <;> simp [Dict.getPath, Dict.get]
        · next e0 hg =>
          cases he : Dict.setPath v (k' :: p) e0 with
          | error x => rw [he] at h; cases h
          | ok e =>
            rw [he] at h
            cases h
            have := setPath_other v (k' :: p) (n' :: q) e0 e he h1' h2'
            simp only [Dict.getPath, get_set, if_true, hg, this]
        · cases h
    · simp only [Dict.getPath, setPath_get v k p d d' h n hn]

theorem setPath_leaf (v : Val) (w : List Str) : ∀ (q : List Str) (k : Str) (r : List Str) (d : Dict), d.getPath q = some (.leaf w) →
    d.setPath v (q ++ k :: r) = .error .typeError
  | [], k, r, d, h => by simp [Dict.getPath] at h
  | [n], k, r, d, h => by
    simp only [Dict.getPath] at h
    simp [Dict.setPath, h]
  | n :: n' :: q, k, r, d, h => by
    simp only [Dict.getPath] at h
    split at h
    · next e he =>
      have := setPath_leaf v w (n' :: q) k r e h
      simp only [List.cons_append] at this ⊢
      simp only [Dict.setPath, he, this, bind, Except.bind]
    · cases h

/-- Specification: a line that defines something, once stripped: neither empty nor a comment. -/
def Defines (sp : Char → Bool) (line : Str) : Prop := strip sp line ≠ [] ∧ ¬ ['!'] <+: strip sp line

/-- Specification: the path of names before the first space of a line. -/
def pathOf (sp : Char → Bool) (line : Str) : List Str := pieces (fun c => c == ':') ((words sp (strip sp line)).headD [])

/-- Specification: the words after it. -/
def valueOf (sp : Char → Bool) (line : Str) : List Str := (words sp (strip sp line)).tail

theorem readLine_skip (low : Str → Str) (sp : Char → Bool) (mission : Option Str) (db : Dict) (line : Str) (h : ¬ Defines sp line) :
    readLine low sp mission db line = .ok db := by
  have hc : ((['!'].isPrefixOf (strip sp line)) || (strip sp line).isEmpty) = true := by
    unfold Defines at h
    rw [Bool.or_eq_true, List.isPrefixOf_iff_prefix, List.isEmpty_iff]
    tauto
  simp only [readLine, hc, if_true]
  split_ifs <;> rfl

theorem defines_cond (sp : Char → Bool) (line : Str) (h : Defines sp line) :
    ((['!'].isPrefixOf (strip sp line)) || (strip sp line).isEmpty) = false := by
  rw [Bool.eq_false_iff]
  intro hc
  rw [Bool.or_eq_true, List.isPrefixOf_iff_prefix, List.isEmpty_iff] at hc
  rcases hc with hc | hc
  · exact h.2 hc
  · exact h.1 hc

theorem readLine_all (low : Str → Str) (sp : Char → Bool) (db : Dict) (line : Str) (h : Defines sp line) :
    readLine low sp none db line = if (pathOf sp line).tail = [] then .error .indexError else db.setPath (.leaf (valueOf sp line)) (pathOf sp line) := by
  simp only [readLine, defines_cond sp line h, Bool.false_eq_true, if_false, pathOf, valueOf, List.isEmpty_iff]
  by_cases ht : (pieces (fun c => c == ':') ((words sp (strip sp line)).headD [])).tail = []
  · simp only [ht, if_true]
  · simp only [ht, if_false]

theorem readLine_one (low : Str → Str) (sp : Char → Bool) (m : Str) (db : Dict) (line : Str) (h : Defines sp line) :
    readLine low sp (some m) db line = if m <+: low (strip sp line) then db.setPath (.leaf (valueOf sp line)) (pathOf sp line).tail else .ok db := by
  simp only [readLine, defines_cond sp line h, Bool.false_eq_true, if_false, pathOf, valueOf]
  by_cases hm : m <+: low (strip sp line)
  · have : (m.isPrefixOf (low (strip sp line))) = true := List.isPrefixOf_iff_prefix.2 hm
    simp [this, hm]
  · have : (m.isPrefixOf (low (strip sp line))) = false := by rw [Bool.eq_false_iff]; exact fun hc => hm (List.isPrefixOf_iff_prefix.1 hc)
    simp [this, hm]

theorem readLines_mission (low : Str → Str) (sp : Char → Bool) (m N : Str) : ∀ (lines : List Str)
    (_ : ∀ l ∈ lines, Defines sp l → (m <+: low (strip sp l) ↔ (pathOf sp l).head? = some N))
    (d0 all db0 : Dict), (d0.get N = some (.dict db0) ∨ (d0.get N = none ∧ db0 = .nil)) → readLines low sp none d0 lines = .ok all →
    ∃ db, readLines low sp (some m) db0 lines = .ok db ∧ (all.get N = some (.dict db) ∨ (all.get N = none ∧ db = .nil))
  | [], _, d0, all, db0, hinv, h => by
    simp only [readLines, Except.ok.injEq] at h
    subst h
    exact ⟨db0, rfl, hinv⟩
  | l :: ls, hl, d0, all, db0, hinv, h => by
    have ih := readLines_mission low sp m N ls (fun x hx => hl x (List.mem_cons_of_mem _ hx))
    simp only [readLines, bind, Except.bind] at h ⊢
    by_cases hd : Defines sp l
    · rw [readLine_all _ _ _ _ hd] at h
      rw [readLine_one _ _ _ _ _ hd]
      have hiff := hl l List.mem_cons_self hd
      cases hp : pathOf sp l with
      | nil => rw [hp] at h; simp at h
      | cons k p =>
        rw [hp] at h hiff
        simp only [List.tail_cons, List.head?_cons, Option.some.injEq] at h hiff ⊢
        cases p with
        | nil => simp at h
        | cons k' p =>
          simp only [reduceCtorEq, if_false] at h
          cases hs : d0.setPath (.leaf (valueOf sp l)) (k :: k' :: p) with
          | error e => rw [hs] at h; cases h
          | ok d1 =>
            rw [hs] at h
            simp only at h
            by_cases hk : k = N
            · subst hk
              rw [if_pos (hiff.2 rfl)]
              have hstep : ∃ db1, db0.setPath (.leaf (valueOf sp l)) (k' :: p) = .ok db1 ∧ d1.get k = some (.dict db1) := by
                simp only [Dict.setPath] at hs
                rcases hinv with hg | ⟨hg, rfl⟩ <;> rw [hg] at hs <;> simp only at hs
                · cases he : db0.setPath (.leaf (valueOf sp l)) (k' :: p) with
                  | error e => rw [he] at hs; cases hs
                  | ok e => rw [he] at hs; cases hs; exact ⟨e, rfl, by rw [get_set, if_pos rfl]⟩
                · cases he : Dict.nil.setPath (.leaf (valueOf sp l)) (k' :: p) with
                  | error e => rw [he] at hs; cases hs
                  | ok e => rw [he] at hs; cases hs; exact ⟨e, rfl, by rw [get_set, if_pos rfl]⟩
              obtain ⟨db1, h1, h2⟩ := hstep
              rw [h1]
              exact ih d1 all db1 (Or.inl h2) h
            · rw [if_neg (fun hc => hk (hiff.1 hc))]
              refine ih d1 all db0 ?_ h
              rw [setPath_get _ _ _ _ _ hs N hk]
              exact hinv
    · rw [readLine_skip _ _ _ _ _ hd] at h ⊢
      exact ih d0 all db0 hinv h

/-- **C164.** If the lines that begin with the name of a mission, whatever the case, are those of one entry `N` of the database, what is read for the mission alone is that entry of all that is read, apart from the two missions that are patched. -/
theorem read_mission (low : Str → Str) (sp : Char → Bool) (mission N : Str) (lines : List Str) (hlow : low (low mission) = low mission)
    (hl : ∀ l ∈ lines, Defines sp l → (low mission <+: low (strip sp l) ↔ (pathOf sp l).head? = some N))
    (hm : low mission ≠ "xmm".toList) (hm' : low mission ≠ "xte".toList)
    (all : Dict) (h : readMissionInfo low sp none lines = .ok all) (hN : all.get N ≠ none) :
    ∃ db, readMissionInfo low sp (some mission) lines = .ok db ∧ all.get N = some (.dict db) := by
  have h' : readLines low sp none .nil lines = .ok all := by
    simp only [readMissionInfo, Option.map_none, bind, Except.bind] at h
    cases hr : readLines low sp none .nil lines with
    | error e => rw [hr] at h; cases h
    | ok d => rw [hr] at h; exact h
  obtain ⟨db, h1, h2⟩ := readLines_mission low sp (low mission) N lines hl .nil all .nil (Or.inr ⟨rfl, rfl⟩) h'
  refine ⟨db, ?_, h2.resolve_right fun hc => hN hc.1⟩
  simp only [readMissionInfo, Option.map_some, h1, bind, Except.bind, patch, hlow, if_neg hm]
  rw [if_neg (fun hc => hm' hc.1)]

theorem readLines_append (low : Str → Str) (sp : Char → Bool) (mission : Option Str) : ∀ (a b : List Str) (d : Dict),
    readLines low sp mission d (a ++ b) = (readLines low sp mission d a).bind fun d => readLines low sp mission d b
  | [], b, d => rfl
  | l :: a, b, d => by
    simp only [List.cons_append, readLines, bind, Except.bind]
    cases readLine low sp mission d l with
    | error e => rfl
    | ok d1 => exact readLines_append low sp mission a b d1

theorem readLines_keeps (low : Str → Str) (sp : Char → Bool) (q : List Str) : ∀ (lines : List Str)
    (_ : ∀ l ∈ lines, Defines sp l → ¬ pathOf sp l <+: q ∧ ¬ q <+: pathOf sp l) (d d' : Dict), readLines low sp none d lines = .ok d' →
    d'.getPath q = d.getPath q
  | [], _, d, d', h => by simp only [readLines, Except.ok.injEq] at h; rw [h]
  | l :: ls, hl, d, d', h => by
    simp only [readLines, bind, Except.bind] at h
    have ih := readLines_keeps low sp q ls (fun x hx => hl x (List.mem_cons_of_mem _ hx))
    by_cases hd : Defines sp l
    · rw [readLine_all _ _ _ _ hd] at h
      split_ifs at h with ht
      cases hs : d.setPath (.leaf (valueOf sp l)) (pathOf sp l) with
      | error e => rw [hs] at h; cases h
      | ok d1 =>
        rw [hs] at h
        obtain ⟨h1, h2⟩ := hl l List.mem_cons_self hd
        rw [ih d1 d' h]
        exact setPath_other _ _ _ _ _ hs h1 h2
    · rw [readLine_skip _ _ _ _ _ hd] at h
      exact ih d d' h

/-- **C164 (last).** The last line for a path counts: if no later line is for it, for a longer or for a shorter one, the database has the words of that line there. -/
theorem read_last (low : Str → Str) (sp : Char → Bool) (before after : List Str) (line : Str) (hd : Defines sp line)
    (ha : ∀ l ∈ after, Defines sp l → ¬ pathOf sp l <+: pathOf sp line ∧ ¬ pathOf sp line <+: pathOf sp l)
    (all : Dict) (h : readMissionInfo low sp none (before ++ line :: after) = .ok all) :
    all.getPath (pathOf sp line) = some (.leaf (valueOf sp line)) := by
  simp only [readMissionInfo, Option.map_none, bind, Except.bind, readLines_append] at h
  cases h0 : readLines low sp none .nil before with
  | error e => rw [h0] at h; cases h
  | ok d0 =>
    rw [h0] at h
    simp only [readLines, bind, Except.bind] at h
    rw [readLine_all _ _ _ _ hd] at h
    split_ifs at h with ht
    cases hs : d0.setPath (.leaf (valueOf sp line)) (pathOf sp line) with
    | error e => rw [hs] at h; cases h
    | ok d1 =>
      rw [hs] at h
      simp only at h
      cases h2 : readLines low sp none d1 after with
      | error e => rw [h2] at h; cases h
      | ok d2 =>
        rw [h2] at h
        simp only [patch, Except.ok.injEq] at h
        rw [← h, readLines_keeps low sp _ after ha d1 d2 h2]
        exact setPath_same _ _ _ _ hs

/-- **C164 (errors).** A line for a name below one that has a value is refused, and so is a line with a single name. -/
theorem read_refuses (low : Str → Str) (sp : Char → Bool) (before after : List Str) (line : Str) (hd : Defines sp line) (d0 : Dict)
    (h0 : readMissionInfo low sp none before = .ok d0) :
    (∀ q w k r, d0.getPath q = some (.leaf w) → pathOf sp line = q ++ k :: r → r ≠ [] ∨ q ≠ [] →
      readMissionInfo low sp none (before ++ line :: after) = .error .typeError) ∧
    ((pathOf sp line).tail = [] → readMissionInfo low sp none (before ++ line :: after) = .error .indexError) := by
  have h0' : readLines low sp none .nil before = .ok d0 := by
    simp only [readMissionInfo, Option.map_none, bind, Except.bind] at h0
    cases hr : readLines low sp none .nil before with
    | error e => rw [hr] at h0; cases h0
    | ok d => rw [hr] at h0; exact h0
  constructor
  · intro q w k r hq hp hne
    have hq0 : q ≠ [] := by rintro rfl; simp [Dict.getPath] at hq
    simp only [readMissionInfo, Option.map_none, bind, Except.bind, readLines_append, h0', readLines, readLine_all _ _ _ _ hd]
    have ht : (pathOf sp line).tail ≠ [] := by
      rw [hp]
      cases q with
      | nil => exact absurd rfl hq0
      | cons a q => simp
    rw [if_neg ht, hp, setPath_leaf _ w q k r d0 hq]
  · intro ht
    simp only [readMissionInfo, Option.map_none, bind, Except.bind, readLines_append, h0', readLines, readLine_all _ _ _ _ hd, if_pos ht]

/-- **C164 (patches).** For XMM `,GTI0` is added to the name of the GTIs; for XTE the energy column is `PHA` and the detector column `PCUID`, if there is an energy column; all else is as read, for every mission. -/
theorem patch_value (low : Str → Str) (mission : Str) (info db : Dict) (h : patch low (some mission) info = .ok db) (k : Str) :
    db.get k =
      if low mission = "xmm".toList ∧ k = "gti".toList then (match info.get k with | some (.leaf [g]) => some (.leaf [g ++ ",GTI0".toList]) | x => x)
      else if low mission = "xte".toList ∧ (info.get "ecol".toList).isSome ∧ k = "ecol".toList then some (.leaf ["PHA".toList])
      else if low mission = "xte".toList ∧ (info.get "ecol".toList).isSome ∧ k = "ccol".toList then some (.leaf ["PCUID".toList])
      else info.get k := by
  have hx : ("xmm".toList : Str) ≠ "xte".toList := by decide
  have hec : ("ecol".toList : Str) ≠ "ccol".toList := by decide
  simp only [patch] at h
  by_cases hm : low mission = "xmm".toList
  · have hm' : low mission ≠ "xte".toList := fun hc => hx (hm.symm.trans hc)
    rw [if_pos hm] at h
    simp only [hm', false_and, if_false, hm, true_and] at h ⊢
    simp only [hx, false_and, if_false] at h
    split at h
    · next hg =>
      cases h
      by_cases hk : k = "gti".toList
      · subst hk; simp only [if_true, hg]
      · simp only [if_neg hk, hx, false_and, if_false]
    · next g hg =>
      cases h
      rw [get_set]
      by_cases hk : k = "gti".toList
      · subst hk; simp only [if_true, hg]
      · rw [if_neg (fun hc => hk hc.symm), if_neg hk]
        simp only [hx, false_and, if_false]
    · cases h
  · rw [if_neg hm] at h
    simp only [hm, false_and, if_false]
    cases h
    by_cases hc : low mission = "xte".toList ∧ (info.get "ecol".toList).isSome
    · rw [if_pos hc, get_set, get_set]
      by_cases h1 : k = "ecol".toList
      · subst h1
        rw [if_neg (Ne.symm hec), if_pos rfl, if_pos ⟨hc.1, hc.2, rfl⟩]
      · by_cases h2 : k = "ccol".toList
        · subst h2
          rw [if_pos rfl, if_neg (fun hh => hec hh.2.2.symm), if_pos ⟨hc.1, hc.2, rfl⟩]
        · rw [if_neg (Ne.symm h2), if_neg (Ne.symm h1), if_neg (fun hh => h1 hh.2.2), if_neg (fun hh => h2 hh.2.2)]
    · rw [if_neg hc, if_neg (fun hh => hc ⟨hh.1, hh.2.1⟩), if_neg (fun hh => hc ⟨hh.1, hh.2.1⟩)]

def isSp (c : Char) : Bool := c == ' '

/-- a small database -/
def smallDb : List Str := ["! comment".toList, "AB:x 1".toList, "ab:I:x 2 3".toList, "".toList, "C:x 4".toList]

example : (readMissionInfo lowA isSp none smallDb).map (fun d => (leafOf (d.getPath ["AB".toList, "x".toList]), leafOf (d.getPath ["C".toList, "x".toList]))) =
    .ok (some ["1".toList], some ["4".toList]) ∧
    (readMissionInfo lowA isSp (some "C".toList) smallDb).map (fun d => leafOf (d.get "x".toList)) = .ok (some ["4".toList]) := by
  constructor <;> decide +kernel

/-- **C164 (negation).** The lines are those that begin with the name, not those of the mission: for `A` it gives the keys of the mission `AB`, though there is no `A`. -/
theorem read_prefix :
    (readMissionInfo lowA isSp none smallDb).map (fun d => (d.get "A".toList).isSome) = .ok false ∧
    (readMissionInfo lowA isSp (some "A".toList) smallDb).map (fun d => leafOf (d.get "x".toList)) = .ok (some ["1".toList]) := by
  constructor <;> decide +kernel

/-! ## C165: channels and energies -/

section Calibration

variable {K : Type} [Field K] [LinearOrder K] [IsStrictOrderedRing K]

/-- **C165.** The conversions of channels to energies are increasing functions of the channel, whatever the detector. -/
theorem conversion_increasing (low : Str → Str) (mission : Str) (f : K → K) (h : simpleConversion (low mission) = some f) (a b : K) (hab : a < b) : f a < f b := by
  unfold simpleConversion at h
  split_ifs at h <;> (simp only [Option.some.injEq] at h; subst h; simp only) <;> first | linarith | nlinarith

/-- **C165 (agreement).** Where the obsolete `rough_calibration` gives an energy, `get_rough_conversion_function` gives the same for every detector. -/
theorem calibration_agrees (low : Str → Str) (pca : Except PyErr (K → Nat → Except PyErr K)) (mission : Str) (instrument : Option Str) (pi e : K)
    (h : roughCalibration low mission pi = .ok e) :
    ∃ f, conversion low pca mission instrument = .ok f ∧ ∀ det, f pi det = .ok e := by
  unfold roughCalibration at h
  unfold conversion simpleConversion
  split_ifs at h <;> cases h <;> rename_i hm
  all_goals (simp_all)

/-- **C165 (values).** At the first channels and per channel: NuSTAR 1.62 and 0.04 keV, XMM 0 and 0.001, NICER 0 and 0.01, IXPE 0 and 0.04, Chandra (AXAF) 0.0146 per channel from channel 1. -/
theorem calibration_values (pi : K) :
    (simpleConversion (K := K) "nustar".toList).map (fun f => f pi) = some (162 / 100 + pi / 25) ∧
    (simpleConversion (K := K) "xmm".toList).map (fun f => f pi) = some (pi / 1000) ∧
    (simpleConversion (K := K) "nicer".toList).map (fun f => f pi) = some (pi / 100) ∧
    (simpleConversion (K := K) "ixpe".toList).map (fun f => f pi) = some (pi / 25) ∧
    (simpleConversion (K := K) "axaf".toList).map (fun f => f pi) = some ((pi - 1) * 146 / 10000) := by
  refine ⟨?_, ?_, ?_, ?_, ?_⟩ <;> simp [simpleConversion] <;> linarith

/-- **C165 (errors).** Other missions are refused by both; so are other instruments of XTE. -/
theorem calibration_refuses (low : Str → Str) (pca : Except PyErr (K → Nat → Except PyErr K)) (mission : Str) (instrument : Option Str) (pi : K)
    (h : low mission ∉ ["nustar".toList, "xmm".toList, "nicer".toList, "ixpe".toList]) :
    roughCalibration low mission pi = .error .valueError ∧
    (low mission ≠ "axaf".toList → low mission ≠ "xte".toList → (conversion low pca mission instrument).map (fun _ => ()) = .error .valueError) ∧
    (low mission = "xte".toList → ∀ i, instrument = some i → low i ≠ "pca".toList → (conversion low pca mission instrument).map (fun _ => ()) = .error .valueError) := by
  simp only [List.mem_cons, List.not_mem_nil, or_false, not_or] at h
  obtain ⟨h1, h2, h3, h4⟩ := h
  refine ⟨by rw [roughCalibration, if_neg h1, if_neg h2, if_neg h3, if_neg h4], ?_, ?_⟩
  · intro h5 h6
    unfold conversion simpleConversion
    rw [if_neg h1, if_neg h2, if_neg h3, if_neg h4, if_neg h5]
    simp only [if_neg h6]
    rfl
  · rintro h6 i rfl hi
    have h5 : low mission ≠ "axaf".toList := by rw [h6]; decide
    unfold conversion simpleConversion
    rw [if_neg h1, if_neg h2, if_neg h3, if_neg h4, if_neg h5]
    simp only [if_pos h6, if_neg hi]
    rfl

end Calibration

/-- Specification: the number written with these digits. -/
def number (s : Str) : Nat := s.foldl (fun n c => n * 10 + (c.toNat - '0'.toNat)) 0

theorem toInt_digits (s : Str) (h : s ≠ []) (hd : ∀ c ∈ s, c.isDigit = true) : toInt s = .ok (number s) := by
  have key : ∀ (s : Str) (n : Nat), (∀ c ∈ s, c.isDigit = true) →
      s.foldlM (m := Except PyErr) (fun n c => if c.isDigit then .ok (n * 10 + (c.toNat - '0'.toNat)) else .error .valueError) n =
        .ok (s.foldl (fun n c => n * 10 + (c.toNat - '0'.toNat)) n) := by
    intro s
    induction s with
    | nil => intro n _; rfl
    | cons c s ih =>
      intro n hd
      simp only [List.foldlM_cons, List.foldl_cons, hd c (by simp), if_true, bind, Except.bind]
      exact ih _ (fun x hx => hd x (by simp [hx]))
  unfold toInt number
  rw [if_neg (by simpa [List.isEmpty_iff] using h)]
  exact key s 0 hd

theorem pieces_none (p : Char → Bool) (s : Str) (h : ∀ c ∈ s, p c = false) : pieces p s = [s] := by
  induction s with
  | nil => rfl
  | cons c s ih => simp [pieces, h c (by simp), ih (fun x hx => h x (by simp [hx]))]

theorem pieces_cons (p : Char → Bool) (a : Str) (c : Char) (b : Str) (ha : ∀ x ∈ a, p x = false) (hc : p c = true) :
    pieces p (a ++ c :: b) = a :: pieces p b := by
  induction a with
  | nil => simp [pieces, hc]
  | cons x a ih => simp [pieces, ha x (by simp), ih (fun y hy => ha y (by simp [hy]))]

/-- **C165 (ranges).** A channel range `a~b` is read as the numbers `a` and `b`; if `b` has fewer digits than `a`, the first digits of `a` are those it lacks. A single channel is the range from it to itself. -/
theorem split_chan (sep : Char) (hsep : sep.isDigit = false) (p x y a b : Str)
    (hp : ∀ c ∈ p, c.isDigit = true) (hx : ∀ c ∈ x, c.isDigit = true) (hy : ∀ c ∈ y, c.isDigit = true) (ha : ∀ c ∈ a, c.isDigit = true) (hb : ∀ c ∈ b, c.isDigit = true)
    (hxy : x.length = y.length) (hy0 : y ≠ []) (ha0 : a ≠ []) (hab : a.length ≤ b.length) :
    splitChan sep (p ++ x ++ sep :: y) = .ok (number (p ++ x), number (p ++ y)) ∧
    splitChan sep (a ++ sep :: b) = .ok (number a, number b) ∧ splitChan sep a = .ok (number a, number a) := by
  have nosep : ∀ s : Str, (∀ c ∈ s, c.isDigit = true) → ∀ c ∈ s, (c == sep) = false := by
    intro s hs c hc
    rw [beq_eq_false_iff_ne]
    rintro rfl
    rw [hs c hc] at hsep
    cases hsep
  have hb0 : b ≠ [] := by rintro rfl; simp at hab; exact ha0 hab
  have hpx : ∀ c ∈ p ++ x, c.isDigit = true := by
    intro c hc; rcases List.mem_append.1 hc with h | h
    · exact hp c h
    · exact hx c h
  have hpy : ∀ c ∈ p ++ y, c.isDigit = true := by
    intro c hc; rcases List.mem_append.1 hc with h | h
    · exact hp c h
    · exact hy c h
  have hylen : y.length ≠ 0 := by simpa using hy0
  have hx0 : x ≠ [] := by rintro rfl; exact hylen (by simpa using hxy.symm)
  refine ⟨?_, ?_, ?_⟩
  · have hc : (p ++ x ++ sep :: y).contains sep = true := by simp
    simp only [splitChan, hc, if_true, pieces_cons _ (p ++ x) sep y (nosep _ hpx) (by simp), pieces_none _ y (nosep y hy), List.getD_cons_zero, List.getD_cons_succ]
    have hB : (if y.length < (p ++ x).length then (if y.length = 0 then [] else (p ++ x).take ((p ++ x).length - y.length)) ++ y else y) = p ++ y := by
      rw [if_neg hylen]
      by_cases hpl : p = []
      · subst hpl; simp [hxy]
      · have : 0 < p.length := List.length_pos_of_ne_nil hpl
        rw [if_pos (by simp; omega)]
        congr 1
        have : (p ++ x).length - y.length = p.length := by simp; omega
        rw [this]
        simp
    rw [hB, toInt_digits _ (by simp [hx0]) hpx, toInt_digits _ (by simp [hy0]) hpy]
    rfl
  · have hc : (a ++ sep :: b).contains sep = true := by simp
    simp only [splitChan, hc, if_true, pieces_cons _ a sep b (nosep _ ha) (by simp), pieces_none _ b (nosep b hb), List.getD_cons_zero, List.getD_cons_succ,
      if_neg (not_lt.2 hab)]
    rw [toInt_digits _ ha0 ha, toInt_digits _ hb0 hb]
    rfl
  · have hc : a.contains sep = false := by
      rw [Bool.eq_false_iff]
      intro hc
      have hm : sep ∈ a := by simpa using hc
      rw [ha sep hm] at hsep
      cases hsep
    simp only [splitChan, hc, Bool.false_eq_true, if_false, List.getD_cons_zero, List.getD_cons_succ, lt_irrefl]
    rw [toInt_digits _ ha0 ha]
    rfl

example : splitChan '-' "199-201".toList = .ok (199, 201) ∧ splitChan '-' "136-8".toList = .ok (136, 138) ∧ splitChan '~' "10".toList = .ok (10, 10) := by
  refine ⟨?_, ?_, ?_⟩ <;> decide +kernel

theorem pieces_join (p : Char → Bool) (c : Char) (hc : p c = true) (a : Str) (rest : List Str) (ha : ∀ x ∈ a, p x = false) (hr : ∀ s ∈ rest, ∀ x ∈ s, p x = false) :
    pieces p (rest.foldl (fun acc s => acc ++ c :: s) a) = a :: rest := by
  have key : ∀ (rest : List Str) (a pre : Str), rest.foldl (fun acc s => acc ++ c :: s) (pre ++ a) = pre ++ rest.foldl (fun acc s => acc ++ c :: s) a := by
    intro rest
    induction rest with
    | nil => intro a pre; rfl
    | cons s rest ih =>
      intro a pre
      rw [List.foldl_cons, List.foldl_cons, List.append_assoc, ih]
  induction rest generalizing a with
  | nil => exact pieces_none p a ha
  | cons s rest ih =>
    have h1 : (s :: rest).foldl (fun acc s => acc ++ c :: s) a = a ++ c :: rest.foldl (fun acc s => acc ++ c :: s) s := by
      rw [List.foldl_cons, show a ++ c :: s = (a ++ [c]) ++ s by simp, key]
      simp
    rw [h1, pieces_cons p a c _ ha hc, ih s (fun x hx => hr s (by simp) x hx) fun t ht => hr t (by simp [ht])]

/-- **C165 (lists of channels).** A list of channels `a,b,...` is read item by item, and `a:b` stands for each of the channels from `a` to `b`, both included, once each and in order. -/
theorem split_list (sep : Char) (item : Str) (rest : List Str) (h1 : ∀ c ∈ item, c ≠ ',' ∧ c ≠ ':') (h2 : ∀ s ∈ rest, ∀ c ∈ s, c ≠ ',' ∧ c ≠ ':')
    (a b : Str) (ha : ∀ c ∈ a, c.isDigit = true) (hb : ∀ c ∈ b, c.isDigit = true) (ha0 : a ≠ []) (hb0 : b ≠ []) :
    splitC sep (rest.foldl (fun acc s => acc ++ ',' :: s) item) = (item :: rest).mapM (splitChan sep) ∧
    ∃ out, splitC sep (a ++ ':' :: b) = .ok out ∧ out.Pairwise (fun x y => x.1 < y.1) ∧ ∀ x, x ∈ out ↔ x.1 = x.2 ∧ number a ≤ x.1 ∧ x.1 ≤ number b := by
  constructor
  · have hc : (rest.foldl (fun acc s => acc ++ ',' :: s) item).contains ':' = false := by
      rw [Bool.eq_false_iff]
      intro h
      have hm : ':' ∈ rest.foldl (fun acc s => acc ++ ',' :: s) item := by simpa using h
      clear h
      induction rest generalizing item with
      | nil => exact (h1 _ hm).2 rfl
      | cons s rest ih =>
        rw [List.foldl_cons] at hm
        refine ih (item ++ ',' :: s |>.filter fun c => c != ',') ?_ (fun t ht => h2 t (by simp [ht])) ?_
        · intro c hc
          rw [List.mem_filter] at hc
          refine ⟨by simpa using hc.2, ?_⟩
          rcases List.mem_append.1 hc.1 with h | h
          · exact (h1 c h).2
          · rcases List.mem_cons.1 h with rfl | h
            · decide
            · exact (h2 s (by simp) c h).2
        · have mem : ∀ (rest : List Str) (u v : Str), (∀ x, x = ':' → x ∈ u → x ∈ v) → ':' ∈ rest.foldl (fun acc s => acc ++ ',' :: s) u → ':' ∈ rest.foldl (fun acc s => acc ++ ',' :: s) v := by
            intro rest
            induction rest with
            | nil => intro u v h hm; exact h _ rfl hm
            | cons t rest ih =>
              intro u v h hm
              rw [List.foldl_cons] at hm ⊢
              refine ih _ _ ?_ hm
              intro x hx hxu
              rcases List.mem_append.1 hxu with h' | h'
              · exact List.mem_append.2 (Or.inl (h x hx h'))
              · exact List.mem_append.2 (Or.inr h')
          refine mem rest _ _ ?_ hm
          intro x hx hxu
          rw [List.mem_filter]
          exact ⟨hxu, by rw [hx]; decide⟩
    unfold splitC
    rw [hc]
    simp only [Bool.false_eq_true, if_false]
    rw [pieces_join _ ',' (by decide) item rest (fun x hx => by simpa using (h1 x hx).1) fun s hs x hx => by simpa using (h2 s hs x hx).1]
  · have hcol : ∀ s : Str, (∀ c ∈ s, c.isDigit = true) → ∀ c ∈ s, (c == ':') = false := by
      intro s hs c hc
      rw [beq_eq_false_iff_ne]
      rintro rfl
      have := hs _ hc
      revert this
      decide
    have hc : (a ++ ':' :: b).contains ':' = true := by simp
    refine ⟨(List.range (number b + 1 - number a)).map fun i => (number a + i, number a + i), ?_, ?_, ?_⟩
    · unfold splitC
      simp only [hc, if_true, pieces_cons _ a ':' b (hcol a ha) (by decide), pieces_none _ b (hcol b hb), List.getD_cons_zero, List.getD_cons_succ]
      rw [toInt_digits _ ha0 ha, toInt_digits _ hb0 hb]
      rfl
    · rw [List.pairwise_map]
      exact List.pairwise_lt_range.imp fun h => by simp only; omega
    · rintro ⟨x, y⟩
      rw [List.mem_map]
      simp only [List.mem_range, Prod.mk.injEq]
      constructor
      · rintro ⟨i, hi, rfl, rfl⟩
        omega
      · rintro ⟨rfl, h3, h4⟩
        exact ⟨x - number a, by omega, by omega, by omega⟩

theorem zipIdx_map_get {K : Type} (acc : List K) (f : K × Nat → K) (i : Nat) : (acc.zipIdx.map f)[i]? = acc[i]?.map fun x => f (x, i) := by
  simp only [List.getElem?_map, List.getElem?_zipIdx, Option.map_map]
  cases acc[i]? <;> simp

theorem steps_fold {K : Type} (rows : List ((Nat × Nat) × K)) (acc : List K) (c : Nat) :
    (rows.foldl (fun acc r => acc.zipIdx.map fun x => if r.1.1 ≤ x.2 ∧ x.2 ≤ r.1.2 then r.2 else x.1) acc)[c]? =
      acc[c]?.map fun x => ((rows.reverse.find? fun r => decide (r.1.1 ≤ c ∧ c ≤ r.1.2)).map fun r => r.2).getD x := by
  induction rows generalizing acc with
  | nil => simp
  | cons r rows ih =>
    rw [List.foldl_cons, ih, zipIdx_map_get]
    rw [Option.map_map]
    cases acc[c]? with
    | none => rfl
    | some x =>
      simp only [Option.map_some, Function.comp, List.reverse_cons, List.find?_append]
      cases rows.reverse.find? fun r => decide (r.1.1 ≤ c ∧ c ≤ r.1.2) with
      | some y => simp
      | none =>
        by_cases h : r.1.1 ≤ c ∧ c ≤ r.1.2
        · simp [h]
        · simp [h]

/-- Specification: the rows of the table, with the numbers of their first and last channels. -/
def pcaList : List ((Nat × Nat) × List Nat) := match pcaRows with | .ok r => r | .error _ => []

theorem pca_rows_ok : pcaRows = .ok pcaList := by
  have h : pcaRows.toOption.isSome = true := by decide +kernel
  unfold pcaList
  cases hp : pcaRows with
  | ok r => rfl
  | error e => rw [hp] at h; cases h

theorem pca_tiles : (∀ c < 256, ((pcaList.filter fun r => decide (r.1.1 ≤ c ∧ c ≤ r.1.2)).length = 1)) ∧ (∀ r ∈ pcaList, r.2.length = 6 ∧ r.1.1 ≤ r.1.2 ∧ r.1.2 < 256) := by
  constructor <;> decide +kernel

theorem pca_sorted : pcaList.Pairwise fun r s => r.1.2 < s.1.1 ∧ ∀ j < 6, r.2.getD j 0 < s.2.getD j 0 := by
  decide +kernel

/-- Specification: the column of the table for a detector in the `n`-th of the five epochs. -/
def column (n det : Nat) : Nat := if n = 5 ∧ det ≠ 0 then 5 else n - 1

theorem pca_step (j c : Nat) (r : (Nat × Nat) × List Nat) (hr : r ∈ pcaList) (h1 : r.1.1 ≤ c) (h2 : c ≤ r.1.2) :
    (steps (pcaList.map fun r => (r.1, r.2.getD j 0)))[c]? = some (r.2.getD j 0) := by
  have hc : c < 256 := lt_of_le_of_lt h2 (pca_tiles.2 r hr).2.2
  unfold steps
  rw [steps_fold, List.getElem?_replicate, if_pos hc, Option.map_some]
  have hf : (pcaList.map fun r => (r.1, r.2.getD j 0)).reverse.find? (fun r => decide (r.1.1 ≤ c ∧ c ≤ r.1.2)) = some (r.1, r.2.getD j 0) := by
    rw [← List.map_reverse, List.find?_map]
    have hone := pca_tiles.1 c hc
    obtain ⟨z, hz⟩ := List.length_eq_one_iff.1 hone
    have hrz : r = z := by
      have : r ∈ pcaList.filter fun r => decide (r.1.1 ≤ c ∧ c ≤ r.1.2) := List.mem_filter.2 ⟨hr, by simp [h1, h2]⟩
      rw [hz] at this
      simpa using this
    have hfind : pcaList.reverse.find? (fun r => decide (r.1.1 ≤ c ∧ c ≤ r.1.2)) = some r := by
      cases hq : pcaList.reverse.find? (fun r => decide (r.1.1 ≤ c ∧ c ≤ r.1.2)) with
      | none =>
        have := List.find?_eq_none.1 hq r (List.mem_reverse.2 hr)
        simp [h1, h2] at this
      | some q =>
        have hq1 := List.mem_reverse.1 (List.mem_of_find?_eq_some hq)
        have hq2 := List.find?_some hq
        have : q ∈ pcaList.filter fun r => decide (r.1.1 ≤ c ∧ c ≤ r.1.2) := List.mem_filter.2 ⟨hq1, hq2⟩
        rw [hz] at this
        have hqz : q = z := by simpa using this
        rw [hqz, hrz]
    have hcomp : ((fun r : (Nat × Nat) × Nat => decide (r.1.1 ≤ c ∧ c ≤ r.1.2)) ∘ fun r : (Nat × Nat) × List Nat => (r.1, r.2.getD j 0)) =
        fun r : (Nat × Nat) × List Nat => decide (r.1.1 ≤ c ∧ c ≤ r.1.2) := rfl
    rw [hcomp, hfind]
    rfl
  rw [hf]
  rfl

theorem epochIndex_count {K : Type} [LinearOrder K] (edges : List K) (hs : edges.Pairwise (· ≤ ·)) (epoch : K) : epochIndex edges epoch = edges.countP fun e => decide (e < epoch) := by
  unfold epochIndex
  induction edges with
  | nil => rfl
  | cons e edges ih =>
    rw [List.pairwise_cons] at hs
    by_cases h : e < epoch
    · rw [List.takeWhile_cons_of_pos (by simpa using h), List.length_cons, ih hs.2, List.countP_cons_of_pos (by simpa using h)]
    · rw [List.takeWhile_cons_of_neg (by simpa using h), List.countP_cons_of_neg (by simpa using h)]
      symm
      rw [List.length_nil, List.countP_eq_zero]
      intro x hx
      have := hs.1 x hx
      simp only [decide_eq_true_eq, not_lt]
      exact (not_lt.1 h).trans this

/-- **C165 (PCA).** At an epoch after `n` of the six edges, `n` from 1 to 5, the calibration of the PCA gives every channel from 0 to 255 the energy of the one row of the table whose channels include it, in the column of the epoch (in the fifth, that of the detector). -/
theorem pca_value {K : Type} [LinearOrder K] (edges : List K) (hs : edges.Pairwise (· ≤ ·)) (epoch : K) (n : Nat) (hn : (edges.countP fun e => decide (e < epoch)) = n) (h1 : 1 ≤ n) (h5 : n ≤ 5) :
    ∃ f, pcaCalibration edges epoch = .ok f ∧
      (∀ c < 256, ∃ r ∈ pcaList, r.1.1 ≤ c ∧ c ≤ r.1.2 ∧ ∀ det, f c det = .ok (r.2.getD (column n det) 0)) ∧
      (∀ c det, 256 ≤ c → f c det = .error .indexError) := by
  obtain ⟨a, b, hcol, ha, hb⟩ : ∃ a b, pcaColumns n = .ok (a, b) ∧ column n 0 = a ∧ ∀ det, det ≠ 0 → column n det = b := by
    rcases (by omega : n = 1 ∨ n = 2 ∨ n = 3 ∨ n = 4 ∨ n = 5) with rfl | rfl | rfl | rfl | rfl <;>
      refine ⟨_, _, rfl, rfl, ?_⟩ <;> intro det hd <;> simp [column, hd]
  simp only [pcaCalibration, pca_rows_ok, epochIndex_count edges hs epoch, hn, hcol, bind, Except.bind]
  refine ⟨_, rfl, ?_, ?_⟩
  · intro c hc
    obtain ⟨r, hr⟩ := List.length_eq_one_iff.1 (pca_tiles.1 c hc)
    have hm : r ∈ pcaList.filter fun r => decide (r.1.1 ≤ c ∧ c ≤ r.1.2) := by rw [hr]; simp
    obtain ⟨hm1, hm2⟩ := List.mem_filter.1 hm
    simp only [decide_eq_true_eq] at hm2
    refine ⟨r, hm1, hm2.1, hm2.2, fun det => ?_⟩
    by_cases hd : det = 0
    · subst hd
      simp only [if_true, pca_step a c r hm1 hm2.1 hm2.2, ha]
    · simp only [if_neg hd, pca_step b c r hm1 hm2.1 hm2.2, hb det hd]
  · intro c det hc
    have hnone : ∀ j, (steps (pcaList.map fun r => (r.1, r.2.getD j 0)))[c]? = none := by
      intro j
      unfold steps
      rw [steps_fold, List.getElem?_replicate, if_neg (by omega)]
      rfl
    by_cases hd : det = 0
    · simp only [hd, if_true, hnone]
    · simp only [hd, if_false, hnone]

/-- **C165 (order).** These energies never decrease with the channel, and channels of different rows have different energies. -/
theorem pca_increasing (r s : (Nat × Nat) × List Nat) (hr : r ∈ pcaList) (hs : s ∈ pcaList) (c d : Nat) (hcd : c ≤ d)
    (h1 : r.1.1 ≤ c ∧ c ≤ r.1.2) (h2 : s.1.1 ≤ d ∧ d ≤ s.1.2) (j : Nat) (hj : j < 6) :
    r = s ∨ r.2.getD j 0 < s.2.getD j 0 := by
  by_cases hrs : r = s
  · exact Or.inl hrs
  · right
    obtain ⟨i, hi, rfl⟩ := List.getElem_of_mem hr
    obtain ⟨k, hk, rfl⟩ := List.getElem_of_mem hs
    have hpw := List.pairwise_iff_getElem.1 pca_sorted
    rcases lt_trichotomy i k with h | h | h
    · exact (hpw i k hi hk h).2 j hj
    · subst h; exact absurd rfl hrs
    · have := (hpw k i hk hi h).1
      omega

/-- **C165 (epochs).** Up to the first edge and after the last one of the six there is no calibration. -/
theorem pca_refuses {K : Type} [LinearOrder K] (edges : List K) (hs : edges.Pairwise (· ≤ ·)) (h6 : edges.length = 6) (epoch : K) (h0 : (∀ e ∈ edges, epoch ≤ e) ∨ ∀ e ∈ edges, e < epoch) :
    (pcaCalibration edges epoch).map (fun _ => ()) = .error .keyError := by
  have h : epochIndex edges epoch = 0 ∨ 5 < epochIndex edges epoch := by
    rw [epochIndex_count edges hs]
    rcases h0 with h | h
    · left
      rw [List.countP_eq_zero]
      intro e he
      simpa using h e he
    · right
      rw [List.countP_eq_length.2 fun e he => by simpa using h e he]
      omega
  have hc : pcaColumns (epochIndex edges epoch) = .error .keyError := by
    unfold pcaColumns
    rw [if_neg (by omega), if_pos h]
  simp only [pcaCalibration, pca_rows_ok, hc, bind, Except.bind]
  rfl

/-- the days of the edges, rounded -/
example : epochIndex [50081, 50163, 50188, 51259, 51677, 55931] (50082 : Nat) = 1 ∧ epochIndex [50081, 50163, 50188, 51259, 51677, 55931] (55930 : Nat) = 5 ∧
    ((10, 10), [304, 344, 405, 463, 453, 449]) ∈ pcaList := by decide +kernel

/-- **C165 (local channels).** The channel of an event is replaced by a channel of the group it stands for, the middle one (the lower of two); an event beyond the groups is refused. -/
theorem local_channels (chans : List (Nat × Nat)) (hc : ∀ c ∈ chans, c.1 ≤ c.2) (pha : List Nat) :
    (∀ out, localChannels chans pha = .ok out → out.length = pha.length ∧
      ∀ (i p : Nat), pha[i]? = some p → ∃ a b x, chans[p]? = some (a, b) ∧ out[i]? = some x ∧ a ≤ x ∧ x ≤ b ∧ (x - a = b - x ∨ x - a + 1 = b - x)) ∧
    ((∃ p ∈ pha, chans.length ≤ p) ↔ localChannels chans pha = .error .indexError) := by
  unfold localChannels
  induction pha with
  | nil => simp [pure, Except.pure]
  | cons p pha ih =>
    obtain ⟨ih1, ih2⟩ := ih
    simp only [List.mapM_cons, bind, Except.bind, pure, Except.pure]
    cases hp : chans[p]? with
    | none =>
      have : chans.length ≤ p := List.getElem?_eq_none_iff.1 hp
      simp only [localChannel, hp]
      refine ⟨fun out h => ?_, by simp [this]⟩
      cases h
    | some c =>
      have hlt : p < chans.length := (List.getElem?_eq_some_iff.1 hp).1
      have hcc := hc c (List.mem_of_getElem? hp)
      have hv : localChannel chans p = .ok ((c.1 + c.2) / 2) := by simp only [localChannel, hp]
      rw [hv]
      cases hr : pha.mapM (localChannel chans) with
      | error e =>
        rw [hr] at ih2
        refine ⟨fun out h => (by cases h), ?_⟩
        simp only [List.mem_cons, exists_eq_or_imp, ih2]
        constructor
        · rintro (h | h)
          · omega
          · exact h
        · intro h; exact Or.inr h
      | ok l =>
        obtain ⟨hl1, hl2⟩ := ih1 l hr
        rw [hr] at ih2
        constructor
        · intro out h
          simp only [Except.ok.injEq] at h
          subst h
          refine ⟨by simp [hl1], ?_⟩
          intro i q hq
          cases i with
          | zero =>
            simp only [List.getElem?_cons_zero, Option.some.injEq] at hq
            subst hq
            exact ⟨c.1, c.2, (c.1 + c.2) / 2, hp, by simp, by omega, by omega, by omega⟩
          | succ i =>
            simp only [List.getElem?_cons_succ] at hq ⊢
            exact hl2 i q hq
        · simp only [List.mem_cons, exists_eq_or_imp, ih2]
          simp
          omega

example : (splitC '~' "43,44~47".toList).bind (fun c => localChannels c [0, 1, 1]) = .ok [43, 45, 45] ∧
    splitC '~' "5:7".toList = .ok [(5, 5), (6, 6), (7, 7)] := by constructor <;> decide +kernel

end Stingray.Missions
