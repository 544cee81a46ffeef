import Verif.Model.FileNames
import Mathlib.Data.List.Infix

/-!
C192: extensions of file names.
-/

set_option linter.unusedSectionVars false

namespace Stingray.FileNames

theorem removeLoop_nil (pat : List Char) (n : Nat) : removeLoop pat n [] = [] := by cases n <;> rfl

theorem removeLoop_absent (pat : List Char) (n : Nat) (s : List Char) (hn : s.length ≤ n) (h : ¬ pat <:+: s) : removeLoop pat n s = s := by
  induction n generalizing s with
  | zero => rfl
  | succ n ih =>
    cases s with
    | nil => rfl
    | cons c s =>
      rw [removeLoop, if_neg, ih s (by simpa using hn) (fun hi => h (hi.trans (List.suffix_cons c s).isInfix))]
      intro hp
      exact h (List.isPrefixOf_iff_prefix.1 hp).isInfix

theorem removeLoop_length (pat : List Char) (n : Nat) (s : List Char) : (removeLoop pat n s).length ≤ s.length := by
  induction n generalizing s with
  | zero => exact le_refl _
  | succ n ih =>
    cases s with
    | nil => exact le_refl _
    | cons c s =>
      rw [removeLoop]
      split_ifs
      · exact le_trans (ih _) (by simp)
      · simpa using ih s

theorem removeLoop_present (pat : List Char) (n : Nat) (s : List Char) (hn : s.length ≤ n) (hp : pat ≠ []) (h : pat <:+: s) : (removeLoop pat n s).length < s.length := by
  induction n generalizing s with
  | zero =>
    have : s = [] := List.length_eq_zero_iff.1 (by omega)
    subst this
    exact absurd (List.infix_nil.1 h) hp
  | succ n ih =>
    cases s with
    | nil => exact absurd (List.infix_nil.1 h) hp
    | cons c s =>
      rw [removeLoop]
      split_ifs with hpre
      · have := removeLoop_length pat n ((c :: s).drop pat.length)
        have hpos := List.length_pos_iff.2 hp
        rw [List.length_drop] at this
        have hl : 0 < (c :: s).length := by simp
        omega
      · rcases List.infix_cons_iff.1 h with h | h
        · exact absurd (List.isPrefixOf_iff_prefix.2 h) (by simpa using hpre)
        · have := ih s (by simpa using hn) h
          simpa using this

theorem removeLoop_prefix (pat : List Char) (n : Nat) (s : List Char) (hp : pat ≠ []) (hn : (pat ++ s).length ≤ n) : ∃ m, s.length ≤ m ∧ removeLoop pat n (pat ++ s) = removeLoop pat m s := by
  cases n with
  | zero => simp at hn; exact absurd hn.1 hp
  | succ n =>
    cases pat with
    | nil => exact absurd rfl hp
    | cons c pat =>
      refine ⟨n, by simp at hn; omega, ?_⟩
      rw [List.cons_append, removeLoop, if_pos, ← List.cons_append, List.drop_left]
      rw [List.isPrefixOf_iff_prefix, ← List.cons_append]
      exact List.prefix_append _ _

theorem remove_prefix (pat s : List Char) (hp : pat ≠ []) : remove pat (pat ++ s) = s ↔ ¬ pat <:+: s := by
  rw [remove, if_neg hp]
  obtain ⟨m, hm, e⟩ := removeLoop_prefix pat (pat ++ s).length s hp (le_refl _)
  rw [e]
  constructor
  · intro h hi
    have := removeLoop_present pat m s hm hp hi
    rw [h] at this
    omega
  · exact removeLoop_absent pat m s hm

theorem takeWhile_append_stop {p : Char → Bool} (a b : List Char) (c : Char) (ha : ∀ x ∈ a, p x = true) (hc : p c = false) : (a ++ c :: b).takeWhile p = a := by
  induction a with
  | nil => simp [hc]
  | cons x a ih =>
    rw [List.cons_append, List.takeWhile_cons, ha x (by simp), if_pos rfl, ih fun y hy => ha y (by simp [hy])]

theorem baseName_append (dir base : List Char) (hd : dir = [] ∨ dir.getLast? = some '/') (hb : '/' ∉ base) : baseName (dir ++ base) = base := by
  have hall : ∀ x ∈ base.reverse, (decide (x ≠ '/')) = true := by
    intro x hx
    have : x ≠ '/' := by
      rintro rfl
      exact hb (List.mem_reverse.1 hx)
    simpa using this
  rcases hd with rfl | hd
  · unfold baseName
    have hself : ∀ l : List Char, (∀ x ∈ l, decide (x ≠ '/') = true) → l.takeWhile (fun x => decide (x ≠ '/')) = l := by
      intro l
      induction l with
      | nil => intro _; rfl
      | cons x l ih =>
        intro h
        rw [List.takeWhile_cons, h x (by simp), if_pos rfl, ih fun y hy => h y (by simp [hy])]
    rw [List.nil_append, hself _ hall, List.reverse_reverse]
  · obtain ⟨d, rfl⟩ : ∃ d, dir = d ++ ['/'] := by
      have hne : dir ≠ [] := by rintro rfl; simp at hd
      refine ⟨dir.dropLast, ?_⟩
      rw [List.getLast?_eq_some_getLast hne] at hd
      rw [← Option.some.inj hd]
      exact (List.dropLast_append_getLast hne).symm
    unfold baseName
    rw [List.reverse_append, List.reverse_append]
    have e : ['/'].reverse ++ d.reverse = '/' :: d.reverse := rfl
    rw [e, takeWhile_append_stop _ _ _ (by intro x hx; simpa using hall x hx) (by simp), List.reverse_reverse]

theorem splitRoot_spec (dir stem ext : List Char) (hd : dir = [] ∨ dir.getLast? = some '/') (hs : '/' ∉ stem) (he : '/' ∉ ext) (hdot : '.' ∉ ext) (hstem : ∃ c ∈ stem, c ≠ '.') :
    splitRoot (dir ++ (stem ++ '.' :: ext)) = dir ++ stem := by
  have hb : '/' ∉ stem ++ '.' :: ext := by
    simp only [List.mem_append, List.mem_cons, not_or]
    exact ⟨hs, by decide, he⟩
  have hx : ((stem ++ '.' :: ext).reverse.takeWhile (fun x => decide (x ≠ '.'))).reverse = ext := by
    have e : (stem ++ '.' :: ext).reverse = ext.reverse ++ '.' :: stem.reverse := by simp
    rw [e, takeWhile_append_stop _ _ _ _ (by simp), List.reverse_reverse]
    intro x hx
    have : x ≠ '.' := by
      rintro rfl
      exact hdot (List.mem_reverse.1 hx)
    simpa using this
  unfold splitRoot
  simp only [baseName_append dir _ hd hb, hx]
  have hl : (stem ++ '.' :: ext).length - ext.length - 1 = stem.length := by simp; omega
  rw [hl, List.take_left, if_pos]
  · have hl2 : (dir ++ (stem ++ '.' :: ext)).length - ext.length - 1 = (dir ++ stem).length := by simp; omega
    rw [hl2, ← List.append_assoc, List.take_left]
  · refine ⟨by simp, ?_⟩
    obtain ⟨c, hc, hne⟩ := hstem
    rw [List.any_eq_true]
    exact ⟨c, hc, by simpa using hne⟩

/-- **C192.** Of a file name without `.gz`, made of a directory, a stem (with some character that is not a dot) and an extension, the extension is found exactly when the name without the extension does not occur in it. -/
theorem file_extension_iff (dir stem ext : List Char) (hd : dir = [] ∨ dir.getLast? = some '/') (hs : '/' ∉ stem) (he : '/' ∉ ext) (hdot : '.' ∉ ext) (hstem : ∃ c ∈ stem, c ≠ '.')
    (hgz : ¬ ['.', 'g', 'z'] <:+: dir ++ (stem ++ '.' :: ext)) :
    getFileExtension (dir ++ (stem ++ '.' :: ext)) = '.' :: ext ↔ ¬ dir ++ stem <:+: '.' :: ext := by
  have h1 : remove ['.', 'g', 'z'] (dir ++ (stem ++ '.' :: ext)) = dir ++ (stem ++ '.' :: ext) := by
    rw [remove, if_neg (by simp), removeLoop_absent _ _ _ (le_refl _) hgz]
  have hne : dir ++ stem ≠ [] := by
    obtain ⟨c, hc, _⟩ := hstem
    exact List.ne_nil_of_mem (List.mem_append_right _ hc)
  rw [getFileExtension, h1, splitRoot_spec dir stem ext hd hs he hdot hstem, ← List.append_assoc, remove_prefix _ _ hne]

/-- **C192 (directories).** With a directory, or a stem longer than the extension, the extension is always found. -/
theorem file_extension_long (dir stem ext : List Char) (hd : dir = [] ∨ dir.getLast? = some '/') (hs : '/' ∉ stem) (he : '/' ∉ ext) (hdot : '.' ∉ ext) (hstem : ∃ c ∈ stem, c ≠ '.')
    (hgz : ¬ ['.', 'g', 'z'] <:+: dir ++ (stem ++ '.' :: ext)) (h : dir ≠ [] ∨ ext.length + 1 < stem.length) :
    getFileExtension (dir ++ (stem ++ '.' :: ext)) = '.' :: ext := by
  rw [file_extension_iff dir stem ext hd hs he hdot hstem hgz]
  intro hi
  rcases hd with rfl | hl
  · rcases h with h | h
    · exact h rfl
    · have hlen := hi.length_le
      simp only [List.nil_append, List.length_cons] at hlen
      omega
  · have hmem : '/' ∈ dir := List.mem_of_getLast? hl
    have := hi.subset (List.mem_append_left stem hmem)
    rcases List.mem_cons.1 this with h' | h'
    · exact absurd h' (by decide)
    · exact he h'

theorem remove_gz (x : List Char) (h : ¬ ['.', 'g', 'z'] <:+: x) : remove ['.', 'g', 'z'] (x ++ ['.', 'g', 'z']) = x := by
  have key : ∀ (n : Nat) (x : List Char), x.length + 3 ≤ n → ¬ ['.', 'g', 'z'] <:+: x → removeLoop ['.', 'g', 'z'] n (x ++ ['.', 'g', 'z']) = x := by
    intro n
    induction n with
    | zero => intro x hx; omega
    | succ n ih =>
      intro x hx h
      cases x with
      | nil => rw [List.nil_append, removeLoop, if_pos (by decide)]; exact removeLoop_nil _ _
      | cons c x =>
        rw [List.cons_append, removeLoop, if_neg, ih x (by simp at hx; omega) (fun hi => h (hi.trans (List.suffix_cons c x).isInfix))]
        intro hp
        rw [List.isPrefixOf_iff_prefix] at hp
        match x, hp, h with
        | [], hp, _ => simp at hp
        | [d], hp, _ => simp at hp
        | d :: e :: x, hp, h =>
          simp at hp
          obtain ⟨rfl, rfl, rfl⟩ := hp
          exact h ⟨[], x, rfl⟩
  rw [remove, if_neg (by simp)]
  exact key _ x (by simp) h

/-- **C192 (compressed).** Of a compressed file the extension with `.gz` is found, exactly when the name without it does not occur in it. -/
theorem file_extension_gz (dir stem ext : List Char) (hd : dir = [] ∨ dir.getLast? = some '/') (hs : '/' ∉ stem) (he : '/' ∉ ext) (hdot : '.' ∉ ext) (hstem : ∃ c ∈ stem, c ≠ '.')
    (hgz : ¬ ['.', 'g', 'z'] <:+: dir ++ (stem ++ '.' :: ext)) :
    getFileExtension (dir ++ (stem ++ '.' :: ext) ++ ['.', 'g', 'z']) = '.' :: ext ++ ['.', 'g', 'z'] ↔ ¬ dir ++ stem <:+: '.' :: ext ++ ['.', 'g', 'z'] := by
  have hne : dir ++ stem ≠ [] := by
    obtain ⟨c, hc, _⟩ := hstem
    exact List.ne_nil_of_mem (List.mem_append_right _ hc)
  rw [getFileExtension, remove_gz _ hgz, splitRoot_spec dir stem ext hd hs he hdot hstem,
    show dir ++ (stem ++ '.' :: ext) ++ ['.', 'g', 'z'] = (dir ++ stem) ++ ('.' :: ext ++ ['.', 'g', 'z']) by simp, remove_prefix _ _ hne]

/-- **C192 (events).** A file of events in a directory, or with a long stem, is read as FITS if its extension contains `fits` or `evt` (in any case) and no format is given; a given format is kept. -/
theorem event_format_spec (dir stem ext fname f : List Char) (hd : dir = [] ∨ dir.getLast? = some '/') (hs : '/' ∉ stem) (he : '/' ∉ ext) (hdot : '.' ∉ ext) (hstem : ∃ c ∈ stem, c ≠ '.')
    (hgz : ¬ ['.', 'g', 'z'] <:+: dir ++ (stem ++ '.' :: ext)) (h : dir ≠ [] ∨ ext.length + 1 < stem.length) :
    (eventFormat none (dir ++ (stem ++ '.' :: ext)) = some ['h', 'e', 'a'] ↔ "fits".toList <:+: ext.map Char.toLower ∨ "evt".toList <:+: ext.map Char.toLower) ∧
    eventFormat (some f) fname = some f := by
  refine ⟨?_, rfl⟩
  have hc : ∀ (p : List Char) (c : Char), c ∈ p.head? → c ≠ '.' → (p <:+: ('.' :: ext).map Char.toLower ↔ p <:+: ext.map Char.toLower) := by
    intro p c hpc hne
    have e : ('.' :: ext).map Char.toLower = '.' :: ext.map Char.toLower := rfl
    rw [e, List.infix_cons_iff, or_iff_right]
    intro hp
    cases p with
    | nil => simp at hpc
    | cons x p =>
      rw [List.cons_prefix_cons] at hp
      simp at hpc
      exact hne (hpc.symm.trans hp.1)
  unfold eventFormat
  rw [file_extension_long dir stem ext hd hs he hdot hstem hgz h]
  simp only
  have h1 := hc ['f', 'i', 't', 's'] 'f' (by simp) (by decide)
  have h2 := hc ['e', 'v', 't'] 'e' (by simp) (by decide)
  have e1 : "fits".toList = ['f', 'i', 't', 's'] := by decide
  have e2 : "evt".toList = ['e', 'v', 't'] := by decide
  rw [e1, e2, ← h1, ← h2]
  generalize Char.toLower = low
  split_ifs with h3
  · exact ⟨fun _ => h3, fun _ => rfl⟩
  · exact ⟨fun h => h.elim, fun h => absurd h h3⟩

/-- **C192 (only compressed).** A name made of nothing but `.gz`, any number of times, is its own extension. -/
theorem file_extension_only_gz (n : Nat) : getFileExtension (List.replicate n ".gz".toList).flatten = (List.replicate n ".gz".toList).flatten := by
  have e : ".gz".toList = ['.', 'g', 'z'] := by decide
  rw [e]
  have key : ∀ (n k : Nat), 3 * n ≤ k → removeLoop ['.', 'g', 'z'] k (List.replicate n ['.', 'g', 'z']).flatten = [] := by
    intro n
    induction n with
    | zero => intro k _; exact removeLoop_nil _ _
    | succ n ih =>
      intro k hk
      obtain ⟨k, rfl⟩ : ∃ j, k = j + 1 := ⟨k - 1, by omega⟩
      rw [List.replicate_succ, List.flatten_cons, List.cons_append, removeLoop, if_pos (by simp [List.isPrefixOf])]
      exact ih k (by omega)
  have hr : remove ['.', 'g', 'z'] (List.replicate n ['.', 'g', 'z']).flatten = [] := by
    rw [remove, if_neg (by simp)]
    exact key n _ (by simp; omega)
  have hs : splitRoot [] = [] := by decide
  rw [getFileExtension, hr, hs, remove, if_pos rfl]

/-- **C192 (negation).** The extension is not always found: that of `f.fits` is `.its`, so that the file is not read as FITS. -/
theorem file_extension_short : ¬ (∀ stem ext : List Char, '/' ∉ stem → '.' ∉ stem → stem ≠ [] → '/' ∉ ext → '.' ∉ ext → getFileExtension (stem ++ '.' :: ext) = '.' :: ext) ∧
    getFileExtension "f.fits".toList = ".its".toList ∧ eventFormat none "f.fits".toList = none := by
  have h1 : getFileExtension "f.fits".toList = ".its".toList := by decide +kernel
  refine ⟨?_, h1, by decide +kernel⟩
  intro h
  have h2 := h ['f'] ['f', 'i', 't', 's'] (by decide) (by decide) (by decide) (by decide) (by decide)
  revert h2
  decide +kernel

example : getFileExtension "data/ciao.a.evt.gz".toList = ".evt.gz".toList ∧ eventFormat none "data/f.FITS".toList = some ['h', 'e', 'a'] := by decide +kernel

end Stingray.FileNames
