import Verif.Model.Basic

/-!
# Extensions of file names: `stingray/io.py` 118-137 and `stingray/events.py` 624-629

File names are lists of characters, on a POSIX system.
-/

namespace Stingray.FileNames

/-- `s.replace(pat, "")` for a pattern that is not empty: from left to right, `fuel` is at least the length of `s`. -/
def removeLoop (pat : List Char) : Nat → List Char → List Char
  | 0, s => s
  | _ + 1, [] => []
  | n + 1, c :: s => if pat.isPrefixOf (c :: s) then removeLoop pat n ((c :: s).drop pat.length) else c :: removeLoop pat n s

/-- `s.replace(pat, "")`: an empty pattern changes nothing. -/
def remove (pat s : List Char) : List Char := if pat = [] then s else removeLoop pat s.length s

/-- The part of a path after the last separator. -/
def baseName (s : List Char) : List Char := (s.reverse.takeWhile (· ≠ '/')).reverse

/-- `os.path.splitext(s)[0]`: what comes before the last dot of the last component, if there is one after some other character than a dot. -/
def splitRoot (s : List Char) : List Char :=
  let ext := ((baseName s).reverse.takeWhile (· ≠ '.')).reverse
  let stem := (baseName s).take ((baseName s).length - ext.length - 1)
  if '.' ∈ baseName s ∧ stem.any (· ≠ '.') then s.take (s.length - ext.length - 1) else s

/-- `get_file_extension`, `stingray/io.py` 118-137. -/
def getFileExtension (fname : List Char) : List Char := remove (splitRoot (remove ['.', 'g', 'z'] fname)) fname

/-- The format of a file of events, `stingray/events.py` 624-629: without one, `hea` (FITS) is taken if the extension contains `fits` or `evt`. Lower case is that of ASCII. -/
def eventFormat (fmt : Option (List Char)) (fname : List Char) : Option (List Char) :=
  let ext := (getFileExtension fname).map Char.toLower
  match fmt with
  | some f => some f
  | none => if ['f', 'i', 't', 's'] <:+: ext ∨ ['e', 'v', 't'] <:+: ext then some ['h', 'e', 'a'] else none

end Stingray.FileNames
