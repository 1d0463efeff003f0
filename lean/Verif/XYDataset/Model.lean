import Verif.Common.Outcome
import Verif.Common.Split
import Mathlib.Data.List.Sort

/-!
# Model of `XYDataset/src/lib/{QualifiedName,StringFunctions,CachedProvider,FileSystemProvider,AsciiParser,XYDataset}.cpp`

The file system is a parameter (what exists, what a directory contains, the text of a file); regular expressions with a fixed
pattern are written as the scanning functions they amount to.
-/

namespace Alexandria.XYDataset

open Str

inductive Err where
  | elements | outOfRange | provider
  deriving DecidableEq, Repr

abbrev Res (α : Type) := Outcome Err α

/-! ## Qualified names -/

/-- The members of `QualifiedName` (`QualifiedName.h` 198-201). -/
structure QName where
  groups : List Bytes
  name : Bytes
  qname : Bytes
  mhash : Nat := 0
  deriving DecidableEq, Repr

/-- The loop over the groups in the constructor (`QualifiedName.cpp` 35-41). -/
def joinGroups : List Bytes → Bytes → Res Bytes
  | [], q => .ok q
  | g :: gs, q => if g = [] ∨ '/' ∈ g then .throw .elements else joinGroups gs (q ++ g ++ ['/'])

/-- The constructor from groups and name (`QualifiedName.cpp` 33-46). -/
def mkName (groups : List Bytes) (name : Bytes) : Res QName := do
  let q ← joinGroups groups []
  if name = [] ∨ '/' ∈ name then .throw .elements
  else .ok { groups := groups, name := name, qname := q ++ name }

/-- `getGroups` (`QualifiedName.cpp` 48-54). -/
def getGroups (s : Bytes) : List Bytes := (splitChar '/' s).dropLast

/-- `getName` (`QualifiedName.cpp` 56-60); the list of tokens is never empty. -/
def getName (s : Bytes) : Bytes := (splitChar '/' s).getLastD []

/-- The constructor from a string (`QualifiedName.cpp` 62-63). -/
def parseName (s : Bytes) : Res QName := mkName (getGroups s) (getName s)

/-- `hash` (`QualifiedName.cpp` 85-91): the new buffered value. `h` is `std::hash<std::string>`. -/
def QName.hash (h : Bytes → Nat) (q : QName) : Nat := if q.mhash = 0 then h q.qname else q.mhash

/-- The object after a call of `hash`. -/
def QName.hashed (h : Bytes → Nat) (q : QName) : QName := { q with mhash := q.hash h }

/-- `operator<` (`QualifiedName.cpp` 93-101). -/
def QName.lt (h : Bytes → Nat) (a b : QName) : Bool :=
  if a.hash h ≠ b.hash h then decide (a.hash h < b.hash h) else decide (a.qname < b.qname)

/-- `operator==` (`QualifiedName.cpp` 103-111). -/
def QName.eq (h : Bytes → Nat) (a b : QName) : Bool :=
  if a.hash h ≠ b.hash h then false else decide (a.qname = b.qname)

/-- `belongsInGroup` (`QualifiedName.cpp` 77-83): `std::equal` over the range of `group`, then `at`. -/
def QName.belongsInGroup (q group : QName) : Res Bool :=
  if group.groups.length + 1 > q.groups.length then .ok false
  else if group.groups = q.groups.take group.groups.length then
    match q.groups[group.groups.length]? with
    | some g => .ok (decide (group.name = g))
    | none => .throw .outOfRange
  else .ok false

/-! ## String functions -/

/-- `find_first_not_of("/")`. -/
def firstNotSlash (s : Bytes) : Option Nat := s.findIdx? (· ≠ '/')

/-- `find_last_not_of("/")`. -/
def lastNotSlash (s : Bytes) : Option Nat :=
  match s.reverse.findIdx? (· ≠ '/') with
  | some i => some (s.length - 1 - i)
  | none => none

/-- `substr(pos)`: throws `std::out_of_range` when `pos` is larger than the length. -/
def substr (s : Bytes) (pos : Option Nat) : Res Bytes :=
  match pos with
  | some p => if p ≤ s.length then .ok (s.drop p) else .throw .outOfRange
  | none => .throw .outOfRange

/-- `checkBeginSlashes` (`StringFunctions.cpp` 34-47). -/
def checkBeginSlashes (s : Bytes) : Res Bytes :=
  match firstNotSlash s with
  | some p => if p ≠ 0 then do let t ← substr s (some p); return '/' :: t else .ok ('/' :: s)
  | none => .ok ('/' :: s)

/-- `checkNoBeginSlashes` (`StringFunctions.cpp` 52-67). -/
def checkNoBeginSlashes (s : Bytes) : Res Bytes :=
  if s = [] then .ok []
  else if firstNotSlash s ≠ some 0 then substr s (firstNotSlash s) else .ok s

/-- `checkEndSlashes` (`StringFunctions.cpp` 72-86): `pos + 1` and `length() - 1` wrap around. -/
def checkEndSlashes (s : Bytes) : Bytes :=
  let len1 := (s.length + 2 ^ 64 - 1) % 2 ^ 64
  if posVal (lastNotSlash s) ≠ len1 then s.take ((posVal (lastNotSlash s) + 1) % 2 ^ 64) ++ ['/'] else s ++ ['/']

/-- The part before the last occurrence of `c`, if there is one. -/
def beforeLast (c : Char) (s : Bytes) : Option Bytes :=
  match s.reverse.findIdx? (· = c) with
  | some i => some (s.take (s.length - 1 - i))
  | none => none

/-- `removeExtension` (`StringFunctions.cpp` 91-106). -/
def removeExtension (s : Bytes) : Bytes := (beforeLast '.' s).getD s

/-- `removeAllBeforeLastSlash` (`StringFunctions.cpp` 111-126). -/
def removeAllBeforeLastSlash (s : Bytes) : Bytes :=
  match beforeLast '/' s with
  | some p => s.drop (p.length + 1)
  | none => s

/-- `find` of a `std::map` whose keys are strings (or names, by their text): the pairs in any order, the first one counts. -/
def assoc {β : Type} (k : Bytes) : List (Bytes × β) → Option β
  | [] => none
  | (a, v) :: l => if k = a then some v else assoc k l

/-! ## Caching provider -/

/-- A provider at some moment: what it answers. The key of a data set is the qualified name. -/
structure Provider (D : Type) where
  list : Bytes → Res (List Bytes)
  get : Bytes → Res (Option D)

/-- The state of `CachedProvider` (two `std::map`s) and the calls that were passed on. Equivalence of keys of the second map is equality
of the names by `C28_order`. -/
structure Cache (D : Type) where
  lists : List (Bytes × List Bytes) := []
  data : List (Bytes × Option D) := []
  calls : List (Sum Bytes Bytes) := []

inductive Request where
  | list (group : Bytes) | get (name : Bytes)
  deriving DecidableEq, Repr

inductive Answer (D : Type) where
  | list (l : List Bytes) | data (d : Option D) | failed (e : Err) | ub
  deriving DecidableEq, Repr

/-- The answer to a call that was not a success. -/
def Answer.ofList {D : Type} : Res (List Bytes) → Answer D
  | .ok l => .list l
  | .throw e => .failed e
  | .ub => .ub

def Answer.ofData {D : Type} : Res (Option D) → Answer D
  | .ok l => .data l
  | .throw e => .failed e
  | .ub => .ub

/-- `listContents` and `getDataset` (`CachedProvider.cpp` 31-50), the provider answering as `p`. -/
def Cache.request {D : Type} (p : Provider D) (c : Cache D) : Request → Cache D × Answer D
  | .list g => match assoc g c.lists with
    | some l => (c, .list l)
    | none => match p.list g with
      | .ok l => ({ c with lists := (g, l) :: c.lists, calls := c.calls ++ [.inl g] }, .list l)
      | r => ({ c with calls := c.calls ++ [.inl g] }, .ofList r)
  | .get n => match assoc n c.data with
    | some d => (c, .data d)
    | none => match p.get n with
      | .ok d => ({ c with data := (n, d) :: c.data, calls := c.calls ++ [.inr n] }, .data d)
      | r => ({ c with calls := c.calls ++ [.inr n] }, .ofData r)

/-- A history: at each request the provider may answer differently. -/
def Cache.run {D : Type} : Cache D → List (Provider D × Request) → Cache D × List (Answer D)
  | c, [] => (c, [])
  | c, (p, r) :: rest =>
    let (c1, a) := c.request p r
    let (c2, as) := c1.run rest
    (c2, a :: as)

/-! ## File system provider -/

/-- What a line of `order.txt` names (`FileSystemProvider.cpp` 61-68): up to `#`, trimmed. -/
def orderName (line : Bytes) : Bytes := trim (line.takeWhile (· ≠ '#'))

/-- A file system: `names d` are the entries of a directory, `order d` the lines of its `order.txt` if there is one, `has d n` tells
whether `d / n` exists, `isDir` and `isFile` classify paths. -/
structure FS where
  names : Bytes → List Bytes
  order : Bytes → Option (List Bytes)
  has : Bytes → Bytes → Bool
  isDir : Bytes → Bool
  isFile : Bytes → Bool

/-- `dir / name` of `boost::filesystem`: a separator is added unless there is one already. -/
def appendPath (dir name : Bytes) : Bytes := if dir.getLast? = some '/' then dir ++ name else dir ++ ['/'] ++ name

/-- The order of paths without separators: that of their characters. -/
def leBytes (a b : Bytes) : Bool := decide (¬ b < a)

/-- The names that `getOrder` (`FileSystemProvider.cpp` 52-95) lists: those of `order.txt` that exist, then the remaining entries in
the order of a `std::set<path>`. -/
def getOrder (fs : FS) (dir : Bytes) : List Bytes :=
  let ordered := (((fs.order dir).getD []).map orderName).filter fun n => n ≠ [] ∧ fs.has dir n
  ordered ++ ((fs.names dir).filter fun n => n ∉ ordered).insertionSort (fun a b => leBytes a b = true)

/-- The loop over the names of a directory (`FileSystemProvider.cpp` 100-107); `below` is the recursive call. -/
def contentsOf (fs : FS) (below : Bytes → Option (List Bytes)) (dir : Bytes) : List Bytes → Option (List Bytes)
  | [] => some []
  | n :: ns =>
    match (if fs.isDir (appendPath dir n) then below (appendPath dir n) else some [appendPath dir n]), contentsOf fs below dir ns with
    | some a, some b => some (a ++ b)
    | _, _ => none

/-- `getRecursiveDirectoryContents` (`FileSystemProvider.cpp` 97-109); `fuel` bounds the depth, `none` is a recursion deeper than
that. -/
def contents (fs : FS) : Nat → Bytes → Option (List Bytes)
  | 0, _ => none
  | fuel + 1, dir => contentsOf fs (contents fs fuel) dir (getOrder fs dir)

/-- What the parser says about a file: is it a data set, and its name. -/
structure Parser where
  isDataset : Bytes → Bool
  nameOf : Bytes → Bytes

/-- The state of `FileSystemProvider`: `m_name_file_map` (keys are the qualified names) and `m_order_names`. -/
structure Prov where
  files : List (Bytes × Bytes) := []
  names : List QName := []
  deriving DecidableEq, Repr

/-- The loop of the constructor (`FileSystemProvider.cpp` 132-158). `root` is `m_root_path`. -/
def ctorLoop (fs : FS) (ps : Parser) (root : Bytes) : List Bytes → Prov → Res Prov
  | [], st => .ok st
  | f :: fl, st =>
    if fs.isFile f ∧ ps.isDataset f then
      if ps.nameOf f = [] then ctorLoop fs ps root fl st
      else do
        let str ← substr f (some root.length)
        let q ← mkName (splitChar '/' str).dropLast (ps.nameOf f)
        if (assoc q.qname st.files).isSome then .throw .elements
        else ctorLoop fs ps root fl { files := st.files ++ [(q.qname, f)], names := st.names ++ [q] }
    else ctorLoop fs ps root fl st

/-- The normalisation of the argument of `listContents` (`FileSystemProvider.cpp` 170-182). -/
def groupPrefix (group : Bytes) : Res Bytes := do
  let g := (group.reverse.dropWhile (· = '/')).reverse
  let g ← if g ≠ [] ∧ firstNotSlash g ≠ some 0 then substr g (firstNotSlash g) else .ok g
  return if g ≠ [] then g ++ ['/'] else g

/-- `listContents` (`FileSystemProvider.cpp` 168-196). -/
def Prov.listContents (p : Prov) (group : Bytes) : Res (List QName) := do
  let g ← groupPrefix group
  return p.names.filter fun q => g.isPrefixOf q.qname

/-- The file of a data set (`FileSystemProvider.cpp` 202-206): `none` gives a null pointer. -/
def Prov.fileOf (p : Prov) (q : QName) : Option Bytes := assoc q.qname p.files

/-! ## ASCII parser -/

/-- `boost::regex_match(line, "^\\s*#\\s*" + key + "\\s*:\\s*(.+)\\s*$")` for a key without special characters that does not begin with
a space, followed by the trimming of the group (`AsciiParser.cpp` 86-97): after the colon anything non-empty matches, and trimming
removes whatever the greedy parts share. -/
def paramOf (key line : Bytes) : Option Bytes :=
  match line.dropWhile isSpace with
  | '#' :: r =>
    let r := r.dropWhile isSpace
    if key.isPrefixOf r then
      match (r.drop key.length).dropWhile isSpace with
      | ':' :: v => if v = [] then none else some (trim v)
      | _ => none
    else none
  | _ => none

/-- The loop of `getParameter` (`AsciiParser.cpp` 89-101). -/
def getParameterLoop (key : Bytes) : List Bytes → Bytes → Bytes
  | [], v => v
  | l :: ls, v => match paramOf key l with
    | some n => getParameterLoop key ls ((if v ≠ [] then v ++ [';'] else v) ++ n)
    | none => getParameterLoop key ls v

/-- `getParameter` (`AsciiParser.cpp` 77-103) of a file with this text. -/
def getParameter (key text : Bytes) : Bytes := getParameterLoop key (splitChar '\n' text) []

/-- `boost::regex_match(line, "\\s*#.*")`. -/
def isComment (line : Bytes) : Bool := (line.dropWhile isSpace).head? = some '#'

/-- The loop of `isDatasetFile` (`AsciiParser.cpp` 137-139): the first line that is neither empty nor a comment, and whether the stream
is still good, that is whether the line was ended by a newline. -/
def firstData : List Bytes → Bytes × Bool
  | [] => ([], false)
  | [l] => (l, false)
  | l :: ls => if l = [] ∨ isComment l then firstData ls else (l, true)

/-- The words of `ss >> d1 >> d2 >> empty_string`. -/
def words (line : Bytes) : List Bytes := (splitCompress isSpace line).filter (· ≠ [])

/-- `isDatasetFile` (`AsciiParser.cpp` 127-160) for a file with this text; `isDouble` is the success of `lexical_cast<double>`. -/
def isDatasetFile (isDouble : Bytes → Bool) (text : Bytes) : Bool :=
  let r := firstData (splitChar '\n' text)
  if r.2 then
    match words r.1 with
    | [a, b] => isDouble a && isDouble b
    | _ => false
  else false

/-- `XYDataset::factory` from two vectors (`XYDataset.cpp` 56-73). -/
def factory {K : Type} (xs ys : List K) : Res (List (K × K)) :=
  if xs.length ≠ ys.length then .throw .elements else .ok (xs.zip ys)

end Alexandria.XYDataset
