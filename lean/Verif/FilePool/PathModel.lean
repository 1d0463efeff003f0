import Verif.Common.Outcome
import Mathlib.Data.List.Basic

/-!
# Model of the names under which the file manager knows files

`weakly_canonical` (`FilePool/src/lib/FileManager.cpp` 29-53) gives the key with which `getFileHandler` (`FileManager.cpp` 91-117) looks for
a handler.  The file system is modelled as it can be seen through `boost::filesystem`: a tree of directories, files and symbolic links.
Hard links, permissions and the limits on the length of names are left out.  With boost 1.60 or later the function of boost is used
instead of the one in this file.
-/

namespace Alexandria.Paths

variable {N : Type}

/-- An element of a path: a name, a dot or two dots.  A slash at the end counts as a dot, as in the iteration of `boost::filesystem::path`. -/
inductive Comp (N : Type) where
  | name (n : N)
  | cur
  | up
  deriving DecidableEq, Repr

/-- A path: whether it begins with a slash, and its elements. -/
structure PathT (N : Type) where
  abs : Bool
  comps : List (Comp N)
  deriving DecidableEq, Repr

/-- What there is in a directory. -/
inductive Kind (N : Type) where
  | dir
  | file
  | link (target : PathT N)
  deriving DecidableEq, Repr

/-- A file system: what there is at each place, which is given by the names of the directories that lead to it.  The root is a directory. -/
abbrev FS (N : Type) := List N → Option (Kind N)

/-- What the system says about a path: where it leads, that there is nothing, or that there are too many symbolic links. -/
inductive Res (N : Type) where
  | found (place : List N)
  | missing
  | loop
  deriving DecidableEq, Repr

/-- The elements are followed one by one from a directory; `follow` is what happens at a symbolic link. -/
def walk (fs : FS N) (follow : List N → List (Comp N) → Res N) : List N → List (Comp N) → Res N
  | d, [] => .found d
  | d, .cur :: cs => walk fs follow d cs
  | d, .up :: cs => walk fs follow d.dropLast cs
  | d, .name n :: cs =>
    match fs (d ++ [n]) with
    | none => .missing
    | some .dir => walk fs follow (d ++ [n]) cs
    | some .file => if cs = [] then .found (d ++ [n]) else .missing
    | some (.link t) => follow (if t.abs then [] else d) (t.comps ++ cs)

/-- The same, following at most the given number of links. -/
def resolve (fs : FS N) : Nat → List N → List (Comp N) → Res N
  | 0 => walk fs fun _ _ => .loop
  | k + 1 => walk fs (resolve fs k)

/-- Where a path leads; relative paths begin at the current directory. -/
def lookup (fs : FS N) (links : Nat) (cwd : List N) (p : PathT N) : Res N := resolve fs links (if p.abs then [] else cwd) p.comps

/-- The loop of `weakly_canonical` (`FileManager.cpp` 30-38) with `k` elements left in `head`: the canonical path of the first `head` that
exists and the number of its elements, nothing if `head` gets empty (`exists` throws if there are too many links, and is false if there is
nothing or a file where a directory should be).  The line 42 (`canonical`) is included. -/
def search (fs : FS N) (links : Nat) (cwd : List N) (p : PathT N) : Nat → Outcome Unit (Option (List N × Nat))
  | 0 => .ok (if p.abs then some ([], 0) else none)
  | k + 1 =>
    match lookup fs links cwd ⟨p.abs, p.comps.take (k + 1)⟩ with
    | .found r => .ok (some (r, k + 1))
    | .missing => search fs links cwd p k
    | .loop => .throw ()

/-- `weakly_canonical` (`FileManager.cpp` 29-53): the elements of an absolute path. -/
def weaklyCanonical (fs : FS N) (links : Nat) (cwd : List N) (p : PathT N) : Outcome Unit (List (Comp N)) := do
  match ← search fs links cwd p p.comps.length with
  | none => .ok (cwd.map .name ++ p.comps)
  | some (r, k) => .ok (r.map .name ++ p.comps.drop k)

end Alexandria.Paths
