import Verif.Topo
/-!
Model of `sort_root` (picotron_defs.py 249-270): the files of a Picotron cart are ordered by their calls of `include`.
-/
namespace Verif.IncludeOrder

/-- A path in the cart. -/
abbrev Path := List Nat

/-- An argument of a call: a string constant (with its `parsed_value`) or anything else. -/
inductive Arg
  | str (s : Path)
  | other
deriving DecidableEq

/-- A file: its path, and the arguments of each call of the global `include` in it, in the order of the tree (picotron_defs.py 255-257).  Walking
the tree itself is in C93. -/
structure File where
  path : Path
  includes : List (List Arg)

/-- The index of the root of a path: `root.roots.get(include)` (picotron_defs.py 263). -/
def rootOf (files : List File) (p : Path) : Option Nat := files.findIdx? fun f => f.path == p

/-- `find_includes` on one call (picotron_defs.py 257-265): the dependencies it adds; `none` is the `AttributeError` of `arg.type` if there is no argument. -/
def findInclude (files : List File) (args : List Arg) : Option (List Nat) :=
  match args.head? with
  | none => none
  | some (.str p) => some (rootOf files p).toList
  | some .other => some []

/-- `node_deps` of a file (picotron_defs.py 253-268). -/
def depsOf (files : List File) (f : File) : Option (List Nat) := (f.includes.mapM (findInclude files)).map List.flatten

/-- `sort_root` (picotron_defs.py 249-270): the files in the order of `root.children`. -/
def sortRoot (files : List File) : Option (List Path) :=
  (files.mapM (depsOf files)).map fun ds => (topoSort ((List.range files.length).zip ds)).map fun i => ((files[i]?).map (·.path)).getD []

end Verif.IncludeOrder
