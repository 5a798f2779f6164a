import Verif.CartDir
/-
Specification for C77: what a cart kept as a directory should look like.
-/
namespace Verif.CartDir

/-- A name that a file can have in a directory. -/
def Proper (x : Name) : Prop := x ≠ [] ∧ 47 ∉ x ∧ x ≠ [46] ∧ x ≠ [46, 46]

instance (x : Name) : Decidable (Proper x) := inferInstanceAs (Decidable (_ ∧ _))

/-- How a cart refers to something in directories: `a/b/c`, or `a/b/c/` if it is a directory. -/
def keyOf : Path → Bool → Key
  | [], _ => []
  | [x], isDir => if isDir then x ++ [47] else x
  | x :: y :: c, isDir => x ++ 47 :: keyOf (y :: c) isDir

/-- A cart that can be kept as a directory: names are proper, every directory that holds something is listed, and nothing is both a file and a directory. -/
structure Fits (c : Files) : Prop where
  names : ∀ k e, (k, e) ∈ c → ∃ q : Path, q ≠ [] ∧ (∀ x ∈ q, Proper x) ∧ k = keyOf q e.isDir
  parents : ∀ (q : Path) (x : Name) (e : Entry), q ≠ [] → (∀ y ∈ q ++ [x], Proper y) → (keyOf (q ++ [x]) e.isDir, e) ∈ c → (keyOf q true, Entry.dir) ∈ c
  unique : (c.map (·.1)).Nodup
  one : ∀ (q : Path) (d : List Nat), (∀ x ∈ q, Proper x) → (keyOf q true, Entry.dir) ∈ c → (keyOf q false, Entry.file d) ∉ c

/-- Every entry of the file system is in a directory. -/
def Sound (fs : Fs) : Prop := ∀ (s : Path) (x : Name), s ≠ [] → (fs.get (s ++ [x])).isSome → fs.get s = some .dir

/-- A directory on disk: what is below `p` is in directories below `p` and has proper names. -/
structure Tree (fs : Fs) (p : Path) : Prop where
  names : ∀ (q : Path), (fs.get (p ++ q)).isSome → ∀ x ∈ q, Proper x
  parents : ∀ (q : Path) (x : Name), q ≠ [] → (fs.get (p ++ q ++ [x])).isSome → fs.get (p ++ q) = some .dir

/-- A place for a new directory: none of its parents is a file, and there is nothing in it, or its contents are to be deleted. -/
structure Free (fs : Fs) (deleteExisting : Bool) (p : Path) : Prop where
  sound : Sound fs
  dirs : ∀ s, s <+: p → ∀ d, fs.get s ≠ some (.file d)
  empty : deleteExisting = true ∨ ∀ q, q ≠ [] → fs.get (p ++ q) = none

end Verif.CartDir
