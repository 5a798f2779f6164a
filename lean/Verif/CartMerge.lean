import Verif.CartDirWrite
/-
Model of `merge_cart64` (picotron_cart.py 734-744) and the text functions it uses (utils.py 1536-1539).
-/
namespace Verif.CartDir

/-- `str_before_last(s, "/")` (utils.py 1536-1539): nothing if there is no slash. -/
def beforeLast (s : List Nat) : List Nat := ((s.reverse.dropWhile (· != 47)).drop 1).reverse

/-- `s.rstrip("/")`. -/
def rstripSlash (s : List Nat) : List Nat := (s.reverse.dropWhile (· == 47)).reverse

/-- The loop that creates parent directories (742-744), with a bound on the steps. -/
def makeParents : Nat → Files → Key → Files
  | 0, dest, _ => dest
  | n + 1, dest, parent =>
    if parent ≠ [47] ∧ dest.lookup parent = none then makeParents n (put dest parent .dir) (beforeLast parent.dropLast ++ [47]) else dest

/-- One file (737-744). -/
def mergeOne (wanted : Key → Bool) (dest : Files) (x : Key × Entry) : Files :=
  if wanted x.1 then makeParents x.1.length (put dest x.1 x.2) (beforeLast (rstripSlash x.1) ++ [47]) else dest

/-- Insertion by name, for `sorted(src.files)` (736). -/
def insertName (x : Key × Entry) : Files → Files
  | [] => [x]
  | y :: l => if x.1 ≤ y.1 then x :: y :: l else y :: insertName x l

/-- `sorted(src.files)` (736). -/
def sortNames : Files → Files
  | [] => []
  | x :: l => insertName x (sortNames l)

/-- `merge_cart64` (734-744); `wanted` stands for the patterns (C47), and is always true without patterns. -/
def mergeCart (wanted : Key → Bool) (dest src : Files) : Files := (sortNames src).foldl (mergeOne wanted) dest

end Verif.CartDir
