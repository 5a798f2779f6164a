import Verif.TreeEdit
/-!
The tokens of the code as one sequence, seen from a place in the tree.
-/
namespace Verif.TreeSpec
open TreeEdit

/-- The tokens before the place, in the order of the code. -/
def before : List Frame → List Tok
  | [] => []
  | (l, _) :: up => before up ++ toksL l.reverse

/-- The tokens after the place. -/
def after : List Frame → List Tok
  | [] => []
  | (_, r) :: up => toksL r ++ after up

/-- The comments of tokens, in the order of the code. -/
def notes (ts : List Tok) : List Comment := ts.flatMap (·.comments)

/-- The tokens are different ones. -/
def Distinct (ts : List Tok) : Prop := (ts.map (·.id)).Nodup

end Verif.TreeSpec
