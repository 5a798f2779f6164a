import Verif.Text
/-!
What hint comments with aliases mean, without the functions of the code.
-/
namespace Verif.AliasSpec

/-- White space only. -/
def Blank (w : List Nat) : Prop := ∀ c ∈ w, pyIsSpace c = true

/-- A word: what names of languages, compilers and so on are. -/
def Name (n : List Nat) : Prop := n ≠ [] ∧ ∀ c ∈ n, pyIsSpace c = false

/-- Text without white space at either end; it may have any within. -/
def Tight (t : List Nat) : Prop := (∀ c, t.head? = some c → pyIsSpace c = false) ∧ ∀ c, t.getLast? = some c → pyIsSpace c = false

/-- A hint that has the name and the arguments: `name` or `name args`, with any white space around them. -/
inductive Says : List Nat → List Nat → List Nat → Prop
  | bare {u n v : List Nat} : Blank u → Name n → Blank v → Says (u ++ n ++ v) n []
  | args {u n v a w : List Nat} : Blank u → Name n → Blank v → Tight a → a ≠ [] → Blank w → Says (u ++ n ++ 32 :: (v ++ a ++ w)) n a

/-- A definition of an alias: `name = hint`. -/
inductive Defines : List Nat → List Nat → List Nat → List Nat → Prop
  | mk {u a v h t p : List Nat} : Blank u → Name a → 61 ∉ a → Blank v → Says h t p → Defines (u ++ a ++ v ++ 61 :: h) a t p

/-- Arguments one after the other, with a space between those there are. -/
def spelled : List (List Nat) → List Nat
  | [] => []
  | t :: ts => if t = [] then spelled ts else if spelled ts = [] then t else t ++ 32 :: spelled ts

/-- What is defined: the names that stand for another one with some arguments. -/
abbrev Look := List Nat → Option (List Nat × List Nat)

/-- The arguments of all aliases have no white space at the ends. -/
def TightTable (look : Look) : Prop := ∀ n t p, look n = some (t, p) → Tight p

/-- A name stands for one that is no alias: `Stands look n ps f` says that `n` is `f` with the arguments `ps`, those of the last alias first. -/
inductive Stands (look : Look) : List Nat → List (List Nat) → List Nat → Prop
  | self {n : List Nat} : look n = none → Stands look n [] n
  | step {n t p f : List Nat} {ps : List (List Nat)} : look n = some (t, p) → Stands look t ps f → Stands look n (ps ++ [p]) f

/-- The name is defined anew. -/
def update (look : Look) (a : List Nat) (e : List Nat × List Nat) : Look := fun n => if n = a then some e else look n

/-- A sequence of definitions `(name, target, arguments)`: each stands for what its value stands for at the time. -/
inductive Defined : Look → List (List Nat × List Nat × List Nat) → Look → Prop
  | nil {look : Look} : Defined look [] look
  | cons {look look' : Look} {a t p f : List Nat} {ps : List (List Nat)} {ds : List (List Nat × List Nat × List Nat)} :
      Stands look t ps f → Defined (update look a (f, spelled (ps ++ [p]))) ds look' → Defined look ((a, t, p) :: ds) look'

/-- No definition of the sequence makes a name stand for itself. -/
inductive Proper : Look → List (List Nat × List Nat × List Nat) → Prop
  | nil {look : Look} : Proper look []
  | cons {look : Look} {a t p f : List Nat} {ps : List (List Nat)} {ds : List (List Nat × List Nat × List Nat)} :
      Stands look t ps f → f ≠ a → Proper (update look a (f, spelled (ps ++ [p]))) ds → Proper look ((a, t, p) :: ds)

end Verif.AliasSpec
