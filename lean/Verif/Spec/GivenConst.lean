import Verif.Spec.NumLit
import Verif.Spec.StrLit
/-! What a constant written as in Lua is worth, independent of the code. -/
namespace Verif.GivenSpec
open NumSpec

/-- The values that can be given. -/
inductive Value where
  | nil
  | bool (b : Bool)
  | fix (n : Nat)
  | int (i : Int)
  | str (s : List Nat)

/-- White space. -/
def Blank (w : List Nat) : Prop := ∀ c ∈ w, c = 32 ∨ c = 9 ∨ c = 10 ∨ c = 13

/-- A number begins with a digit, or a point and a digit. -/
def Numeral (t : List Nat) : Prop := ∃ c r, t = c :: r ∧ (48 ≤ c ∧ c ≤ 57 ∨ c = 46 ∧ ∃ d u, r = d :: u ∧ 48 ≤ d ∧ d ≤ 57)

def word (s : String) : List Nat := s.toList.map Char.toNat

/-- Constants of both languages: words, and numbers with an optional sign (a `~` only in PICO-8). -/
inductive Written (p8 : Bool) : List Nat → Value → Prop
  | nil : Written p8 (word "nil") .nil
  | yes : Written p8 (word "true") (.bool true)
  | no : Written p8 (word "false") (.bool false)
  | fix {t : List Nat} {v : Nat} (hp : p8 = true) (ht : Numeral t) (h : FixAbs t v) : Written p8 t (.fix v)
  | negFix {t w : List Nat} {u v : Nat} (hp : p8 = true) (hw : Blank w) (ht : Numeral t) (h : FixAbs t u) (hv : v < 2 ^ 32) (e : (u + v) % 2 ^ 32 = 0) :
      Written p8 (45 :: (w ++ t)) (.fix v)
  | notFix {t w : List Nat} {u v : Nat} (hp : p8 = true) (hw : Blank w) (ht : Numeral t) (h : FixAbs t u) (e : u + v = 2 ^ 32 - 1) :
      Written p8 (126 :: (w ++ t)) (.fix v)
  | int {t : List Nat} {v : Int} (hp : p8 = false) (h : IntAbs t v) : Written p8 t (.int v)
  | negInt {t w : List Nat} {u v : Int} (hp : p8 = false) (hw : Blank w) (h : IntAbs t u) (hv : Wraps (-u) v) : Written p8 (45 :: (w ++ t)) (.int v)

/-- The text between two quotes `q`: these and newlines only behind a backslash, or newlines skipped by `\z`. -/
inductive Closed (q : Nat) : List Nat → Prop
  | nil : Closed q []
  | char {c : Nat} {s : List Nat} (h1 : c ≠ 92) (h2 : c ≠ q) (h3 : c ≠ 10) (h : Closed q s) : Closed q (c :: s)
  | escape {c : Nat} {s : List Nat} (h1 : c ≠ 122) (h : Closed q s) : Closed q (92 :: c :: s)
  | skip {w s : List Nat} (hw : Blank w) (hs : ∀ c, s.head? = some c → ¬ Blank [c]) (h : Closed q s) : Closed q (92 :: 122 :: (w ++ s))

end Verif.GivenSpec
