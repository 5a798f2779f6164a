import Verif.PodText
import Verif.Spec.StrLit
/-! The grammar of pods as Picotron's `pod()`/`unpod()` define it: a Lua expression made of constants, table constructors and calls of
`userdata`, with the value it has in Lua.  Independent of the formatter and the parser; the floats' text is left open, and so is
white space (there is none here). -/
namespace Verif.PodText
open Verif.Pxu (UD)

/-- The characters of a string. -/
def chars (s : String) : List Nat := s.toList.map Char.toNat

/-- A Lua name. -/
def IsName (s : List Nat) : Prop :=
  (∃ c t, s = c :: t ∧ (97 ≤ c ∧ c ≤ 122 ∨ 65 ≤ c ∧ c ≤ 90 ∨ c = 95) ∧
    ∀ x ∈ t, 97 ≤ x ∧ x ≤ 122 ∨ 65 ≤ x ∧ x ≤ 90 ∨ x = 95 ∨ 48 ≤ x ∧ x ≤ 57) ∧
  s ∉ ["and", "break", "do", "else", "elseif", "end", "false", "for", "function", "goto", "if", "in", "local", "nil", "not", "or",
    "repeat", "return", "then", "true", "until", "while"].map chars

/-- Texts with commas between them. -/
inductive Commas : List (List Nat) → List Nat → Prop
  | nil : Commas [] []
  | one (a : List Nat) : Commas [a] a
  | more {a b : List Nat} {l : List (List Nat)} {s : List Nat} : Commas (b :: l) s → Commas (a :: b :: l) (a ++ 44 :: s)

/-- A key as a value. -/
def Key.val {F : Type} : Key F → Val F
  | .bool b => .bool b
  | .int v => .int v
  | .float f => .float f
  | .str s => .str s

variable {F : Type}

mutual
/-- The value of a text; `float` gives the texts of floats, `uni` the bytes of `\u{...}`. -/
inductive Reads (float : F → List Nat → Prop) (uni : Nat → List Nat) : List Nat → Val F → Prop
  | nil : Reads float uni (chars "nil") .nil
  | true : Reads float uni (chars "true") (.bool .true)
  | false : Reads float uni (chars "false") (.bool .false)
  | int {s : List Nat} {n : Nat} : s ≠ [] → StrSpec.Dec s n → n < 2 ^ 63 → Reads float uni s (.int n)
  | neg {s : List Nat} {n : Nat} : s ≠ [] → StrSpec.Dec s n → n < 2 ^ 63 → Reads float uni (45 :: s) (.int (-n))
  | float {s : List Nat} {f : F} : float f s → Reads float uni s (.float f)
  | str {s v : List Nat} : StrSpec.Denotes .false uni s v → Reads float uni (34 :: (s ++ [34])) (.str v)
  /-- `userdata(type,width,data)`: one-dimensional. -/
  | line {t w d type data : List Nat} {width : Int} : Reads float uni t (.str type) → Reads float uni w (.int width) →
      Reads float uni d (.str data) → Reads float uni (chars "userdata(" ++ (t ++ 44 :: (w ++ 44 :: (d ++ [41])))) (.ud ⟨type, width, 0, data⟩)
  /-- `userdata(type,width,height,data)`. -/
  | rect {t w h d type data : List Nat} {width height : Int} : Reads float uni t (.str type) → Reads float uni w (.int width) →
      Reads float uni h (.int height) → Reads float uni d (.str data) →
      Reads float uni (chars "userdata(" ++ (t ++ 44 :: (w ++ 44 :: (h ++ 44 :: (d ++ [41]))))) (.ud ⟨type, width, height, data⟩)
  | table {l : List (List Nat)} {s : List Nat} {t : Items F} : Fields float uni 1 l t → Commas l s →
      Reads float uni (123 :: (s ++ [125])) (.table t)
/-- The entries of a table constructor, the next position being `i`. -/
inductive Fields (float : F → List Nat → Prop) (uni : Nat → List Nat) : Int → List (List Nat) → Items F → Prop
  | nil {i : Int} : Fields float uni i [] .nil
  | pos {i : Int} {s : List Nat} {v : Val F} {l : List (List Nat)} {t : Items F} : Reads float uni s v → Fields float uni (i + 1) l t →
      Fields float uni i (s :: l) (.cons (.int i) v t)
  | name {i : Int} {k s : List Nat} {v : Val F} {l : List (List Nat)} {t : Items F} : IsName k → Reads float uni s v →
      Fields float uni i l t → Fields float uni i ((k ++ 61 :: s) :: l) (.cons (.str k) v t)
  | key {i : Int} {ks s : List Nat} {k : Key F} {v : Val F} {l : List (List Nat)} {t : Items F} : Reads float uni ks k.val →
      Reads float uni s v → Fields float uni i l t → Fields float uni i ((91 :: (ks ++ 93 :: 61 :: s)) :: l) (.cons k v t)
end

end Verif.PodText
