import Verif.Spec.LuaWords
/-! The operators and other symbols of PICO-8's and Picotron's Lua (Lua 5.4 reference manual, section 3.1, and the PICO-8 manual on operators and
assignments), independent of the tokenizer. -/
namespace Verif.LuaOps
open LuaWords (chars)

/-- Symbols of both languages. -/
def common : List String :=
  ["+", "-", "*", "/", "\\", "%", "^", "^^", "&", "|", "~", "<<", ">>", "..", "...", "#", "@", "$", "?",
   "==", "~=", "!=", "<", "<=", ">", ">=", "=",
   "(", ")", "{", "}", "[", "]", ":", "::", ";", ",", ".",
   "+=", "-=", "*=", "/=", "\\=", "%=", "^=", "^^=", "&=", "|=", "<<=", ">>=", "..="]

/-- Shifts and rotations of PICO-8; `//` starts a comment there, and is a division in Picotron. -/
def symbols (p8 : Bool) : List (List Nat) :=
  (common ++ if p8 then [">>>", "<<>", ">><", ">>>=", "<<>=", ">><="] else ["//", "//="]).map chars

end Verif.LuaOps
