/-! The reserved words of Lua (reference manual of Lua 5.4, section 3.1), independent of the tokenizer. -/
namespace Verif.LuaWords

def reserved : List String :=
  ["and", "break", "do", "else", "elseif", "end",
   "false", "for", "function", "goto", "if", "in",
   "local", "nil", "not", "or", "repeat", "return",
   "then", "true", "until", "while"]

def chars (s : String) : List Nat := s.toList.map Char.toNat

/-- A name of Lua: letters, digits and underscores, not starting with a digit and not reserved. -/
def IsName (s : List Nat) : Prop :=
  (∃ c r, s = c :: r ∧ ¬ (48 ≤ c ∧ c ≤ 57)) ∧
  (∀ c ∈ s, 48 ≤ c ∧ c ≤ 57 ∨ 65 ≤ c ∧ c ≤ 90 ∨ 97 ≤ c ∧ c ≤ 122 ∨ c = 95) ∧ ∀ w ∈ reserved, s ≠ chars w

end Verif.LuaWords
