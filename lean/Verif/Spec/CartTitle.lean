/-! What PICO-8 shows as the title of a cart: the comments on the first two lines of the code. -/
namespace Verif.TitleSpec

/-- The text that a line of code gives to the title: that of a comment, without the space after the dashes. -/
inductive Heading : List Nat → List Nat → Prop
  | spaced (t) : Heading ([45, 45, 32] ++ t) t
  | tight (t) : t.head? ≠ some 32 → Heading ([45, 45] ++ t) t
  | code (l) : ¬ [45, 45] <+: l → Heading l []

/-- The title of code: of its only line, or of its first two lines, the second of which is left out when it has no text. -/
inductive CodeTitle : List Nat → List Nat → Prop
  | one (a t) : 10 ∉ a → Heading a t → CodeTitle a t
  | first (a b ta) : 10 ∉ a → 10 ∉ b → Heading a ta → Heading b [] → CodeTitle (a ++ 10 :: b) ta
  | two (a b ta tb) : 10 ∉ a → 10 ∉ b → Heading a ta → Heading b tb → tb ≠ [] → CodeTitle (a ++ 10 :: b) (ta ++ 10 :: tb)
  | more (p rest t) : p.count 10 = 1 → CodeTitle p t → CodeTitle (p ++ 10 :: rest) t

end Verif.TitleSpec
