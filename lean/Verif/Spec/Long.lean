import Verif.Spec.LuaGrammar
import Verif.Spec.Plain
/-
For C68 (see Verif/Props/Unminify.lean): programs without shorthands, and the programs for which unminifying is claimed to work.
-/
namespace Verif.Long
open Syntax
open Paren (Op Lang)

mutual
/-- There is no shorthand in it; `?` does not count. -/
def lgE : Ex → Bool
  | .func _ b => lgB b
  | .group e => lgE e
  | .un _ e => lgE e
  | .bin _ l r => lgE l && lgE r
  | .member b _ => lgE b
  | .index b k => lgE b && lgE k
  | .call b _ as => lgE b && lgEs as
  | .method b _ _ as => lgE b && lgEs as
  | .table its => lgIts its
  | _ => true
def lgEs : Exs → Bool
  | .nil => true
  | .cons e es => lgE e && lgEs es
def lgIts : Its → Bool
  | .nil => true
  | .pos e its => lgE e && lgIts its
  | .named _ e its => lgE e && lgIts its
  | .keyed k e its => lgE k && lgE e && lgIts its
def lgS : St → Bool
  | .do_ b => lgB b
  | .if_ i => lgI i
  | .while_ c b => lgE c && lgB b
  | .whileShort _ _ _ => false
  | .repeat_ b c => lgB b && lgE c
  | .fornum _ a b s d => lgE a && lgE b && lgEs s && lgB d
  | .forin _ es d => lgEs es && lgB d
  | .return_ es => lgEs es
  | .local_ _ es => lgEs es
  | .localfn _ _ b => lgB b
  | .func _ _ b => lgB b
  | .assign ts es => lgEs ts && lgEs es
  | .opassign _ t e => lgE t && lgE e
  | .call e => lgE e
  | .print es => lgEs es
  | _ => true
def lgI : If → Bool
  | .long c b t => lgE c && lgB b && lgT t
  | .short _ _ _ => false
  | .shortElse _ _ _ _ => false
def lgT : Tail → Bool
  | .end_ => true
  | .else_ b => lgB b
  | .elseif_ i => lgI i
def lgB : Block → Bool
  | .nil => true
  | .semi b => lgB b
  | .cons s b => lgS s && lgB b
end

/-- Does the expression start with a string in long brackets? -/
def bracketE : Ex → Bool
  | .str s => s.toList.head? == some '['
  | .bin _ l _ => bracketE l
  | _ => false

/-- Is it a negative? -/
def isNeg : Ex → Bool
  | .un .minus _ => true
  | _ => false

mutual
/-- No negative of a negative is written without parentheses, and no index starts with a string in long brackets. -/
def fitE : Ex → Bool
  | .func _ b => fitB b
  | .group e => fitE e
  | .un o e => !(o == .minus && isNeg e) && fitE e
  | .bin _ l r => fitE l && fitE r
  | .member b _ => fitE b
  | .index b k => !bracketE k && fitE b && fitE k
  | .call b _ as => fitE b && fitEs as
  | .method b _ _ as => fitE b && fitEs as
  | .table its => fitIts its
  | _ => true
def fitEs : Exs → Bool
  | .nil => true
  | .cons e es => fitE e && fitEs es
def fitIts : Its → Bool
  | .nil => true
  | .pos e its => fitE e && fitIts its
  | .named _ e its => fitE e && fitIts its
  | .keyed k e its => !bracketE k && fitE k && fitE e && fitIts its
def fitS : St → Bool
  | .do_ b => fitB b
  | .if_ i => fitI i
  | .while_ c b => fitE c && fitB b
  | .whileShort c b _ => fitE c && fitB b
  | .repeat_ b c => fitB b && fitE c
  | .fornum _ a b s d => fitE a && fitE b && fitEs s && fitB d
  | .forin _ es d => fitEs es && fitB d
  | .return_ es => fitEs es
  | .local_ _ es => fitEs es
  | .localfn _ _ b => fitB b
  | .func _ _ b => fitB b
  | .assign ts es => fitEs ts && fitEs es
  | .opassign _ t e => fitE t && fitE e
  | .call e => fitE e
  | .print es => fitEs es
  | _ => true
def fitI : If → Bool
  | .long c b t => fitE c && fitB b && fitT t
  | .short c b _ => fitE c && fitB b
  | .shortElse c b b' _ => fitE c && fitB b && fitB b'
def fitT : Tail → Bool
  | .end_ => true
  | .else_ b => fitB b
  | .elseif_ i => fitI i
def fitB : Block → Bool
  | .nil => true
  | .semi b => fitB b
  | .cons s b => fitS s && fitB b
end

/-- Does the last expression end with something that a parenthesis goes on? -/
def openEs : Exs → Bool
  | .nil => false
  | .cons e .nil => LuaGrammar.openEnd e
  | .cons _ es => openEs es

/-- Does a statement, written without shorthands, end with something that a parenthesis goes on? -/
def openS : St → Bool
  | .repeat_ _ c => LuaGrammar.openEnd c
  | .return_ es => openEs es
  | .local_ _ es => openEs es
  | .assign _ es => openEs es
  | .opassign _ _ e => LuaGrammar.openEnd e
  | .call _ => true
  | .print _ => true
  | _ => false

/-- Does the first statement, if any, start with a parenthesis? -/
def leadB : Block → Bool
  | .semi b => leadB b
  | b => Plain.parenB b

mutual
/-- Only a line break or an empty statement is between a statement and one that starts with a parenthesis if it cannot go on with that. -/
def sepE : Ex → Bool
  | .func _ b => sepB b
  | .group e => sepE e
  | .un _ e => sepE e
  | .bin _ l r => sepE l && sepE r
  | .member b _ => sepE b
  | .index b k => sepE b && sepE k
  | .call b _ as => sepE b && sepEs as
  | .method b _ _ as => sepE b && sepEs as
  | .table its => sepIts its
  | _ => true
def sepEs : Exs → Bool
  | .nil => true
  | .cons e es => sepE e && sepEs es
def sepIts : Its → Bool
  | .nil => true
  | .pos e its => sepE e && sepIts its
  | .named _ e its => sepE e && sepIts its
  | .keyed k e its => sepE k && sepE e && sepIts its
def sepS : St → Bool
  | .do_ b => sepB b
  | .if_ i => sepI i
  | .while_ c b => sepE c && sepB b
  | .whileShort c b _ => sepE c && sepB b
  | .repeat_ b c => sepB b && sepE c
  | .fornum _ a b s d => sepE a && sepE b && sepEs s && sepB d
  | .forin _ es d => sepEs es && sepB d
  | .return_ es => sepEs es
  | .local_ _ es => sepEs es
  | .localfn _ _ b => sepB b
  | .func _ _ b => sepB b
  | .assign ts es => sepEs ts && sepEs es
  | .opassign _ t e => sepE t && sepE e
  | .call e => sepE e
  | .print es => sepEs es
  | _ => true
def sepI : If → Bool
  | .long c b t => sepE c && sepB b && sepT t
  | .short c b _ => sepE c && sepB b
  | .shortElse c b b' _ => sepE c && sepB b && sepB b'
def sepT : Tail → Bool
  | .end_ => true
  | .else_ b => sepB b
  | .elseif_ i => sepI i
def sepB : Block → Bool
  | .nil => true
  | .semi b => sepB b
  | .cons s b => !(openS s && leadB b) && sepS s && sepB b
end

/-- No empty statement. -/
def noSemi : Block → Bool
  | .nil => true
  | .semi _ => false
  | .cons _ b => noSemi b

mutual
/-- There is no empty statement in the block after the `else` of a shorthand. -/
def ellE : Ex → Bool
  | .func _ b => ellB b
  | .group e => ellE e
  | .un _ e => ellE e
  | .bin _ l r => ellE l && ellE r
  | .member b _ => ellE b
  | .index b k => ellE b && ellE k
  | .call b _ as => ellE b && ellEs as
  | .method b _ _ as => ellE b && ellEs as
  | .table its => ellIts its
  | _ => true
def ellEs : Exs → Bool
  | .nil => true
  | .cons e es => ellE e && ellEs es
def ellIts : Its → Bool
  | .nil => true
  | .pos e its => ellE e && ellIts its
  | .named _ e its => ellE e && ellIts its
  | .keyed k e its => ellE k && ellE e && ellIts its
def ellS : St → Bool
  | .do_ b => ellB b
  | .if_ i => ellI i
  | .while_ c b => ellE c && ellB b
  | .whileShort c b _ => ellE c && ellB b
  | .repeat_ b c => ellB b && ellE c
  | .fornum _ a b s d => ellE a && ellE b && ellEs s && ellB d
  | .forin _ es d => ellEs es && ellB d
  | .return_ es => ellEs es
  | .local_ _ es => ellEs es
  | .localfn _ _ b => ellB b
  | .func _ _ b => ellB b
  | .assign ts es => ellEs ts && ellEs es
  | .opassign _ t e => ellE t && ellE e
  | .call e => ellE e
  | .print es => ellEs es
  | _ => true
def ellI : If → Bool
  | .long c b t => ellE c && ellB b && ellT t
  | .short c b _ => ellE c && ellB b
  | .shortElse c b b' _ => noSemi b' && ellE c && ellB b && ellB b'
def ellT : Tail → Bool
  | .end_ => true
  | .else_ b => ellB b
  | .elseif_ i => ellI i
def ellB : Block → Bool
  | .nil => true
  | .semi b => ellB b
  | .cons s b => ellS s && ellB b
end

/-- The programs for which unminifying is claimed to work. -/
def Clear (b : Block) : Prop := fitB b = true ∧ sepB b = true ∧ ellB b = true

end Verif.Long
