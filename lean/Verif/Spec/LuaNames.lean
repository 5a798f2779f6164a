import Verif.Spec.LuaCore
/-
Scoping by name, for the programs of `LuaCore`: with names given to the variables, every use finds the variable it is meant to be.  Also the
one construct merging of declarations mishandles.
-/
namespace Verif.Core

/-- A name means the innermost visible variable of that name (`D`: the variables visible, innermost first). -/
def Means (name : Nat → Nat) (D : List Nat) (x : Nat) : Prop := D.find? (fun y => name y = name x) = some x

mutual
/-- Every use of a local variable by its name means that variable.  In `local a,a` the second one wins. -/
def Ex.Named (nm : Nat → Nat) (D : List Nat) : Ex → Prop
  | .const _ => True
  | .var x => Means nm D x
  | .dots => True
  | .group e => e.Named nm D
  | .un _ e => e.Named nm D
  | .bin _ l r => l.Named nm D ∧ r.Named nm D
  | .builtin _ es => NamedEs nm D es
  | .call f es => f.Named nm D ∧ NamedEs nm D es
  | .index e k => e.Named nm D ∧ k.Named nm D
  | .op _ _ es => NamedEs nm D es
  | .func ps _ b => NamedBl nm (ps.reverse ++ D) b
def NamedEs (nm : Nat → Nat) (D : List Nat) : List Ex → Prop
  | [] => True
  | e :: es => e.Named nm D ∧ NamedEs nm D es
def St.Named (nm : Nat → Nat) (D : List Nat) : St → Prop
  | .locals _ es => NamedEs nm D es
  | .localFn x ps _ b => NamedBl nm (ps.reverse ++ x :: D) b
  | .assign ts es => NamedTs nm D ts ∧ NamedEs nm D es
  | .eval e => e.Named nm D
  | .ret es => NamedEs nm D es
  | .brk => True
  | .doB b => NamedBl nm D b
  | .whileS e b => e.Named nm D ∧ NamedBl nm D b
  | .repeatS b e => NamedBl nm D b ∧ e.Named nm (inner D b)
  | .forNum x es b => NamedEs nm D es ∧ NamedBl nm (x :: D) b
  | .forIn xs es b => NamedEs nm D es ∧ NamedBl nm (xs.reverse ++ D) b
  | .ifS e t f => e.Named nm D ∧ NamedBl nm D t ∧ f.Named nm D
def NamedBl (nm : Nat → Nat) (D : List Nat) : List St → Prop
  | [] => True
  | s :: b => s.Named nm D ∧ NamedBl nm (s.decls.reverse ++ D) b
def El.Named (nm : Nat → Nat) (D : List Nat) : El → Prop
  | .none => True
  | .else_ b => NamedBl nm D b
  | .elseif e t f => e.Named nm D ∧ NamedBl nm D t ∧ f.Named nm D
def Tg.Named (nm : Nat → Nat) (D : List Nat) : Tg → Prop
  | .loc x => Means nm D x
  | .put _ es => NamedEs nm D es
def NamedTs (nm : Nat → Nat) (D : List Nat) : List Tg → Prop
  | [] => True
  | t :: ts => t.Named nm D ∧ NamedTs nm D ts
/-- The variables visible at the end of a block, innermost first. -/
def inner (D : List Nat) : List St → List Nat
  | [] => D
  | s :: b => inner (s.decls.reverse ++ D) b
end

/-- May an expression give more or less than one value? -/
def Ex.many : Ex → Bool
  | .call _ _ => true
  | .builtin _ _ => true
  | .dots => true
  | .op _ m _ => m
  | _ => false

/-- `local x=f() local y`: as many variables as expressions, the last of which may give several values, and then a declaration without
expressions. -/
def bare : St → List St → Bool
  | .locals xs es, .locals _ [] :: _ => decide (xs.length = es.length) && (es.getLast?.map Ex.many).getD false
  | _, _ => false

mutual
/-- No declaration is followed directly by one that would take the rest of its values. -/
def Ex.NoBare : Ex → Bool
  | .const _ => true
  | .var _ => true
  | .dots => true
  | .group e => e.NoBare
  | .un _ e => e.NoBare
  | .bin _ l r => l.NoBare && r.NoBare
  | .builtin _ es => NoBareEs es
  | .call f es => f.NoBare && NoBareEs es
  | .index e k => e.NoBare && k.NoBare
  | .op _ _ es => NoBareEs es
  | .func _ _ b => NoBareBl b
def NoBareEs : List Ex → Bool
  | [] => true
  | e :: es => e.NoBare && NoBareEs es
def St.NoBare : St → Bool
  | .locals _ es => NoBareEs es
  | .localFn _ _ _ b => NoBareBl b
  | .assign ts es => NoBareTs ts && NoBareEs es
  | .eval e => e.NoBare
  | .ret es => NoBareEs es
  | .brk => true
  | .doB b => NoBareBl b
  | .whileS e b => e.NoBare && NoBareBl b
  | .repeatS b e => NoBareBl b && e.NoBare
  | .forNum _ es b => NoBareEs es && NoBareBl b
  | .forIn _ es b => NoBareEs es && NoBareBl b
  | .ifS e t f => e.NoBare && NoBareBl t && f.NoBare
def NoBareBl : List St → Bool
  | [] => true
  | s :: b => !bare s b && s.NoBare && NoBareBl b
def El.NoBare : El → Bool
  | .none => true
  | .else_ b => NoBareBl b
  | .elseif e t f => e.NoBare && NoBareBl t && f.NoBare
def Tg.NoBare : Tg → Bool
  | .loc _ => true
  | .put _ es => NoBareEs es
def NoBareTs : List Tg → Bool
  | [] => true
  | t :: ts => t.NoBare && NoBareTs ts
end

end Verif.Core
