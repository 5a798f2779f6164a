import Verif.Spec.LuaCore
import Verif.FoldTreeLemmas
/-
Static properties of the programs of `LuaCore`.
-/
namespace Verif.Core
open Spec

mutual
/-- Every use of a local variable lies in the scope of its declaration (`D`: the variables visible). -/
def Ex.Scoped (D : List Nat) : Ex → Prop
  | .const _ => True
  | .var x => x ∈ D
  | .dots => True
  | .group e => e.Scoped D
  | .un _ e => e.Scoped D
  | .bin _ l r => l.Scoped D ∧ r.Scoped D
  | .builtin _ es => ScopedEs D es
  | .call f es => f.Scoped D ∧ ScopedEs D es
  | .index e k => e.Scoped D ∧ k.Scoped D
  | .op _ _ es => ScopedEs D es
  | .func ps _ b => ScopedBl (ps ++ D) b
def ScopedEs (D : List Nat) : List Ex → Prop
  | [] => True
  | e :: es => e.Scoped D ∧ ScopedEs D es
def St.Scoped (D : List Nat) : St → Prop
  | .locals _ es => ScopedEs D es
  | .localFn x ps _ b => ScopedBl (ps ++ x :: D) b
  | .assign ts es => ScopedTs D ts ∧ ScopedEs D es
  | .eval e => e.Scoped D
  | .ret es => ScopedEs D es
  | .brk => True
  | .doB b => ScopedBl D b
  | .whileS e b => e.Scoped D ∧ ScopedBl D b
  | .repeatS b e => ScopedBl D b ∧ e.Scoped (scope D b)
  | .forNum x es b => ScopedEs D es ∧ ScopedBl (x :: D) b
  | .forIn xs es b => ScopedEs D es ∧ ScopedBl (xs ++ D) b
  | .ifS e t f => e.Scoped D ∧ ScopedBl D t ∧ f.Scoped D
def ScopedBl (D : List Nat) : List St → Prop
  | [] => True
  | s :: b => s.Scoped D ∧ ScopedBl (s.decls ++ D) b
def El.Scoped (D : List Nat) : El → Prop
  | .none => True
  | .else_ b => ScopedBl D b
  | .elseif e t f => e.Scoped D ∧ ScopedBl D t ∧ f.Scoped D
def Tg.Scoped (D : List Nat) : Tg → Prop
  | .loc x => x ∈ D
  | .put _ es => ScopedEs D es
def ScopedTs (D : List Nat) : List Tg → Prop
  | [] => True
  | t :: ts => t.Scoped D ∧ ScopedTs D ts
end

mutual
/-- All declarations of a program. -/
def Ex.declared : Ex → List Nat
  | .const _ => []
  | .var _ => []
  | .dots => []
  | .group e => e.declared
  | .un _ e => e.declared
  | .bin _ l r => l.declared ++ r.declared
  | .builtin _ es => declaredEs es
  | .call f es => f.declared ++ declaredEs es
  | .index e k => e.declared ++ k.declared
  | .op _ _ es => declaredEs es
  | .func ps _ b => ps ++ declaredBl b
def declaredEs : List Ex → List Nat
  | [] => []
  | e :: es => e.declared ++ declaredEs es
def St.declared : St → List Nat
  | .locals xs es => declaredEs es ++ xs
  | .localFn x ps _ b => x :: ps ++ declaredBl b
  | .assign ts es => declaredTs ts ++ declaredEs es
  | .eval e => e.declared
  | .ret es => declaredEs es
  | .brk => []
  | .doB b => declaredBl b
  | .whileS e b => e.declared ++ declaredBl b
  | .repeatS b e => declaredBl b ++ e.declared
  | .forNum x es b => declaredEs es ++ x :: declaredBl b
  | .forIn xs es b => declaredEs es ++ xs ++ declaredBl b
  | .ifS e t f => e.declared ++ declaredBl t ++ f.declared
def declaredBl : List St → List Nat
  | [] => []
  | s :: b => s.declared ++ declaredBl b
def El.declared : El → List Nat
  | .none => []
  | .else_ b => declaredBl b
  | .elseif e t f => e.declared ++ declaredBl t ++ f.declared
def Tg.declared : Tg → List Nat
  | .loc _ => []
  | .put _ es => declaredEs es
def declaredTs : List Tg → List Nat
  | [] => []
  | t :: ts => t.declared ++ declaredTs ts
end

/-- May the expression give several values, as it stands or once it lost a constant `and`/`or` in front? -/
def Ex.several : Ex → Bool
  | .call _ _ => true
  | .builtin _ _ => true
  | .dots => true
  | .op _ m _ => m
  | .bin o _ r => o.logic && r.several
  | _ => false

mutual
/-- Programs without the constructs folding mishandles.  Constants are fine (`LV.Good`).  Where all values of an expression count (`m`), it
is not an `and` or `or` whose right side may give several.  A `local` with more variables than expressions has no expression but the last
that may give several values. -/
def Ex.Plain (lang : Lang) (m : Bool) : Ex → Prop
  | .const v => v.Good lang
  | .var _ => True
  | .dots => True
  | .group e => e.Plain lang false
  | .un _ e => e.Plain lang false
  | .bin o l r => l.Plain lang false ∧ r.Plain lang false ∧ (m = true → o.logic = true → r.several = false)
  | .builtin _ es => PlainEs lang es
  | .call f es => f.Plain lang false ∧ PlainEs lang es
  | .index e k => e.Plain lang false ∧ k.Plain lang false
  | .op _ _ es => PlainEs lang es
  | .func _ _ b => PlainBl lang b
def PlainEs (lang : Lang) : List Ex → Prop
  | [] => True
  | e :: es => e.Plain lang es.isEmpty ∧ PlainEs lang es
def St.Plain (lang : Lang) : St → Prop
  | .locals xs es => PlainEs lang es ∧ (es.length < xs.length → ∀ e ∈ es.dropLast, e.several = false)
  | .localFn _ _ _ b => PlainBl lang b
  | .assign ts es => PlainTs lang ts ∧ PlainEs lang es
  | .eval e => e.Plain lang false
  | .ret es => PlainEs lang es
  | .brk => True
  | .doB b => PlainBl lang b
  | .whileS e b => e.Plain lang false ∧ PlainBl lang b
  | .repeatS b e => PlainBl lang b ∧ e.Plain lang false
  | .forNum _ es b => PlainEs lang es ∧ PlainBl lang b
  | .forIn _ es b => PlainEs lang es ∧ PlainBl lang b
  | .ifS e t f => e.Plain lang false ∧ PlainBl lang t ∧ f.Plain lang
def PlainBl (lang : Lang) : List St → Prop
  | [] => True
  | s :: b => s.Plain lang ∧ PlainBl lang b
def El.Plain (lang : Lang) : El → Prop
  | .none => True
  | .else_ b => PlainBl lang b
  | .elseif e t f => e.Plain lang false ∧ PlainBl lang t ∧ f.Plain lang
def Tg.Plain (lang : Lang) : Tg → Prop
  | .loc _ => True
  | .put _ es => PlainEs lang es
def PlainTs (lang : Lang) : List Tg → Prop
  | [] => True
  | t :: ts => t.Plain lang ∧ PlainTs lang ts
end

end Verif.Core
