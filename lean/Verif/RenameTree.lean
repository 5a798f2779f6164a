import Verif.ResolveNodes
/-
Model of renaming in a whole syntax tree: what the renamer sees of a parsed program (pico_rename.py 178-312), and how the new names get into
the tree (459-488).

Simplified: rename and key hints, sublanguages and names inside strings are left out; whether a member is preserved depends on its
own name only (rules such as `table.name` are left out), and so does `members_as_globals`.
-/
namespace Verif.Resolve
open Syntax

/-- The preserved names (`preserved_globals`, `preserved_members`, 84-163). -/
structure Keep where
  globals : Nm → Bool
  members : Nm → Bool

/-- What a key counts as (235-240): a key of `_ENV` is a global, unless it is preserved as a member, which is tested first. -/
def keyVar (k : Keep) (onEnv : Bool) (x : Nm) : RVar := if onEnv && !k.members x then globVar x else memVar x

/-- The variables a node counts for (`collect_idents_pre`, 287-305).  Members, also those of `_ENV`, do not count as used in the scope they are in
(299: only if the node itself is a global); `free` is a scope of its own for them.  A global has an
extra node for its `_ENV` (pico_parse.py 450-454). -/
def usesOf (k : Keep) (ns : List Node) (free : Nat) (n : Node) : List Use :=
  match n.ref with
  | .bind v | .loc v | .label v => [⟨n.chain.headD free, v, false⟩]
  | .glob env => ⟨n.chain.headD free, globVar n.name, false⟩ :: env.toList.map fun v => ⟨n.chain.headD free, v, false⟩
  | .mem onEnv => [⟨free, keyVar k onEnv n.name, false⟩]
  | .goto_ => (gotoLabel ns n).toList.map fun v => ⟨n.chain.headD free, v, false⟩

/-- `var.implicit`: some node of the local is implicit (pico_parse.py 420-421).  The extra nodes of globals are implicit as
well; locals called `_ENV` keep their name anyway. -/
def impLocal (ns : List Node) (v : RVar) : Bool := ns.any fun n => n.imp && (n.ref == .bind v || n.ref == .loc v)

/-- The same for a global. -/
def impGlobal (ns : List Node) (x : Nm) : Bool := ns.any fun n => n.imp && (match n.ref with | .glob _ => true | _ => false) && n.name == x

/-- Variables that keep their name (`compute_effective_kind`, 233-250); the variables of the outermost scope are built-in ones
(pico_parse.py 325-331). -/
def fixedName (k : Keep) (D : List RVar) (ns : List Node) (v : RVar) : Option Nm :=
  match v.kind with
  | .loc => if D.contains v && (v.name == envName || (v.scope == 0 && k.globals v.name) || impLocal ns v) then some v.name else none
  | .glob => if k.globals v.name || impGlobal ns v.name then some v.name else none
  | .mem => if k.members v.name then some v.name else none
  | .lab => none

/-- What renaming sees of a program in which the names `lb` are local from the start. -/
def programOf (pico8 : Bool) (k : Keep) (lb : List Nm) (b : Block) : Program where
  pico8 := pico8
  parent := parentOf (final lb b).parents
  labParent := parentOf (final lb b).labParents
  decls := (allDecls lb b).filter fun v => (nodes lb b).any fun n => n.ref == .bind v || n.ref == .loc v || n.ref == .glob (some v)
  labels := labelsOf (nodes lb b)
  uses := (nodes lb b).flatMap (usesOf k (nodes lb b) (final lb b).nscope)
  fixed := fixedName k (allDecls lb b) (nodes lb b)

/-- The new name of a variable (459-476). -/
def newOf (P : Program) (r : List (RVar × Nm)) (v : RVar) : Nm := (P.newName r v).getD v.name

/-- The name written into a node (459-476). -/
def nodeName (k : Keep) (P : Program) (r : List (RVar × Nm)) (ns : List Node) (n : Node) : Nm :=
  match n.ref with
  | .bind v | .loc v | .label v => newOf P r v
  | .glob _ => newOf P r (globVar n.name)
  | .mem onEnv => newOf P r (keyVar k onEnv n.name)
  | .goto_ => match gotoLabel ns n with
    | some v => newOf P r v
    | none => n.name

/-! The nodes of a tree take their names from a list, in the order of the text; implicit nodes take one as well, but are not written. -/

/-- Whether there is a node. -/
def emits : Ev → Bool
  | .newScope self => self
  | .tgt _ | .use _ | .print | .member _ _ | .label _ | .goto_ _ => true
  | _ => false

/-- The number of names taken. -/
def takes (es : List Ev) : Nat := (es.filter emits).length

/-- Names in a row. -/
def sNs : List Nm → List Nm → List Nm
  | _, [] => []
  | ns, x :: xs => ns.headD x :: sNs ns.tail xs

/-- Parameters. -/
def sPs : List Nm → List Param → List Param
  | _, [] => []
  | ns, none :: ps => none :: sPs ns ps
  | ns, some x :: ps => some (ns.headD x) :: sPs ns.tail ps

/-- Names with attributes. -/
def sXs : List Nm → List (Nm × Option Nm) → List (Nm × Option Nm)
  | _, [] => []
  | ns, x :: xs => (ns.headD x.1, x.2) :: sXs ns.tail xs

/-- The target of a function statement. -/
def sFn (ns : List Nm) (f : FnName) : FnName :=
  ⟨ns.headD f.base, sNs ns.tail f.keys, f.meth.map fun x => (ns.tail.drop f.keys.length).headD x⟩

mutual
def sE (ns : List Nm) : Ex → Ex
  | .var x => .var (ns.headD x)
  | .num s => .num s
  | .str s => .str s
  | .cst s => .cst s
  | .vararg => .vararg
  | .func ps b => .func (sPs ns ps) (sB (ns.drop (takes (evHead false ps))) b)
  | .group e => .group (sE ns e)
  | .un o e => .un o (sE ns e)
  | .bin o l r => .bin o (sE ns l) (sE (ns.drop (takes (evE l))) r)
  | .member b x => .member (sE ns b) ((ns.drop (takes (evE b))).headD x)
  | .index b k => .index (sE ns b) (sE (ns.drop (takes (evE b))) k)
  | .call b sh as => .call (sE ns b) sh (sEs (ns.drop (takes (evE b))) as)
  | .method b x sh as => .method (sE ns b) ((ns.drop (takes (evE b))).headD x) sh (sEs (ns.drop (takes (evE b))).tail as)
  | .table its => .table (sIts ns its)
def sEs (ns : List Nm) : Exs → Exs
  | .nil => .nil
  | .cons e es => .cons (sE ns e) (sEs (ns.drop (takes (evE e))) es)
def sIts (ns : List Nm) : Its → Its
  | .nil => .nil
  | .pos e its => .pos (sE ns e) (sIts (ns.drop (takes (evE e))) its)
  | .named x e its => .named (ns.headD x) (sE ns.tail e) (sIts (ns.tail.drop (takes (evE e))) its)
  | .keyed k e its => .keyed (sE ns k) (sE (ns.drop (takes (evE k))) e) (sIts ((ns.drop (takes (evE k))).drop (takes (evE e))) its)
def sS (ns : List Nm) : St → St
  | .do_ b => .do_ (sB ns b)
  | .if_ i => .if_ (sI ns i)
  | .while_ c b => .while_ (sE ns c) (sB (ns.drop (takes (evE c))) b)
  | .whileShort c b n => .whileShort (sE ns c) (sB (ns.drop (takes (evE c))) b) n
  | .repeat_ b c => .repeat_ (sB ns b) (sE (ns.drop (takes (evB b))) c)
  | .fornum x a b c d => .fornum (ns.headD x) (sE ns.tail a) (sE (ns.tail.drop (takes (evE a))) b)
      (sEs ((ns.tail.drop (takes (evE a))).drop (takes (evE b))) c)
      (sB (((ns.tail.drop (takes (evE a))).drop (takes (evE b))).drop (takes (evEs c))) d)
  | .forin xs es d => .forin (sNs ns xs) (sEs (ns.drop xs.length) es) (sB ((ns.drop xs.length).drop (takes (evEs es))) d)
  | .break_ => .break_
  | .return_ es => .return_ (sEs ns es)
  | .local_ xs es => .local_ (sXs ns xs) (sEs (ns.drop xs.length) es)
  | .localfn x ps b => .localfn (ns.headD x) (sPs ns.tail ps) (sB (ns.tail.drop (takes (evHead false ps))) b)
  | .goto_ x => .goto_ (ns.headD x)
  | .label x => .label (ns.headD x)
  | .func f ps b => .func (sFn ns f) (sPs ((ns.drop (takes (evFn f))).drop (takes [.newScope f.meth.isSome])) ps)
      (sB ((ns.drop (takes (evFn f))).drop (takes (evHead f.meth.isSome ps))) b)
  | .assign ts es => .assign (sEs ns ts) (sEs (ns.drop (takes (evEs ts))) es)
  | .opassign o t e => .opassign o (sE ns t) (sE (ns.drop (takes (evE t))) e)
  | .call e => .call (sE ns e)
  | .print es => .print (sEs ns es)
def sI (ns : List Nm) : If → If
  | .long c b t => .long (sE ns c) (sB (ns.drop (takes (evE c))) b) (sT ((ns.drop (takes (evE c))).drop (takes (evB b))) t)
  | .short c b n => .short (sE ns c) (sB (ns.drop (takes (evE c))) b) n
  | .shortElse c b d n => .shortElse (sE ns c) (sB (ns.drop (takes (evE c))) b) (sB ((ns.drop (takes (evE c))).drop (takes (evB b))) d) n
def sT (ns : List Nm) : Tail → Tail
  | .end_ => .end_
  | .else_ b => .else_ (sB ns b)
  | .elseif_ i => .elseif_ (sI ns i)
def sB (ns : List Nm) : Block → Block
  | .nil => .nil
  | .semi b => .semi (sB ns b)
  | .cons s b => .cons (sS ns s) (sB (ns.drop (takes (evS s))) b)
end

/-- The renamed program (`update_idents`, 459-488). -/
def renamed (k : Keep) (P : Program) (r : List (RVar × Nm)) (lb : List Nm) (b : Block) : Block := sB ((nodes lb b).map (nodeName k P r (nodes lb b))) b

end Verif.Resolve
