/-!
Model of walking and editing the syntax tree, which scripts and the minifier do: pico_tokenize.py 59-110 and 125-159, pico_parse.py 184-257.

Python's references are modelled by numbers for tokens and comments, and a node by its place: the subtree and what is around it (a zipper), so that
`parent` and `children.index(m)` are the context.  Only what these functions look at is kept: the children, the tokens, and the comments before each token.
-/
namespace Verif.TreeEdit

/-- A comment (pico_tokenize.py 282-296): which one it is, whether it is a hint that was used up already (`CommentHint.auto`), and where it is in the source. -/
structure Comment where
  id : Nat
  auto : Bool
  idx : Nat
  endidx : Nat
deriving DecidableEq

/-- A token (pico_tokenize.py 194-203), with the comments before it. -/
structure Tok where
  id : Nat
  comments : List Comment
deriving DecidableEq

/-- Tokens and nodes (pico_parse.py 141-154). -/
inductive Tree
  | tok (t : Tok)
  | node (children : List Tree)

/-- What is around a subtree within its parent: the children before, nearest first, and those after. -/
abbrev Frame := List Tree × List Tree

/-- A token or node and its parents. -/
abbrev Loc := Tree × List Frame

/-- `_adjacent` (pico_tokenize.py 59-75) with delta 1 if `fwd`, else -1: the sibling of the nearest parent that has one. -/
def adjacent (fwd : Bool) : Tree → List Frame → Option Loc
  | _, [] => none
  | m, (l, r) :: up =>
    if fwd then match r with
      | x :: r => some (x, (m :: l, r) :: up)
      | [] => adjacent fwd (.node (l.reverse ++ [m])) up
    else match l with
      | x :: l => some (x, (l, m :: r) :: up)
      | [] => adjacent fwd (.node (m :: r)) up

/-- `m.children[i]` with i 0 if `fwd`, else -1 (pico_tokenize.py 78, 82-83). -/
def descend (fwd : Bool) (cs : List Tree) (ctx : List Frame) : Option Loc :=
  if fwd then match cs with
    | c :: cs => some (c, ([], cs) :: ctx)
    | [] => none
  else match cs.reverse with
    | c :: cs => some (c, (cs, []) :: ctx)
    | [] => none

/-- The loop of `_find_token` (pico_tokenize.py 81-86); `none` is `Token.none`.  `fuel` bounds the number of rounds. -/
def findFuel (fwd : Bool) : Nat → Loc → Option Tok
  | 0, _ => none
  | _ + 1, (.tok t, _) => some t
  | fuel + 1, (.node cs, ctx) => match descend fwd cs ctx with
    | some x => findFuel fwd fuel x
    | none => match adjacent fwd (.node cs) ctx with
      | some x => findFuel fwd fuel x
      | none => none

mutual
/-- The number of tokens and nodes. -/
def size : Tree → Nat
  | .tok _ => 1
  | .node cs => sizes cs + 1
/-- That of several trees. -/
def sizes : List Tree → Nat
  | [] => 0
  | t :: ts => size t + sizes ts
end

/-- That of what is on one side of a place. -/
def sideSize (fwd : Bool) (ctx : List Frame) : Nat := (ctx.map fun f => sizes (if fwd then f.2 else f.1)).sum

/-- `first_token` and `last_token` (pico_tokenize.py 91-92).  There are no more rounds than tokens and nodes. -/
def edge (fwd : Bool) (m : Loc) : Option Tok := findFuel fwd (size m.1 + sideSize fwd m.2) m

/-- `next_token` and `prev_token` (pico_tokenize.py 79-80, 88-89). -/
def neighbour (fwd : Bool) (m : Loc) : Option Tok := (adjacent fwd m.1 m.2).bind (edge fwd)

mutual
/-- `traverse_tokens` (pico_tokenize.py 125-133). -/
def toks : Tree → List Tok
  | .tok t => [t]
  | .node cs => toksL cs
/-- The same for several trees. -/
def toksL : List Tree → List Tok
  | [] => []
  | t :: ts => toks t ++ toksL ts
end

/-- The whole tree that the place is in. -/
def plug : Tree → List Frame → Tree
  | m, [] => m
  | m, (l, r) :: up => plug (.node (l.reverse ++ m :: r)) up

/-- `collect_comments` without flags (pico_tokenize.py 141-159). -/
def comments (m : Tree) : List Comment := (toks m).flatMap (·.comments)

/-- `append_existing` of a dummy token (pico_tokenize.py 107-109, pico_parse.py 215-226). -/
def appendDummy (new : Nat) : Tree → Tree
  | .tok t => .tok t
  | .node cs => .node (cs ++ [.tok ⟨new, []⟩])

/-- `find_or_create_token` of a node (pico_tokenize.py 94-110): the node afterwards, the token, and whether it is after the place.  `new` is the dummy
token's number. -/
def findOrCreate (new : Nat) (cs : List Tree) (ctx : List Frame) (i : Nat) (last : Bool) : Tree × Nat × Bool :=
  match (if last then none else cs[i]?) with
  | some c =>
    let m : Loc := (c, ((cs.take i).reverse, cs.drop (i + 1)) :: ctx)
    match edge true m with
    | some t => (.node cs, t.id, true)
    | none => match neighbour true m with
      | some t => (.node cs, t.id, true)
      | none => match neighbour false m with
        | some t => (.node cs, t.id, false)
        | none => (.node (cs.take i ++ appendDummy new c :: cs.drop (i + 1)), new, false)
  | none => match neighbour true (.node cs, ctx) with
    | some t => (.node cs, t.id, true)
    | none => match edge false (.node cs, ctx) with
      | some t => (.node cs, t.id, false)
      | none => match neighbour false (.node cs, ctx) with
        | some t => (.node cs, t.id, false)
        | none => (appendDummy new (.node cs), new, false)

/-- `Token.add_comments` (pico_tokenize.py 220-226) if it is this token. -/
def addTok (id : Nat) (new : List Comment) (first : Bool) (t : Tok) : Tok :=
  if t.id = id then ⟨t.id, if first then new ++ t.comments else t.comments ++ new⟩ else t

mutual
/-- A change of tokens, everywhere in the tree. -/
def mapToks (f : Tok → Tok) : Tree → Tree
  | .tok t => .tok (f t)
  | .node cs => .node (mapToksL f cs)
/-- The same for several trees. -/
def mapToksL (f : Tok → Tok) : List Tree → List Tree
  | [] => []
  | t :: ts => mapToks f t :: mapToksL f ts
end

/-- The same around a place. -/
def mapCtx (f : Tok → Tok) (ctx : List Frame) : List Frame := ctx.map fun x => (mapToksL f x.1, mapToksL f x.2)

/-- Finding a token and adding the comments to it: pico_parse.py 235-236, 254-255 and 256-257. -/
def attach (new : Nat) (cs : List Tree) (ctx : List Frame) (i : Nat) (last : Bool) (lost : List Comment) : Loc :=
  let x := findOrCreate new cs ctx i last
  (mapToks (addTok x.2.1 lost x.2.2) x.1, mapCtx (addTok x.2.1 lost x.2.2) ctx)

/-- `remove_child` (pico_parse.py 228-236) with `keep_comments=True`, for an existing child. -/
def removeChild (new : Nat) (cs : List Tree) (ctx : List Frame) (i : Nat) : Loc :=
  let lost := ((cs[i]?.map comments).getD []).filter (!·.auto)
  if lost = [] then (.node (cs.eraseIdx i), ctx) else attach new (cs.eraseIdx i) ctx i false lost

/-- `remove_child(-1)` (pico_parse.py 228-236, called by pico_minify.py 163-165): `find_or_create_token` gets the index -1 as well, which is less than the
number of children, and so goes to the last child that is left (pico_tokenize.py 95-97).  For at least two children. -/
def removeLast (new : Nat) (cs : List Tree) (ctx : List Frame) : Loc :=
  let lost := ((cs.getLast?.map comments).getD []).filter (!·.auto)
  if lost = [] then (.node cs.dropLast, ctx) else attach new cs.dropLast ctx (cs.dropLast.length - 1) false lost

/-- `cmnt.idx <= new_comments_idx` (pico_parse.py 250-251), where there is no bound if there are no new comments. -/
def isPre (news : List Comment) (c : Comment) : Bool := match news.getLast? with
  | some l => c.idx ≤ l.endidx
  | none => true

/-- The children of a node. -/
def kids : Tree → List Tree
  | .tok _ => []
  | .node cs => cs

/-- `replace_with` (pico_parse.py 239-257) with `keep_comments=True`, for a target that is a node.  `new` and `new'` are numbers for dummy tokens. -/
def replaceWith (new new' : Nat) (old : Tree) (ctx : List Frame) (target : List Tree) : Loc :=
  let olds := (comments old).filter (!·.auto)
  let news := comments (.node target)
  if olds = [] then (.node target, ctx) else
    let m := attach new target ctx 0 false (olds.filter fun c => isPre news c && !news.contains c)
    attach new' (kids m.1) m.2 0 true (olds.filter fun c => !isPre news c && !news.contains c)

/-- `erase` of a node (pico_parse.py 259-260). -/
def erase (new new' : Nat) (old : Tree) (ctx : List Frame) : Loc := replaceWith new new' old ctx []

/-- `node.replace_with(Node(type, [], child=node.move()))` and `node.children.append(node.child)` (pico_minify.py 169-170, pico_tokenize.py 171-176), for a
node that is erased to one without tokens: what `move` returns has the same tokens as the node had. -/
def wrap (new new' : Nat) (old : Tree) (ctx : List Frame) : Loc := (.node [old], (erase new new' old ctx).2)

end Verif.TreeEdit
