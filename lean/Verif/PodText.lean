import Verif.Lex
import Verif.Num
import Verif.Pxu
/-
Model of the readable form of Picotron's pods: `format_pod` and `parse_pod` (picotron_fs.py 24-103, 113-150), and of pods in
metadata, `format_meta_pod` and `parse_meta_pod` (picotron_fs.py 105-111, 160-172).

Text is a list of character codes, `none` any exception.  Floats are left opaque (`Floats`).  A Python dict is a list of its
entries in order; its keys are booleans, numbers and strings (`parse_pod` would also accept userdata as a key, and fails on
tables).
-/
namespace Verif.PodText
open Verif.Pxu (UD)

/-- `s` as character codes. -/
abbrev txt (s : String) : List Nat := s.toList.map Char.toNat

/-- Keys of a table. -/
inductive Key (F : Type) where
  | bool (b : Bool)
  | int (v : Int)
  | float (f : F)
  | str (s : List Nat)
deriving DecidableEq

mutual
/-- A pod: `None`, booleans, numbers, strings, `UserData` and dicts. -/
inductive Val (F : Type) where
  | nil
  | bool (b : Bool)
  | int (v : Int)
  | float (f : F)
  | str (s : List Nat)
  | ud (u : UD)
  | table (items : Items F)
/-- The entries of a dict. -/
inductive Items (F : Type) where
  | nil
  | cons (key : Key F) (value : Val F) (rest : Items F)
end

/-- Python's floats, as far as they matter here: `format_luanum` in base 10 (pico_output.py 151-207: whether there is a minus
sign, and the text after it), `parse_luanum` on a literal that is not an integer (pico_tokenize.py 779-826), negation, and the
integer that a float is equal to, if any. -/
structure Floats (F : Type) where
  fmt : F → Bool × List Nat
  read : List Nat → Option F
  neg : F → F
  toInt : F → Option Int

section
variable {F : Type} [DecidableEq F]

/-- What dicts compare keys by: `True == 1 == 1.0`. -/
def Key.norm (fl : Floats F) : Key F → Key F
  | .bool b => .int (if b then 1 else 0)
  | .float f => match fl.toInt f with
    | some v => .int v
    | none => .float f
  | k => k

/-! ### Formatting -/

/-- `format_luanum(value, base=10, allow_not=False)` of an integer (never fails, `formatLuaInt_isSome`). -/
def fmtInt (v : Int) : List Nat := (formatLuaInt (some 10) false v .auto).getD []

/-- `format_luanum(value, base=10, allow_not=False)` of a float. -/
def fmtFloat (fl : Floats F) (f : F) : List Nat := (if (fl.fmt f).1 then [45] else []) ++ (fl.fmt f).2

/-- `format_string_literal(value, long=False, quote='"')`. -/
def fmtStr (isDig : Nat → Bool) (s : List Nat) : List Nat := formatLiteral isDig true true (some false) (some 34) s

/-- `"false"`, `"true"`. -/
def fmtBool (b : Bool) : List Nat := if b then txt "true" else txt "false"

/-- `userdata(...)` (picotron_fs.py 126-131); `sf` is how strings are written (`fmtStr`; strings in metadata are escaped once more). -/
def fmtUd (sf : List Nat → List Nat) (u : UD) : List Nat :=
  txt "userdata(" ++ sf u.type ++ [44] ++ fmtInt u.width ++
    (if u.height ≠ 0 then 44 :: fmtInt u.height else []) ++ [44] ++ sf u.data ++ [41]

/-- `format_pod` of a key (no userdata, so the handler is not asked). -/
def fmtKey (fl : Floats F) (sf : List Nat → List Nat) : Key F → List Nat
  | .bool b => fmtBool b
  | .int v => fmtInt v
  | .float f => fmtFloat fl f
  | .str s => sf s

/-- `",".join(parts)`. -/
def commas : List (List Nat) → List Nat
  | [] => []
  | [a] => a
  | a :: b :: r => a ++ 44 :: commas (b :: r)

/-- What is written before the value of an entry that is not positional (picotron_fs.py 144-147). -/
def fmtHead (fl : Floats F) (sf : List Nat → List Nat) : Key F → List Nat
  | .str s => if isIdentifier false s then s ++ [61] else 91 :: (sf s ++ [93, 61])
  | k => 91 :: (fmtKey fl sf k ++ [93, 61])

mutual
/-- `format_pod` (picotron_fs.py 113-150); `ph` tells for which userdata the handler puts a placeholder, and which
(the source has `"\0"`). -/
def fmtVal (fl : Floats F) (sf : List Nat → List Nat) (ph : UD → Option (List Nat)) : Val F → List Nat
  | .nil => txt "nil"
  | .bool b => fmtBool b
  | .int v => fmtInt v
  | .float f => fmtFloat fl f
  | .str s => sf s
  | .ud u => (ph u).getD (fmtUd sf u)
  | .table items => 123 :: (commas (fmtItems fl sf ph 1 items) ++ [125])
/-- The loop over the entries (picotron_fs.py 138-147). -/
def fmtItems (fl : Floats F) (sf : List Nat → List Nat) (ph : UD → Option (List Nat)) (index : Int) : Items F → List (List Nat)
  | .nil => []
  | .cons k v r =>
    -- key == index
    if k.norm fl = .int index then fmtVal fl sf ph v :: fmtItems fl sf ph (index + 1) r
    else (fmtHead fl sf k ++ fmtVal fl sf ph v) :: fmtItems fl sf ph index r
end

/-- `format_pod` without a handler. -/
def formatPod (fl : Floats F) (isDig : Nat → Bool) (v : Val F) : List Nat := fmtVal fl (fmtStr isDig) (fun _ => none) v

/-! ### Parsing -/

/-- `table[key] = value`: an equal key keeps its place (and its own form). -/
def Items.put (fl : Floats F) (k : Key F) (v : Val F) : Items F → Items F
  | .nil => .cons k v .nil
  | .cons k' v' r => if k'.norm fl = k.norm fl then .cons k' v r else .cons k' v' (r.put fl k v)

/-- The value of a number token (`parsed_value`, pico_tokenize.py 110-118). -/
def numVal (fl : Floats F) (s : List Nat) : Option (Val F) :=
  match parseLuaAbs (s.map lowerChar) with
  | .int v => some (.int v)
  | .float => (fl.read s).map .float
  | .bad => none

/-- `-node.child.token.parsed_value` (picotron_fs.py 48-49). -/
def negVal (fl : Floats F) : Val F → Option (Val F)
  | .int v => some (.int (-v))
  | .float f => some (.float (fl.neg f))
  | _ => none

/-- The value of a `userdata(...)` call (picotron_fs.py 51-64), given the arguments and the userdata still in the queue of the
handler.  (Python takes booleans for integers, too; here they are an error.) -/
def udVal (args : List (Val F)) (q : List UD) : Option (Val F × List UD) :=
  match args with
  | [.str type, .int width, .str data] => some (.ud ⟨type, width, 0, data⟩, q)
  | [.str type, .int width, .int height, .str data] => some (.ud ⟨type, width, height, data⟩, q)
  | [] => match q with
    | u :: q => some (.ud u, q)
    | [] => none
  | _ => none

/-- `table[key] = value` with values as they were parsed (picotron_fs.py 70-73): nothing happens if one of them is nil. -/
def putVal (fl : Floats F) (k v : Val F) (t : Items F) : Option (Items F) :=
  match v, k with
  | .nil, _ => some t
  | _, .nil => some t
  | v, .bool b => some (t.put fl (.bool b) v)
  | v, .int i => some (t.put fl (.int i) v)
  | v, .float f => some (t.put fl (.float f) v)
  | v, .str s => some (t.put fl (.str s) v)
  | _, .ud _ => none
  | _, .table _ => none

/-- `put` unless the value is nil (picotron_fs.py 74-81). -/
def putSome (fl : Floats F) (k : Key F) (v : Val F) (t : Items F) : Items F :=
  match v with
  | .nil => t
  | v => t.put fl k v

/-- The first token, if it is this punctuation mark. -/
def isPunct (c : List Nat) : List Tk → Bool
  | (.punct, s) :: _ => s == c
  | _ => false

/-- `unpod`: `read_pod(encode_luastr(value))` (picotron_fs.py 84-89). -/
abbrev Unpod (F : Type) := List Nat → Option (Val F)

mutual
/-- `parse_expr` (pico_parse.py 614-677) followed by `node_to_value` (picotron_fs.py 37-92), for the expressions that have a
value: the value, what is left of the queue of userdata, and the tokens after the expression.  Expressions of other kinds are
errors in `node_to_value`; here the operators and suffixes that make them are left over, or not accepted.  `fuel` bounds the number
of calls. -/
def parseVal (fl : Floats F) (unpod : Unpod F) : Nat → List UD → List Tk → Option (Val F × List UD × List Tk)
  | 0, _, _ => none
  | fuel + 1, q, ts =>
    match ts with
    | [] => none
    | (.number, s) :: r => (numVal fl s).map fun v => (v, q, r)
    | (.string, s) :: r => (parseLiteral false s).map fun v => (.str v, q, r)
    | (.keyword, s) :: r =>
      if s = txt "nil" then some (.nil, q, r)
      else if s = txt "true" then some (.bool true, q, r)
      else if s = txt "false" then some (.bool false, q, r)
      else none
    | (.ident, s) :: r =>
      if s = txt "userdata" then
        if isPunct [40] r then
          (parseArgs fl unpod fuel q (r.drop 1)).bind fun (args, q, r) => (udVal args q).map fun (v, q) => (v, q, r)
        else none
      else if s = txt "unpod" then
        (match r with
        | (.string, s) :: r => (parseLiteral false s).map fun v => (v, q, r)
        | _ =>
          if isPunct [40] r then
            (parseArgs fl unpod fuel q (r.drop 1)).bind fun (args, q, r) =>
              match args with
              | [.str v] => some (v, q, r)
              | _ => none
          else none).bind fun (v, q, r) => (unpod v).map fun v => (v, q, r)
      else none
    | (.punct, s) :: r =>
      if s = [123] then (parseItems fl unpod fuel q .nil 1 r).map fun (t, q, r) => (.table t, q, r)
      else if s = [45] then
        match r with
        | (.number, s) :: r => (numVal fl s).bind fun v => (negVal fl v).map fun v => (v, q, r)
        | _ => none
      else none
/-- `parse_table` (pico_parse.py 540-571) after `{`, with the loop of picotron_fs.py 67-82. -/
def parseItems (fl : Floats F) (unpod : Unpod F) : Nat → List UD → Items F → Int → List Tk → Option (Items F × List UD × List Tk)
  | 0, _, _, _, _ => none
  | fuel + 1, q, t, index, ts =>
    if isPunct [125] ts then some (t, q, ts.drop 1)
    else if isPunct [91] ts then
      (parseVal fl unpod fuel q (ts.drop 1)).bind fun (k, q, r) =>
        if isPunct [93] r && isPunct [61] (r.drop 1) then
          (parseVal fl unpod fuel q (r.drop 2)).bind fun (v, q, r) =>
            (putVal fl k v t).bind fun t => parseSep fl unpod fuel q t index r
        else none
    -- peek(1).value == "="
    else if isPunct [61] (ts.drop 1) then
      match ts with
      | (.ident, s) :: r => (parseVal fl unpod fuel q (r.drop 1)).bind fun (v, q, r) =>
          parseSep fl unpod fuel q (putSome fl (.str s) v t) index r
      | _ => none
    else (parseVal fl unpod fuel q ts).bind fun (v, q, r) =>
      parseSep fl unpod fuel q (putSome fl (.int index) v t) (index + 1) r
/-- After an entry (pico_parse.py 565-569). -/
def parseSep (fl : Floats F) (unpod : Unpod F) : Nat → List UD → Items F → Int → List Tk → Option (Items F × List UD × List Tk)
  | 0, _, _, _, _ => none
  | fuel + 1, q, t, index, ts =>
    if isPunct [125] ts then some (t, q, ts.drop 1)
    else if isPunct [59] ts || isPunct [44] ts then parseItems fl unpod fuel q t index (ts.drop 1)
    else none
/-- `parse_call` (pico_parse.py 573-589) after `(`. -/
def parseArgs (fl : Floats F) (unpod : Unpod F) : Nat → List UD → List Tk → Option (List (Val F) × List UD × List Tk)
  | 0, _, _ => none
  | fuel + 1, q, ts =>
    if isPunct [41] ts then some ([], q, ts.drop 1) else parseMore fl unpod fuel q ts
/-- The loop of `parse_call`. -/
def parseMore (fl : Floats F) (unpod : Unpod F) : Nat → List UD → List Tk → Option (List (Val F) × List UD × List Tk)
  | 0, _, _ => none
  | fuel + 1, q, ts =>
    (parseVal fl unpod fuel q ts).bind fun (v, q, r) =>
      if isPunct [41] r then some ([v], q, r.drop 1)
      else if isPunct [44] r then (parseMore fl unpod fuel q (r.drop 1)).map fun (vs, q, r) => (v :: vs, q, r)
      else none
end

/-- `parse_pod` (picotron_fs.py 24-103); `q` is the queue of the userdata handler.  A text without tokens is `None` (29-32), tokens
after the expression are an error (pico_parse.py 1010-1014).  Every call takes a token or is followed by one that does, so that
three times as many calls as tokens suffice. -/
def parsePod (fl : Floats F) (unpod : Unpod F) (q : List UD) (s : List Nat) : Option (Val F) :=
  match lexAll false s with
  | none => none
  | some [] => some .nil
  | some ts =>
    match parseVal fl unpod (3 * ts.length) q ts with
    | some (v, _, []) => some v
    | _ => none

end
end Verif.PodText
