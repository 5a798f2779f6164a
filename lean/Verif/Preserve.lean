/-
Model of the rules that say which names are preserved (pico_rename.py 9-107).
Names and rules are lists of character codes.  Patterns are compiled by `fnmatch.translate` and `re.compile`; the matcher is a parameter
`m pattern name`.
-/
namespace Verif

def hasStar (s : List Nat) : Bool := s.contains 42

/-- `IncludeExcludeMapping` (9-39).  The dictionary is a list with the latest entry first. -/
structure IncExc where
  dict : List (List Nat × Bool)
  dflt : Option Bool
  regexs : List (List Nat × Bool)

/-- `__init__` (12-15). -/
def IncExc.new (keys : List (List Nat)) : IncExc := ⟨keys.map fun k => (k, true), none, []⟩

/-- `set` (17-25). -/
def IncExc.set (m : IncExc) (key : List Nat) (value : Bool) : IncExc :=
  if key = [42] then { m with dflt := some value }
  else if !hasStar key then { m with dict := (key, value) :: m.dict }
  else { m with regexs := m.regexs ++ [(key, value)] }

/-- The loop over the patterns (32-37): `none` stands for `return False`. -/
def patLoop {α : Type} (hit : α → Bool) : List (α × Bool) → Option Bool → Option (Option Bool)
  | [], value => some value
  | p :: ps, value => if hit p.1 then (if p.2 then patLoop hit ps (some true) else none) else patLoop hit ps value

/-- The end of both `__contains__` (28-39, 72-84). -/
def decideKey {α : Type} (hit : α → Bool) (regexs : List (α × Bool)) (value : Option Bool) : Bool :=
  if value = some false then false
  else match patLoop hit regexs value with
    | none => false
    | some v => v == some true

/-- `__contains__` (27-39). -/
def IncExc.contains (m : IncExc) (mat : List Nat → List Nat → Bool) (key : List Nat) : Bool :=
  decideKey (fun p => mat p key) m.regexs ((m.dict.lookup key).or m.dflt)

/-- `TableMemberPairIncludeExcludeMapping` (41-84). -/
structure PairIncExc where
  tables : List (List Nat × Bool)
  members : List (List Nat × Bool)
  pairs : List ((List Nat × List Nat) × Bool)
  dflt : Option Bool
  regexs : List ((List Nat × List Nat) × Bool)

/-- `__init__` (44-49) as called (88). -/
def PairIncExc.new (members : List (List Nat)) : PairIncExc := ⟨[], members.map fun k => (k, true), [], none, []⟩

/-- `set` (51-65). -/
def PairIncExc.set (m : PairIncExc) (table member : List Nat) (value : Bool) : PairIncExc :=
  if table = [42] ∧ member = [42] then { m with dflt := some value }
  else if !hasStar table ∧ member = [42] then { m with tables := (table, value) :: m.tables }
  else if table = [42] ∧ !hasStar member then { m with members := (member, value) :: m.members }
  else if !hasStar table ∧ !hasStar member then { m with pairs := ((table, member), value) :: m.pairs }
  else { m with regexs := m.regexs ++ [((table, member), value)] }

/-- `__contains__` (67-84) for a pair. -/
def PairIncExc.contains (m : PairIncExc) (mat : List Nat → List Nat → Bool) (table member : List Nat) : Bool :=
  decideKey (fun p => mat p.1 table && mat p.2 member) m.regexs
    ((m.pairs.lookup (table, member)).or ((m.tables.lookup table).or ((m.members.lookup member).or m.dflt)))

/-- `rule.split(".", 1)`, if there is a dot. -/
def splitDot : List Nat → Option (List Nat × List Nat)
  | [] => none
  | c :: cs => if c = 46 then some ([], cs) else (splitDot cs).map fun p => (c :: p.1, p.2)

/-- `add_rule` (92-107).  Not modelled: the rules with `=` that turn members into globals. -/
def addRule (s : IncExc × PairIncExc) (rule : List Nat) : IncExc × PairIncExc :=
  let neg := rule.head? == some 33
  let value := !neg
  let rule := if neg then rule.tail else rule
  match splitDot rule with
  | some (t, m) => (s.1, s.2.set t m value)
  | none => (s.1.set rule value, s.2)

end Verif
