import Verif.Spec.ExportSpec
/-
Model of `CartExport` (pico_export.py 13-82), the operations on a container of carts that are shared by the kinds of
container.  `none` is an exception.
-/
namespace Verif.Export

open Verif.ExportSpec (Op Name)

/-- What a kind of container provides (pico_export.py 16-22): `carts` is `get_carts_impl`, which also prepares the state
that the changes work on. -/
structure Impl (S P Ref : Type) where
  carts : S → Option (P × List (Name × Ref))
  read : P → Ref → Option (List Nat)
  insert : P → Option Ref → Name → List Nat → Option S
  replace : P → Ref → List Nat → Option S
  delete : P → Ref → Option S
  rename : P → Ref → Name → Option S

/-- `carts[name] = ref`: a dictionary keeps the place of a key it already has. -/
def dictSet {Ref : Type} (d : List (Name × Ref)) (name : Name) (ref : Ref) : List (Name × Ref) :=
  if d.any (fun x => x.1 == name) then d.map fun x => if x.1 == name then (name, ref) else x else d ++ [(name, ref)]

/-- The dictionary built by a loop. -/
def dictOf {Ref : Type} (l : List (Name × Ref)) : List (Name × Ref) := l.foldl (fun d x => dictSet d x.1 x.2) []

/-- `_find` (30-34); `none` stands for both outcomes for a missing name. -/
def find {Ref : Type} (carts : List (Name × Ref)) (name : Name) : Option Ref :=
  (carts.find? fun x => x.1 == name).map (·.2)

/-- The cart meant, with `_default` (24-28) if no name is given. -/
def chosen {Ref : Type} (carts : List (Name × Ref)) (name : Option Name) : Option Name :=
  match name with
  | some n => some n
  | none => carts.head?.map (·.1)

/-- `list_carts` (39-40). -/
def listCarts {S P Ref : Type} (I : Impl S P Ref) (s : S) : Option (List Name) := (I.carts s).map fun c => c.2.map (·.1)

/-- `read_cart` (42-48), up to the reading of the cart from its bytes. -/
def readCart {S P Ref : Type} (I : Impl S P Ref) (s : S) (name : Option Name) : Option (List Nat) :=
  (I.carts s).bind fun c => (chosen c.2 name).bind fun n => (find c.2 n).bind fun ref => I.read c.1 ref

/-- `write_cart` (50-82).  The cart to insert or put in place is given by the bytes that `write_cart_to_rom` makes of it, and for an
insertion its name is given. -/
def writeCart {S P Ref : Type} (I : Impl S P Ref) (s : S) (op : Op) : Option S :=
  (I.carts s).bind fun c =>
    match op with
    | .insert name rom target =>
      if (find c.2 name).isSome then none
      else match target with
        | none => I.insert c.1 none name rom
        | some t => (find c.2 t).bind fun ref => I.insert c.1 (some ref) name rom
    | .replace name rom => (chosen c.2 name).bind fun n => (find c.2 n).bind fun ref => I.replace c.1 ref rom
    | .delete name => (chosen c.2 name).bind fun n => (find c.2 n).bind fun ref => I.delete c.1 ref
    | .rename name target =>
      (chosen c.2 name).bind fun n => (find c.2 n).bind fun ref =>
        if (find c.2 target).isSome then none else I.rename c.1 ref target

/-- A history of changes. -/
def writeAll {S P Ref : Type} (I : Impl S P Ref) (s : S) : List Op → Option S
  | [] => some s
  | op :: ops => (writeCart I s op).bind fun s' => writeAll I s' ops

end Verif.Export
