import Verif.MainFlow
/-! What a run of the program has to do, in terms of the options that it was given. -/
namespace Verif.MainSpec
open Verif.Main

variable {F Cart Err : Type}

/-- The main output: the input if it is changed in place or edited, else the output that is given or the last input. -/
def mainOutput (a : Args F) : Option Path :=
  if a.inPlace ∨ a.deleteCart ∨ a.renameCart then a.input else a.output.or a.additional.getLast?

/-- The given format; in place also that of the input; else what the name of the output tells; else source. -/
def mainFormat (w : World F Cart Err) (a : Args F) (o : Path) : F :=
  (((a.format.or (if a.inPlace then a.inputFormat else none)).or (w.known o)).getD w.src)

/-- All outputs that are asked for. -/
def wanted (w : World F Cart Err) (a : Args F) : List (Path × F) :=
  ((mainOutput a).toList.map fun o => (o, mainFormat w a o)) ++
  (a.extraOutput.map fun x => (x.1, (x.2.or (w.known x.1)).getD w.src)) ++ a.extract.map fun p => (p, w.fs)

/-- The inputs after the first one. -/
def moreInputs (a : Args F) : List Path := if a.output = none then a.additional.dropLast else a.additional

/-- `carts` are the carts of the inputs. -/
def Reads (w : World F Cart Err) (a : Args F) (carts : List Cart) : Prop :=
  ∃ i main extras more, a.input = some i ∧
    w.read i (a.inputFormat.or (w.known i)) ((mainOutput a).any fun o => w.isExport (mainFormat w a o)) = some (main, extras) ∧
    (moreInputs a).map (fun p => (w.read p (some ((w.known p).getD w.src)) false).map (·.1)) = more.map some ∧
    carts = main :: extras ++ more

/-- Whether the code is changed by minifying. -/
abbrev Shrinks (a : Args F) : Prop := a.minify = true ∨ a.minifyOther = true

/-- Whether the code is parsed. -/
abbrev Parses (a : Args F) : Prop := a.lint = true ∨ Shrinks a ∨ a.unminify = true ∨ a.syntaxScript = true

/-- The code of the cart has no errors that a run would find. -/
def Readable (w : World F Cart Err) (a : Args F) (c : Cart) : Prop :=
  (Parses a → w.parse true c = []) ∧ (¬ Parses a → (a.count = true ∨ a.inputCount = true) → a.noCountTokenize = false → w.parse false c = [])

/-- If warnings end a run, there are none. -/
def Quiet (w : World F Cart Err) (a : Args F) (c : Cart) : Prop :=
  a.lint = true → a.noLintFail = false → w.warnings c = [] ∧ (a.syntaxScript = true → w.scripted c = []) ∧ (Shrinks a → (w.shrink c).2 = [])

/-- No script complains about the cart. -/
def Approved (w : World F Cart Err) (a : Args F) (c : Cart) : Prop := a.syntaxScript = true → w.scripted c = []

/-- The cart that is asked for. -/
def result (w : World F Cart Err) (a : Args F) (c : Cart) : Cart :=
  let m := if Shrinks a then (w.shrink c).1 else c
  if a.unminify = true then w.expand m else m

end Verif.MainSpec
