/-!
Model of what a run of the program does: `main_inner`, `handle_input`, `handle_processing`, `handle_output` (run_shrinko.py 325-766) and `process_code`
(pico_process.py 326-390).

Carts, formats and errors are of any type; reading, checking, changing and writing them are parameters (`World`).  Not modelled: merging and the other options
that change the cart before its code is processed (`prepare` stands for them), options of the output (how a cart is written is C09 to C15 and C40 to C42), what is
printed, sizes, scripts other than their errors, URLs, and the file of renamed names.
-/
namespace Verif.Main

abbrev Path := List Nat

/-- The options (run_shrinko.py 124-312) that decide what is read, processed and written; `F` are the formats. -/
structure Args (F : Type) where
  version : Bool := false
  input : Option Path := none
  additional : List Path := []
  output : Option Path := none
  format : Option F := none
  inputFormat : Option F := none
  inPlace : Bool := false
  /-- `--minify` -/
  minify : Bool := false
  /-- `--minify-safe-only`, `--minify-consts-only` or `--minify-transform-only` -/
  minifyOther : Bool := false
  unminify : Bool := false
  lint : Bool := false
  noLintFail : Bool := false
  count : Bool := false
  inputCount : Bool := false
  noCountTokenize : Bool := false
  list : Bool := false
  dump : Bool := false
  /-- `--script` -/
  script : Bool := false
  /-- A script has a `preprocess_syntax_main`. -/
  syntaxScript : Bool := false
  listIncludes : Bool := false
  keepCompression : Bool := false
  insertCart : Bool := false
  replaceCart : Bool := false
  deleteCart : Bool := false
  renameCart : Bool := false
  /-- `--extra-output`: paths and formats. -/
  extraOutput : List (Path × Option F) := []
  /-- `--extract`: paths on disk. -/
  extract : List Path := []
deriving DecidableEq

/-- What surrounds the program: the files, and what is done to carts. -/
structure World (F Cart Err : Type) where
  /-- `default_format` without the default (run_shrinko.py 314-323). -/
  known : Path → Option F
  /-- `default_src`. -/
  src : F
  /-- `CartFormatCls.fs`. -/
  fs : F
  isExport : F → Bool
  /-- `read_cart` (`none`: an error); with `true`, the further carts of an export are read, too. -/
  read : Path → Option F → Bool → Option (Cart × List Cart)
  /-- Listing or dumping an export succeeds. -/
  show_ : Path → Option F → Bool
  /-- Version, filter and `preproc_cart` (run_shrinko.py 596-611). -/
  prepare : Cart → Cart
  /-- Errors of the tokenizer, or (with `true`) of the parser, too. -/
  parse : Bool → Cart → List Err
  /-- Warnings of the linter. -/
  warnings : Cart → List Err
  /-- Errors that a script reports. -/
  scripted : Cart → List Err
  /-- The minified cart, and warnings about hints. -/
  shrink : Cart → Cart × List Err
  expand : Cart → Cart
  /-- An export that is edited or created can be read, or made. -/
  ready : Path → F → Bool
  /-- The cart can be written. -/
  canWrite : Path → F → Bool

variable {F Cart Err : Type}

/-- `default_format` (run_shrinko.py 314-323) with `for_output`. -/
def World.outFormat (w : World F Cart Err) (p : Path) : F := (w.known p).getD w.src

/-- The last of the additional inputs is the output (run_shrinko.py 330-332). -/
def takeOutput (a : Args F) : Args F :=
  if a.additional ≠ [] ∧ a.output = none then { a with output := a.additional.getLast?, additional := a.additional.dropLast } else a

/-- With `--in-place`, the output is the input (run_shrinko.py 334-339). -/
def useInput (a : Args F) : Args F :=
  if a.inPlace then { a with output := a.input, format := if a.inputFormat.isSome ∧ a.format.isNone then a.inputFormat else a.format } else a

/-- With `--delete-cart` or `--rename-cart`, there is only an output (run_shrinko.py 344-347). -/
def onlyOutput (a : Args F) : Args F :=
  if a.deleteCart ∨ a.renameCart then { a with input := none, output := a.input } else a

/-- Options that are rejected together (run_shrinko.py 360-372). -/
def rejected (a : Args F) : Bool :=
  (!a.lint && !a.count && a.output.isNone && !a.inputCount && !a.version && !a.list && !a.dump && !a.script && a.extract.isEmpty && !a.listIncludes) ||
  (a.format.isSome && a.output.isNone && !a.dump) ||
  (a.minify && a.output.isNone && !a.count) ||
  (a.minify && a.keepCompression) ||
  ((a.list || a.dump) && (a.output.isSome || a.lint || a.count)) ||
  decide (a.deleteCart.toNat + a.renameCart.toNat + a.insertCart.toNat + a.replaceCart.toNat > 1)

/-- The format of the input (run_shrinko.py 374-377). -/
def inFormat (w : World F Cart Err) (a : Args F) : Args F :=
  match a.input with
  | some i =>
    if a.inputFormat.isNone then { a with inputFormat := w.known i, format := if a.inPlace ∧ a.format.isNone then w.known i else a.format } else a
  | none => a

/-- The format of the output (run_shrinko.py 379-380). -/
def outFormat (w : World F Cart Err) (a : Args F) : Args F :=
  match a.output with
  | some o => if a.format.isNone then { a with format := some (w.outFormat o) } else a
  | none => a

/-- The checks of the options, and the formats (run_shrinko.py 330-380); `none` is an error. -/
def setup (w : World F Cart Err) (a : Args F) : Option (Args F) :=
  if a.inPlace ∧ (takeOutput a).output.isSome then none
  else
    let a := useInput (takeOutput a)
    if a.input.isNone then none
    else if (a.deleteCart ∨ a.renameCart) ∧ a.output.isSome then none
    else
      let a := onlyOutput a
      if rejected a then none else some (outFormat w (inFormat w a))

/-- `process_code` (pico_process.py 326-390): whether the code could be read, errors or warnings, and the cart. -/
def processCode (w : World F Cart Err) (a : Args F) (c : Cart) : Bool × List Err × Cart :=
  let shrinking := a.minify || a.minifyOther
  if !a.lint && !shrinking && !a.unminify && !((a.count || a.inputCount) && !a.noCountTokenize) && !a.syntaxScript then (true, [], c)
  else
    let errors := w.parse (a.lint || shrinking || a.unminify || a.syntaxScript) c
    if !errors.isEmpty then (false, errors, c)
    else
      let errors := (if a.lint then w.warnings c else []) ++ (if a.syntaxScript then w.scripted c else [])
      if errors.isEmpty || a.noLintFail then
        let r := if shrinking then w.shrink c else (c, [])
        (true, errors ++ r.2, if a.unminify then w.expand r.1 else r.1)
      else (true, errors, c)

/-- `handle_processing` (run_shrinko.py 593-668): `.inl ok` if the run ends with errors or warnings, else the carts. -/
def processAll (w : World F Cart Err) (a : Args F) : List Cart → Bool ⊕ List Cart
  | [] => .inr []
  | c :: cs =>
    let r := processCode w a (w.prepare c)
    if !r.2.1.isEmpty && (!r.1 || (a.lint && !a.noLintFail)) then .inl r.1
    else
      match processAll w a cs with
      | .inl ok => .inl ok
      | .inr cs => .inr (r.2.2 :: cs)

/-- `ErrCodes` (run_shrinko.py 69-70); `fail` is an exception. -/
inductive Exit | ok | err | warn | fail
deriving DecidableEq

/-- What was written, in order: where, as what, and which carts (`none` if an export is only edited). -/
structure Result (F Cart : Type) where
  writes : List (Path × F × Option (List Cart))
  exit : Exit
deriving DecidableEq

/-- The outputs (run_shrinko.py 691-714). -/
def outputsOf (w : World F Cart Err) (a : Args F) : List (Path × F) :=
  (match a.output, a.format with
    | some o, some f => [(o, f)]
    | _, _ => []) ++
  (a.extraOutput.map fun x => (x.1, x.2.getD (w.outFormat x.1))) ++ a.extract.map fun p => (p, w.fs)

/-- The loop over the outputs (run_shrinko.py 716-744). -/
def writeOutputs (w : World F Cart Err) (carts : Option (List Cart)) : List (Path × F) → Result F Cart
  | [] => ⟨[], .ok⟩
  | o :: os =>
    if w.isExport o.2 && !w.ready o.1 o.2 then ⟨[], .fail⟩
    else if !w.canWrite o.1 o.2 then ⟨[], .fail⟩
    else let r := writeOutputs w carts os; ⟨(o.1, o.2, carts) :: r.writes, r.exit⟩

/-- `main_inner` (run_shrinko.py 325-497) for PICO-8, with the exceptions as in `main` (run_shrinko.py 746-764).  Further inputs are only allowed for exports
(run_shrinko.py 535-545, 573-583). -/
def run (w : World F Cart Err) (a : Args F) : Result F Cart :=
  if a.version ∧ a.input.isNone then ⟨[], .ok⟩ else
  match setup w a with
  | none => ⟨[], .fail⟩
  | some a =>
    match a.input with
    | none => writeOutputs w none (outputsOf w a)
    | some i =>
      if a.list ∨ a.dump then ⟨[], if w.show_ i a.inputFormat then .ok else .fail⟩ else
      let exporting := a.format.any w.isExport
      match w.read i a.inputFormat exporting with
      | none => ⟨[], .fail⟩
      | some (main, extras) =>
        if a.additional ≠ [] ∧ ¬ exporting then ⟨[], .fail⟩ else
        match a.additional.mapM fun p => (w.read p (some (w.outFormat p)) false).map (·.1) with
        | none => ⟨[], .fail⟩
        | some more =>
          match processAll w a (main :: extras ++ more) with
          | .inl ok => ⟨[], if ok then .warn else .err⟩
          | .inr carts => writeOutputs w (some carts) (outputsOf w a)

end Verif.Main
