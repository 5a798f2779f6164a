import Verif.AutoDetect
import Verif.CartTitle
/-!
Processing one file: a cart is loaded, its code is replaced by processed code, and the cart is saved.

Not modelled here: what the options of the command line choose (run_shrinko.py 120-500), carts with more than one source
(`#include`d code is part of the code here; see C43 for expanding it), `--merge` (see C78), the messages, and the counts.
-/
namespace Verif.EndToEnd
open Verif.Auto Verif.CartTitle

/-- The path of one file through `main` (run_shrinko.py 520, 593-640, 730): `read_cart` without a format (pico_cart.py 685-688), `process_code` on the code of
the cart (pico_process.py 327-390, the argument `f`; `none` when there is an error), which is stored by `set_code_without_title` (pico_process.py 155-158), and
`write_cart` as `.p8` (pico_cart.py 710-713): the text that `file_write_text` gets (see `writeText`, C82). -/
def shrinkFile (f : List Nat → Option (List Nat)) (unicaps : Bool) (version : Nat) (bytes : List Nat) : Option (List Nat) :=
  match runSource version (auto bytes) with
  | none => none
  | some c =>
    match f c.code with
    | none => none
    | some code =>
      match setCode c code with
      | none => none
      | some c' => writeSource unicaps (fun _ => true) c'

end Verif.EndToEnd
