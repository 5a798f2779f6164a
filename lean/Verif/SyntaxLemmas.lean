import Verif.Syntax
import Verif.Spec.LuaGrammar
/-! Lemmas for C61. -/
namespace Verif.LuaGrammar
open Syntax (T K Ex Exs Its St If Tail Block Param FnName)
open Paren (Op Lang)

/-! ### What follows is an end of the tokens -/

theorem suf_cons {t : T} {m r : List T} (h : r <:+ m) : r <:+ t :: m := h.trans (List.suffix_cons _ _)
theorem suf_tail {t : T} {m r : List T} (h : t :: m <:+ r) : m <:+ r := (List.suffix_cons _ _).trans h

theorem names_suf {i r xs} (h : Names i r xs) : r <:+ i := by
  induction h with
  | one => exact List.suffix_cons _ _
  | cons _ ih => exact suf_cons (suf_cons ih)
theorem attr_suf {L i r xs} (h : Attr L i r xs) : r <:+ i := by
  cases h with
  | none => exact List.suffix_rfl
  | some => exact suf_cons (suf_cons (List.suffix_cons _ _))
theorem locals_suf {L i r xs} (h : Locals L i r xs) : r <:+ i := by
  induction h with
  | one h => exact suf_cons (attr_suf h)
  | cons h _ ih => exact suf_cons (ih.trans (suf_tail (attr_suf h)))
theorem par_suf {i r p} (h : Par i r p) : r <:+ i := by cases h <;> exact List.suffix_cons _ _
theorem pars_suf {i r p} (h : Pars i r p) : r <:+ i := by
  induction h with
  | one h => exact suf_tail (par_suf h)
  | cons h _ ih => exact ih.trans (suf_tail (par_suf h))
theorem params_suf {i r p} (h : Params i r p) : r <:+ i := by
  cases h with
  | nil => exact List.suffix_cons _ _
  | some h => exact pars_suf h
theorem keys_suf {i r p} (h : Keys i r p) : r <:+ i := by
  induction h with
  | nil => exact List.suffix_rfl
  | cons _ ih => exact suf_cons (suf_cons ih)
theorem name_suf {i r p} (h : Name i r p) : r <:+ i := by
  cases h with
  | func h => exact suf_cons (keys_suf h)
  | method h => exact suf_cons (suf_tail (suf_tail (keys_suf h)))

mutual
theorem E.suf {L : Lang} {k : Nat} {i r : List T} {e : Ex} : E L k i r e → r <:+ i
  | .up h => h.suf
  | .left _ _ h h' => h'.suf.trans (suf_tail h.suf)
  | .concat h h' => h'.suf.trans (suf_tail h.suf)
  | .un _ h => suf_cons h.suf
  | .pow h h' => h'.suf.trans (suf_tail h.suf)
  | .cst | .num | .str | .dots => List.suffix_cons _ _
  | .table h => suf_cons h.suf
  | .func h => suf_cons h.suf
  | .pre h => h.suf
theorem P.suf {L : Lang} {i r : List T} {e : Ex} : P L i r e → r <:+ i
  | .var => List.suffix_cons _ _
  | .group h => suf_cons (suf_tail h.suf)
  | .member h => suf_tail (suf_tail h.suf)
  | .index h h' => (suf_tail h'.suf).trans (suf_tail h.suf)
  | .call h h' => h'.suf.trans (suf_tail h.suf)
  | .callBare h h' => h'.suf.trans h.suf
  | .method h h' => h'.suf.trans (suf_tail (suf_tail (suf_tail h.suf)))
  | .methodBare h h' => h'.suf.trans (suf_tail (suf_tail h.suf))
theorem Bare.suf {L : Lang} {i r : List T} {e : Ex} : Bare L i r e → r <:+ i
  | .str => List.suffix_cons _ _
  | .table h => suf_cons h.suf
theorem Args.suf {L : Lang} {i r : List T} {e : Exs} : Args L i r e → r <:+ i
  | .nil => List.suffix_cons _ _
  | .some h => suf_tail h.suf
theorem Es.suf {L : Lang} {i r : List T} {e : Exs} : Es L i r e → r <:+ i
  | .one h => h.suf
  | .cons h h' => h'.suf.trans (suf_tail h.suf)
theorem Items.suf {L : Lang} {i r : List T} {e : Its} : Items L i r e → r <:+ i
  | .nil => List.suffix_cons _ _
  | .pos h h' => h'.suf.trans h.suf
  | .named h h' => suf_cons (suf_cons (h'.suf.trans h.suf))
  | .keyed h h' h'' => suf_cons ((h''.suf.trans h'.suf).trans (suf_tail (suf_tail h.suf)))
theorem After.suf {L : Lang} {i r : List T} {e : Its} : After L i r e → r <:+ i
  | .close => List.suffix_cons _ _
  | .semi h => suf_cons h.suf
  | .comma h => suf_cons h.suf
theorem Body.suf {L : Lang} {i r : List T} {ps : List Param} {b : Block} : Body L i r ps b → r <:+ i
  | .mk h h' => suf_cons ((suf_tail h'.suf).trans (params_suf h))
theorem B.suf {L : Lang} {v : Option Nat} {i r : List T} {b : Block} : B L v i r b → r <:+ i
  | .nil _ => List.suffix_rfl
  | .semi _ h => suf_cons h.suf
  | .cons _ h h' => h'.suf.trans h.suf
theorem S.suf {L : Lang} {v : Option Nat} {i r : List T} {s : St} : S L v i r s → r <:+ i
  | .do_ h => suf_cons (suf_tail h.suf)
  | .if_ h => suf_cons h.suf
  | .while_ h h' => suf_cons ((suf_tail h'.suf).trans (suf_tail h.suf))
  | .whileShort h _ _ _ h' _ => suf_cons (h'.suf.trans h.suf)
  | .repeat_ h h' _ => suf_cons (h'.suf.trans (suf_tail h.suf))
  | .fornum h h' h'' => suf_cons (suf_cons (suf_cons ((suf_tail h''.suf).trans ((suf_tail h'.suf).trans (suf_tail h.suf)))))
  | .forstep h h' h'' h''' =>
    suf_cons (suf_cons (suf_cons ((suf_tail h'''.suf).trans ((suf_tail h''.suf).trans ((suf_tail h'.suf).trans (suf_tail h.suf))))))
  | .forin h h' h'' => suf_cons ((suf_tail h''.suf).trans ((suf_tail h'.suf).trans (suf_tail (names_suf h))))
  | .break_ => List.suffix_cons _ _
  | .returnNone _ => List.suffix_cons _ _
  | .return_ _ h _ => suf_cons h.suf
  | .local_ h _ => suf_cons (locals_suf h)
  | .localAssign h h' _ => suf_cons (h'.suf.trans (suf_tail (locals_suf h)))
  | .localfn h => suf_cons (suf_cons (suf_cons h.suf))
  | .goto_ => suf_cons (List.suffix_cons _ _)
  | .label => suf_cons (suf_cons (List.suffix_cons _ _))
  | .func h h' => suf_cons (h'.suf.trans (name_suf h))
  | .assign _ h h' _ => h'.suf.trans (suf_tail h.suf)
  | .opassign _ h h' _ => h'.suf.trans (suf_tail h.suf)
  | .call h _ _ => h.suf
  | .method h _ _ => h.suf
  | .print h _ => suf_cons h.suf
theorem I.suf {L : Lang} {i r : List T} {s : If} : I L i r s → r <:+ i
  | .long h _ h' h'' => (h''.suf.trans h'.suf).trans (suf_tail h.suf)
  | .short h _ _ _ h' _ _ => h'.suf.trans h.suf
  | .shortElse h _ _ _ h' h'' _ => (h''.suf.trans (suf_tail h'.suf)).trans h.suf
theorem Tl.suf {L : Lang} {i r : List T} {t : Tail} : Tl L i r t → r <:+ i
  | .end_ => List.suffix_cons _ _
  | .else_ h => suf_cons (suf_tail h.suf)
  | .elseif_ h => suf_cons h.suf
end

end Verif.LuaGrammar
