import Verif.UnminifyKinds
import Verif.Reline
import Verif.FineOf
import Verif.FineReparse
import Verif.Props.MinifySource
/-
C68: the unminified text of a PICO-8 program means the same, and is written without shorthands.
-/
namespace Verif.Unmin
open Syntax Mini LuaNorm Reline
open LuaGrammar (Program)
open Paren (Op Lang)

theorem read_sure {src : List Nat} {i : List T} (hsrc : ∀ c ∈ src, c < 256) (h : readText .pico8 src = some i) : AllK Sure i := by
  unfold readText at h
  simp only [Option.bind_eq_some_iff] at h
  obtain ⟨ts, h1, h2⟩ := h
  have h1 : lexLines true 1 src = some ts := h1
  intro t ht
  obtain ⟨⟨tk, n⟩, hx, hy⟩ := mapM_mem h2 t ht
  simp only [Option.map_eq_some_iff] at hy
  obtain ⟨k, hk, rfl⟩ := hy
  have ⟨ha, hc⟩ := lexLines_alone _ rfl h1 _ hx
  have e := tk_kOf hk fun c hm => small_valid (hsrc c (hc c hm))
  exact ⟨by rw [e]; exact ha, by rw [e]; exact hk⟩

theorem lk_sure : ∀ {us : List U} {s s' : Sta}, Lk s us s' → ∀ k ∈ kus us, Sure k := by
  intro us
  induction us with
  | nil => intro s s' _ k hk; cases hk
  | cons u us ih =>
    intro s s' h k hk
    cases u with
    | tok a un =>
      rcases List.mem_cons.1 hk with rfl | hk
      · exact h.2.1
      · exact ih h.2.2 k hk
    | word l a =>
      rcases List.mem_cons.1 hk with rfl | hk
      · exact h.2.1
      · exact ih h.2.2 k hk
    | raw w => exact ih h.2.2 k hk
    | crash => exact h.elim

theorem read_back : ∀ {ks : List K} {ts : List (Tk × Nat)}, ts.map (·.1) = ks.map tkOf → (∀ k ∈ ks, Sure k) →
    ∃ j, ts.mapM (fun p => (kOf p.1).map (T.mk · p.2)) = some j ∧ Reline.ks j = ks
  | [], [], _, _ => ⟨[], rfl, rfl⟩
  | k :: ks, (t, n) :: ts, h, hs => by
    simp only [List.map_cons, List.cons.injEq] at h
    obtain ⟨rfl, h⟩ := h
    obtain ⟨j, h1, h2⟩ := read_back h fun k hk => hs k (by simp [hk])
    refine ⟨⟨k, n⟩ :: j, ?_, ?_⟩
    · rw [List.mapM_cons, h1]
      simp [(hs k (by simp)).2]
    · simp only [Reline.ks, List.map_cons] at h2 ⊢
      rw [h2]
  | [], _ :: _, h, _ => by cases h
  | _ :: _, [], h, _ => by cases h

theorem ks_lay : ∀ (ms : List M) (n : Nat), Reline.ks (lay n ms) = kms ms
  | [], _ => rfl
  | .t k :: ms, n => by simp only [lay, Reline.ks, List.map_cons, kms]; exact congrArg _ (ks_lay ms n)
  | .nl :: ms, n => ks_lay ms (n + 1)

/-- **C68.** Take a text that is a tidy PICO-8 program (see C64) of characters below 256, without the few things that unminifying breaks (see `Long.Clear`
and below).  Then unminifying it, with any white space to indent with, gives a text that is a program, with the meaning of the original one and
without shorthands. -/
theorem C68_pico8 {ind : List Nat} (hind : ∀ c ∈ ind, isWspace c = true) {n : Nat} {src : List Nat} {b : Block} (hsrc : ∀ c ∈ src, c < 256)
    (h : parseText .pico8 n src = some b) (ht : Tidy.Tidy .pico8 b) (hc : Long.Clear b) :
    ∃ out k b', unminify ind b = some out ∧ (∀ m, k ≤ m → parseText .pico8 m out = some b') ∧ nB .pico8 picoLit b' = nB .pico8 picoLit b ∧
      Long.lgB b' = true := by
  unfold parseText at h
  simp only [Option.bind_eq_some_iff] at h
  obtain ⟨i, hi, hb⟩ := h
  have hp := C61_sound hb
  have hf := fine_of hp ht
  have hall := (aB .kThen (Q := Sure) sure_fixed trivial (sh := false) hp (read_sure hsrc hi)).1
  have hch := lk_newline (st := .clear) (cB hind b false false hf.1 hc.1 hc.2.2 hall 0 none)
  obtain ⟨out, h1, -, h2⟩ := put_read (p := none) hch rfl
  obtain ⟨ts, h3, h4⟩ := h2 1
  obtain ⟨j, h5, h6⟩ := read_back h4 (lk_sure hch)
  have hk : Reline.ks j = Reline.ks (output .kThen (lB b)) := by
    rw [h6, output, ks_lay, ← kB ind b false false hf.1 hc.2.2 false 0 none]; rfl
  have hl : Long.lgB (lB b) = true := lg_lB b
  have hpr := program_re (reparse (.inl rfl) (fine_long hf hc.2.1)) hl hk
  obtain ⟨k, hk⟩ := C61_complete hpr
  refine ⟨out, k, lB b, h1, fun m hm => ?_, norm_lB _ _ b, hl⟩
  unfold parseText readText
  rw [show (Lang.pico8 == Lang.pico8) = true from rfl, h3, Option.bind_some, h5, Option.bind_some]
  exact hk m hm

/-! ### What it looks like -/

/-- Shorthands, an empty statement, a function and operators. -/
def demo : List Nat := codes "?a\nif (x) f() else while (y[1]) z-=1\n;function g(a,b) return -a+({b,c=2}).d end g'h'"

/-- Its tree. -/
def demoTree : Block :=
  .cons (.print (.cons (.var "a") .nil))
    (.cons (.if_ (.shortElse (.group (.var "x")) (.cons (.call (.call (.var "f") false .nil)) .nil)
        (.cons (.whileShort (.group (.index (.var "y") (.num "1"))) (.cons (.opassign .minus (.var "z") (.num "1")) .nil) false) .nil) false))
      (.semi (.cons (.func ⟨"g", [], none⟩ [some "a", some "b"]
          (.cons (.return_ (.cons (.bin .plus (.un .minus (.var "a")) (.member (.group (.table (.pos (.var "b") (.named "c" (.num "2") .nil)))) "d")) .nil)) .nil))
        (.cons (.call (.call (.var "g") true (.cons (.str "'h'") .nil))) .nil))))

-- all that is assumed holds for it
example : (∀ c ∈ demo, c < 256) ∧ parseText .pico8 90 demo = some demoTree ∧ Tidy.Tidy .pico8 demoTree ∧ Long.Clear demoTree := by
  refine ⟨by decide +kernel, by decide +kernel, ?_, by decide +kernel, by decide +kernel, by decide +kernel⟩
  simp [demoTree, Tidy.Tidy, Tidy.tB, Tidy.tS, Tidy.tI, Tidy.tE, Tidy.tEs, Tidy.tIts, Tidy.flag, Tidy.flagI, Tidy.isRet0, Tidy.semis, Tidy.doB,
    Tidy.condS, Tidy.condI, Tidy.endsRet, Tidy.isGroup, Tidy.isTarget, Tidy.dangleB, Tidy.dangleS]

-- what is written, with a tab per level
example : unminify [9] demoTree = some
    (codes "\n?a\nif x then\n\tf()\nelse\n\twhile y[1] do\n\t\tz -= 1\n\tend\nend\n\nfunction g(a, b)\n\treturn -a + ({b, c = 2}).d\nend\n\ng 'h'\n") := by
  decide +kernel

/-! ### What it breaks -/

/-- `a=- -b⏎f()` assigns a number and then calls `f`; in the unminified text there is a comment where `-b` was, so that the result of `f` is assigned. -/
theorem C68_negative_counterexample :
    ∃ b out b', parseText .pico8 60 (codes "a=- -b\nf()") = some b ∧ Long.fitB b = false ∧ unminify [9] b = some out ∧
      out = codes "\na = --b\nf()\n" ∧ parseText .pico8 60 out = some b' ∧ nB .pico8 picoLit b' ≠ nB .pico8 picoLit b := by
  refine ⟨.cons (.assign (.cons (.var "a") .nil) (.cons (.un .minus (.un .minus (.var "b"))) .nil)) (.cons (.call (.call (.var "f") false .nil)) .nil),
    codes "\na = --b\nf()\n", .cons (.assign (.cons (.var "a") .nil) (.cons (.call (.var "f") false .nil) .nil)) .nil,
    by decide +kernel, by decide +kernel, by decide +kernel, rfl, by decide +kernel, by decide +kernel⟩

/-- `a[ [[x]] ]=1` is a program, but in the unminified text the brackets run together. -/
theorem C68_bracket_counterexample :
    ∃ b out, parseText .pico8 60 (codes "a[ [[x]] ]=1") = some b ∧ Long.fitB b = false ∧ unminify [9] b = some out ∧
      out = codes "\na[[[x]]] = 1\n" ∧ ∀ n, parseText .pico8 n out = none := by
  refine ⟨.cons (.assign (.cons (.index (.var "a") (.str "[[x]]")) .nil) (.cons (.num "1") .nil)) .nil,
    codes "\na[[[x]]] = 1\n", by decide +kernel, by decide +kernel, by decide +kernel, rfl, fun n => ?_⟩
  have h : readText .pico8 (codes "\na[[[x]]] = 1\n") = some [⟨.id "a", 2⟩, ⟨.str "[[[x]]", 2⟩, ⟨.rb, 2⟩, ⟨.eq, 2⟩, ⟨.num "1", 2⟩] := by decide +kernel
  rw [parseText, h, Option.bind_some]
  by_cases hn : n < 30
  · have : ∀ m < 30, root .pico8 m [⟨.id "a", 2⟩, ⟨.str "[[[x]]", 2⟩, ⟨.rb, 2⟩, ⟨.eq, 2⟩, ⟨.num "1", 2⟩] = none := by decide +kernel
    exact this n hn
  · obtain ⟨m, rfl⟩ : ∃ m, n = m + 30 := ⟨n - 30, by omega⟩
    rfl

/-- `a=b;(f or g)()` assigns `b` and then calls `f` or `g`; the unminified text assigns what is returned by what `b` returns when it is called with `f` or `g`. -/
theorem C68_semicolon_counterexample :
    ∃ b out b', parseText .pico8 60 (codes "a=b;(f or g)()") = some b ∧ Long.sepB b = false ∧ unminify [9] b = some out ∧
      out = codes "\na = b\n(f or g)()\n" ∧ parseText .pico8 60 out = some b' ∧ nB .pico8 picoLit b' ≠ nB .pico8 picoLit b := by
  refine ⟨.cons (.assign (.cons (.var "a") .nil) (.cons (.var "b") .nil)) (.semi (.cons (.call (.call (.group (.bin .or_ (.var "f") (.var "g"))) false .nil)) .nil)),
    codes "\na = b\n(f or g)()\n",
    .cons (.assign (.cons (.var "a") .nil) (.cons (.call (.call (.var "b") false (.cons (.bin .or_ (.var "f") (.var "g")) .nil)) false .nil) .nil)) .nil,
    by decide +kernel, by decide +kernel, by decide +kernel, rfl, by decide +kernel, by decide +kernel⟩

/-- `if (x) a() else b();` is a program, but unminifying it fails with an error. -/
theorem C68_else_counterexample :
    ∃ b, parseText .pico8 60 (codes "if (x) a() else b();") = some b ∧ Long.ellB b = false ∧ unminify [9] b = none := by
  refine ⟨.cons (.if_ (.shortElse (.group (.var "x")) (.cons (.call (.call (.var "a") false .nil)) .nil)
    (.cons (.call (.call (.var "b") false .nil)) (.semi .nil)) false)) .nil, by decide +kernel, by decide +kernel, by decide +kernel⟩

end Verif.Unmin
