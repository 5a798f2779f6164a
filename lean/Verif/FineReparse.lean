import Verif.FineParse
/-
The tokens of a fine tree are those of a program with this tree.
-/
set_option linter.unusedVariables false
set_option linter.unusedSimpArgs false
set_option linter.unusedSectionVars false
namespace Verif.Mini
open Syntax Tidy
open LuaGrammar hiding Name
open Paren (Op Lang prec)

theorem lay_brk (n : Nat) (sh d : Bool) (w : List M) : lay n (brk sh d ++ w) = lay (n + nls (brk sh d)) w := by
  cases sh <;> cases d <;> simp [brk, lay, nls]

theorem openB_ne {b : Block} (h : b ≠ .nil) (o p : Bool) : openB o b = openB p b := by
  cases b <;> simp_all [openB]

theorem condB_mono {L : Lang} : ∀ {b : Block} {o : Bool}, condB L false b = true → condB L o b = true
  | .nil, o, h => by simp [condB] at h
  | .semi b, o, h => by rw [condB] at *; exact condB_mono h
  | .cons s b, o, h => h

theorem endsRet_semis : ∀ {b : Block}, semis b = true → endsRet b = false
  | .nil, _ => rfl
  | .semi b, h => endsRet_semis (b := b) h
  | .cons s b, h => by simp [semis] at h

theorem dangleB_semis {sh : Bool} : ∀ {b : Block}, semis b = true → dangleB sh b = false
  | .nil, _ => by rw [dangleB]
  | .semi b, h => by rw [dangleB]; exact dangleB_semis (b := b) h
  | .cons s b, h => by simp [semis] at h

theorem endsRet_cons {s : St} {b : Block} (h : endsRet b = true) : endsRet (.cons s b) = true := by
  rw [endsRet]
  split
  · rename_i hs; rw [endsRet_semis hs] at h; cases h
  · exact h

theorem dangleB_cons {sh : Bool} {s : St} {b : Block} (h : dangleB sh b = true) : dangleB sh (.cons s b) = true := by
  rw [dangleB]
  split
  · rename_i hs; rw [dangleB_semis hs] at h; cases h
  · exact h

section
variable (L : Lang) (th : K)

def PE (e : Ex) : Prop := ∀ (sh : Bool) (n : Nat) (w : List M), fE true L sh e →
  E L (lvl e) (lay n (prE th sh e ++ w)) (lay (n + nls (prE th sh e)) w) e ∧
  (isPre e = true → P L (lay n (prE th sh e ++ w)) (lay (n + nls (prE th sh e)) w) e)
def PEs (es : Exs) : Prop := ∀ (sh : Bool) (n : Nat) (w : List M), fEs true L sh es → es ≠ .nil →
  Es L (lay n (prEs th sh es ++ w)) (lay (n + nls (prEs th sh es)) w) es
def PIts (its : Its) : Prop := ∀ (sh : Bool) (n : Nat) (w : List M), fIts true L sh its →
  Items L (lay n (prIts th sh its ++ .t .rc :: w)) (lay (n + nls (prIts th sh its)) w) its

/-- What may follow a statement or a list of them with these properties. -/
structure Rest (m : Nat) (r : List T) (opn dng cnd : Bool) : Prop where
  bd : Bd r
  lp : opn = true → ¬ Next (· = .lp) r
  els : dng = true → OnLine m r → ¬ Next (· = .kElse) r
  dos : cnd = true → ¬ Next (· = .kDo) r

/-- What may follow a shorthand that starts on the line. -/
def ShortRest (n : Nat) (r : List T) (sh : Bool) (f : Option Bool) : Prop :=
  ∀ d, f = some d → sh = true ∨ d = true → (d = true ↔ OnLine n r) ∧ (r = [] ∨ Later (some n) r ∨ Next Closes r)

def PS (s : St) : Prop := ∀ (v : Option Nat) (sh c : Bool) (n : Nat) (w : List M), (v = none ∨ v = some n) → fS true L sh c s →
  Rest (n + nls (prS th sh s)) (lay (n + nls (prS th sh s)) w) (openS s) (dangleS sh s) (condS L s) →
  (isRet0 s = true → Next Closes (lay (n + nls (prS th sh s)) w) ∨ Next (· = .semi) (lay (n + nls (prS th sh s)) w) ∨ Later v (lay (n + nls (prS th sh s)) w)) →
  ShortRest n (lay (n + nls (prS th sh s)) w) sh (flag s) →
  S L v (lay n (prS th sh s ++ w)) (lay (n + nls (prS th sh s)) w) s
def PI (i : If) : Prop := ∀ (sh c : Bool) (n : Nat) (w : List M), fI true L sh c i →
  (isLong i = false → Rest (n + nls (prI th sh i)) (lay (n + nls (prI th sh i)) w) (openI i) (dangleI sh i) (condI L i)) →
  ShortRest n (lay (n + nls (prI th sh i)) w) sh (flagI i) →
  I L (lay n (prI th sh i ++ w)) (lay (n + nls (prI th sh i)) w) i
def PT (t : Tail) : Prop := ∀ (sh : Bool) (n : Nat) (w : List M), fT true L sh t →
  Tl L (lay n (prT th sh t ++ w)) (lay (n + nls (prT th sh t)) w) t
def PB (b : Block) : Prop := ∀ (v : Option Nat) (sh c : Bool) (n : Nat) (w : List M), (v = none ∨ (v = some n ∧ nls (prB th sh b) = 0)) → fB true L sh c b →
  (b ≠ .nil → Rest (n + nls (prB th sh b)) (lay (n + nls (prB th sh b)) w) (openB false b) (dangleB sh b) (condB L false b)) →
  (lay (n + nls (prB th sh b)) w = [] ∨ Later v (lay (n + nls (prB th sh b)) w) ∨ Next Closes (lay (n + nls (prB th sh b)) w)) →
  (endsRet b = true → Next Closes (lay (n + nls (prB th sh b)) w) ∨ Later v (lay (n + nls (prB th sh b)) w)) →
  (c = true ↔ OnLine (n + nls (prB th sh b)) (lay (n + nls (prB th sh b)) w)) →
  B L v (lay n (prB th sh b ++ w)) (lay (n + nls (prB th sh b)) w) b

variable {L th}

/-- Everything that printing and laying out consists of. -/
macro "lays" : tactic => `(tactic| simp only [prE, prEs, prIts, prS, prI, prT, prB, List.append_assoc, List.cons_append, List.nil_append, lay, nls_append, nls,
  Nat.add_zero, Nat.zero_add, ← Nat.add_assoc])
macro "lays" "at" h:ident : tactic => `(tactic| simp only [prE, prEs, prIts, prS, prI, prT, prB, List.append_assoc, List.cons_append, List.nil_append, lay, nls_append, nls,
  Nat.add_zero, Nat.zero_add, ← Nat.add_assoc] at $h:ident)

theorem PE.one {e : Ex} (h : PE L th e) {sh : Bool} (n : Nat) (w : List M) (hf : fE true L sh e) :
    E L 1 (lay n (prE th sh e ++ w)) (lay (n + nls (prE th sh e)) w) e := E_le (lvl_pos hf) (h sh n w hf).1

theorem after_of {its : Its} (h : PIts L th its) {sh : Bool} (n : Nat) (w : List M) (hf : fIts true L sh its) :
    After L (lay n (sepIts its ++ (prIts th sh its ++ .t .rc :: w))) (lay (n + nls (prIts th sh its)) w) its := by
  cases its with
  | nil => simp only [sepIts]; lays; exact .close
  | pos e its => exact .comma (h sh n w hf)
  | named x e its => exact .comma (h sh n w hf)
  | keyed k e its => exact .comma (h sh n w hf)

theorem es_of {e : Ex} {es : Exs} (h : PE L th e) (h' : PEs L th es) {sh : Bool} (n : Nat) (w : List M) (hf : fE true L sh e) (hf' : fEs true L sh es) :
    Es L (lay n (prE th sh e ++ (sepEs es ++ (prEs th sh es ++ w)))) (lay (n + nls (prE th sh e) + nls (prEs th sh es)) w) (.cons e es) := by
  cases es with
  | nil => simp only [sepEs]; lays; exact .one (h.one n w hf)
  | cons f fs =>
    have h1 := h.one n (.t .comma :: (prEs th sh (.cons f fs) ++ w)) hf
    have h2 := h' sh (n + nls (prE th sh e)) w hf' (by simp)
    simp only [lay] at h1
    exact .cons h1 h2

theorem args_of {es : Exs} (h' : PEs L th es) {sh : Bool} (n : Nat) (w : List M) (hf' : fEs true L sh es) :
    Args L (lay n (prEs th sh es ++ .t .rp :: w)) (lay (n + nls (prEs th sh es)) w) es := by
  cases es with
  | nil => lays; exact .nil
  | cons f fs =>
    have h2 := h' sh n (.t .rp :: w) hf' (by simp)
    simp only [lay] at h2
    exact .some h2

theorem bare_args {es : Exs} (h' : PEs L th es) {sh : Bool} (n : Nat) (w : List M) (hf' : fEs true L sh es) (hb : bareArg es = true) :
    ∃ e, es = .cons e .nil ∧ Bare L (lay n (prEs th sh es ++ w)) (lay (n + nls (prEs th sh es)) w) e := by
  refine bare_of (h' sh n w hf' ?_) hb
  rintro rfl; simp [bareArg] at hb

theorem body_of {ps : List Param} {b : Block} (h : PB L th b) {sh : Bool} (n : Nat) (w : List M) (hf : fB true L sh true b) :
    Body L (lay n (.t .lp :: (prParams ps ++ (prB th sh b ++ .t .kEnd :: w)))) (lay (n + nls (prB th sh b)) w) ps b := by
  have h1 := pParams ps n (prB th sh b ++ .t .kEnd :: w)
  have h2 := h none sh true n (.t .kEnd :: w) (.inl rfl) hf
    (fun _ => ⟨.closes (.inl rfl), fun _ => by simp [lay, next_cons], fun _ _ => by simp [lay, next_cons], fun _ => by simp [lay, next_cons]⟩)
    (.inr (.inr (by simp [lay, next_cons, Closes]))) (fun _ => .inl (by simp [lay, next_cons, Closes]))
    (by simp [lay, OnLine])
  simp only [lay] at *
  exact .mk h1 h2

/-- A block that is closed by a keyword. -/
theorem PB.closed {b : Block} (h : PB L th b) {v : Option Nat} {sh : Bool} (n : Nat) {k : K} (w : List M)
    (hv : v = none ∨ (v = some n ∧ nls (prB th sh b) = 0)) (hf : fB true L sh true b) (hk : Closes k)
    (he : k = .kElse → dangleB sh b = false) : B L v (lay n (prB th sh b ++ .t k :: w)) (⟨k, n + nls (prB th sh b)⟩ :: lay (n + nls (prB th sh b)) w) b := by
  have e : lay (n + nls (prB th sh b)) (.t k :: w) = ⟨k, n + nls (prB th sh b)⟩ :: lay (n + nls (prB th sh b)) w := rfl
  have h2 := h v sh true n (.t k :: w) hv hf
  rw [e] at h2
  refine h2 (fun _ => ⟨.closes hk, fun _ => ?_, fun hd _ => ?_, fun _ => ?_⟩) (.inr (.inr ?_)) (fun _ => .inl ?_) ?_
  · rw [next_cons]; rintro rfl; simp [Closes] at hk
  · rw [next_cons]; rintro rfl; rw [he rfl] at hd; cases hd
  · rw [next_cons]; rintro rfl; simp [Closes] at hk
  · rw [next_cons]; exact hk
  · rw [next_cons]; exact hk
  · simp [OnLine]

theorem rest_block {x : Bool} {b : Block} {sh c : Bool} (m n : Nat) (w : List M) {opn dng cnd : Bool} (h : fB x L sh c b) (hb : b ≠ .nil)
    (h1 : opn = true → leadB b = false) (h2 : cnd = true → doB b = false) : Rest m (lay n (prB th sh b ++ w)) opn dng cnd := by
  obtain ⟨k, r, e, hk, hl, hd, -⟩ := block_start (th := th) n w h hb
  rw [e]
  refine ⟨.inr (next_cons.2 ?_), fun ho => ?_, fun _ _ => ?_, fun hc => ?_⟩
  · exact .inr hk
  · rw [next_cons]; intro hk'; have := hl.1 hk'; rw [h1 ho] at this; cases this
  · rw [next_cons]; intro hk'; have hk'' : k = .kElse := hk'; subst hk''; simp [StmtStart] at hk
  · rw [next_cons]; intro hk'; have := hd hk'; rw [h2 hc] at this; cases this

theorem closed_group {n : Nat} {sh : Bool} {e : Ex} {w : List M} (hg : isGroup e = true) (hz : nls (prE th sh e) = 0) :
    ClosedOn n (lay n (prE th sh e ++ w)) (lay n w) := by
  cases e <;> simp [isGroup] at hg
  rename_i e
  have lay_app : ∀ (a : List M) (n : Nat) (b : List M), nls a = 0 → lay n (a ++ b) = lay n a ++ lay n b := by
    intro a
    induction a with
    | nil => intro n b _; rfl
    | cons m a ih =>
      intro n b h
      cases m with
      | t k => simp only [List.cons_append, lay]; rw [ih n b h]
      | nl => simp [nls] at h
  lays at hz
  lays
  rw [lay_app _ _ _ hz]
  exact ⟨⟨.lp, n⟩ :: lay n (prE th sh e), by simp [lay]⟩

theorem group_open {e : Ex} (h : isGroup e = true) : openEnd e = true := by cases e <;> simp_all [isGroup, openEnd]

/-- What follows the block of a shorthand on its line. -/
theorem short_rest {sh : Bool} {d : Nested} {n : Nat} {w : List M} {f : Option Bool} (hf : f = some d)
    (h : ShortRest n (lay (n + nls (brk sh d)) w) sh f) :
    (d = true ↔ OnLine n (lay n (brk sh d ++ w))) ∧ (lay n (brk sh d ++ w) = [] ∨ Later (some n) (lay n (brk sh d ++ w)) ∨ Next Closes (lay n (brk sh d ++ w))) := by
  rw [lay_brk]
  by_cases hs : sh = true ∨ d = true
  · exact h d hf hs
  · have hs1 : sh = false := by cases sh <;> simp_all
    have hs2 : d = false := by cases d <;> simp_all
    subst hs1; subst hs2
    refine ⟨⟨nofun, fun ho => absurd ho (lay_not_on n w)⟩, .inr (.inl (lay_later n w))⟩

/-- The last block of a shorthand. -/
theorem short_block {b : Block} (hb : PB L th b) {sh : Bool} {d : Nested} {n : Nat} {w : List M} {f : Option Bool} {o dn cn : Bool} (hf : f = some d)
    (hfb : fB true L (sh || !d) d b) (hz : nls (prB th (sh || !d) b) = 0)
    (hr : Rest (n + nls (brk sh d)) (lay (n + nls (brk sh d)) w) o dn cn)
    (ho : b ≠ .nil → openB false b = true → o = true) (hd : (sh || d) = true → dangleB sh b = true → dn = true)
    (hc : b ≠ .nil → condB L false b = true → cn = true)
    (h : ShortRest n (lay (n + nls (brk sh d)) w) sh f) :
    B L (some n) (lay n (prB th (sh || !d) b ++ (brk sh d ++ w))) (lay (n + nls (brk sh d)) w) b := by
  obtain ⟨h1, h2⟩ := short_rest hf h
  have h3 := hb (some n) (sh || !d) d n (brk sh d ++ w) (.inr ⟨rfl, hz⟩) hfb
  rw [hz, Nat.add_zero] at h3
  rw [lay_brk n sh d w] at h1 h2 h3
  refine h3 (fun hn => ⟨hr.bd, fun h => hr.lp (ho hn h), fun h => ?_, fun h => hr.dos (hc hn h)⟩) h2 (fun _ => ?_) h1
  · by_cases hs : (sh || d) = true
    · have : nls (brk sh d) = 0 := nls_brk (by simpa using hs)
      have e : (sh || !d) = sh := by cases sh <;> cases d <;> simp_all
      rw [e] at h
      have := hr.els (hd hs h)
      simpa [*] using this
    · have hs1 : sh = false := by cases sh <;> simp_all
      have hs2 : d = false := by cases d <;> simp_all
      subst hs1; subst hs2
      intro ho
      exact absurd ho (lay_not_on n w)
  · rcases h2 with h2 | h2 | h2
    · exact .inr ⟨n, rfl, fun t r e => by rw [h2] at e; cases e⟩
    · exact .inr h2
    · exact .inl h2

theorem not_fn {x : Bool} {e : Ex} {sh : Bool} (n : Nat) (w : List M) (hp : isPre e = true) (h : fE x L sh e) :
    ¬ Next (· = .kFunction) (lay n (prE th sh e ++ w)) := by
  obtain ⟨k, r, e, hk, -⟩ := pre_start th e sh n w hp h
  rw [e, next_cons]
  rintro rfl
  simp at hk


theorem bodyE {ps : List Param} {b : Block} (h : PB L th b) {sh : Bool} (n : Nat) (w : List M) (hf : fB true L sh true b) :
    Body L (⟨.lp, n⟩ :: lay n (prParams ps ++ (prB th sh b ++ .t .kEnd :: w))) (lay (n + nls (prB th sh b)) w) ps b := body_of h n w hf

theorem before {e : Ex} (h : PE L th e) {sh : Bool} (n : Nat) (k : K) (w : List M) (hf : fE true L sh e) :
    E L 1 (lay n (prE th sh e ++ .t k :: w)) (⟨k, n + nls (prE th sh e)⟩ :: lay (n + nls (prE th sh e)) w) e := h.one n (.t k :: w) hf

theorem beforeP {e : Ex} (h : PE L th e) {sh : Bool} (n : Nat) (k : K) (w : List M) (hp : isPre e = true) (hf : fE true L sh e) :
    P L (lay n (prE th sh e ++ .t k :: w)) (⟨k, n + nls (prE th sh e)⟩ :: lay (n + nls (prE th sh e)) w) e := (h sh n (.t k :: w) hf).2 hp

theorem beforeEs {e : Exs} (h : PEs L th e) {sh : Bool} (n : Nat) (k : K) (w : List M) (hp : e ≠ .nil) (hf : fEs true L sh e) :
    Es L (lay n (prEs th sh e ++ .t k :: w)) (⟨k, n + nls (prEs th sh e)⟩ :: lay (n + nls (prEs th sh e)) w) e := h sh n (.t k :: w) hf hp

theorem first_line : ∀ (e : Ex) (sh : Bool) (n : Nat) (w : List M), ∃ k r, lay n (prE th sh e ++ w) = ⟨k, n⟩ :: r
  | .bin _ l _, sh, n, w => by simp only [prE, List.append_assoc]; exact first_line l sh n _
  | .member l _, sh, n, w => by simp only [prE, List.append_assoc]; exact first_line l sh n _
  | .index l _, sh, n, w => by simp only [prE, List.append_assoc]; exact first_line l sh n _
  | .call l false _, sh, n, w => by simp only [prE, List.append_assoc]; exact first_line l sh n _
  | .call l true _, sh, n, w => by simp only [prE, List.append_assoc]; exact first_line l sh n _
  | .method l _ false _, sh, n, w => by simp only [prE, List.append_assoc]; exact first_line l sh n _
  | .method l _ true _, sh, n, w => by simp only [prE, List.append_assoc]; exact first_line l sh n _
  | .var _, sh, n, w | .num _, sh, n, w | .str _, sh, n, w | .cst _, sh, n, w | .vararg, sh, n, w | .func _ _, sh, n, w | .group _, sh, n, w
  | .un _ _, sh, n, w | .table _, sh, n, w => by simp only [prE, List.cons_append, lay]; exact ⟨_, _, rfl⟩

/-- A shorthand on its line has no line breaks, and its state is right. -/
theorem flag_zero {s : St} {sh c : Bool} {d : Bool} (h : fS true L sh c s) (hd : flag s = some d) (hsd : sh = true ∨ d = true) :
    nls (prS th sh s) = 0 ∧ d = c := by
  have ok : okFlag true sh c d → d = c := by
    rintro ⟨h1, h2⟩
    cases sh <;> cases d <;> simp_all
  cases s <;> simp only [flag] at hd <;> try cases hd
  · rename_i i
    cases i <;> simp only [flagI] at hd <;> cases hd
    all_goals
      simp only [fS, fI] at h
      refine ⟨zS th _ sh ?_, ok h.1⟩
      cases sh <;> cases d <;> simp_all [calmS, calmI]
  · simp only [fS] at h
    refine ⟨zS th _ sh ?_, ok h.1⟩
    cases sh <;> cases d <;> simp_all [calmS]

mutual
theorem pE (ht : Then L th) : ∀ e, PE L th e
  | .var x => fun sh n w hf => by lays; exact ⟨.pre .var, fun _ => .var⟩
  | .num x => fun sh n w hf => by lays; exact ⟨.num, by simp [isPre]⟩
  | .str x => fun sh n w hf => by lays; exact ⟨.str, by simp [isPre]⟩
  | .cst x => fun sh n w hf => by lays; exact ⟨.cst, by simp [isPre]⟩
  | .vararg => fun sh n w hf => by lays; exact ⟨.dots, by simp [isPre]⟩
  | .func ps b => fun sh n w hf => by
    have ih := pB ht b
    rw [fE] at hf
    lays; simp only [nls_params, Nat.add_zero]
    exact ⟨.func (bodyE ih n w hf), by simp [isPre]⟩
  | .group e => fun sh n w hf => by
    have ih := pE ht e
    rw [fE] at hf
    lays
    have h := before ih n .rp w hf
    exact ⟨.pre (.group h), fun _ => .group h⟩
  | .un o e => fun sh n w hf => by
    have ih := pE ht e
    rw [fE] at hf
    lays
    exact ⟨.un hf.1 (E_le hf.2.1 (ih sh n w hf.2.2).1), by simp [isPre]⟩
  | .bin o l r => fun sh n w hf => by
    have ih1 := pE ht l
    have ih2 := pE ht r
    rw [fE] at hf
    obtain ⟨hb, h1, h2, h3, h4⟩ := hf
    lays
    have e1 := (ih1 sh n (.t (.op o) :: (prE th sh r ++ w)) h3).1
    have e2 := (ih2 sh (n + nls (prE th sh l)) w h4).1
    simp only [lay] at e1
    refine ⟨?_, by simp [isPre]⟩
    obtain ⟨hi1, -, hi⟩ := bin_lvl hb
    rcases hi with rfl | rfl | ⟨ho, hlo, hhi⟩
    · exact .concat (E_le h1 e1) (E_le h2 e2)
    · exact .pow (E_le h1 e1) (E_le h2 e2)
    · exact .left ho hi1 (E_le (by rw [hlo] at h1; exact h1) e1) (E_le (by rw [hhi] at h2; exact h2) e2)
  | .member b x => fun sh n w hf => by
    have ih := pE ht b
    rw [fE] at hf
    lays
    have h : P L _ _ (.member b x) := .member (beforeP ih n .dot (.t (.id x) :: w) hf.1 hf.2)
    exact ⟨.pre h, fun _ => h⟩
  | .index b k => fun sh n w hf => by
    have ih := pE ht b
    have ih2 := pE ht k
    rw [fE] at hf
    lays
    have h : P L _ _ (.index b k) := .index (beforeP ih n .lb _ hf.1 hf.2.1) (before ih2 _ .rb w hf.2.2)
    exact ⟨.pre h, fun _ => h⟩
  | .call b false as => fun sh n w hf => by
    have ih := pE ht b
    have ih2 := pEs ht as
    rw [fE] at hf
    lays
    have h : P L _ _ (.call b false as) := .call (beforeP ih n .lp _ hf.1 hf.2.1) (args_of ih2 _ w hf.2.2.1)
    exact ⟨.pre h, fun _ => h⟩
  | .call b true as => fun sh n w hf => by
    have ih := pE ht b
    have ih2 := pEs ht as
    rw [fE] at hf
    lays
    obtain ⟨e, he, ha⟩ := bare_args ih2 (n + nls (prE th sh b)) w hf.2.2.1 (hf.2.2.2 rfl)
    have h : P L (lay n (prE th sh b ++ (prEs th sh as ++ w))) (lay (n + nls (prE th sh b) + nls (prEs th sh as)) w) (.call b true as) := by
      rw [he] at ha ⊢; exact .callBare ((ih sh n _ hf.2.1).2 hf.1) ha
    exact ⟨.pre h, fun _ => h⟩
  | .method b x false as => fun sh n w hf => by
    have ih := pE ht b
    have ih2 := pEs ht as
    rw [fE] at hf
    lays
    have h : P L _ _ (.method b x false as) := .method (beforeP ih n .colon (.t (.id x) :: .t .lp :: _) hf.1 hf.2.1) (args_of ih2 _ w hf.2.2.1)
    exact ⟨.pre h, fun _ => h⟩
  | .method b x true as => fun sh n w hf => by
    have ih := pE ht b
    have ih2 := pEs ht as
    rw [fE] at hf
    lays
    obtain ⟨e, he, ha⟩ := bare_args ih2 (n + nls (prE th sh b)) w hf.2.2.1 (hf.2.2.2 rfl)
    have h : P L (lay n (prE th sh b ++ .t .colon :: .t (.id x) :: (prEs th sh as ++ w))) (lay (n + nls (prE th sh b) + nls (prEs th sh as)) w) (.method b x true as) := by
      rw [he] at ha ⊢; exact .methodBare (beforeP ih n .colon (.t (.id x) :: _) hf.1 hf.2.1) ha
    exact ⟨.pre h, fun _ => h⟩
  | .table its => fun sh n w hf => by
    have ih := pIts ht its
    rw [fE] at hf
    lays
    exact ⟨.table (ih sh n w hf), by simp [isPre]⟩
theorem pEs (ht : Then L th) : ∀ es, PEs L th es
  | .nil => fun sh n w hf h => absurd rfl h
  | .cons e es => fun sh n w hf _ => by
    have ih := pE ht e
    have ih2 := pEs ht es
    rw [fEs] at hf
    lays; simp only [nls_sepEs, Nat.add_zero]
    exact es_of ih ih2 n w hf.1 hf.2
theorem pIts (ht : Then L th) : ∀ its, PIts L th its
  | .nil => fun sh n w hf => by lays; exact .nil
  | .pos e its => fun sh n w hf => by
    have ih := pE ht e
    have ih2 := pIts ht its
    rw [fIts] at hf
    lays; simp only [nls_sepIts, Nat.add_zero]
    exact .pos (ih.one n _ hf.1) (after_of ih2 _ w hf.2)
  | .named x e its => fun sh n w hf => by
    have ih := pE ht e
    have ih2 := pIts ht its
    rw [fIts] at hf
    lays; simp only [nls_sepIts, Nat.add_zero]
    exact .named (ih.one n _ hf.1) (after_of ih2 _ w hf.2)
  | .keyed k e its => fun sh n w hf => by
    have ih0 := pE ht k
    have ih := pE ht e
    have ih2 := pIts ht its
    rw [fIts] at hf
    lays; simp only [nls_sepIts, Nat.add_zero]
    exact .keyed (before ih0 n .rb (.t .eq :: _) hf.1) (ih.one _ _ hf.2.1) (after_of ih2 _ w hf.2.2)
theorem pS (ht : Then L th) : ∀ s, PS L th s
  | .do_ b => fun v sh c n w hv hf hr _ _ => by
    have ih := pB ht b
    rw [fS] at hf
    lays
    exact .do_ (ih.closed n w (.inl rfl) hf (.inl rfl) nofun)
  | .if_ i => fun v sh c n w hv hf hr _ hs => by
    have ih := pI ht i
    rw [fS] at hf
    lays at hr; lays at hs
    lays
    exact .if_ (ih sh c n w hf (fun _ => by simpa only [openS, dangleS, condS] using hr) (by simpa only [flag] using hs))
  | .while_ e b => fun v sh c n w hv hf hr _ _ => by
    have ih := pE ht e
    have ih2 := pB ht b
    rw [fS] at hf
    lays
    exact .while_ (before ih n .kDo _ hf.1) (ih2.closed _ w (.inl rfl) hf.2 (.inl rfl) nofun)
  | .whileShort e b d => fun v sh c n w hv hf hr _ hs => by
    have ih := pE ht e
    have ih2 := pB ht b
    rw [fS] at hf
    obtain ⟨-, hg, he, hb, hz, hl, hdo⟩ := hf
    have hze : nls (prE th (sh || !d) e) = 0 := zE th e _ (by cases sh <;> cases d <;> simp_all)
    have hzb : nls (prB th (sh || !d) b) = 0 := zB th b _ (by cases sh <;> cases d <;> simp_all)
    lays at hr; lays at hs
    lays
    simp only [hze, hzb, Nat.add_zero] at hr hs ⊢
    have e1 := ih.one n (prB th (sh || !d) b ++ (brk sh d ++ w)) he
    simp only [hze, Nat.add_zero] at e1
    have hR : Rest n (lay n (prB th (sh || !d) b ++ (brk sh d ++ w))) true false true := by
      by_cases hn : b = .nil
      · subst hn
        rw [prB, List.nil_append, lay_brk]
        exact ⟨hr.bd, fun _ => hr.lp rfl, nofun, fun _ => hr.dos rfl⟩
      · exact rest_block n n _ hb hn (fun _ => hl) (fun _ => hdo)
    refine .whileShort e1 (hR.bd.done fun _ => hR.lp rfl) (hR.dos rfl) (closed_group hg hze) (short_block (f := some d) ih2 rfl hb hzb hr ?_ ?_ ?_ hs) ?_
    · intro hn h; rw [openS, openB_ne hn true false]; exact h
    · intro h1 h2; rw [dangleS, h1, h2]; rfl
    · intro hn h; rw [condS]; exact condB_mono h
    · have := (short_rest (f := some d) rfl hs).1
      rwa [lay_brk] at this
  | .repeat_ b e => fun v sh c n w hv hf hr _ _ => by
    have ih := pE ht e
    have ih2 := pB ht b
    rw [fS] at hf
    lays at hr
    lays
    exact .repeat_ (ih2.closed n _ (.inl rfl) hf.1 (.inr (.inr (.inr rfl))) nofun) (ih.one _ w hf.2) (hr.bd.done hr.lp)
  | .fornum x a b s d => fun v sh c n w hv hf hr _ _ => by
    have ih1 := pE ht a
    have ih2 := pE ht b
    have ih3 := pEs ht s
    have ih4 := pB ht d
    rw [fS] at hf
    obtain ⟨h1, h2, h3, h4, h5⟩ := hf
    rcases h4 with rfl | ⟨e, rfl⟩
    · lays
      simp only [sepEs, List.nil_append, nls, Nat.add_zero]
      exact .fornum (before ih1 n .comma _ h1) (before ih2 _ .kDo _ h2) (ih4.closed _ w (.inl rfl) h5 (.inl rfl) nofun)
    · have h3' := beforeEs ih3 (n + nls (prE th sh a) + nls (prE th sh b)) .kDo (prB th sh d ++ .t .kEnd :: w) (by simp) h3
      lays; lays at h3'
      simp only [sepEs, List.nil_append, List.cons_append, lay, nls, Nat.add_zero] at h3' ⊢
      cases h3' with
      | one h3' =>
        exact .forstep (before ih1 n .comma _ h1) (before ih2 _ .comma _ h2) h3' (ih4.closed _ w (.inl rfl) h5 (.inl rfl) nofun)
      | cons _ h => cases h
  | .forin xs es d => fun v sh c n w hv hf hr _ _ => by
    have ih1 := pEs ht es
    have ih2 := pB ht d
    rw [fS] at hf
    obtain ⟨h1, h2, h3, h4⟩ := hf
    lays; simp only [nls_names, Nat.add_zero]
    exact .forin (pNames xs n (.t .kIn :: _) h1) (beforeEs ih1 n .kDo _ h2 h3) (ih2.closed _ w (.inl rfl) h4 (.inl rfl) nofun)
  | .break_ => fun v sh c n w hv hf hr _ _ => by lays; exact .break_
  | .return_ es => fun v sh c n w hv hf hr h0 _ => by
    have ih1 := pEs ht es
    rw [fS] at hf
    lays at hr; lays at h0
    lays
    by_cases hn : es = .nil
    · subst hn
      rw [prEs, nls, Nat.add_zero, List.nil_append] at *
      exact .returnNone (h0 rfl)
    · refine .return_ ?_ (ih1 sh n w hf hn) (hr.bd.doneList es hr.lp)
      cases es with
      | nil => exact absurd rfl hn
      | cons e es =>
        rw [prEs, List.append_assoc]
        obtain ⟨k, r, he⟩ := first_line (th := th) e sh n (sepEs es ++ prEs th sh es ++ w)
        rw [he]
        exact not_later hv
  | .local_ xs es => fun v sh c n w hv hf hr _ _ => by
    have ih1 := pEs ht es
    rw [fS] at hf
    lays at hr
    lays
    simp only [nls_locals, nls_eqEs, Nat.add_zero] at hr ⊢
    cases es with
    | nil =>
      rw [prEs, nls, Nat.add_zero, eqEs, List.nil_append, List.nil_append] at *
      exact .local_ (pLocals xs n w hf.1 hf.2.1 hr.bd.noLt hr.bd.noComma) hr.bd.noEq
    | cons e es =>
      exact .localAssign (pLocals xs n (.t .eq :: _) hf.1 hf.2.1 (by simp [lay, next_cons]) (by simp [lay, next_cons])) (ih1 sh n w hf.2.2 (by simp)) (hr.bd.doneList _ hr.lp)
  | .localfn x ps b => fun v sh c n w hv hf hr _ _ => by
    have ih := pB ht b
    rw [fS] at hf
    lays; simp only [nls_params, Nat.add_zero]
    exact .localfn (bodyE ih n w hf)
  | .goto_ x => fun v sh c n w hv hf hr _ _ => by lays; exact .goto_
  | .label x => fun v sh c n w hv hf hr _ _ => by lays; exact .label
  | .func f ps b => fun v sh c n w hv hf hr _ _ => by
    have ih := pB ht b
    rw [fS] at hf
    lays; simp only [nls_params, nls_name, Nat.add_zero]
    exact .func (pName f n _) (bodyE ih n w hf)
  | .assign ts es => fun v sh c n w hv hf hr _ _ => by
    have ih := pEs ht ts
    have ih2 := pEs ht es
    have hf' := hf
    rw [fS] at hf
    obtain ⟨h1, h2, h3, h4, h5⟩ := hf
    lays at hr
    lays
    refine .assign ?_ (beforeEs ih n .eq _ h2 h4) (ih2 sh _ w h5 h3) (hr.bd.doneList es hr.lp)
    cases ts with
    | nil => exact absurd rfl h2
    | cons t ts =>
      rw [prEs, List.append_assoc]
      simp only [targets, Bool.and_eq_true] at h1
      rw [fEs] at h4
      exact not_fn n _ (target_pre h1.1) h4.1
  | .opassign o t e => fun v sh c n w hv hf hr _ _ => by
    have ih := pE ht t
    have ih2 := pE ht e
    rw [fS] at hf
    lays at hr
    lays
    exact .opassign (not_fn n _ (target_pre hf.1) hf.2.1) (before ih n (.opeq o) _ hf.2.1) (ih2.one _ w hf.2.2) (hr.bd.done hr.lp)
  | .call e => fun v sh c n w hv hf hr _ _ => by
    have ih := pE ht e
    rw [fS] at hf
    lays at hr
    lays
    have hp := (ih sh n w hf.2).2 (call_pre hf.1)
    cases e <;> simp [isCall] at hf
    · exact .call hp (hr.bd.done fun _ => hr.lp rfl) hr.bd.noMisc
    · exact .method hp (hr.bd.done fun _ => hr.lp rfl) hr.bd.noMisc
  | .print es => fun v sh c n w hv hf hr _ _ => by
    have ih := pEs ht es
    rw [fS] at hf
    lays at hr
    lays
    have h := ih true n (brk sh false ++ w) hf.2 hf.1
    simp only [zEs th es true (.inl rfl), Nat.add_zero] at hr h ⊢
    rw [lay_brk] at h
    refine .print h ?_
    rintro ⟨t, r, e, h⟩
    rcases h with h | h | h
    · exact hr.bd.noSuffix (hr.lp rfl) ⟨t, r, e, h⟩
    · exact hr.bd.noBin ⟨t, r, e, h⟩
    · exact hr.bd.noMisc ⟨t, r, e, h⟩
theorem pI (ht : Then L th) : ∀ i, PI L th i
  | .long e b t => fun sh c n w hf hr hs => by
    have ih := pE ht e
    have ih2 := pB ht b
    have ih3 := pT ht t
    rw [fI] at hf
    obtain ⟨h1, h2, h3, h4⟩ := hf
    have h := ih3 sh (n + nls (prE th sh e) + nls (prB th sh b)) w h3
    lays
    cases t with
    | end_ =>
      lays at h
      lays
      exact .long (before ih n th _ h1) ht (ih2.closed _ w (.inl rfl) h2 (.inl rfl) nofun) h
    | else_ b' =>
      lays at h
      lays
      exact .long (before ih n th _ h1) ht (ih2.closed _ _ (.inl rfl) h2 (.inr (.inl rfl)) fun _ => h4 rfl) h
    | elseif_ i =>
      lays at h
      lays
      exact .long (before ih n th _ h1) ht (ih2.closed _ _ (.inl rfl) h2 (.inr (.inr (.inl rfl))) nofun) h
  | .short e b d => fun sh c n w hf hr hs => by
    have ih := pE ht e
    have ih2 := pB ht b
    have hr := hr rfl
    rw [fI] at hf
    obtain ⟨-, hg, he, hb, hz, hl, hdo⟩ := hf
    have hze : nls (prE th (sh || !d) e) = 0 := zE th e _ (by cases sh <;> cases d <;> simp_all)
    have hzb : nls (prB th (sh || !d) b) = 0 := zB th b _ (by cases sh <;> cases d <;> simp_all)
    lays at hr; lays at hs
    lays
    simp only [hze, hzb, Nat.add_zero] at hr hs ⊢
    have e1 := ih.one n (prB th (sh || !d) b ++ (brk sh d ++ w)) he
    simp only [hze, Nat.add_zero] at e1
    have hR : Rest n (lay n (prB th (sh || !d) b ++ (brk sh d ++ w))) true false (L == .pico8) := by
      by_cases hn : b = .nil
      · subst hn
        rw [prB, List.nil_append, lay_brk]
        exact ⟨hr.bd, fun _ => hr.lp rfl, nofun, fun h => hr.dos h⟩
      · exact rest_block n n _ hb hn (fun _ => hl) (fun h => hdo (by simpa using h))
    have hthen : ¬ Next (Then L) (lay n (prB th (sh || !d) b ++ (brk sh d ++ w))) := by
      rintro ⟨t, r, e, hk | ⟨hL, hk⟩⟩
      · exact hR.bd.no (P := (· = .kThen)) (by rintro k hk rfl; simp [Closes, StmtStart] at hk) ⟨t, r, e, hk⟩
      · exact hR.dos (by simp [hL]) ⟨t, r, e, hk⟩
    refine .short e1 (hR.bd.done fun _ => hR.lp rfl) hthen (closed_group hg hze) (short_block (f := some d) ih2 rfl hb hzb hr ?_ ?_ ?_ hs) ?_ ?_
    · intro hn h; rw [openI, openB_ne hn true false]; exact h
    · intro h1 h2; rw [dangleI, h1]
    · intro hn h; rw [condI]; exact condB_mono h
    · rintro ⟨h1, h2⟩
      by_cases hsd : (sh || d) = true
      · have hb0 : nls (brk sh d) = 0 := nls_brk (by simpa using hsd)
        simp only [hb0, Nat.add_zero] at hr h1 h2
        exact hr.els (by rw [dangleI]; exact hsd) h1 h2
      · have hs1 : sh = false := by cases sh <;> simp_all
        have hs2 : d = false := by cases d <;> simp_all
        subst hs1; subst hs2
        exact absurd h1 (lay_not_on n w)
    · have := (short_rest (f := some d) rfl hs).1
      rwa [lay_brk] at this
  | .shortElse e b b' d => fun sh c n w hf hr hs => by
    have ih := pE ht e
    have ih2 := pB ht b
    have ih3 := pB ht b'
    have hr := hr rfl
    rw [fI] at hf
    obtain ⟨-, hg, he, hb, hb', hz, hl, hdo, hdn⟩ := hf
    have hze : nls (prE th (sh || !d) e) = 0 := zE th e _ (by cases sh <;> cases d <;> simp_all)
    have hzb : nls (prB th (sh || !d) b) = 0 := zB th b _ (by cases sh <;> cases d <;> simp_all)
    have hzb' : nls (prB th (sh || !d) b') = 0 := zB th b' _ (by cases sh <;> cases d <;> simp_all)
    lays at hr; lays at hs
    lays
    simp only [hze, hzb, hzb', Nat.add_zero] at hr hs ⊢
    have e1 := ih.one n (prB th (sh || !d) b ++ .t .kElse :: (prB th (sh || !d) b' ++ (brk sh d ++ w))) he
    simp only [hze, Nat.add_zero] at e1
    have hR : Rest n (lay n (prB th (sh || !d) b ++ .t .kElse :: (prB th (sh || !d) b' ++ (brk sh d ++ w)))) true false (L == .pico8) := by
      by_cases hn : b = .nil
      · subst hn
        rw [prB, List.nil_append, lay]
        exact ⟨.closes (.inr (.inl rfl)), fun _ => by simp [next_cons], nofun, fun _ => by simp [next_cons]⟩
      · exact rest_block n n _ hb hn (fun _ => hl) (fun h => hdo (by simpa using h))
    have hthen : ¬ Next (Then L) (lay n (prB th (sh || !d) b ++ .t .kElse :: (prB th (sh || !d) b' ++ (brk sh d ++ w)))) := by
      rintro ⟨t, r, e, hk | ⟨hL, hk⟩⟩
      · exact hR.bd.no (P := (· = .kThen)) (by rintro k hk rfl; simp [Closes, StmtStart] at hk) ⟨t, r, e, hk⟩
      · exact hR.dos (by simp [hL]) ⟨t, r, e, hk⟩
    have hB := ih2.closed (v := some n) n (k := .kElse) (prB th (sh || !d) b' ++ (brk sh d ++ w)) (.inr ⟨rfl, hzb⟩) hb (.inr (.inl rfl)) fun _ => hdn
    simp only [hzb, Nat.add_zero] at hB
    refine .shortElse e1 (hR.bd.done fun _ => hR.lp rfl) hthen (closed_group hg hze) hB
      (short_block (f := some d) ih3 rfl hb' hzb' hr ?_ ?_ ?_ hs) ?_
    · intro hn h; rw [openI]; exact h
    · intro h1 h2; rw [dangleI, h1, h2]; rfl
    · intro hn h; rw [condI]; exact h
    · have := (short_rest (f := some d) rfl hs).1
      rwa [lay_brk] at this
theorem pT (ht : Then L th) : ∀ t, PT L th t
  | .end_ => fun sh n w hf => by lays; exact .end_
  | .else_ b => fun sh n w hf => by
    have ih := pB ht b
    rw [fT] at hf
    lays
    exact .else_ (ih.closed n w (.inl rfl) hf (.inl rfl) nofun)
  | .elseif_ i => fun sh n w hf => by
    have ih := pI ht i
    rw [fT] at hf
    lays
    refine .elseif_ (ih sh true n w hf.2 ?_ ?_)
    · rw [hf.1]; nofun
    · cases i <;> simp [isLong] at hf; intro d hd; cases hd
theorem pB (ht : Then L th) : ∀ b, PB L th b
  | .nil => fun v sh c n w hv hf hr he hret hc => by
    lays; lays at he
    exact .nil he
  | .semi b => fun v sh c n w hv hf hr he hret hc => by
    have ih := pB ht b
    rw [fB] at hf
    lays at hv; lays at hr; lays at he; lays at hret; lays at hc
    lays
    refine .semi (not_later (hv.imp id And.left)) (ih v sh c n w hv hf (fun hn => ?_) he hret hc)
    have hr := hr (by simp)
    exact ⟨hr.bd, hr.lp, hr.els, hr.dos⟩
  | .cons s b => fun v sh c n w hv hf hr he hret hc => by
    have ih := pS ht s
    have ih2 := pB ht b
    rw [fB] at hf
    obtain ⟨h1, h2, h3, h4, h5, h6⟩ := hf
    lays at hv; lays at hr; lays at he; lays at hret; lays at hc
    lays
    have hr := hr (by simp)
    have hv1 : v = none ∨ v = some n := hv.imp id And.left
    have hR : Rest (n + nls (prS th sh s)) (lay (n + nls (prS th sh s)) (prB th sh b ++ w)) (openS s) (dangleS sh s) (condS L s) := by
      by_cases hn : b = .nil
      · subst hn
        rw [prB, nls, Nat.add_zero] at hr
        exact ⟨hr.bd, hr.lp, hr.els, hr.dos⟩
      · exact rest_block _ _ _ h2 hn h3 h6
    have hret0 : isRet0 s = true → Next Closes (lay (n + nls (prS th sh s)) (prB th sh b ++ w)) ∨ Next (· = .semi) (lay (n + nls (prS th sh s)) (prB th sh b ++ w)) ∨
        Later v (lay (n + nls (prS th sh s)) (prB th sh b ++ w)) := by
      intro h0
      by_cases hn : b = .nil
      · subst hn
        rw [prB, nls, Nat.add_zero] at hret
        rcases hret h0 with h | h
        · exact .inl h
        · exact .inr (.inr h)
      · have hb := h5 h0
        obtain ⟨k, r, e, -, -, -, hk⟩ := block_start (th := th) (n + nls (prS th sh s)) w h2 hn
        rw [e]
        exact .inr (.inl (next_cons.2 (hk hb)))
    have hsr : ShortRest n (lay (n + nls (prS th sh s)) (prB th sh b ++ w)) sh (flag s) := by
      intro d hd hsd
      have hn := h4 d hd hsd
      subst hn
      have hzd := flag_zero (th := th) h1 hd hsd
      rw [prB, nls, Nat.add_zero, hzd.1, Nat.add_zero] at hc he
      rw [hzd.1, hzd.2, prB]
      refine ⟨hc, ?_⟩
      rcases he with he | he | he
      · exact .inl he
      · rcases hv1 with rfl | rfl
        · obtain ⟨l, hl, -⟩ := he; cases hl
        · exact .inr (.inl he)
      · exact .inr (.inr he)
    obtain ⟨k, r, e, -⟩ := stmt_start (th := th) n (prB th sh b ++ w) h1
    refine .cons (by rw [e]; exact not_later hv1) (ih v sh c n _ hv1 h1 hR hret0 hsr) (ih2 v sh c _ w ?_ h2 (fun hn => ?_) he (fun h => ?_) hc)
    · rcases hv with hv | ⟨hv, h0⟩
      · exact .inl hv
      · have h0' : nls (prS th sh s) = 0 := by omega
        refine .inr ⟨by rw [h0', hv]; rfl, by omega⟩
    · have e1 : openB false (.cons s b) = openB false b := by rw [openB]; exact openB_ne hn _ _
      rw [e1] at hr
      exact ⟨hr.bd, hr.lp, fun h => hr.els (dangleB_cons h), fun h => hr.dos (by rw [condB]; exact condB_mono h)⟩
    · exact hret (endsRet_cons h)
end

/-- Fine programs are printed as programs with the same tree. -/
theorem reparse (ht : Then L th) {b : Block} (h : Fine true L b) : Program L (output th b) b := by
  have hb := pB ht b none false false 1 [] (.inl rfl) h.1
  rw [List.append_nil] at hb
  refine hb (fun _ => ⟨.inl rfl, fun _ => not_next_nil, fun _ _ => not_next_nil, fun _ => not_next_nil⟩) (.inl rfl) (fun hr => ?_) ⟨nofun, ?_⟩
  · rw [h.2] at hr; cases hr
  · rintro ⟨t, r, e, -⟩; cases e

end

end Verif.Mini
