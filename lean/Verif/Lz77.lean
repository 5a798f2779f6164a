import Verif.Compress
/-
Model of the match finder `get_lz77` (pico_compress.py 187-411) and of the callers' parameters.

Python generators become lists of yielded values; the mutable dictionaries are threaded through.
-/
namespace Verif

/-- `code[i:i+c]`. -/
def slice (code : List Nat) (i c : Nat) : List Nat := (code.drop i).take c

/-- A value of a matches dictionary: a list of positions, or a `SubMatchDict` (pico_compress.py 182-185).
A `defaultdict(list)` is its list of keys present together with a total lookup function (absent keys give the
empty list, which a lookup inserts).  `bestJ = none` is `-1`. -/
inductive Matches where
  | list (js : List Nat)
  | sub (keys : List (List Nat)) (f : List Nat → Matches) (bestJ : Option Nat)

/-- The dictionary `min_matches`. -/
structure MDict where
  keys : List (List Nat)
  f : List Nat → Matches

/-- Looking a key up in a `defaultdict` inserts it. -/
def touchKey (k : List Nat) (keys : List (List Nat)) : List (List Nat) := if k ∈ keys then keys else k :: keys

/-- Function update (dictionary assignment). -/
def updKey (f : List Nat → Matches) (k : List Nat) (m : Matches) : List Nat → Matches :=
  fun k' => if k' = k then m else f k'

/-- The options of `get_lz77` (pico_compress.py 187-202).  `measure` maps a context (`none` = Python `None`) and an item
to cost and new context; as it may also look at state that the consumer of the generator updates (the PXA one reads the
writer's `mtf`, pico_compress.py 448), it gets the items yielded so far. -/
structure LzParams (κ : Type) where
  minC : Nat
  maxC : Option Nat
  maxO : Option Nat
  measure : Option (List (Nat × Item) → Option κ → Item → Int × Option κ)
  minCost : Option (Nat → Int)
  cheaperC : Option (Nat → Nat)
  maxOSteps : List Nat
  fastC : Option Nat
  noRepeat : Bool

variable {κ : Type}

/-- The loop of `get_match_length` (pico_compress.py 208-213), walking the two tails of the code in step: the loop's
`limit` is where the shorter tail ends. -/
def matchLoop : List Nat → List Nat → Nat → Nat
  | a :: as, b :: bs, c => if a = b then matchLoop as bs (c + 1) else c
  | _, _, c => c

/-- `get_match_length(code, i, code, j, min_c)` (pico_compress.py 208-213). -/
def matchLength (code : List Nat) (i j start : Nat) : Nat :=
  matchLoop (code.drop (i + start)) (code.drop (j + start)) start

/-- The clipping of a count (pico_compress.py 224-227 and 243-246). -/
def clipC (p : LzParams κ) (i j c : Nat) : Nat :=
  let c := match p.maxC with | some m => min c m | none => c
  if p.noRepeat then min c (i - j) else c

/-- `max_o != None and j < i - max_o` (pico_compress.py 229, 248, 263). -/
def tooFar (maxO : Option Nat) (i j : Nat) : Bool :=
  match maxO with | some m => decide (j + m < i) | none => false

/-- `j > best_j` with `-1` for `none`. -/
def gtJ (j : Nat) : Option Nat → Bool
  | none => true
  | some b => decide (b < j)

/-- The loop over the reversed list of matches (pico_compress.py 234-255). -/
def scanMatches (p : LzParams κ) (code : List Nat) (i minC : Nat) (maxO : Option Nat) :
    List Nat → Nat → Option Nat → Nat × Option Nat
  | [], bestC, bestJ => (bestC, bestJ)
  | j :: js, bestC, bestJ =>
    if slice code i bestC = slice code j bestC then
      let c := clipC p i j (matchLength code i j (if bestC > 0 then bestC else minC))
      if tooFar maxO i j then (bestC, bestJ)
      else if (c > bestC ∧ c ≥ minC) ∨ (c = bestC ∧ gtJ j bestJ) then
        scanMatches p code i minC maxO js c (some j)
      else scanMatches p code i minC maxO js bestC bestJ
    else scanMatches p code i minC maxO js bestC bestJ

/-- `find_match` (pico_compress.py 215-255) below a dictionary entry `matches` for the `minC`-long key: the (possibly
touched) entry, `best_c` (0: no match) and `best_j`. -/
def findIn (p : LzParams κ) (code : List Nat) (i : Nat) (maxO : Option Nat) : Nat → Matches → Matches × Nat × Option Nat
  | minC, .list js =>
    let r := scanMatches p code i minC maxO js.reverse 0 none
    (.list js, r.1, r.2)
  | minC, .sub keys f bestJ =>
    let k := slice code i (minC + 1)
    let r := findIn p code i maxO (minC + 1) (f k)
    let m' : Matches := .sub (touchKey k keys) (updKey f k r.1) bestJ
    if r.2.1 = 0 then
      match bestJ with
      | some j => if tooFar maxO i j then (m', r.2.1, r.2.2) else (m', clipC p i j minC, some j)
      | none => (m', r.2.1, r.2.2)
    else (m', r.2.1, r.2.2)

/-- `find_match(i, max_o=...)` at the top level (pico_compress.py 215-217). -/
def findMatch (p : LzParams κ) (code : List Nat) (d : MDict) (i : Nat) (maxO : Option Nat) : MDict × Nat × Option Nat :=
  let k := slice code i p.minC
  let r := findIn p code i maxO p.minC (d.f k)
  (⟨touchKey k d.keys, updKey d.f k r.1⟩, r.2)

/-- The loop of `convert_to_matches_dict` (pico_compress.py 257-269). -/
def convertLoop (code : List Nat) (maxO : Option Nat) (minI c : Nat) :
    List Nat → List (List Nat) → (List Nat → List Nat) → Option Nat → Matches
  | [], keys, f, bestJ => .sub keys (fun k => .list (f k)) bestJ
  | j :: js, keys, f, bestJ =>
    if tooFar maxO minI j then convertLoop code maxO minI c js keys f bestJ
    else
      let k := slice code j c
      convertLoop code maxO minI c js (touchKey k keys) (fun k' => if k' = k then f k ++ [j] else f k') (some j)

/-- `convert_to_matches_dict` (pico_compress.py 257-269). -/
def convertMatches (code : List Nat) (maxO : Option Nat) (minI c : Nat) (js : List Nat) : Matches :=
  convertLoop code maxO minI c js [] (fun _ => []) none

/-- Adding position `j` below a dictionary entry (pico_compress.py 394-407); `size` is `len(matches_dict)` of the
enclosing dictionary, `i` the position reached. -/
def addIn (p : LzParams κ) (code : List Nat) (i j : Nat) : Nat → Nat → Matches → Matches
  | size, c, .list js =>
    let js' := js ++ [j]
    if js'.length > 200 ∧ size > 5 ∧ c < p.minC * 6 then convertMatches code p.maxO i (c + 1) js' else .list js'
  | _, c, .sub keys f _ =>
    let k := slice code j (c + 1)
    let keys' := touchKey k keys
    .sub keys' (updKey f k (addIn p code i j keys'.length (c + 1) (f k))) (some j)

/-- One iteration of the insertion loop (pico_compress.py 394-407). -/
def addPos (p : LzParams κ) (code : List Nat) (i : Nat) (d : MDict) (j : Nat) : MDict :=
  let k := slice code j p.minC
  let keys' := touchKey k d.keys
  ⟨keys', updKey d.f k (addIn p code i j keys'.length p.minC (d.f k))⟩

/-- `Lz77Advance` (pico_compress.py 176-180).  The linked list through `prev` is the list `path` of (position, item),
newest first (the tuples are immutable). -/
structure Advance (κ : Type) where
  nextI : Nat
  cost : Int
  ctxt : Option κ
  path : List (Nat × Item)

/-- The cost test inside the loop of `add_advance` (pico_compress.py 289-295) for all advances from the insertion point
on: `true` = not worthwhile. -/
def notWorth (p : LzParams κ) (nextI : Nat) (cost : Int) (advs : List (Advance κ)) : Bool :=
  advs.any fun adv =>
    let advCost := match p.minCost with | some f => adv.cost - f (adv.nextI - nextI) | none => adv.cost
    decide (cost ≥ advCost)

/-- `add_advance` (pico_compress.py 276-304): skip the advances that end before `next_i`; then insert/replace unless
some advance from there on is at least as good. -/
def addAdvance (p : LzParams κ) (new : Advance κ) : List (Advance κ) → List (Advance κ)
  | [] => [new]
  | adv :: rest =>
    if new.nextI ≤ adv.nextI then
      if notWorth p new.nextI new.cost (adv :: rest) then adv :: rest
      else if new.nextI = adv.nextI then new :: rest
      else new :: adv :: rest
    else adv :: addAdvance p new rest

/-- The variables of the main loop (pico_compress.py 203-205, 271-274). -/
structure LzState (κ : Type) where
  i : Nat
  prevI : Nat
  dict : MDict
  curr : Option (Advance κ)
  advances : List (Advance κ)
  blocks : List Nat
  nextBlock : Nat
  out : List (Nat × Item)

/-- `litblock_idxs.popleft() if litblock_idxs else len(code)`. -/
def popBlock (code : List Nat) : List Nat → Nat × List Nat
  | [] => (code.length, [])
  | b :: bs => (b, bs)

/-- `curr_adv` as path/cost/context (pico_compress.py 333-334). -/
def currPath (c : Option (Advance κ)) : List (Nat × Item) := match c with | some a => a.path | none => []
def currCost (c : Option (Advance κ)) : Int := match c with | some a => a.cost | none => 0
def currCtxt (c : Option (Advance κ)) : Option κ := match c with | some a => a.ctxt | none => none

/-- Measuring an item of length `c` at the current position and offering it (pico_compress.py 306-309, 337-338). -/
def offer (p : LzParams κ) (measure : Option κ → Item → Int × Option κ) (i : Nat) (curr : Option (Advance κ))
    (c : Nat) (item : Item) (advs : List (Advance κ)) : List (Advance κ) :=
  let m := measure (currCtxt curr) item
  addAdvance p ⟨i + c, currCost curr + m.1, m.2, (i, item) :: currPath curr⟩ advs

/-- `add_lz77_advance(j, c)` followed by the cheaper match (pico_compress.py 343-349 and 359-365). -/
def offerMatch (p : LzParams κ) (measure : Option κ → Item → Int × Option κ) (i : Nat) (curr : Option (Advance κ))
    (c j : Nat) (advs : List (Advance κ)) : List (Advance κ) :=
  let advs := offer p measure i curr c (.mat (i - j) c) advs
  match p.cheaperC with
  | none => advs
  | some cheaper =>
    let cc := cheaper c
    if c > cc ∧ cc ≥ p.minC then offer p measure i curr cc (.mat (i - j) cc) advs else advs

/-- The loop over `max_o_steps` (pico_compress.py 351-365). -/
def offerSteps (p : LzParams κ) (measure : Option κ → Item → Int × Option κ) (code : List Nat) (i : Nat)
    (curr : Option (Advance κ)) (bestJ : Nat) : List Nat → MDict → List (Advance κ) → MDict × List (Advance κ)
  | [], d, advs => (d, advs)
  | step :: steps, d, advs =>
    if i - bestJ ≤ step then (d, advs)
    else
      let r := findMatch p code d i (some step)
      match r.2 with
      | (c + 1, some j) => offerSteps p measure code i curr bestJ steps r.1 (offerMatch p measure i curr (c + 1) j advs)
      | _ => offerSteps p measure code i curr bestJ steps r.1 advs

/-- The candidates offered at the current position: a literal, the longest match, a cheaper length of it and closer
matches (pico_compress.py 334-361). -/
def offerAll (p : LzParams κ) (measure : Option κ → Item → Int × Option κ) (code : List Nat) (s : LzState κ)
    (ch : Nat) : MDict × List (Advance κ) :=
  let r := findMatch p code s.dict s.i p.maxO
  let advs := offer p measure s.i s.curr 1 (.str [ch]) s.advances
  match r.2 with
  | (c + 1, some j) =>
    offerSteps p measure code s.i s.curr j p.maxOSteps r.1 (offerMatch p measure s.i s.curr (c + 1) j advs)
  | _ => (r.1, advs)

/-- The measured branch (pico_compress.py 333-373); also returns `best_c`.  `none` is the `IndexError` of `popleft` on
an empty deque or of `code[i]`. -/
def measuredStep (p : LzParams κ) (measure : Option κ → Item → Int × Option κ) (code : List Nat) (s : LzState κ) :
    Option (LzState κ × Nat) :=
  match code[s.i]? with
  | none => none
  | some ch =>
    let o := offerAll p measure code s ch
    match o.2 with
    | [] => none
    | adv :: rest =>
      let s' := { s with i := adv.nextI, dict := o.1, advances := rest }
      some (if rest.isEmpty then { s' with out := s.out ++ adv.path.reverse, curr := none }
        else { s' with curr := some adv }, (findMatch p code s.dict s.i p.maxO).2.1)

/-- The branch without `measure` (pico_compress.py 375-388). -/
def greedyStep (p : LzParams κ) (code : List Nat) (s : LzState κ) : Option (LzState κ × Nat) :=
  match code[s.i]? with
  | none => none
  | some ch =>
    let lit := fun (d : MDict) => { s with i := s.i + 1, dict := d, out := s.out ++ [(s.i, .str [ch])] }
    let r := findMatch p code s.dict s.i p.maxO
    match r.2 with
    | (c + 1, some j) =>
      let r2 := findMatch p code r.1 (s.i + 1) p.maxO
      if r2.2.1 > c + 1 then some (lit r2.1, c + 1)
      else some ({ s with i := s.i + (c + 1), dict := r2.1, out := s.out ++ [(s.i, .mat (s.i - j) (c + 1))] }, c + 1)
    | _ => some (lit r.1, r.2.1)

/-- The literal block branch (pico_compress.py 318-329). -/
def blockStep (code : List Nat) (s : LzState κ) : LzState κ :=
  let out := match s.curr with | some a => s.out ++ a.path.reverse | none => s.out
  let advances := match s.curr with | some _ => [] | none => s.advances
  let e := popBlock code s.blocks
  let n := popBlock code e.2
  { s with curr := none, advances := advances, i := e.1, blocks := n.2, nextBlock := n.1,
           out := out ++ [(s.i, .str ((code.take e.1).drop s.i))] }

/-- `fast_c is None or best_c < fast_c` (pico_compress.py 390); `none` is the `sys.maxsize` of line 323. -/
def doAdd (p : LzParams κ) (bestC : Option Nat) : Bool :=
  match p.fastC with
  | none => true
  | some f => match bestC with | some c => decide (c < f) | none => false

/-- The end of an iteration (pico_compress.py 390-409). -/
def finishStep (p : LzParams κ) (code : List Nat) (bestC : Option Nat) (s : LzState κ) : LzState κ :=
  let d := if doAdd p bestC then (List.range' s.prevI (s.i - s.prevI)).foldl (addPos p code s.i) s.dict else s.dict
  { s with dict := d, prevI := s.i }

/-- One iteration of the main loop (pico_compress.py 316-409). -/
def lzStep (p : LzParams κ) (code : List Nat) (s : LzState κ) : Option (LzState κ) :=
  if s.i ≥ s.nextBlock then some (finishStep p code none (blockStep code s))
  else
    match (match p.measure with
      | some m => measuredStep p (m s.out) code s
      | none => greedyStep p code s) with
    | none => none
    | some (s, bestC) => some (finishStep p code (some bestC) s)

/-- The main loop (pico_compress.py 316-411) with a bound on the number of iterations (`C02_terminates` shows that the
bound chosen in `getLz77` suffices) and the final assertion. -/
def lzLoop (p : LzParams κ) (code : List Nat) : Nat → LzState κ → Option (List (Nat × Item))
  | fuel, s =>
    if s.i < code.length then
      match fuel with
      | 0 => none
      | fuel + 1 =>
        match lzStep p code s with
        | none => none
        | some s => lzLoop p code fuel s
    else if s.curr.isSome then none else some s.out

/-- Initial state (pico_compress.py 203-205, 271-274). -/
def lzInit (code : List Nat) (blocks : List Nat) : LzState κ :=
  let b := popBlock code blocks
  ⟨0, 0, ⟨[], fun _ => .list []⟩, none, [], b.2, b.1, []⟩

/-- `get_lz77` (pico_compress.py 187-411). -/
def getLz77 (p : LzParams κ) (code : List Nat) (blocks : List Nat) : Option (List (Nat × Item)) :=
  lzLoop p code ((blocks.length + 1) * (code.length + 1)) (lzInit code blocks)

/-! ### The callers in `compress_code` -/

/-- `mtf_cost_heuristic`'s loop (pico_compress.py 432-436); the mask grows 16, 48, 112, 240, 496 so 9 rounds are enough
for table indexes. -/
def mtfCostLoop : Nat → Nat → Nat → Int → Int
  | 0, _, _, count => count
  | fuel + 1, chI, mask, count =>
    if chI ≥ mask then mtfCostLoop fuel chI ((mask <<< 1) ||| (1 <<< 4)) (count + 2) else count

/-- `mtf_cost_heuristic` (pico_compress.py 431-439). -/
def mtfCost (chI : Nat) : Int :=
  let count := mtfCostLoop 9 chI (1 <<< 4) 6
  if chI ≥ 16 then count - 1 else count

/-- The writer's table after the given items (pico_compress.py 523-537: only literals change it). -/
def mtfAfter (out : List (Nat × Item)) : List Nat :=
  out.foldl (fun mtf x => match x.2 with
    | .str [c] => updateMtf mtf (mtf.idxOf c) c
    | _ => mtf) initMtf

/-- `measure` of the PXA branch (pico_compress.py 441-455); items measured are matches or single characters.
(A character above 255 raises `ValueError` in the source; here it costs as index 256 and the writer fails on it.  An
offset below 1 raises `AssertionError` here in the source (utils.py 2552); in the model it is the writer that fails.) -/
def pxaMeasure (out : List (Nat × Item)) (ctxt : Option (List Nat)) : Item → Int × Option (List Nat)
  | .mat offset count =>
    let ob := offsetBits (offset - 1)
    let cb : Nat := ((count - 3) / 7 + 1) * 3
    (2 + (if ob < 15 then 1 else 0) + ob + cb, ctxt)
  | .str s =>
    let mtf := match ctxt with | some m => m | none => mtfAfter out
    let ch := s.headD 0
    let chI := mtf.idxOf ch
    (mtfCost chI, some (updateMtf mtf chI ch))

/-- `min_cost` (pico_compress.py 457-460). -/
def pxaMinCost (dist : Nat) : Int := max ((((dist : Int) - 3) / 7 + 1) * 3 - 11) 0

/-- `get_cheaper_c` (pico_compress.py 547-548) with `round_down` (utils.py 2601-2604); only called with `c ≥ 3`. -/
def pxaCheaperC (c : Nat) : Nat := (c - 3) / 7 * 7 + 2

/-- The variables of `preprocess_litblock_idxs` (pico_compress.py 464-472). -/
structure LitState where
  mtf : List Nat
  costs : List Int
  sum : Int
  inBlock : Bool
  idxs : List Nat

/-- `sum(ordered_costs[-j-1:])` for `j = 0, 1, …` (pico_compress.py 486): running sums from the end. -/
def suffixSums (costs : List Int) : List Int :=
  (costs.reverse.foldl (fun (acc : List Int × Int) c => (acc.1 ++ [acc.2 + c], acc.2 + c)) ([], 0)).1

/-- `max`/`min` over `range(32)` with a key: the first best index (pico_compress.py 485-486). -/
def argBest (better : Int → Int → Bool) : List Int → Nat → Nat × Int → Nat
  | [], _, best => best.1
  | x :: xs, j, best => argBest better xs (j + 1) (if better x best.2 then (j, x) else best)

/-- `add_last_cost` (pico_compress.py 473-488). -/
def addLastCost (s : LitState) (i : Nat) (cost : Int) : LitState :=
  let costI := i % 32
  let sum := s.sum - s.costs.getD costI 0 + cost
  let costs := s.costs.set costI cost
  if (i ≥ 32 ∧ !s.inBlock ∧ sum > 19) ∨ (s.inBlock ∧ sum < 0) then
    let inBlock := !s.inBlock
    let ordered := costs.drop (costI + 1) ++ costs.take (costI + 1)
    let sums := suffixSums ordered
    let bestJ := argBest (fun a b => if inBlock then decide (a > b) else decide (a < b)) (sums.drop 1) 1
      (0, sums.headD 0)
    { s with costs := costs, sum := sum, inBlock := inBlock, idxs := s.idxs ++ [i - bestJ] }
  else { s with costs := costs, sum := sum }

/-- The body of the loop over the preliminary items (pico_compress.py 491-499). -/
def litItem (s : LitState) (x : Nat × Item) : LitState :=
  match x.2 with
  | .mat _ count =>
    let cost := (20 - (count : Int) * 8) / count
    (List.range count).foldl (fun s j => addLastCost s (x.1 + j) cost) s
  | .str item =>
    let ch := item.headD 0
    let chI := s.mtf.idxOf ch
    addLastCost { s with mtf := updateMtf s.mtf chI ch } x.1 (mtfCost chI - 8)

/-- The preliminary `get_lz77(code, min_c=4, fast_c=1)` (pico_compress.py 490). -/
def preParams : LzParams (List Nat) :=
  { minC := 4, maxC := some 0x7fff, maxO := some 0x7fff, measure := none, minCost := none, cheaperC := none,
    maxOSteps := [], fastC := some 1, noRepeat := false }

/-- `preprocess_litblock_idxs` (pico_compress.py 463-504). -/
def litblockIdxs (code : List Nat) : Option (List Nat) :=
  match getLz77 preParams code [] with
  | none => none
  | some items =>
    let s := items.foldl litItem ⟨initMtf, List.replicate 32 0, 0, false, []⟩
    let s := (List.range 32).foldl (fun s i => addLastCost s (code.length + i) 0) s
    some s.idxs

/-- `get_lz77(code, min_c=3, max_c=None, fast_c=16)` (pico_compress.py 550-551). -/
def pxaFastParams : LzParams (List Nat) :=
  { minC := 3, maxC := none, maxO := some 0x7fff, measure := none, minCost := none, cheaperC := none,
    maxOSteps := [], fastC := some 16, noRepeat := false }

/-- The parameters of the optimal PXA mode (pico_compress.py 553-554). -/
def pxaOptParams : LzParams (List Nat) :=
  { minC := 3, maxC := none, maxO := some 0x7fff, measure := some pxaMeasure, minCost := some pxaMinCost,
    cheaperC := some pxaCheaperC, maxOSteps := [0x20, 0x400], fastC := none, noRepeat := false }

/-- `measure` of the legacy branch (pico_compress.py 572-578), in bytes; `inTable` tells whether a character is in
`k_old_inv_code_table`. -/
def oldMeasure (inTable : Nat → Bool) (_out : List (Nat × Item)) (ctxt : Option Unit) : Item → Int × Option Unit
  | .mat _ _ => (2, ctxt)
  | .str s => (if inTable (s.headD 0) then 1 else 2, ctxt)

/-- The parameters of the legacy branch (pico_compress.py 596-597). -/
def oldParams (inTable : Nat → Bool) (fast : Bool) : LzParams Unit :=
  { minC := 3, maxC := some 0x11, maxO := some 0xc3f,
    measure := if fast then none else some (oldMeasure inTable), minCost := none, cheaperC := none,
    maxOSteps := [], fastC := none, noRepeat := true }

/-- The items written in the PXA branch (pico_compress.py 550-556). -/
def pxaItems (fast : Bool) (code : List Nat) : Option (List (Nat × Item)) :=
  if fast then getLz77 pxaFastParams code []
  else
    match litblockIdxs code with
    | none => none
    | some idxs => getLz77 pxaOptParams code idxs

/-- The items written in the legacy branch (pico_compress.py 596). -/
def oldItems (inTable : Nat → Bool) (fast : Bool) (code : List Nat) : Option (List (Nat × Item)) :=
  getLz77 (oldParams inTable fast) code []

/-- `item in k_old_inv_code_table` (pico_compress.py 36, 575). -/
def inOldTable (ch : Nat) : Bool := (oldTable.idxOf? (some ch)).isSome

/-- `compress_code` (pico_compress.py 413-619) with its own match finder; `none` is any exception. -/
def compressFull (force fail old fast : Bool) (code : List Nat) : Option (List Nat) :=
  if code.length ≥ 0x3d00 || force then
    if old then
      match oldItems inOldTable fast code with
      | none => none
      | some items => compressOld code.length (items.map (·.2)) fail
    else
      match pxaItems fast code with
      | none => none
      | some items => compressNew code.length (items.map (·.2)) fail
  else encodeP8 code

end Verif
