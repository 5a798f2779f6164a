/-
Model of `topologic_sort` (picotron_defs.py 225-247) and `Cart64Glob` (156-173).
Nodes are numbers; the graph is the list of (node, dependencies) in the order of the dictionary.
-/
namespace Verif

abbrev Graph := List (Nat × List Nat)

/-- `graph[node]`. -/
def Graph.deps (g : Graph) (n : Nat) : List Nat := (g.lookup n).getD []

/-- `backcount` after the first loop (226-229). -/
def Graph.backcount (g : Graph) (n : Nat) : Int := (g.flatMap (·.2)).count n

/-- Each element once, at its first place. -/
def firsts : List Nat → List Nat → List Nat
  | _, [] => []
  | seen, x :: xs => if x ∈ seen then firsts seen xs else x :: firsts (x :: seen) xs

/-- The keys of `backcount`, in order of insertion. -/
def Graph.counted (g : Graph) : List Nat := firsts [] (g.flatMap (·.2))

/-- The loop over the dependencies of a node (237-240).  The stack `next` has its last element first. -/
def relax : List Nat → (Nat → Int) → List Nat → (Nat → Int) × List Nat
  | [], cnt, next => (cnt, next)
  | d :: ds, cnt, next =>
    let c := cnt d - 1
    relax ds (fun n => if n = d then c else cnt n) (if c = 0 then d :: next else next)

/-- The main loop (233-240), with a bound on the iterations; `result` has its last element first. -/
def topoLoop (g : Graph) : Nat → (Nat → Int) → List Nat → List Nat → List Nat × List Nat × (Nat → Int)
  | 0, cnt, next, result => (next, result, cnt)
  | _ + 1, cnt, [], result => ([], result, cnt)
  | fuel + 1, cnt, node :: next, result =>
    let r := relax (g.deps node) cnt next
    topoLoop g fuel r.1 r.2 (node :: result)

/-- `topologic_sort` (225-247).  As many iterations as nodes are enough (`topo_ends`). -/
def topoSort (g : Graph) : List Nat :=
  let next := ((g.map (·.1)).filter fun n => g.backcount n == 0).reverse
  let r := topoLoop g g.length g.backcount next []
  (g.counted.filter fun n => r.2.2 n != 0).reverse ++ r.2.1

/-- `Cart64Glob.__init__` (157-164): the pattern and its action. -/
def globRule (pattern : List Nat) : List Nat × Bool := if pattern.head? = some 33 then (pattern.tail, false) else (pattern, true)

/-- `Cart64Glob.matches` (166-173); `mat` stands for the compiled `fnmatch` pattern. -/
def globLoop (mat : List Nat → Bool) : List (List Nat × Bool) → Bool → Bool
  | [], result => result
  | p :: ps, result => if mat p.1 then (if p.2 then globLoop mat ps true else false) else globLoop mat ps result

def globMatches (mat : List Nat → List Nat → Bool) (patterns : List (List Nat)) (path : List Nat) : Bool :=
  globLoop (fun p => mat p path) (patterns.map globRule) false

end Verif
