/-
Model of Picotron carts kept as directories: `read_cart64_from_fs` and `write_cart64_to_fs` (picotron_cart.py 547-602) with the functions of utils.py
(2440-2478) they use.

Texts are lists of character codes.  A path of the file system is the list of its components from the root, without `.` and `..` (Python and the system
resolve these as `join` does; symbolic links and Windows drives are not modelled).  The file system is a list of entries; the first one counts.  Permissions and
full disks are not modelled.
-/
namespace Verif.CartDir

abbrev Name := List Nat
abbrev Path := List Name
abbrev Key := List Nat

/-- A directory, or a file with its bytes (`PicotronDir` and `PicotronFile`, and what the file system holds). -/
inductive Entry where
  | dir
  | file (data : List Nat)
deriving DecidableEq, Repr

def Entry.isDir : Entry → Bool
  | .dir => true
  | .file _ => false

/-- `Cart64.files`: a dictionary in order of insertion. -/
abbrev Files := List (Key × Entry)

/-- `files[k] = e`. -/
def put : Files → Key → Entry → Files
  | [], k, e => [(k, e)]
  | (k', e') :: fs, k, e => if k' = k then (k, e) :: fs else (k', e') :: put fs k e

/-! ### The file system -/

abbrev Fs := List (Path × Entry)

/-- What is at a path. -/
def Fs.get (fs : Fs) (p : Path) : Option Entry := fs.lookup p

/-- `path_is_dir`. -/
def Fs.isDir (fs : Fs) (p : Path) : Bool := p.isEmpty || fs.get p == some .dir

/-- A new or replaced entry. -/
def Fs.set (fs : Fs) (p : Path) (e : Entry) : Fs := (p, e) :: fs.filter (·.1 != p)

/-- `shutil.rmtree`. -/
def Fs.rmtree (fs : Fs) (p : Path) : Fs := fs.filter fun x => !p.isPrefixOf x.1

/-- `os.makedirs`, called for `p`, `p` without its last component, and so on until a directory exists; it fails below a file. -/
def Fs.mkdirs (fs : Fs) : List Name → Path → Option Fs
  | [], _ => some fs
  | x :: xs, p =>
    match fs.get (p ++ [x]) with
    | some (.file _) => none
    | some .dir => Fs.mkdirs fs xs (p ++ [x])
    | none => Fs.mkdirs (fs.set (p ++ [x]) .dir) xs (p ++ [x])

/-- `dir_ensure_exists` (utils.py 2463-2468): it does nothing when something exists at `p`, be it a file. -/
def Fs.ensureDir (fs : Fs) (p : Path) : Option Fs := if (fs.get p).isSome then some fs else fs.mkdirs p []

/-- `file_write` (utils.py 2300-2303): the directory must exist, and no directory of this name. -/
def Fs.write (fs : Fs) (p : Path) (data : List Nat) : Fs × Bool :=
  if fs.isDir p || !fs.isDir p.dropLast then (fs, false) else (fs.set p (.file data), true)

/-- `dir_names` (utils.py 2476-2478). -/
def Fs.names (fs : Fs) (p : Path) : List Name :=
  fs.filterMap fun x => if x.1.isEmpty || x.1.dropLast != p then none else x.1.getLast?

/-- A text cut at slashes. -/
def segs : List Nat → List (List Nat)
  | [] => [[]]
  | c :: s => if c = 47 then [] :: segs s else
    match segs s with
    | w :: ws => (c :: w) :: ws
    | [] => [[c]]

/-- One step down (or up) the file system. -/
def step (p : Path) (n : Name) : Path := if n = [] ∨ n = [46] then p else if n = [46, 46] then p.dropLast else p ++ [n]

/-- `path_join`, and what the result means: a second part that starts with a slash replaces the first. -/
def join (p : Path) (s : List Nat) : Path := if s.head? = some 47 then (segs s).foldl step [] else (segs s).foldl step p

/-- `path_basename`. -/
def basename (s : List Nat) : List Nat := (segs s).getLastD []

/-- `path_is_inside` (utils.py 2440-2447): the relative path does not begin with `..`. -/
def inside (p base : Path) : Bool := base.isPrefixOf p

/-! ### Writing -/

/-- `fspath += "/"` for a directory below the top (558-560, 585-586). -/
def dirKey (k : Key) : Key := if k ≠ [] ∧ k.getLast? ≠ some 47 then k ++ [47] else k

/-- `write_cart64_to_fs` for a file (596-602).  `false`: an exception. -/
def writeFile (c : Files) (fs : Fs) (p : Path) (k : Key) : Fs × Bool :=
  let p := if fs.isDir p then join p (basename k) else p
  match c.lookup k with
  | some (.file d) => fs.write p d
  | _ => (fs, false)

/-- The loop over the files of the cart (589-595): those directly in the directory `k`.  `go` is the recursive call. -/
def children (go : Fs → Path → Key → Entry → Fs × Bool) (p : Path) (k : Key) : Files → Fs → Fs × Bool
  | [], fs => (fs, true)
  | (ck, e) :: rest, fs =>
    if k.isPrefixOf ck && (ck.drop k.length).count 47 == (if e.isDir then 1 else 0) then
      let cp := join p (ck.drop k.length)
      if inside cp p then
        let r := go fs cp ck e
        if r.2 then children go p k rest r.1 else r
      else (fs, false)
    else children go p k rest fs

/-- `write_cart64_to_fs` for a directory (584-595), with a bound on the depth. -/
def writeDir (c : Files) : Nat → Fs → Path → Key → Fs × Bool
  | 0, fs, _, _ => (fs, false)
  | n + 1, fs, p, k =>
    match fs.ensureDir p with
    | none => (fs, false)
    | some fs => children (fun fs p k e => if e.isDir then writeDir c n fs p k else writeFile c fs p k) p (dirKey k) c fs

/-- No directory is deeper than this. -/
def depth (c : Files) : Nat := (c.map (·.1.length)).sum + 1

/-- `write_cart64` with format `dir` (663-664); what is there is deleted first if so wanted (`dir_create`, utils.py 2470-2474), which fails for a file. -/
def writeCart (c : Files) (deleteExisting : Bool) (fs : Fs) (p : Path) : Fs × Bool :=
  if deleteExisting then
    match fs.get p with
    | some (.file _) => (fs, false)
    | _ => writeDir c (depth c) (fs.rmtree p) p []
  else writeDir c (depth c) fs p []

/-! ### Reading -/

/-- `read_cart64_from_fs` (547-575) for what is at a path: `go` reads a directory, and a file is read if it is wanted (570-573). -/
def readAt (keep : Key → Bool) (go : Files → Files) (k : Key) (files : Files) : Option Entry → Files
  | some .dir => go files
  | some (.file d) => if keep k then put files k (.file d) else files
  | none => files

/-- `read_cart64_from_fs` (547-575) for a directory.  `keep` says which files are wanted (`sections`); bound on the depth as above.  The names found in a directory
have no slashes and are neither `.` nor `..`, so that joining them is `p ++ [x]`. -/
def readDir (keep : Key → Bool) (fs : Fs) : Nat → Path → Key → Files → Files
  | 0, _, _, files => files
  | n + 1, p, k, files =>
    let k := dirKey k
    (fs.names p).foldl (fun files x => readAt keep (readDir keep fs n (p ++ [x]) (k ++ x)) (k ++ x) files (fs.get (p ++ [x])))
      (if k ≠ [] then put files k .dir else files)

/-- `read_cart64` with format `dir` (640-641). -/
def readCart (keep : Key → Bool) (fs : Fs) (p : Path) : Files := readDir keep fs ((fs.map (·.1.length)).sum + 1) p [] []

/-! ### Other operations on the files of a cart -/

/-- `filter_cart64` (671-675); `matches` stands for the patterns (C47). -/
def filterCart (keep : Key → Bool) (c : Files) : Files := c.filter fun x => keep x.1

end Verif.CartDir
