/-
Specifications for icons, independent of the model: Apple icon files (https://en.wikipedia.org/wiki/Apple_Icon_Image_format), the parts of
Windows programs that lead to an icon (PE format, https://learn.microsoft.com/windows/win32/debug/pe-format), and strings that end with NUL.
-/
namespace Verif.IconSpec

/-! ### Apple icons -/

/-- A number of four bytes, highest first. -/
def Big32 (bs : List Nat) (n : Nat) : Prop :=
  ∃ a b c d, bs = [a, b, c, d] ∧ a < 256 ∧ b < 256 ∧ c < 256 ∧ d < 256 ∧ n = a * 16777216 + b * 65536 + c * 256 + d

/-- The elements of an icon file: type, size with these eight bytes, data. -/
inductive Elements : List (List Nat × List Nat) → List Nat → Prop
  | nil : Elements [] []
  | cons {t size data rest : List Nat} {es : List (List Nat × List Nat)} (ht : t.length = 4) (hs : Big32 size (8 + data.length)) (h : Elements es rest) :
      Elements ((t, data) :: es) (t ++ size ++ data ++ rest)

/-- A file: `icns`, its size, its elements. -/
def File (es : List (List Nat × List Nat)) (bs : List Nat) : Prop :=
  ∃ size body, bs = [105, 99, 110, 115] ++ size ++ body ∧ Big32 size bs.length ∧ Elements es body

/-- Packed bytes: a number below 128 is followed by one byte more than it says, to be copied; from 128 on, the byte after it stands for three
(at 128) to 130 of it. -/
inductive Packed : List Nat → List Nat → Prop
  | nil : Packed [] []
  | copy {l out rest : List Nat} {n : Nat} (hn : n < 128) (hl : l.length = n + 1) (h : Packed out rest) : Packed (l ++ out) (n :: l ++ rest)
  | run {b n : Nat} {out rest : List Nat} (hn : 128 ≤ n ∧ n < 256) (h : Packed out rest) : Packed (List.replicate (n - 125) b ++ out) (n :: b :: rest)

/-- An icon of 128 by 128 pixels: the red, green and blue of all pixels, and the mask. -/
structure Icon (r g b mask bs : List Nat) : Prop where
  size : r.length = 16384 ∧ g.length = 16384 ∧ b.length = 16384 ∧ mask.length = 16384
  file : ∃ packed, Packed (r ++ g ++ b) packed ∧ File [([105, 116, 51, 50], [0, 0, 0, 0] ++ packed), ([116, 56, 109, 107], mask)] bs

/-! ### Windows programs -/

/-- Numbers of two and four bytes, lowest first, at a position. -/
def U16 (d : List Nat) (p v : Nat) : Prop := ∃ a b, d[p]? = some a ∧ d[p + 1]? = some b ∧ v = a + b * 256
def U32 (d : List Nat) (p v : Nat) : Prop :=
  ∃ a b c e, d[p]? = some a ∧ d[p + 1]? = some b ∧ d[p + 2]? = some c ∧ d[p + 3]? = some e ∧ v = a + b * 256 + c * 65536 + e * 16777216

/-- The headers: `MZ`, at 60 the position `pe` of `PE`, after it the COFF header (20 bytes) with the number of sections and the size of the optional header,
which begins with 0x10b (then its data directories begin at 96) or 0x20b (at 112); the third of them is that of the resources. -/
structure Headers (d : List Nat) (numSections table rsrcRva : Nat) : Prop where
  mz : d[0]? = some 77 ∧ d[1]? = some 90
  rest : ∃ pe optSize magic dirs, U32 d 60 pe ∧ d[pe]? = some 80 ∧ d[pe + 1]? = some 69 ∧ d[pe + 2]? = some 0 ∧ d[pe + 3]? = some 0 ∧
    U16 d (pe + 4 + 2) numSections ∧ U16 d (pe + 4 + 16) optSize ∧ table = pe + 4 + 20 + optSize ∧
    U16 d (pe + 4 + 20) magic ∧ ((magic = 0x10b ∧ dirs = 96) ∨ (magic = 0x20b ∧ dirs = 112)) ∧ U32 d (pe + 4 + 20 + dirs + 8 * 2) rsrcRva

/-- A section in the table: 40 bytes each; the size and address in memory at 8 and 12, the position in the file at 20. -/
structure InTable (d : List Nat) (table i size addr pos : Nat) : Prop where
  size : U32 d (table + 40 * i + 8) size
  addr : U32 d (table + 40 * i + 12) addr
  pos : U32 d (table + 40 * i + 20) pos

/-- The address `rva` in memory is the position `p` of the file. -/
def At (d : List Nat) (n table rva p : Nat) : Prop :=
  ∃ i size addr pos, i < n ∧ InTable d table i size addr pos ∧ addr ≤ rva ∧ rva < addr + size ∧ p = pos + (rva - addr)

/-- The directory of resources at `dir` has an entry with the number `id` that says `v`: entries of 8 bytes follow its 16 bytes, first those with names. -/
def Entry (d : List Nat) (dir id v : Nat) : Prop :=
  ∃ named numbered i, U16 d (dir + 12) named ∧ U16 d (dir + 14) numbered ∧ i < numbered ∧
    U32 d (dir + 16 + 8 * (named + i)) id ∧ U32 d (dir + 16 + 8 * (named + i) + 4) v

/-- The resource of the type `type`, number `id`, in the language `lang`, is described at the position `p`. -/
def Resource (d : List Nat) (rsrc type id lang p : Nat) : Prop :=
  ∃ a b c, Entry d rsrc type (2147483648 + a) ∧ Entry d (rsrc + a) id (2147483648 + b) ∧ Entry d (rsrc + b) lang c ∧ c < 2147483648 ∧ p = rsrc + c

/-- The data of icon (type 3) number 1 in English (0x409) has `size` bytes and is at the position `p`. -/
def IconAt (d : List Nat) (p size : Nat) : Prop :=
  ∃ n table rsrcRva rsrc q rva, Headers d n table rsrcRva ∧ At d n table rsrcRva rsrc ∧ Resource d rsrc 3 1 0x409 q ∧
    U32 d q rva ∧ U32 d (q + 4) size ∧ At d n table rva p

/-- The directories of resources: the first one, and those that entries lead to. -/
inductive Dir (d : List Nat) (rsrc : Nat) : Nat → Prop
  | root : Dir d rsrc rsrc
  | sub {dir id a : Nat} (h : Dir d rsrc dir) (he : Entry d dir id (2147483648 + a)) : Dir d rsrc (rsrc + a)

/-- What makes sense of a program: it has the whole table of sections, no address is in two sections, and no directory has two entries with the same number. -/
structure Proper (d : List Nat) : Prop where
  bytes : ∀ x ∈ d, x < 256
  table : ∀ n table r, Headers d n table r → table + 40 * n ≤ d.length
  sections : ∀ n table r, Headers d n table r → ∀ rva p p', At d n table rva p → At d n table rva p' → p = p'
  entries : ∀ n table r rsrc, Headers d n table r → At d n table r rsrc → ∀ dir, Dir d rsrc dir → ∀ id v v', Entry d dir id v → Entry d dir id v' → v = v'

/-! ### Strings that end with NUL -/

/-- `z` is what `s` is from the first place on where it has `pre`. -/
def From (pre s z : List Nat) : Prop :=
  ∃ a, s = a ++ z ∧ pre <+: z ∧ ∀ a' z', s = a' ++ z' → pre <+: z' → a.length ≤ a'.length

/-- The first string in `data` that has `pre` and, from there on, `inf`. -/
inductive Found (pre inf : List Nat) : List Nat → List Nat → Prop
  | here {s z rest : List Nat} (h0 : 0 ∉ s) (hf : From pre s z) (hi : inf <:+: z) : Found pre inf (s ++ 0 :: rest) z
  | later {s z rest : List Nat} (h0 : 0 ∉ s) (hf : ∀ z', From pre s z' → ¬ inf <:+: z') (h : Found pre inf rest z) : Found pre inf (s ++ 0 :: rest) z

end Verif.IconSpec
