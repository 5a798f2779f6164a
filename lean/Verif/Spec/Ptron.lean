import Verif.Spec.Lz4
/-!
The ROM form of a Picotron cartridge, written down independently of the functions that read and write it.
-/
namespace Verif.PtronFormat

/-- A file or directory: the path and a NUL; for a file also the size, as one byte below 255 or as 255 and four bytes
(little-endian), and the data.  Directory paths are those that end with a slash. -/
inductive Entry : List Nat × Option (List Nat) → List Nat → Prop
  | dir {path : List Nat} (h0 : 0 ∉ path) (hs : ∃ p, path = p ++ [0x2f]) : Entry (path, none) (path ++ [0])
  | short {path data : List Nat} (h0 : 0 ∉ path) (hs : ¬ ∃ p, path = p ++ [0x2f]) (hl : data.length < 255) :
      Entry (path, some data) (path ++ 0 :: data.length :: data)
  | long {path data : List Nat} (h0 : 0 ∉ path) (hs : ¬ ∃ p, path = p ++ [0x2f]) (hl : data.length < 256 ^ 4) :
      Entry (path, some data) (path ++ [0, 255, data.length % 256, data.length / 256 % 256, data.length / 256 ^ 2 % 256,
        data.length / 256 ^ 3] ++ data)

/-- Files and directories one after the other. -/
inductive Entries : List (List Nat × Option (List Nat)) → List Nat → Prop
  | nil : Entries [] []
  | cons {f : List Nat × Option (List Nat)} {fs b bs} (h : Entry f b) (hs : Entries fs bs) : Entries (f :: fs) (b ++ bs)

/-- `p64`, the version, the size of the LZ4 block, the block, and possibly padding. -/
def IsRom (bytes : List Nat) (version : Nat) (files : List (List Nat × Option (List Nat))) : Prop :=
  ∃ body block pad, Entries files body ∧ Lz4Format.IsBlock block body ∧ version < 256 ∧ block.length < 256 ^ 4 ∧
    bytes = [0x70, 0x36, 0x34, version, block.length % 256, block.length / 256 % 256, block.length / 256 ^ 2 % 256,
      block.length / 256 ^ 3] ++ block ++ pad

end Verif.PtronFormat
