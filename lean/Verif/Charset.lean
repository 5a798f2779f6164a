/-
Model of the P8SCII character set and its conversion from and to Unicode (pico_defs.py 160-219).

Unicode strings are lists of code points (`Nat`; Python strings may contain lone surrogates, so `Char` would not do);
P8SCII strings are lists of character codes below 256.
-/
namespace Verif

/-- `k_charset` (pico_defs.py 161-180): the Unicode text (one or two code points) of each P8SCII character. -/
@[irreducible] def charset : List (List Nat) := [
  [0], [185], [178], [179], [8308], [8309], [8310], [8311],
  [8312], [9], [10], [7495], [7580], [13], [7497], [7584],
  [9646], [9632], [9633], [8281], [8280], [8214], [9664], [9654],
  [12300], [12301], [165], [8226], [12289], [12290], [12443], [12444],
  [32], [33], [34], [35], [36], [37], [38], [39],
  [40], [41], [42], [43], [44], [45], [46], [47],
  [48], [49], [50], [51], [52], [53], [54], [55],
  [56], [57], [58], [59], [60], [61], [62], [63],
  [64], [65], [66], [67], [68], [69], [70], [71],
  [72], [73], [74], [75], [76], [77], [78], [79],
  [80], [81], [82], [83], [84], [85], [86], [87],
  [88], [89], [90], [91], [92], [93], [94], [95],
  [96], [97], [98], [99], [100], [101], [102], [103],
  [104], [105], [106], [107], [108], [109], [110], [111],
  [112], [113], [114], [115], [116], [117], [118], [119],
  [120], [121], [122], [123], [124], [125], [126], [9675],
  [9608], [9618], [128049], [11015, 65039], [9617], [10045], [9679], [9829],
  [9737], [50883], [8962], [11013, 65039], [128528], [9834], [127358, 65039], [9670],
  [8230], [10145, 65039], [9733], [10711], [11014, 65039], [711], [8743], [10062],
  [9636], [9637], [12354], [12356], [12358], [12360], [12362], [12363],
  [12365], [12367], [12369], [12371], [12373], [12375], [12377], [12379],
  [12381], [12383], [12385], [12388], [12390], [12392], [12394], [12395],
  [12396], [12397], [12398], [12399], [12402], [12405], [12408], [12411],
  [12414], [12415], [12416], [12417], [12418], [12420], [12422], [12424],
  [12425], [12426], [12427], [12428], [12429], [12431], [12434], [12435],
  [12387], [12419], [12421], [12423], [12450], [12452], [12454], [12456],
  [12458], [12459], [12461], [12463], [12465], [12467], [12469], [12471],
  [12473], [12475], [12477], [12479], [12481], [12484], [12486], [12488],
  [12490], [12491], [12492], [12493], [12494], [12495], [12498], [12501],
  [12504], [12507], [12510], [12511], [12512], [12513], [12514], [12516],
  [12518], [12520], [12521], [12522], [12523], [12524], [12525], [12527],
  [12530], [12531], [12483], [12515], [12517], [12519], [9692], [9693]]

/-- `k_unicap_chars` (pico_defs.py 186). -/
@[irreducible] def unicapChars : List (List Nat) := [
  [120354], [120355], [120356], [120357], [120358], [120359], [120360], [120361],
  [120362], [120363], [120364], [120365], [120366], [120367], [120368], [120369],
  [120370], [120371], [120372], [120373], [120374], [120375], [120376], [120377],
  [120378], [120379]]

/-- `k_unicap_charset` (pico_defs.py 191): `A` is 65, `Z` is 90. -/
@[irreducible] def unicapCharset : List (List Nat) := charset.take 65 ++ unicapChars ++ charset.drop 91

/-- The position of the last occurrence of `s` in `l`, counting from `i`. -/
def lastIdx (s : List Nat) : List (List Nat) → Nat → Option Nat
  | [], _ => none
  | x :: xs, i =>
    match lastIdx s xs (i + 1) with
    | some k => some k
    | none => if x = s then some i else none

/-- `k_charset_map[s]` (pico_defs.py 184-188): the italics are added after (so override) the plain characters; a later entry
of an enumeration overrides an earlier one. -/
@[irreducible] def charsetMap (s : List Nat) : Option Nat :=
  match lastIdx s unicapChars 65 with
  | some k => some k
  | none => lastIdx s charset 0

/-- `ch.encode(errors="surrogateescape")`: UTF-8, where the surrogates DC80..DCFF stand for a raw byte; `none` is the
`UnicodeEncodeError` of any other surrogate. -/
def utf8SurrogateEscape (c : Nat) : Option (List Nat) :=
  if c < 0x80 then some [c]
  else if c < 0x800 then some [0xc0 + c / 64, 0x80 + c % 64]
  else if 0xd800 ≤ c ∧ c < 0xe000 then
    if 0xdc80 ≤ c ∧ c < 0xdd00 then some [c - 0xdc00] else none
  else if c < 0x10000 then some [0xe0 + c / 4096, 0x80 + c / 64 % 64, 0x80 + c % 64]
  else some [0xf0 + c / 262144, 0x80 + c / 4096 % 64, 0x80 + c / 64 % 64, 0x80 + c % 64]

/-- One round of the loop of `to_p8str` (pico_defs.py 203-217): the characters appended and the new `ignore_next`. -/
def toP8Step (ign : Bool) (ch : Nat) (rest : List Nat) : Option (List Nat × Bool) :=
  if ch < 0x80 then some ([ch], ign)
  else match charsetMap [ch] with
    | some k => some ([k], ign)
    | none =>
      if ign then some ([], false)
      else match charsetMap (ch :: rest.take 1) with
        | some k => some ([k], true)
        | none => (utf8SurrogateEscape ch).map fun bs => (bs, ign)

/-- The loop of `to_p8str` (pico_defs.py 199-218); `ign` is `ignore_next`.  `none` is the `UnicodeEncodeError`. -/
def toP8 : Bool → List Nat → Option (List Nat)
  | _, [] => some []
  | ign, ch :: rest =>
    match toP8Step ign ch rest with
    | none => none
    | some (bs, ign') => (toP8 ign' rest).map (bs ++ ·)

/-- `to_p8str` (pico_defs.py 199-218). -/
def toP8str (t : List Nat) : Option (List Nat) := toP8 false t

/-- `from_p8str` (pico_defs.py 220-223).  Characters above 255 would raise `IndexError`; they do not occur in a p8str. -/
def fromP8str (unicaps : Bool) (s : List Nat) : List Nat :=
  s.flatMap fun c => (if unicaps then unicapCharset else charset).getD c []

end Verif
