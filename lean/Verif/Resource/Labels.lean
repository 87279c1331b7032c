import Verif.Utf8
import Verif.Wire.Hex

/-!
# Labels of resources as text (resource/resource.go)

with the parts of `strconv`, `regexp` and `strings` it uses, from their documentation.
-/

namespace Verif.Resource
open Verif Verif.Utf8 Verif.Wire

/-! ## strconv.Quote and strconv.Unquote -/

/-- `strconv.IsPrint`: for runes that are not ASCII the tables of Unicode are the parameter `P`. -/
def isPrint (P : Nat → Bool) (r : Nat) : Bool := if r < 0x80 then decide (0x20 ≤ r ∧ r ≤ 0x7E) else P r

/-- The last `n` hexadecimal digits of a number. -/
def hexN : Nat → Nat → Bytes
  | 0, _ => []
  | n + 1, r => hexN n (r / 16) ++ [hexDigit (UInt8.ofNat (r % 16))]

/-- `appendEscapedRune` of strconv with the quote `"`. The runes come from `decodeRune`, so the case of a
rune that is not valid does not arise. -/
def escapedRune (P : Nat → Bool) (r : Nat) : Bytes :=
  if r = 34 ∨ r = 92 then [92, UInt8.ofNat r]
  else if isPrint P r then encodeRune r
  else if r = 7 then [92, 97]
  else if r = 8 then [92, 98]
  else if r = 12 then [92, 102]
  else if r = 10 then [92, 110]
  else if r = 13 then [92, 114]
  else if r = 9 then [92, 116]
  else if r = 11 then [92, 118]
  else if r < 0x20 ∨ r = 0x7F then [92, 120] ++ hexN 2 r
  else if r < 0x10000 then [92, 117] ++ hexN 4 r
  else [92, 85] ++ hexN 8 r

/-- The loop of `strconv.Quote`; `fuel` is at least the length of the string. -/
def quoteLoop (P : Nat → Bool) : Nat → Bytes → Bytes
  | 0, _ => []
  | _ + 1, [] => []
  | fuel + 1, c :: s =>
    let (r, w) := decodeRune (c :: s)
    (if w = 1 ∧ r = runeError then [92, 120] ++ hexN 2 c.toNat else escapedRune P r) ++
      quoteLoop P fuel ((c :: s).drop w)

/-- What `strconv.Quote` writes between the quotes. -/
def quoteBody (P : Nat → Bool) (s : Bytes) : Bytes := quoteLoop P s.length s

/-- `strconv.Quote`. -/
def quote (P : Nat → Bool) (s : Bytes) : Bytes := 34 :: quoteBody P s ++ [34]

/-- The value of `n` hexadecimal digits, and what follows. -/
def readHex : Nat → Nat → Bytes → Option (Nat × Bytes)
  | 0, acc, s => some (acc, s)
  | _ + 1, _, [] => none
  | n + 1, acc, c :: s => match fromHexChar c with
    | some d => readHex n (acc * 16 + d.toNat) s
    | none => none

/-- The escapes of one letter. -/
def simpleEscape (e : UInt8) : Option UInt8 :=
  if e = 97 then some 7 else if e = 98 then some 8 else if e = 102 then some 12 else if e = 110 then some 10
  else if e = 114 then some 13 else if e = 116 then some 9 else if e = 118 then some 11
  else if e = 92 then some 92 else if e = 34 then some 34 else none

/-- An escape of three octal digits, of which `e` is the first. -/
def octalEscape (e : UInt8) : Bytes → Option (Bytes × Bytes)
  | d1 :: d2 :: t =>
    if 48 ≤ d1 ∧ d1 ≤ 55 ∧ 48 ≤ d2 ∧ d2 ≤ 55 then
      let v := (e.toNat - 48) * 64 + (d1.toNat - 48) * 8 + (d2.toNat - 48)
      if v < 256 then some ([UInt8.ofNat v], t) else none
    else none
  | _ => none

/-- A rune written as a number. -/
def runeEscape (n : Nat) (t : Bytes) : Option (Bytes × Bytes) :=
  (readHex n 0 t).bind fun (v, t) => if v < 0x110000 then some (encodeRune v, t) else none

/-- An escape, after the backslash. -/
def unquoteEscape : Bytes → Option (Bytes × Bytes)
  | [] => none
  | e :: t => match simpleEscape e with
    | some b => some ([b], t)
    | none =>
      if e = 120 then (readHex 2 0 t).map fun (v, t) => ([UInt8.ofNat v], t)
      else if e = 117 then runeEscape 4 t
      else if e = 85 then runeEscape 8 t
      else if 48 ≤ e ∧ e ≤ 55 then octalEscape e t
      else none

/-- `strconv.UnquoteChar` with the quote `"`: the bytes of the first character, and what follows. -/
def unquoteChar : Bytes → Option (Bytes × Bytes)
  | [] => none
  | c :: s =>
    if c = 34 then none
    else if 0x80 ≤ c.toNat then some (encodeRune (decodeRune (c :: s)).1, (c :: s).drop (decodeRune (c :: s)).2)
    else if c ≠ 92 then some ([c], s)
    else unquoteEscape s

/-- The loop of `strconv.Unquote`; `fuel` is at least the length of the string. -/
def unquoteLoop : Nat → Bytes → Option Bytes
  | 0, s => if s = [] then some [] else none
  | fuel + 1, s =>
    if s = [] then some []
    else match unquoteChar s with
      | none => none
      | some (b, t) => (unquoteLoop fuel t).map (b ++ ·)

/-- `strconv.Unquote` on a text that starts with `"` (others are not given to it here): an error unless it
ends with `"`, or if it has a newline. -/
def unquote (s : Bytes) : Option Bytes :=
  match s with
  | 34 :: t =>
    if t.getLast? = some 34 then
      let body := t.dropLast
      if 10 ∈ body then none else unquoteLoop body.length body
    else none
  | _ => none

/-! ## The regular expression, resource/resource.go:60

`^\s*([[:ascii:]]{1,256}?)=("[[:ascii:]]{0,256}?")\s*,` with the leftmost-first semantics of package regexp:
`\s*` takes as much, and the two lazy repetitions as little, as lets the rest match. A byte that is not
ASCII is matched by no part of it. -/

/-- `\s`. -/
def isWS (c : UInt8) : Bool := c = 9 || c = 10 || c = 12 || c = 13 || c = 32

/-- `[[:ascii:]]`. -/
def isAscii (c : UInt8) : Bool := decide (c.toNat < 0x80)

/-- `"\s*,` here: what follows it. (`\s*` takes all the white space: a comma is none.) -/
def closing : Bytes → Option Bytes
  | 34 :: t => match t.dropWhile isWS with
    | 44 :: rest => some rest
    | _ => none
  | _ => none

/-- `[[:ascii:]]{0,n}?"\s*,`: the text of the repetition, and what follows the match. -/
def matchValue : Nat → Bytes → Option (Bytes × Bytes)
  | n, s => match closing s with
    | some rest => some ([], rest)
    | none => match n, s with
      | n + 1, c :: t => if isAscii c then (matchValue n t).map fun (v, rest) => (c :: v, rest) else none
      | _, _ => none

/-- `="[[:ascii:]]{0,256}?"\s*,` here. -/
def matchEq : Bytes → Option (Bytes × Bytes)
  | 61 :: 34 :: t => matchValue 256 t
  | _ => none

/-- `[[:ascii:]]{0,n}?=("[[:ascii:]]{0,256}?")\s*,`: the key, the value without its quotes, what follows. -/
def matchKey : Nat → Bytes → Option (Bytes × Bytes × Bytes)
  | n, s => match matchEq s with
    | some (v, rest) => some ([], v, rest)
    | none => match n, s with
      | n + 1, c :: t => if isAscii c then (matchKey n t).map fun (k, v, rest) => (c :: k, v, rest) else none
      | _, _ => none

/-- The expression without `\s*`. -/
def matchHere : Bytes → Option (Bytes × Bytes × Bytes)
  | c :: t => if isAscii c then (matchKey 255 t).map fun (k, v, rest) => (c :: k, v, rest) else none
  | [] => none

/-- `labelRegex.FindStringSubmatch(s)`, resource/resource.go:74: `match[1]`, `match[2]` without its quotes,
and `s[len(match[0]):]`. -/
def labelRegex (s : Bytes) : Option (Bytes × Bytes × Bytes) :=
  (List.range ((s.takeWhile isWS).length + 1)).reverse.findSome? fun i => matchHere (s.drop i)

/-! ## strings -/

/-- The encodings of the runes of `unicode.IsSpace`. -/
def spaces : List Bytes :=
  [9, 10, 11, 12, 13, 32, 0x85, 0xA0, 0x1680, 0x2000, 0x2001, 0x2002, 0x2003, 0x2004, 0x2005, 0x2006, 0x2007, 0x2008,
   0x2009, 0x200A, 0x2028, 0x2029, 0x202F, 0x205F, 0x3000].map encodeRune

/-- A space at the beginning, and the loops of `strings.TrimSpace`; `fuel` is at least the length. -/
def trimLeft : Nat → Bytes → Bytes
  | 0, s => s
  | fuel + 1, s => match spaces.find? fun e => e.isPrefixOf s with
    | some e => trimLeft fuel (s.drop e.length)
    | none => s

def trimRight : Nat → Bytes → Bytes
  | 0, s => s
  | fuel + 1, s => match spaces.find? fun e => e.isSuffixOf s with
    | some e => trimRight fuel (s.take (s.length - e.length))
    | none => s

/-- `strings.TrimSpace`. -/
def trimSpace (s : Bytes) : Bytes :=
  let t := trimLeft s.length s
  trimRight t.length t

/-- `strings.TrimRight(s, ",")`. -/
def trimCommas (s : Bytes) : Bytes := (s.reverse.dropWhile (· = 44)).reverse

/-- Order of strings: that of their bytes. -/
def strLE : Bytes → Bytes → Bool
  | [], _ => true
  | _ :: _, [] => false
  | a :: s, b :: t => decide (a < b) || (decide (a = b) && strLE s t)

/-- `sort.Strings`: the sorted list (by insertion). -/
def insertStr (a : Bytes) : List Bytes → List Bytes
  | [] => [a]
  | b :: l => if strLE a b then a :: b :: l else b :: insertStr a l

def sortStrings : List Bytes → List Bytes
  | [] => []
  | a :: l => insertStr a (sortStrings l)

/-! ## resource.go -/

/-- One label, resource/resource.go:55: `labels[k]` is the empty string if there is none (which is not). -/
def encodeLabel (P : Nat → Bool) (labels : GoMap Bytes Bytes) (k : Bytes) : Bytes :=
  k ++ 61 :: quote P ((GoMap.get labels k).getD [])

/-- `EncodeLabels`, resource/resource.go:43-58. -/
def encodeLabels (P : Nat → Bool) (labels : GoMap Bytes Bytes) : Bytes :=
  join 44 ((sortStrings (GoMap.keys labels)).map (encodeLabel P labels))

/-- The loop of `DecodeLabels`, resource/resource.go:71-88. Each turn makes the string shorter, so the
length of the string is enough `fuel`; `none` would be the lack of it. -/
def decodeLoop : Nat → GoMap Bytes Bytes → Bytes → Option (Res (GoMap Bytes Bytes))
  | 0, m, s => if s = [] then some (.ok m) else none
  | fuel + 1, m, s =>
    if s = [] then some (.ok m)
    else match labelRegex s with
      | none => some .err
      | some (k, body, rest) =>
        let v := 34 :: body ++ [34]
        -- line 77: `match[2]` is never empty; `match[3]` does not exist
        if v = [] then some .panic
        else match unquote v with
          | none => some .err
          | some v => decodeLoop fuel (GoMap.set m k v) rest

/-- `DecodeLabels`, resource/resource.go:66-90. -/
def decodeLabels (s : Bytes) : Option (Res (GoMap Bytes Bytes)) :=
  let s := trimCommas (trimSpace s) ++ [44]
  decodeLoop s.length [] s

/-- `FromEnv`, resource/resource.go:94-107, with the values of the two environment variables: the type and
the labels (`none` is the nil map). -/
def fromEnv (typ labels : Bytes) : Option (Res (Bytes × Option (GoMap Bytes Bytes))) :=
  let l := trimSpace labels
  if l = [] then some (.ok (trimSpace typ, none))
  else (decodeLabels l).map fun r => r.bind fun m => .ok (trimSpace typ, some m)

end Verif.Resource
