import Verif.Utf8

/-!
# Sanitizing names (internal/sanitize.go)
-/

namespace Verif.Sanitize
open Verif Verif.Utf8

/-- The tables of package unicode: `unicode.IsLetter` and `unicode.IsDigit`. What is used of them is what
they say about ASCII and `RuneError`, and that the only digits of Latin-1 are those of ASCII. -/
structure Tables where
  letter : Nat → Bool
  digit : Nat → Bool
  letter_ascii : ∀ r < 0x80, letter r = decide ((65 ≤ r ∧ r ≤ 90) ∨ (97 ≤ r ∧ r ≤ 122))
  digit_latin : ∀ r < 0x100, digit r = decide (48 ≤ r ∧ r ≤ 57)
  err : letter runeError = false ∧ digit runeError = false

/-- `sanitizeRune`, internal/sanitize.go:44-50. -/
def sanitizeRune (T : Tables) (r : Nat) : Nat := if T.letter r || T.digit r then r else 95

/-- `strings.Map(f, s)` for an `f` that is never negative; `fuel` is at least the length. -/
def mapRunes (f : Nat → Nat) : Nat → Bytes → Bytes
  | 0, _ => []
  | _ + 1, [] => []
  | fuel + 1, c :: s =>
    encodeRune (f (decodeRune (c :: s)).1) ++ mapRunes f fuel ((c :: s).drop (decodeRune (c :: s)).2)

/-- `labelKeySizeLimit`, internal/sanitize.go:22. -/
def limit : Nat := 100

/-- Lines 35-40 of internal/sanitize.go; `s[0]` panics if there is none. -/
def prefixed (T : Tables) (s : Bytes) : Res Bytes :=
  match s with
  | [] => .panic
  | c :: _ =>
    let s := if T.digit c.toNat then str "key_" ++ s else s
    match s with
    | [] => .panic
    | c :: _ => .ok (if c = 95 then str "key" ++ s else s)

/-- `Sanitize`, internal/sanitize.go:26-42. -/
def sanitize (T : Tables) (s : Bytes) : Res Bytes :=
  if s.length = 0 then .ok s
  else
    let s := if s.length > limit then s.take limit else s
    prefixed T (mapRunes (sanitizeRune T) s.length s)

end Verif.Sanitize
