import Verif.Model.Base
import Verif.Model.Util

/-!
# Strings of the bundled library (`/repo/libmy/string_replace.h`, `/repo/libmy/print_string.h`)

A string of C is the list of its bytes before the NUL.  `isprint` is that of the C locale.
-/

namespace Verif.CStrings

/-- `strstr` (`/repo/libmy/string_replace.h:31,39`): where the first occurrence begins. -/
def strstr (old : Bytes) : Bytes → Option Nat
  | [] => if old.isPrefixOf [] then some 0 else none
  | c :: s => if old.isPrefixOf (c :: s) then some 0 else (strstr old s).map (· + 1)

/-- The loop with the append after it, `/repo/libmy/string_replace.h:39-48`: `s` is what `str` points to and `u` the buffer; the first
argument bounds the number of rounds.  The NUL of `s` is one before `end`, so that `str + strlen(old) >= end` compares with the length
of `s` and one. -/
def replaceLoop (old new : Bytes) : Nat → Bytes → Bytes → Out Bytes
  | 0, _, _ => .fault .diverge
  | fuel + 1, s, u =>
    match strstr old s with
    | none => .ok (u ++ s)
    | some offset =>
      let u := u ++ s.take offset ++ new
      let s := s.drop offset
      if old.length ≥ s.length + 1 then .ok (u ++ s) else replaceLoop old new fuel (s.drop old.length) u

/-- `string_replace`, `/repo/libmy/string_replace.h:24-54`: the string that is returned. -/
def stringReplace (s old new : Bytes) : Out Bytes :=
  match strstr old s with
  | none => .ok s
  | some _ => replaceLoop old new (s.length + 1) s []

/-- `isprint` of the C locale (`/repo/libmy/print_string.h:31`). -/
def isprint (c : UInt8) : Bool := 32 ≤ c && c ≤ 126

/-- A digit of `%02x` (`/repo/libmy/print_string.h:37`). -/
def lowHex (n : UInt8) : UInt8 := if n < 10 then 48 + n else 87 + n

/-- What one byte becomes, `/repo/libmy/print_string.h:30-38`. -/
def printByte (c : UInt8) : Bytes :=
  if isprint c then if c = 34 then [92, 34] else [c] else [92, 120, lowHex (c >>> 4), lowHex (c &&& 15)]

/-- The loop, `/repo/libmy/print_string.h:29-39`. -/
def printLoop : Bytes → Bytes
  | [] => []
  | c :: s => printByte c ++ printLoop s

/-- `print_string`, `/repo/libmy/print_string.h:24-41`: what is written to the stream. -/
def printString (s : Bytes) : Bytes := [34] ++ printLoop s ++ [34]

end Verif.CStrings
