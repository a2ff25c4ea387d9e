import Verif.Model.TzAbbr

/-!
# Specification: offsets from UTC as text, and tables of them
-/

namespace Verif.Spec

/-- A number below 100 as two digits. -/
def twoDigits (n : Nat) : Str := [Char.ofNat (48 + n / 10), Char.ofNat (48 + n % 10)]

/-- The text for an offset of that many hours and minutes, east of UTC or west of it; the minutes can be left out if they are 0. -/
def OffsetText (s : Str) (east : Bool) (h m : Nat) : Prop :=
  h < 100 ∧ m < 100 ∧
    ((s = "UTC".toList ++ [if east then '+' else '-'] ++ twoDigits h ∧ m = 0) ∨
      s = "UTC".toList ++ [if east then '+' else '-'] ++ twoDigits h ++ ":".toList ++ twoDigits m)

/-- The text means an offset of that many seconds east of UTC. -/
def Offset (s : Str) (secs : Int) : Prop :=
  ∃ east h m, OffsetText s east h m ∧ h < 24 ∧ m < 60 ∧ secs = if east then (h * 3600 + m * 60 : Int) else -(h * 3600 + m * 60 : Int)

end Verif.Spec
