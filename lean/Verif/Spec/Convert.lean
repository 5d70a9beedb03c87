import Verif.Model.Convert

/-!
# Values and their types

The specification of C44: which values a data type has.
-/

namespace Verif.Convert.Spec

variable {F : Type}

/-- a signed integer of the given number of bits -/
def Signed (bits : Nat) (i : Int) : Prop := -(2 ^ (bits - 1)) ≤ i ∧ i < 2 ^ (bits - 1)

instance (bits : Nat) (i : Int) : Decidable (Signed bits i) := by unfold Signed; infer_instance

/-- a date of the calendar and a time of day -/
def isTime (t : Time) : Prop :=
  t.year ≤ 9999 ∧ 1 ≤ t.month ∧ t.month ≤ 12 ∧ 1 ≤ t.day ∧
    t.day ≤ (if t.month = 2 then (if t.year % 4 = 0 ∧ (t.year % 100 ≠ 0 ∨ t.year % 400 = 0) then 29 else 28)
      else if t.month ∈ [4, 6, 9, 11] then 30 else 31) ∧
    t.hour < 24 ∧ t.minute < 60 ∧ t.second < 60 ∧ t.nano < 1000000000

instance (t : Time) : Decidable (isTime t) := by unfold isTime; infer_instance

/-- a time in UTC, in whole milliseconds -/
def isUTCMillis (t : Time) : Prop := isTime t ∧ t.offset = 0 ∧ t.nano % 1000000 = 0

instance (t : Time) : Decidable (isUTCMillis t) := by unfold isUTCMillis; infer_instance

/-- days from year 0 to the first of March of a year: years are taken to begin in March -/
def daysToMarch (y : Int) : Int := 365 * y + y / 4 - y / 100 + y / 400

/-- days from March to the first of a month, March being 0 -/
def daysToMonth (m : Int) : Int := (153 * m + 2) / 5

/-- nanoseconds since a fixed instant -/
def instant (t : Time) : Int :=
  let y : Int := if t.month ≤ 2 then (t.year : Int) - 1 else t.year
  let m : Int := if t.month ≤ 2 then (t.month : Int) + 9 else (t.month : Int) - 3
  let days := daysToMarch y + daysToMonth m + t.day
  (((days * 24 + t.hour) * 60 + t.minute) * 60 + t.second - t.offset) * 1000000000 + t.nano

/-- `ParseFloat` reads what `FormatFloat` writes (the shortest text that is read as the number) -/
def Exact (fl : Floats F) (ok64 ok32 : F → Prop) : Prop :=
  (∀ x : F, ok64 x → fl.parse64 (fl.format64 x) = x) ∧ (∀ x : F, ok32 x → fl.parse32 (fl.format32 x) = x)

/-- the values of a data type of Ecore -/
def HasType (ok64 ok32 : F → Prop) : EcoreType → Value F → Prop
  | .eBigDecimal, .float64 x | .eDouble, .float64 x | .eDoubleObject, .float64 x => ok64 x
  | .eFloat, .float32 x | .eFloatObject, .float32 x => ok32 x
  | .eBigInteger, .int64 i | .eLong, .int64 i => Signed 64 i
  | .eInt, .int i | .eIntegerObject, .int i | .eLongObject, .int i => Signed 64 i
  | .eShort, .int16 i | .eShortObject, .int16 i => Signed 16 i
  | .eBoolean, .bool _ | .eBooleanObject, .bool _ => True
  | .eByte, .byte _ | .eByteObject, .byte _ | .eChar, .byte _ | .eCharacterObject, .byte _ => True
  | .eByteArray, .bytes _ => True
  | .eString, .string _ => True
  | .eDate, .date t => isUTCMillis t
  | _, _ => False

/-- the values of a type by its name in Go or Java -/
def HasName (ok64 ok32 : F → Prop) (n : String) : Value F → Prop
  | .float64 x => n ∈ ["float64", "java.lang.Double", "double"] ∧ ok64 x
  | .float32 x => n ∈ ["float32", "java.lang.Float", "float"] ∧ ok32 x
  | .int i => n ∈ ["int", "java.lang.Integer"] ∧ Signed 64 i
  | .uint64 i => n ∈ ["uint64", "com.google.common.primitives.UnsignedLong"] ∧ i < 2 ^ 64
  | .int64 i => n ∈ ["int64", "java.lang.Long", "java.math.BigInteger", "long"] ∧ Signed 64 i
  | .int32 i => n ∈ ["int32"] ∧ Signed 32 i
  | .int16 i => n ∈ ["int16", "java.lang.Short", "short"] ∧ Signed 16 i
  | .int8 i => n ∈ ["int8"] ∧ Signed 8 i
  | .bool _ => n ∈ ["bool", "java.lang.Boolean", "boolean"]
  | .string _ => n ∈ ["string", "java.lang.String"]
  | _ => False

/-- the text of a literal: the literal, or the name if it is empty -/
def textOf (l : Literal) : Text := if l.literal = [] then l.name else l.literal

/-- what Go's types allow: integers in their range, dates of the calendar -/
def Allowed : Value F → Prop
  | .int i | .int64 i => Signed 64 i
  | .int32 i => Signed 32 i
  | .int16 i => Signed 16 i
  | .int8 i => Signed 8 i
  | .uint64 n => n < 2 ^ 64
  | .date t => isTime t
  | _ => True

/-- the Go type of the values of a data type of Ecore -/
def IsValueOf : EcoreType → Value F → Prop
  | .eBigDecimal, .float64 _ | .eDouble, .float64 _ | .eDoubleObject, .float64 _ => True
  | .eFloat, .float32 _ | .eFloatObject, .float32 _ => True
  | .eBigInteger, .int64 _ | .eLong, .int64 _ => True
  | .eInt, .int _ | .eIntegerObject, .int _ | .eLongObject, .int _ => True
  | .eShort, .int16 _ | .eShortObject, .int16 _ => True
  | .eBoolean, .bool _ | .eBooleanObject, .bool _ => True
  | .eByte, .byte _ | .eByteObject, .byte _ | .eChar, .byte _ | .eCharacterObject, .byte _ => True
  | .eByteArray, .bytes _ => True
  | .eString, .string _ => True
  | .eDate, .date _ => True
  | _, _ => False

/-- the number that a list of decimal digits stands for -/
def decimal (s : Text) : Nat := s.foldl (fun n c => 10 * n + (c - 48)) 0

/-- the text is an integer: digits, with or without a sign -/
def Denotes (s : Text) (i : Int) : Prop :=
  ∃ ds : Text, ds ≠ [] ∧ (∀ c ∈ ds, 48 ≤ c ∧ c ≤ 57) ∧
    ((s = ds ∨ s = 43 :: ds) ∧ i = decimal ds ∨ s = 45 :: ds ∧ i = -(decimal ds : Int))

end Verif.Convert.Spec
