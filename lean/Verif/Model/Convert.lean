/-!
# Conversion of values to and from text

`CreateFromString` and `ConvertToString` of the factory of dynamic packages (ecore/efactory_ext.go) and of the factory of the
Ecore package (ecore/ecorefactory_impl.go), with the functions of Go's `strconv` and `time` they call.

Strings are the lists of their bytes.  Panics are `none`.  The formatting of floating point numbers is not modelled: it is a
parameter, as are the numbers.
-/

namespace Verif.Convert

/-- a string: its bytes -/
abbrev Text := List Nat

/-- A time: date and time of day as shown in its zone, and the offset of the zone in seconds. -/
structure Time where
  year : Nat := 1
  month : Nat := 1
  day : Nat := 1
  hour : Nat := 0
  minute : Nat := 0
  second : Nat := 0
  nano : Nat := 0
  offset : Int := 0
deriving DecidableEq, Repr

/-- the values; `other` is a value of any other type -/
inductive Value (F : Type) where
  | float64 (x : F)
  | float32 (x : F)
  | int (i : Int)
  | uint64 (n : Nat)
  | int64 (i : Int)
  | int32 (i : Int)
  | int16 (i : Int)
  | int8 (i : Int)
  | bool (b : Bool)
  | string (s : Text)
  | byte (b : Nat)
  | bytes (l : Text)
  | date (t : Time)
  | other
deriving DecidableEq, Repr

/-- floating point numbers: zero, `FormatFloat` with 64 and with 32 bits, `ParseFloat` with errors ignored -/
structure Floats (F : Type) where
  zero : F
  format64 : F → Text
  format32 : F → Text
  parse64 : Text → F
  parse32 : Text → F

/-! ### strconv -/

/-- digits of a number, base 10 (`strconv.FormatUint`) -/
def formatNat (n : Nat) : Text :=
  if n < 10 then [48 + n] else formatNat (n / 10) ++ [48 + n % 10]

/-- `strconv.FormatInt` and `Itoa` -/
def formatInt (i : Int) : Text :=
  if i < 0 then 45 :: formatNat i.natAbs else formatNat i.natAbs

/-- The loop of `strconv.ParseUint`, base 10: value and whether the text is a syntax error.  The value stops at the largest
one. -/
def parseLoop (max : Nat) : Nat → Text → Option Nat
  | n, [] => some n
  | n, c :: s =>
    if c < 48 ∨ 57 < c then none
    else if max < n * 10 + (c - 48) then some max
    else parseLoop max (n * 10 + (c - 48)) s

/-- `strconv.ParseUint`, base 10; `none` is a syntax error -/
def parseUint (bits : Nat) (s : Text) : Option Nat :=
  if s = [] then none else parseLoop (2 ^ bits - 1) 0 s

/-- `strconv.ParseInt`, base 10, errors ignored: 0 for a syntax error, the nearest number for one that is out of range;
`strconv.Atoi` with 64 bits -/
def parseInt (bits : Nat) (s : Text) : Int :=
  let neg := s.head? = some 45
  let digits := if s.head? = some 45 ∨ s.head? = some 43 then s.tail else s
  match parseUint bits digits with
  | none => 0
  | some n =>
    if neg then (if 2 ^ (bits - 1) < n then -(2 ^ (bits - 1) : Nat) else -(n : Int))
    else if 2 ^ (bits - 1) ≤ n then (2 ^ (bits - 1) : Nat) - 1
    else n

def trueText : Text := [116, 114, 117, 101]
def falseText : Text := [102, 97, 108, 115, 101]

/-- `strconv.FormatBool` -/
def formatBool (b : Bool) : Text := if b then trueText else falseText

/-- `strconv.ParseBool`, errors ignored: 1, t, T, true, TRUE, True -/
def parseBool (s : Text) : Bool :=
  s = [49] ∨ s = [116] ∨ s = [84] ∨ s = trueText ∨ s = [84, 82, 85, 69] ∨ s = [84, 114, 117, 101]

/-! ### time, with the layout `2006-01-02T15:04:05.999Z` (ecore/ecorefactory_impl.go 536-548) -/

/-- a number with at least `width` digits -/
def pad (width n : Nat) : Text :=
  List.replicate (width - (formatNat n).length) 48 ++ formatNat n

/-- fraction of a second: three digits, without zeros at the end -/
def formatFraction (nano : Nat) : Text :=
  match (pad 3 (nano / 1000000)).reverse.dropWhile (· = 48) with
  | [] => []
  | l => 46 :: l.reverse

/-- `Time.Format`; the zone is not shown, the layout ends with the letter Z -/
def formatTime (t : Time) : Text :=
  pad 4 t.year ++ [45] ++ pad 2 t.month ++ [45] ++ pad 2 t.day ++ [84] ++ pad 2 t.hour ++ [58] ++ pad 2 t.minute ++ [58] ++
    pad 2 t.second ++ formatFraction t.nano ++ [90]

def isDigit (c : Nat) : Bool := 48 ≤ c && c ≤ 57

/-- `getnum`: one or two digits -/
def getnum (fixed : Bool) : Text → Option (Nat × Text)
  | c :: d :: s =>
    if isDigit c then
      if isDigit d then some ((c - 48) * 10 + (d - 48), s)
      else if fixed then none else some (c - 48, d :: s)
    else none
  | [c] => if isDigit c && !fixed then some (c - 48, []) else none
  | [] => none

/-- four digits -/
def getyear : Text → Option (Nat × Text)
  | a :: b :: c :: d :: s =>
    if isDigit a && isDigit b && isDigit c && isDigit d then
      some ((a - 48) * 1000 + (b - 48) * 100 + (c - 48) * 10 + (d - 48), s)
    else none
  | _ => none

/-- a character of the layout -/
def skip (c : Nat) : Text → Option Text
  | d :: s => if c = d then some s else none
  | [] => none

/-- the number of a list of digits -/
def natOf (s : Text) : Nat := s.foldl (fun n c => n * 10 + (c - 48)) 0

/-- fraction of a second: a dot and any number of digits, of which the first nine count; it may be missing -/
def getfraction : Text → Nat × Text
  | 46 :: c :: s =>
    if isDigit c then
      let digits := ((c :: s).takeWhile isDigit).take 9
      (natOf digits * 10 ^ (9 - digits.length), (c :: s).dropWhile isDigit)
    else (0, 46 :: c :: s)
  | s => (0, s)

def isLeap (y : Nat) : Bool := y % 4 = 0 && (y % 100 ≠ 0 || y % 400 = 0)

/-- `daysIn` -/
def daysIn (m y : Nat) : Nat :=
  if m = 2 then (if isLeap y then 29 else 28)
  else if m = 4 ∨ m = 6 ∨ m = 9 ∨ m = 11 then 30 else 31

/-- `time.Parse`; `none` is an error -/
def parseTime? (s : Text) : Option Time := do
  let (year, s) ← getyear s
  let s ← skip 45 s
  let (month, s) ← getnum true s
  if month = 0 ∨ 12 < month then none
  let s ← skip 45 s
  let (day, s) ← getnum true s
  let s ← skip 84 s
  let (hour, s) ← getnum false s
  if 24 ≤ hour then none
  let s ← skip 58 s
  let (minute, s) ← getnum true s
  if 60 ≤ minute then none
  let s ← skip 58 s
  let (second, s) ← getnum true s
  if 60 ≤ second then none
  let (nano, s) := getfraction s
  let s ← skip 90 s
  if s ≠ [] then none
  if day = 0 ∨ daysIn month year < day then none
  return { year, month, day, hour, minute, second, nano, offset := 0 }

/-- `t, _ := time.Parse(dateFormat, literalValue)`: the zero time if there is an error -/
def parseTime (s : Text) : Time := (parseTime? s).getD {}

/-! ### Enumerations (ecore/eenum_ext.go, ecore/eenumliteral_ext.go) -/

structure Literal where
  name : Text
  literal : Text
  value : Int
deriving DecidableEq, Repr

/-- `GetLiteral` (ecore/eenumliteral_ext.go 23-28) -/
def Literal.getLiteral (l : Literal) : Text := if l.literal = [] then l.name else l.literal

/-- `GetEEnumLiteralByValue` (ecore/eenum_ext.go 42-51) -/
def byValue (e : List Literal) (v : Int) : Option Literal := e.find? fun l => l.value = v

/-- `GetEEnumLiteralByLiteral` (ecore/eenum_ext.go 53-62) -/
def byLiteral (e : List Literal) (s : Text) : Option Literal := e.find? fun l => l.getLiteral = s

/-! ### The factory of dynamic packages -/

/-- a data type: an enumeration with its literals, or a type with the name of its Go or Java type -/
inductive DataType where
  | enum (literals : List Literal)
  | named (instanceTypeName : String)

variable {F : Type}

/-- `CreateFromString` (ecore/efactory_ext.go 46-96), for a data type of the package of the factory -/
def createDynamic (fl : Floats F) (t : DataType) (s : Text) : Option (Value F) :=
  match t with
  | .enum e => (byLiteral e s).map fun l => .int l.value
  | .named n =>
    if n ∈ ["float64", "java.lang.Double", "double"] then some (.float64 (fl.parse64 s))
    else if n ∈ ["float32", "java.lang.Float", "float"] then some (.float32 (fl.parse32 s))
    else if n ∈ ["int", "java.lang.Integer"] then some (.int (parseInt 64 s))
    else if n ∈ ["uint64", "com.google.common.primitives.UnsignedLong"] then some (.uint64 ((parseUint 64 s).getD 0))
    else if n ∈ ["int64", "java.lang.Long", "java.math.BigInteger", "long"] then some (.int64 (parseInt 64 s))
    else if n ∈ ["int32"] then some (.int32 (parseInt 32 s))
    else if n ∈ ["int16", "java.lang.Short", "short"] then some (.int16 (parseInt 16 s))
    else if n ∈ ["int8"] then some (.int8 (parseInt 8 s))
    else if n ∈ ["bool", "java.lang.Boolean", "boolean"] then some (.bool (parseBool s))
    else if n ∈ ["string", "java.lang.String"] then some (.string s)
    else if n ∈ ["byte[]", "[]byte"] then some (.bytes s)
    else none

/-- `ConvertToString` (ecore/efactory_ext.go 98-144), for a data type of the package of the factory; `v, _ := x.(T)` gives the
zero value for a value of another type, `x.(T)` panics -/
def convertDynamic (fl : Floats F) (t : DataType) (v : Value F) : Option Text :=
  match t with
  | .enum e => match v with
    | .int i => (byValue e i).map Literal.getLiteral
    | _ => none
  | .named n =>
    if n ∈ ["float64", "java.lang.Double", "double"] then
      some (fl.format64 (match v with | .float64 x => x | _ => fl.zero))
    else if n ∈ ["float32", "java.lang.Float", "float"] then
      some (fl.format32 (match v with | .float32 x => x | _ => fl.zero))
    else if n ∈ ["int", "java.lang.Integer"] then some (formatInt (match v with | .int i => i | _ => 0))
    else if n ∈ ["uint64", "com.google.common.primitives.UnsignedLong"] then
      some (formatNat (match v with | .uint64 i => i | _ => 0))
    else if n ∈ ["int64", "java.lang.Long", "java.math.BigInteger", "long"] then
      some (formatInt (match v with | .int64 i => i | _ => 0))
    else if n ∈ ["int32"] then some (formatInt (match v with | .int32 i => i | _ => 0))
    else if n ∈ ["int16", "java.lang.Short", "short"] then some (formatInt (match v with | .int16 i => i | _ => 0))
    else if n ∈ ["int8"] then some (formatInt (match v with | .int8 i => i | _ => 0))
    else if n ∈ ["bool", "java.lang.Boolean", "boolean"] then some (formatBool (match v with | .bool b => b | _ => false))
    else if n ∈ ["string", "java.lang.String"] then match v with
      | .string s => some s
      | _ => none
    else none

/-! ### The factory of the Ecore package -/

/-- the data types of the Ecore package that the factory converts -/
inductive EcoreType where
  | eBigDecimal | eBigInteger | eBoolean | eBooleanObject | eByte | eByteArray | eByteObject | eChar | eCharacterObject | eDate
  | eDouble | eDoubleObject | eFloat | eFloatObject | eInt | eIntegerObject | eJavaClass | eJavaObject | eLong | eLongObject
  | eShort | eShortObject | eString
deriving DecidableEq, Repr

/-- the value of an empty text for a byte: the string golang and a zero (ecore/ecorefactory_impl.go 475-481) -/
def noByte : Text := [103, 111, 108, 97, 110, 103, 0]

/-- `createEByteFromString` and others (ecore/ecorefactory_impl.go 475-481, 497-503, 510-516, 523-529) -/
def createByte (s : Text) : Value F :=
  match s with
  | [] => .string noByte
  | b :: _ => .byte b

/-- `CreateFromString` (ecore/ecorefactory_impl.go 328-380, and the functions it calls in 436-674) -/
def createEcore (fl : Floats F) (t : EcoreType) (s : Text) : Option (Value F) :=
  match t with
  | .eBigDecimal | .eDouble | .eDoubleObject => some (.float64 (fl.parse64 s))
  | .eFloat | .eFloatObject => some (.float32 (fl.parse32 s))
  | .eBigInteger | .eLong => some (.int64 (parseInt 64 s))
  | .eInt | .eIntegerObject | .eLongObject => some (.int (parseInt 64 s))
  | .eShort | .eShortObject => some (.int16 (parseInt 16 s))
  | .eBoolean | .eBooleanObject => some (.bool (parseBool s))
  | .eByte | .eByteObject | .eChar | .eCharacterObject => some (createByte s)
  | .eByteArray => some (.bytes s)
  | .eDate => some (.date (parseTime s))
  | .eString => some (.string s)
  | .eJavaClass | .eJavaObject => none

/-- `ConvertToString` (ecore/ecorefactory_impl.go 382-434, and the functions it calls in 436-674); a date that is no time is a
nil pointer -/
def convertEcore (fl : Floats F) (t : EcoreType) (v : Value F) : Option Text :=
  match t with
  | .eBigDecimal | .eDouble | .eDoubleObject => some (fl.format64 (match v with | .float64 x => x | _ => fl.zero))
  | .eFloat | .eFloatObject => some (fl.format32 (match v with | .float32 x => x | _ => fl.zero))
  | .eBigInteger | .eLong => some (formatInt (match v with | .int64 i => i | _ => 0))
  | .eInt | .eIntegerObject | .eLongObject => some (formatInt (match v with | .int i => i | _ => 0))
  | .eShort | .eShortObject => some (formatInt (match v with | .int16 i => i | _ => 0))
  | .eBoolean | .eBooleanObject => some (formatBool (match v with | .bool b => b | _ => false))
  | .eByte | .eByteObject | .eChar | .eCharacterObject => match v with
    | .byte b => some [b]
    | _ => none
  | .eByteArray => match v with
    | .bytes l => some l
    | _ => none
  | .eDate => match v with
    | .date t => some (formatTime t)
    | _ => none
  | .eString => match v with
    | .string s => some s
    | _ => some []
  | .eJavaClass | .eJavaObject => none

end Verif.Convert
