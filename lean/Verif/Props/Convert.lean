import Verif.Proofs.Convert
import Mathlib.Data.List.Nodup

/-!
# C44: values survive conversion to text

Vocabulary: `Verif.Spec.Convert`.  Missing in the partial theorems: that Go's `ParseFloat` reads what `FormatFloat` writes is a
hypothesis (`Exact`); dates that are not in UTC or that have a fraction of a millisecond, for which the property is violated;
byte arrays of dynamic packages, for which it is violated.
-/

namespace Verif.Convert

open Spec

variable {F : Type}

/-- The data types of the Ecore package: `CreateFromString(ConvertToString(v))` is `v`. -/
theorem C44_ecore_partial (fl : Floats F) (ok64 ok32 : F → Prop) (hfl : Exact fl ok64 ok32) (t : EcoreType) (v : Value F)
    (hv : HasType ok64 ok32 t v) : ∃ s : Text, convertEcore fl t v = some s ∧ createEcore fl t s = some v := by
  cases v with
  | float64 x => cases t <;> first
    | exact False.elim hv
    | exact ⟨_, rfl, congrArg some (congrArg Value.float64 (hfl.1 _ hv))⟩
  | float32 x => cases t <;> first
    | exact False.elim hv
    | exact ⟨_, rfl, congrArg some (congrArg Value.float32 (hfl.2 _ hv))⟩
  | int i => cases t <;> first
    | exact False.elim hv
    | exact ⟨_, rfl, congrArg some (congrArg Value.int (parseInt_format 64 (by omega) _ hv))⟩
  | int64 i => cases t <;> first
    | exact False.elim hv
    | exact ⟨_, rfl, congrArg some (congrArg Value.int64 (parseInt_format 64 (by omega) _ hv))⟩
  | int16 i => cases t <;> first
    | exact False.elim hv
    | exact ⟨_, rfl, congrArg some (congrArg Value.int16 (parseInt_format 16 (by omega) _ hv))⟩
  | bool b => cases t <;> first
    | exact False.elim hv
    | exact ⟨_, rfl, congrArg some (congrArg Value.bool (parseBool_format _))⟩
  | date t' =>
    cases t <;> first
    | exact False.elim hv
    | skip
    refine ⟨_, rfl, congrArg some (congrArg Value.date ?_)⟩
    have hv' : isUTCMillis t' := hv
    rw [parse_format_time t' hv'.1]
    obtain ⟨-, h2, h3⟩ := hv'
    have : t'.nano / 1000000 * 1000000 = t'.nano := by omega
    cases t'
    simp_all
  | string s => cases t <;> first
    | exact False.elim hv
    | exact ⟨_, rfl, rfl⟩
  | bytes s => cases t <;> first
    | exact False.elim hv
    | exact ⟨_, rfl, rfl⟩
  | byte s => cases t <;> first
    | exact False.elim hv
    | exact ⟨_, rfl, rfl⟩
  | uint64 _ => cases t <;> exact False.elim hv
  | int32 _ => cases t <;> exact False.elim hv
  | int8 _ => cases t <;> exact False.elim hv
  | other => cases t <;> exact False.elim hv

/-- The types of dynamic packages, except enumerations. -/
theorem C44_dynamic_partial (fl : Floats F) (ok64 ok32 : F → Prop) (hfl : Exact fl ok64 ok32) (n : String) (v : Value F)
    (hv : HasName ok64 ok32 n v) :
    ∃ s : Text, convertDynamic fl (.named n) v = some s ∧ createDynamic fl (.named n) s = some v := by
  cases v <;> simp only [HasName, List.mem_cons, List.not_mem_nil, or_false] at hv
  · obtain ⟨h, ok⟩ := hv
    rcases h with rfl | rfl | rfl <;> exact ⟨_, rfl, congrArg some (congrArg Value.float64 (hfl.1 _ ok))⟩
  · obtain ⟨h, ok⟩ := hv
    rcases h with rfl | rfl | rfl <;> exact ⟨_, rfl, congrArg some (congrArg Value.float32 (hfl.2 _ ok))⟩
  · obtain ⟨h, ok⟩ := hv
    rcases h with rfl | rfl <;> exact ⟨_, rfl, congrArg some (congrArg Value.int (parseInt_format 64 (by omega) _ ok))⟩
  · obtain ⟨h, ok⟩ := hv
    rename_i i
    have hu : (parseUint 64 (formatNat i)).getD 0 = i := by rw [parseUint_format 64 i ok]; rfl
    rcases h with rfl | rfl <;> exact ⟨_, rfl, congrArg some (congrArg Value.uint64 hu)⟩
  · obtain ⟨h, ok⟩ := hv
    rcases h with rfl | rfl | rfl | rfl <;>
      exact ⟨_, rfl, congrArg some (congrArg Value.int64 (parseInt_format 64 (by omega) _ ok))⟩
  · obtain ⟨h, ok⟩ := hv
    rcases h with rfl
    exact ⟨_, rfl, congrArg some (congrArg Value.int32 (parseInt_format 32 (by omega) _ ok))⟩
  · obtain ⟨h, ok⟩ := hv
    rcases h with rfl | rfl | rfl <;>
      exact ⟨_, rfl, congrArg some (congrArg Value.int16 (parseInt_format 16 (by omega) _ ok))⟩
  · obtain ⟨h, ok⟩ := hv
    rcases h with rfl
    exact ⟨_, rfl, congrArg some (congrArg Value.int8 (parseInt_format 8 (by omega) _ ok))⟩
  · rcases hv with rfl | rfl | rfl <;> exact ⟨_, rfl, congrArg some (congrArg Value.bool (parseBool_format _))⟩
  · rcases hv with rfl | rfl <;> exact ⟨_, rfl, rfl⟩

/-- Enumerations the literals of which have different texts: a value is converted to the text of a literal with this value,
and the text back to the value; a value without literal is not converted. -/
theorem C44_enum (fl : Floats F) (e : List Literal) (hd : (e.map textOf).Nodup) (v : Int) :
    (∀ l ∈ e, l.value = v → ∃ l' ∈ e, l'.value = v ∧ convertDynamic fl (.enum e) (.int v) = some (textOf l') ∧
      createDynamic fl (.enum e) (textOf l') = some (.int v)) ∧
    ((∀ l ∈ e, l.value ≠ v) → convertDynamic fl (.enum e) (.int v) = none) := by
  constructor
  · intro l hl hv
    have h1 : ∃ l', byValue e v = some l' := by
      cases h : byValue e v with
      | none =>
        simp only [byValue, List.find?_eq_none] at h
        exact absurd (by simpa using hv) (h l hl)
      | some l' => exact ⟨l', rfl⟩
    obtain ⟨l', h1⟩ := h1
    have hm : l' ∈ e := List.mem_of_find?_eq_some h1
    have hval : l'.value = v := by simpa using List.find?_some h1
    refine ⟨l', hm, hval, by simp only [convertDynamic, h1, Option.map_some]; rfl, ?_⟩
    have h2 : byLiteral e (textOf l') = some l' := by
      cases h : byLiteral e (textOf l') with
      | none =>
        simp only [byLiteral, List.find?_eq_none] at h
        exact absurd (by simp [Literal.getLiteral, textOf]) (h l' hm)
      | some l'' =>
        have h3 := List.find?_some h
        have h4 : l'' ∈ e := List.mem_of_find?_eq_some h
        have h5 : textOf l'' = textOf l' := of_decide_eq_true h3
        rw [List.inj_on_of_nodup_map hd h4 hm h5]
    simp [createDynamic, h2, hval]
  · intro h
    have : byValue e v = none := by
      simp only [byValue, List.find?_eq_none]
      intro l hl
      simpa using h l hl
    simp [convertDynamic, this]

/-- Any date is read as one with the same calendar date and time of day, in whole milliseconds, but in UTC. -/
theorem C44_date_partial (fl : Floats F) (t : Time) (h : isTime t) :
    ∃ (s : Text) (t' : Time), convertEcore fl .eDate (.date t) = some s ∧ createEcore fl .eDate s = some (.date t') ∧
      [t'.year, t'.month, t'.day, t'.hour, t'.minute, t'.second] = [t.year, t.month, t.day, t.hour, t.minute, t.second] ∧
      t'.nano = t.nano - t.nano % 1000000 ∧ t'.offset = 0 := by
  refine ⟨_, _, rfl, rfl, ?_⟩
  rw [parse_format_time t h]
  refine ⟨rfl, ?_, rfl⟩
  simp only
  omega

/-- A date that is not in UTC is read as another instant, whatever the date is. -/
theorem C44_zone_violated (fl : Floats F) (t : Time) (h : isTime t) (hz : t.offset ≠ 0) (hn : t.nano % 1000000 = 0) :
    ∃ (s : Text) (t' : Time), convertEcore fl .eDate (.date t) = some s ∧ createEcore fl .eDate s = some (.date t') ∧
      instant t' ≠ instant t := by
  refine ⟨_, _, rfl, rfl, ?_⟩
  rw [parse_format_time t h]
  simp only [instant]
  omega

/-- A date with a fraction of a millisecond is read as another instant. -/
theorem C44_precision_violated (fl : Floats F) (t : Time) (h : isTime t) (hz : t.offset = 0) (hn : t.nano % 1000000 ≠ 0) :
    ∃ (s : Text) (t' : Time), convertEcore fl .eDate (.date t) = some s ∧ createEcore fl .eDate s = some (.date t') ∧
      instant t' ≠ instant t := by
  refine ⟨_, _, rfl, rfl, ?_⟩
  rw [parse_format_time t h]
  simp only [instant]
  omega

/-- Byte arrays of dynamic packages can be created from a text, but are not converted to one; bytes and dates neither. -/
theorem C44_bytes_violated (fl : Floats F) (s : Text) (b : Nat) (t : Time) :
    createDynamic fl (.named "[]byte") s = some (.bytes s) ∧ convertDynamic fl (.named "[]byte") (.bytes s) = none ∧
    convertDynamic fl (.named "byte") (.byte b) = none ∧ convertDynamic fl (.named "*time/time.Time") (.date t) = none :=
  ⟨rfl, rfl, rfl, rfl⟩

/-! ### Examples -/

namespace Sample

/-- numbers that are halves, written as twice the number -/
def floats : Floats Int where
  zero := 0
  format64 := formatInt
  format32 := formatInt
  parse64 := parseInt 64
  parse32 := parseInt 32

def leapDay : Time := { year := 2024, month := 2, day := 29, hour := 7, minute := 5, second := 9, nano := 120000000 }

def colours : List Literal :=
  [⟨[114], [], 0⟩, ⟨[103], [71], 1⟩, ⟨[98], [66], 1⟩]

end Sample

example : Exact Sample.floats (Signed 64) (Signed 32) :=
  ⟨fun x hx => parseInt_format 64 (by omega) x hx, fun x hx => parseInt_format 32 (by omega) x hx⟩

example : HasType (F := Int) (Signed 64) (Signed 32) .eShort (.int16 (-32768)) ∧
    convertEcore Sample.floats .eShort (.int16 (-32768)) = some [45, 51, 50, 55, 54, 56] ∧
    createEcore Sample.floats .eShort [45, 51, 50, 55, 54, 56] = some (.int16 (-32768)) := by
  refine ⟨by simp [HasType, Signed], by decide +kernel, by decide +kernel⟩

/-- 2024-02-29T07:05:09.12Z -/
example : HasType (F := Int) (Signed 64) (Signed 32) .eDate (.date Sample.leapDay) ∧
    convertEcore Sample.floats .eDate (.date Sample.leapDay) = some [50, 48, 50, 52, 45, 48, 50, 45, 50, 57, 84, 48, 55, 58, 48, 53, 58, 48,
      57, 46, 49, 50, 90] := by
  refine ⟨?_, by decide +kernel⟩
  simp only [HasType]
  decide

example : HasName (F := Int) (Signed 64) (Signed 32) "java.lang.Short" (.int16 77) := by
  simp [HasName, Signed]

example : (Sample.colours.map textOf).Nodup ∧
    convertDynamic Sample.floats (.enum Sample.colours) (.int 1) = some [71] ∧
    createDynamic Sample.floats (.enum Sample.colours) [71] = some (.int 1) := by decide +kernel

example : isTime { Sample.leapDay with offset := 3600 } ∧ instant { Sample.leapDay with offset := 3600 } ≠ instant Sample.leapDay := by
  decide

/-!
## C57: what is created from a text is the value that the text stands for

The theorems cover the data types of the Ecore package and the named types of dynamic packages.
-/

/-- Whatever the text is, what is created has the type of the data type and is in its range; except for an empty text for a
byte. -/
theorem C57_type_partial (fl : Floats F) (t : EcoreType) (s : Text) (v : Value F) (h : createEcore fl t s = some v)
    (hs : t = .eByte ∨ t = .eByteObject ∨ t = .eChar ∨ t = .eCharacterObject → s ≠ []) : IsValueOf t v ∧ Allowed v := by
  cases t <;> simp only [createEcore, Option.some.injEq, reduceCtorEq] at h <;> subst h
  case eDate => exact ⟨trivial, parseTime_valid s⟩
  case eByte | eByteObject | eChar | eCharacterObject =>
    cases s with
    | nil => simp at hs
    | cons b s => exact ⟨trivial, trivial⟩
  all_goals first
    | exact ⟨trivial, trivial⟩
    | exact ⟨trivial, parseInt_range _ _⟩

/-- The same for dynamic packages. -/
theorem C57_range_partial (fl : Floats F) (n : String) (s : Text) (v : Value F) (h : createDynamic fl (.named n) s = some v) :
    Allowed v := by
  simp only [createDynamic] at h
  split at h
  · simp only [Option.some.injEq] at h; subst h; trivial
  split at h
  · simp only [Option.some.injEq] at h; subst h; trivial
  split at h
  · simp only [Option.some.injEq] at h; subst h; exact parseInt_range _ _
  split at h
  · simp only [Option.some.injEq] at h; subst h; exact parseUint_range _ _
  split at h
  · simp only [Option.some.injEq] at h; subst h; exact parseInt_range _ _
  split at h
  · simp only [Option.some.injEq] at h; subst h; exact parseInt_range _ _
  split at h
  · simp only [Option.some.injEq] at h; subst h; exact parseInt_range _ _
  split at h
  · simp only [Option.some.injEq] at h; subst h; exact parseInt_range _ _
  split at h
  · simp only [Option.some.injEq] at h; subst h; trivial
  split at h
  · simp only [Option.some.injEq] at h; subst h; trivial
  split at h
  · simp only [Option.some.injEq] at h; subst h; trivial
  · simp at h

/-- A text that stands for an integer of the type gives this integer: digits with or without sign, also with zeros in front. -/
theorem C57_number_partial (fl : Floats F) (s : Text) (i : Int) (hd : Denotes s i) :
    (Signed 64 i → (∀ t ∈ [EcoreType.eInt, .eIntegerObject, .eLongObject], createEcore fl t s = some (.int i)) ∧
      (∀ t ∈ [EcoreType.eBigInteger, .eLong], createEcore fl t s = some (.int64 i)) ∧
      (∀ n ∈ ["int", "java.lang.Integer"], createDynamic fl (.named n) s = some (.int i)) ∧
      (∀ n ∈ ["int64", "java.lang.Long", "java.math.BigInteger", "long"], createDynamic fl (.named n) s = some (.int64 i))) ∧
    (Signed 32 i → createDynamic fl (.named "int32") s = some (.int32 i)) ∧
    (Signed 16 i → (∀ t ∈ [EcoreType.eShort, .eShortObject], createEcore fl t s = some (.int16 i)) ∧
      (∀ n ∈ ["int16", "java.lang.Short", "short"], createDynamic fl (.named n) s = some (.int16 i))) ∧
    (Signed 8 i → createDynamic fl (.named "int8") s = some (.int8 i)) := by
  refine ⟨fun h => ?_, fun h => ?_, fun h => ?_, fun h => ?_⟩
  · have e := parseInt_denotes 64 (by omega) s i hd h
    simp [createEcore, createDynamic, e]
  · have e := parseInt_denotes 32 (by omega) s i hd h
    simp [createDynamic, e]
  · have e := parseInt_denotes 16 (by omega) s i hd h
    simp [createEcore, createDynamic, e]
  · have e := parseInt_denotes 8 (by omega) s i hd h
    simp [createDynamic, e]

/-- Text that is no value is not reported: numbers that are out of range are moved into it, other text is zero, false, or the
first day of the year 1. -/
theorem C57_number_violated (fl : Floats F) :
    createEcore fl .eShort [57, 57, 57, 57, 57] = some (.int16 32767) ∧ createEcore fl .eInt [120] = some (.int 0) ∧
    createEcore fl .eBoolean [121, 101, 115] = some (.bool false) ∧ createEcore fl .eDate [] = some (.date {}) := by
  refine ⟨?_, ?_, ?_, rfl⟩
  · simp only [createEcore]
    exact congrArg some (congrArg Value.int16 (by decide +kernel))
  · simp only [createEcore]
    exact congrArg some (congrArg Value.int (by decide +kernel))
  · simp only [createEcore]
    exact congrArg some (congrArg Value.bool (by decide +kernel))


/-- An empty text for a byte gives a string, and this value is not converted to text. -/
theorem C57_empty_violated (fl : Floats F) : ∃ s : Text, createEcore fl .eByte [] = some (.string s) ∧
    convertEcore fl .eByte (.string s) = none := ⟨_, rfl, rfl⟩

/-- -007 -/
example : Denotes [45, 48, 48, 55] (-7) := ⟨[48, 48, 55], by decide, by decide, .inr ⟨rfl, by decide⟩⟩

example : createEcore Sample.floats .eShort [45, 48, 48, 55] = some (.int16 (-7)) :=
  ((C57_number_partial Sample.floats _ (-7) ⟨[48, 48, 55], by decide, by decide, .inr ⟨rfl, by decide⟩⟩).2.2.1 (by decide)).1
    .eShort (by decide)

/-- 2023-02-30T00:00:00Z is no date: the result is the first day of the year 1 -/
example : createEcore Sample.floats .eDate [50, 48, 50, 51, 45, 48, 50, 45, 51, 48, 84, 48, 48, 58, 48, 48, 58, 48, 48, 90] =
    some (.date {}) := by decide +kernel

end Verif.Convert
