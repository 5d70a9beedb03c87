import Verif.Proofs.ObjectID

/-!
# C100: An object is found in its resource by the ID it was given
-/

namespace Verif.ObjectID

open Verif.Convert Verif.Convert.Spec

variable {F : Type}

/-- floating point numbers are not used in the examples -/
def sampleFloats : Floats Unit := ⟨(), fun _ => [48], fun _ => [48], fun _ => (), fun _ => ()⟩

/-- an object with an ID of type `string` -/
def sampleText (s : Text) : Obj Unit := ⟨some (.named "string"), some (.string s)⟩

/-- for types of texts: the ID is the one that was given; without a text the object has no ID -/
theorem C100_text_partial (fl : Floats F) (o : Obj F) (n : String) (hn : n ∈ texts) (ho : o.attr = some (.named n)) (id : Text) :
    ∃ o', setID fl o id = some o' ∧ HasID fl o' id := by
  cases id with
  | nil => exact ⟨{ o with value := none }, by simp [setID, ho], by simp [HasID, getID, ho]⟩
  | cons c s =>
    simp only [texts, List.mem_cons, List.not_mem_nil, or_false] at hn
    refine ⟨{ o with value := some (.string (c :: s)) }, ?_, ?_⟩
    · rcases hn with rfl | rfl <;> simp [setID, ho, createDynamic]
    · rcases hn with rfl | rfl <;> simp [HasID, getID, ho, convertDynamic]

example : setID sampleFloats (sampleText [120]) [97, 47] = some (sampleText [97, 47]) ∧ getID sampleFloats (sampleText [97, 47]) = some [97, 47] := ⟨rfl, rfl⟩

/-- for all types of dynamic packages but enumerations: the ID of an object can be given to an object again, and gives the same ID; so one that was given
is read the same once it has been read -/
theorem C100_stable_partial (fl : Floats F) (hfl : Exact fl (fun x => ∃ s, x = fl.parse64 s) (fun x => ∃ s, x = fl.parse32 s))
    (h64 : ∀ x, fl.format64 x ≠ []) (h32 : ∀ x, fl.format32 x ≠ []) (o o1 : Obj F) (n : String) (ho : o.attr = some (.named n)) (id id1 : Text) (hid : id ≠ [])
    (h : setID fl o id = some o1) (h1 : HasID fl o1 id1) : id1 ≠ [] ∧ setID fl o id1 = some o1 := by
  have hl : id.length ≠ 0 := by simpa using hid
  simp only [setID, ho, hl, if_false] at h
  cases hc : createDynamic fl (.named n) id with
  | none => rw [hc] at h; cases h
  | some v =>
    rw [hc] at h
    simp only [Option.some.injEq] at h
    subst h
    simp only [HasID, getID, ho] at h1
    have hname : HasName (fun x => ∃ s, x = fl.parse64 s) (fun x => ∃ s, x = fl.parse32 s) n v := by
      rcases create_named fl n id v hc with h | ⟨rfl, hn⟩
      · exact h
      · exfalso
        simp only [List.mem_cons, List.not_mem_nil, or_false] at hn
        rcases hn with rfl | rfl <;> simp [convertDynamic] at h1
    obtain ⟨s, e1, e2⟩ := C44_dynamic_partial fl _ _ hfl n v hname
    rw [e1] at h1
    simp only [Option.some.injEq] at h1
    subst h1
    have hs : s ≠ [] := by
      intro hs
      subst hs
      cases v with
      | string t =>
        simp only [HasName, List.mem_cons, List.not_mem_nil, or_false] at hname
        rcases hname with rfl | rfl
        all_goals
          simp [createDynamic] at e2 hc
          exact hid (hc.trans e2)
      | _ =>
        first
        | exact hname.elim
        | simp only [HasName, List.mem_cons, List.not_mem_nil, or_false] at hname
          simp only [convertDynamic] at e1
          have hb : ∀ b, formatBool b ≠ [] := by decide
          have hn : ∀ m, formatNat m ≠ [] := fun m => by obtain ⟨c, s, h, -⟩ := formatNat_head m; rw [h]; simp
          grind [formatInt_ne]
    exact ⟨hs, by simp [setID, ho, hs, e2]⟩

/-- -007 as `int`: the ID is -7, and given again it is the same -/
example : HasID sampleFloats ⟨some (.named "int"), some (.int (-7))⟩ [45, 55] ∧
    setID sampleFloats ⟨some (.named "int"), none⟩ [45, 48, 48, 55] = some ⟨some (.named "int"), some (.int (-7))⟩ := by
  constructor
  · simp [HasID, getID, convertDynamic, formatInt, formatNat]
  · simp [setID, createDynamic, parseInt, parseUint, parseLoop]

/-- for integers: two texts give the same ID exactly if they stand for the same number -/
theorem C100_number_partial (fl : Floats F) (o : Obj F) (n : String) (hn : n ∈ numbers) (ho : o.attr = some (.named n)) (a b : Text) (i j : Int)
    (ha : Denotes a i) (hb : Denotes b j) (hi : Signed 64 i) (hj : Signed 64 j) :
    ∃ x y s t, setID fl o a = some x ∧ setID fl o b = some y ∧ HasID fl x s ∧ HasID fl y t ∧ (s = t ↔ i = j) := by
  have hla : a.length ≠ 0 := by
    obtain ⟨ds, h1, -, h3⟩ := ha
    rcases h3 with ⟨rfl | rfl, -⟩ | ⟨rfl, -⟩ <;> simp [h1]
  have hlb : b.length ≠ 0 := by
    obtain ⟨ds, h1, -, h3⟩ := hb
    rcases h3 with ⟨rfl | rfl, -⟩ | ⟨rfl, -⟩ <;> simp [h1]
  have inj : formatInt i = formatInt j ↔ i = j := by
    refine ⟨fun h => ?_, fun h => by rw [h]⟩
    have := parseInt_format 64 (by decide) i hi
    rw [h, parseInt_format 64 (by decide) j hj] at this
    exact this.symm
  obtain ⟨-, -, pa, qa⟩ := (C57_number_partial fl a i ha).1 hi
  obtain ⟨-, -, pb, qb⟩ := (C57_number_partial fl b j hb).1 hj
  by_cases h : n ∈ ["int", "java.lang.Integer"]
  · refine ⟨{ o with value := some (.int i) }, { o with value := some (.int j) }, formatInt i, formatInt j, by simp only [setID, ho, hla, if_false, pa n h],
      by simp only [setID, ho, hlb, if_false, pb n h], ?_, ?_, inj⟩
    all_goals
      simp only [List.mem_cons, List.not_mem_nil, or_false] at h
      rcases h with rfl | rfl <;> simp [HasID, getID, ho, convertDynamic]
  · have h' : n ∈ ["int64", "java.lang.Long", "java.math.BigInteger", "long"] := by
      simp only [numbers, List.mem_cons, List.not_mem_nil, or_false] at hn h ⊢
      grind
    refine ⟨{ o with value := some (.int64 i) }, { o with value := some (.int64 j) }, formatInt i, formatInt j, by simp only [setID, ho, hla, if_false, qa n h'],
      by simp only [setID, ho, hlb, if_false, qb n h'], ?_, ?_, inj⟩
    all_goals
      simp only [List.mem_cons, List.not_mem_nil, or_false] at h'
      rcases h' with rfl | rfl | rfl | rfl <;> simp [HasID, getID, ho, convertDynamic]

example : Denotes [48, 48, 55] 7 ∧ Denotes [43, 55] 7 ∧ Signed 64 7 :=
  ⟨⟨[48, 48, 55], by decide, by decide, .inl ⟨.inl rfl, by decide⟩⟩, ⟨[55], by decide, by decide, .inl ⟨.inr rfl, by decide⟩⟩, by decide⟩

/-- without an ID manager: what is found has the ID and is in the resource; nothing is found only if no object has it; an object that is the only one with
its ID is found -/
theorem C100_found_partial (fl : Floats F) (r : Res F) (hm : r.manager = none) (hr : Readable fl r) (id : Text) :
    (∃ x, find fl r id = some x) ∧ (∀ o, find fl r id = some (some o) → o ∈ r.contents ∧ HasID fl (r.obj o) id) ∧
    (find fl r id = some none ↔ ∀ o ∈ r.contents, ¬ HasID fl (r.obj o) id) ∧
    ∀ o ∈ r.contents, HasID fl (r.obj o) id → (∀ p ∈ r.contents, HasID fl (r.obj p) id → p = o) → find fl r id = some (some o) := by
  have key : ∀ l, (∀ o ∈ l, ∃ i, HasID fl (r.obj o) i) → ∃ x, search fl r.obj id l = some x := by
    intro l
    induction l with
    | nil => intro _; exact ⟨none, rfl⟩
    | cons p l ih =>
      intro h
      obtain ⟨i, hi⟩ := h p (by simp)
      rw [HasID] at hi
      simp only [search, hi]
      split
      · exact ⟨some p, rfl⟩
      · exact ih (fun q hq => h q (by simp [hq]))
  simp only [find, hm]
  have sound : ∀ o, search fl r.obj id r.contents = some (some o) → o ∈ r.contents ∧ HasID fl (r.obj o) id := by
    intro o h
    obtain ⟨a, b, e, h1, -⟩ := (search_some ..).1 h
    exact ⟨by simp [e], h1⟩
  have hnone : search fl r.obj id r.contents = some none ↔ ∀ o ∈ r.contents, ¬ HasID fl (r.obj o) id := by
    rw [search_none]
    constructor
    · intro h o ho hc
      obtain ⟨i, hi, hne⟩ := h o ho
      rw [HasID] at hi hc
      rw [hi] at hc
      simp only [Option.some.injEq] at hc
      exact hne hc
    · intro h o ho
      obtain ⟨i, hi⟩ := hr o ho
      exact ⟨i, hi, fun e => h o ho (e ▸ hi)⟩
  refine ⟨key _ hr, sound, hnone, fun o ho h1 h2 => ?_⟩
  obtain ⟨x, hx⟩ := key _ hr
  cases x with
  | none => exact absurd h1 (hnone.1 hx o ho)
  | some p =>
    have := sound p hx
    rw [hx, h2 p this.1 this.2]

/-- without an ID manager, for texts: the object is found by the ID it is given, and no longer by the one it had -/
theorem C100_given_partial (fl : Floats F) (r : Res F) (hm : r.manager = none) (hr : Readable fl r) (o : Nat) (ho : o ∈ r.contents) (n : String) (hn : n ∈ texts)
    (ha : (r.obj o).attr = some (.named n)) (id old : Text) (hold : HasID fl (r.obj o) old) (hne : old ≠ id)
    (hid : ∀ p ∈ r.contents, HasID fl (r.obj p) id ∨ HasID fl (r.obj p) old → p = o) :
    ∃ r', give fl r o id = some r' ∧ find fl r' id = some (some o) ∧ find fl r' old = some none ∧
      ∀ p ∈ r.contents, p ≠ o → r'.obj p = r.obj p := by
  obtain ⟨x, h1, h2⟩ := C100_text_partial fl (r.obj o) n hn ha id
  have hg : give fl r o id = some (setObj r o x) := by simp only [give, h1]
  obtain ⟨y, -, e2, e3, e4, e5⟩ := give_eq fl r _ o id hg
  have hr' : Readable fl (setObj r o x) := by
    intro p hp
    by_cases hpo : p = o
    · subst hpo; exact ⟨id, by simpa [setObj] using h2⟩
    · rw [e3 p hpo]; exact hr p hp
  have := C100_found_partial fl (setObj r o x) hm hr'
  have hox : HasID fl ((setObj r o x).obj o) id := by simpa [setObj] using h2
  refine ⟨_, hg, (this id).2.2.2 o ho hox (fun p hp hq => ?_), (this old).2.2.1.2 (fun p hp hq => ?_), fun p _ hpo => e3 p hpo⟩
  · by_cases hpo : p = o
    · exact hpo
    · rw [e3 p hpo] at hq; exact hid p hp (.inl hq)
  · by_cases hpo : p = o
    · subst hpo
      rw [HasID] at hq hox
      rw [hox] at hq
      simp only [Option.some.injEq] at hq
      exact hne hq.symm
    · rw [e3 p hpo] at hq; exact hpo (hid p hp (.inr hq))

/-- a resource of two objects with IDs -/
def sampleRes : Res Unit := ⟨fun o => if o = 0 then sampleText [97] else sampleText [98], [0, 1], none⟩

example : Readable sampleFloats sampleRes ∧ HasID sampleFloats (sampleRes.obj 1) [98] ∧
    ∀ p ∈ sampleRes.contents, HasID sampleFloats (sampleRes.obj p) [99] ∨ HasID sampleFloats (sampleRes.obj p) [98] → p = 1 := by
  refine ⟨fun o ho => ?_, rfl, fun p hp => ?_⟩
  · simp only [sampleRes, List.mem_cons, List.not_mem_nil, or_false] at ho
    rcases ho with rfl | rfl
    · exact ⟨[97], rfl⟩
    · exact ⟨[98], rfl⟩
  · simp only [sampleRes, List.mem_cons, List.not_mem_nil, or_false] at hp
    rcases hp with rfl | rfl
    · intro h
      have e : getID sampleFloats (sampleRes.obj 0) = some [97] := rfl
      simp [HasID, e] at h
    · intro _; rfl

/-- two texts of the same number: an object given the one or the other is not found by at least one of them -/
theorem C100_number_violated (fl : Floats F) (r : Res F) (hm : r.manager = none) (o : Nat) (n : String) (hn : n ∈ numbers)
    (ha : (r.obj o).attr = some (.named n)) (a b : Text) (i : Int) (hda : Denotes a i) (hdb : Denotes b i) (hi : Signed 64 i) (hab : a ≠ b) :
    ∃ ra rb, give fl r o a = some ra ∧ give fl r o b = some rb ∧ ¬ (find fl ra a = some (some o) ∧ find fl rb b = some (some o)) := by
  obtain ⟨x, y, s, t, h1, h2, h3, h4, h5⟩ := C100_number_partial fl (r.obj o) n hn ha a b i i hda hdb hi hi
  refine ⟨setObj r o x, setObj r o y, by simp only [give, h1], by simp only [give, h2], fun ⟨f1, f2⟩ => ?_⟩
  have hm1 : (setObj r o x).manager = none := hm
  have hm2 : (setObj r o y).manager = none := hm
  simp only [find, hm1, hm2] at f1 f2
  obtain ⟨-, -, -, g1, -⟩ := (search_some ..).1 f1
  obtain ⟨-, -, -, g2, -⟩ := (search_some ..).1 f2
  simp only [setObj, if_true, HasID] at g1 g2 h3 h4
  rw [h3] at g1
  rw [h4] at g2
  simp only [Option.some.injEq] at g1 g2
  exact hab (by rw [← g1, ← g2]; exact h5.2 rfl)

/-- any text that begins with a letter gives an object with an ID of a type of integers the ID 0: all such objects have the same one, and are not found by
what they were given -/
theorem C100_invalid_violated (fl : Floats F) (o : Obj F) (n : String) (hn : n ∈ numbers) (ho : o.attr = some (.named n)) (c : Nat) (s : Text) (hc : 57 < c) :
    ∃ x, setID fl o (c :: s) = some x ∧ HasID fl x [48] := by
  have hp : parseInt 64 (c :: s) = 0 := by
    have h1 : c ≠ 45 := by omega
    have h2 : c ≠ 43 := by omega
    simp [parseInt, h1, h2, parseUint, parseLoop, hc]
  simp only [numbers, List.mem_cons, List.not_mem_nil, or_false] at hn
  have hz : formatInt 0 = [48] := by simp [formatInt, formatNat]
  have hl : (c :: s).length ≠ 0 := by simp
  by_cases h : n = "int" ∨ n = "java.lang.Integer"
  · refine ⟨{ o with value := some (.int 0) }, ?_, ?_⟩ <;> rcases h with rfl | rfl <;> simp [setID, HasID, getID, ho, createDynamic, convertDynamic, hp, hz]
  · have h' : n = "int64" ∨ n = "java.lang.Long" ∨ n = "java.math.BigInteger" ∨ n = "long" := by grind
    refine ⟨{ o with value := some (.int64 0) }, ?_, ?_⟩ <;> rcases h' with rfl | rfl | rfl | rfl <;>
      simp [setID, HasID, getID, ho, createDynamic, convertDynamic, hp, hz]

/-- an ID of a type of bytes can be given but not read: no object after it in the resource is found any more, whatever its ID -/
theorem C100_bytes_violated (fl : Floats F) (r : Res F) (hm : r.manager = none) (o : Nat) (before after : List Nat) (hc : r.contents = before ++ o :: after)
    (hb : o ∉ before) (n : String) (hn : n ∈ ["byte[]", "[]byte"]) (ha : (r.obj o).attr = some (.named n)) (id : Text) (hid : id ≠ []) :
    ∃ r', give fl r o id = some r' ∧ ∀ other, (∀ p ∈ before, ∃ i, HasID fl (r.obj p) i ∧ i ≠ other) → find fl r' other = none := by
  have hs : setID fl (r.obj o) id = some { r.obj o with value := some (.bytes id) } := by
    simp only [List.mem_cons, List.not_mem_nil, or_false] at hn
    rcases hn with rfl | rfl <;> simp [setID, ha, hid, createDynamic]
  have hg : getID fl { r.obj o with value := some (.bytes id) } = none := by
    simp only [List.mem_cons, List.not_mem_nil, or_false] at hn
    rcases hn with rfl | rfl <;> simp [getID, ha, convertDynamic]
  refine ⟨setObj r o { r.obj o with value := some (.bytes id) }, by simp only [give, hs], fun other hother => ?_⟩
  have hm' : (setObj r o { r.obj o with value := some (.bytes id) }).manager = none := hm
  simp only [find, hm']
  show search fl _ other r.contents = none
  rw [hc]
  clear hc hm'
  induction before with
  | nil => simp [search, setObj, hg]
  | cons p before ih =>
    obtain ⟨i, hi, hne⟩ := hother p (by simp)
    have hpo : p ≠ o := fun e => hb (by simp [e])
    simp only [List.cons_append, search]
    have : (setObj r o { r.obj o with value := some (.bytes id) }).obj p = r.obj p := by simp [setObj, hpo]
    rw [HasID] at hi
    rw [this, hi]
    simp only [show ¬ other = i from fun e => hne e.symm, if_false]
    exact ih (fun h => hb (by simp [h])) (fun q hq => hother q (by simp [hq]))

/-- the second of three objects has an ID of bytes; by the ID of the third nothing is found -/
example : (give sampleFloats ⟨fun o => if o = 1 then ⟨some (.named "[]byte"), none⟩ else sampleText [o], [0, 1, 2], none⟩ 1 [97]).bind
    (fun r => find sampleFloats r [2]) = none ∧
    find sampleFloats ⟨fun o => if o = 1 then ⟨some (.named "[]byte"), none⟩ else sampleText [o], [0, 1, 2], none⟩ [2] = some (some 2) := ⟨rfl, rfl⟩

/-- without an ID: an object that has none is found by the empty one -/
theorem C100_empty_violated (fl : Floats F) (r : Res F) (hm : r.manager = none) (hr : Readable fl r) (h : ∃ p ∈ r.contents, (r.obj p).attr = none) :
    ∃ o, find fl r [] = some (some o) ∧ o ∈ r.contents ∧ HasID fl (r.obj o) [] := by
  obtain ⟨p, hp, ha⟩ := h
  obtain ⟨⟨x, hx⟩, h2, h3, -⟩ := C100_found_partial fl r hm hr []
  cases x with
  | none => exact absurd (by simp [HasID, getID, ha]) (h3.1 hx p hp)
  | some o => exact ⟨o, hx, h2 o hx⟩

/-- What the ID manager has, if the text has been given to this object only: the maps agree about the object and the text. -/
theorem giveAll_knows (fl : Floats F) (o : Nat) (id : Text) (hid : id ≠ []) (l : List (Nat × Text)) : ∀ (r r' : Res F) (m : Manager), r.manager = some m →
    (∀ p, m.idOf p = some id → p = o) → (m.idOf o = some id → m.objOf id = some o) → (∀ x ∈ l, x.2 = id → x.1 = o) → giveAll fl r l = some r' →
    ∃ m', r'.manager = some m' ∧ (m'.idOf o = some id → m'.objOf id = some o) ∧
      m'.idOf o = (match (l.filter (fun x => x.1 = o)).getLast? with
        | none => m.idOf o
        | some x => if x.2.length > 0 then some x.2 else none) := by
  induction l with
  | nil =>
    intro r r' m hm _ h2 _ h
    simp only [giveAll, Option.some.injEq] at h
    subst h
    exact ⟨m, hm, h2, rfl⟩
  | cons x l ih =>
    obtain ⟨p, j⟩ := x
    intro r r' m hm h1 h2 hl h
    simp only [giveAll, hm] at h
    cases hg : giveManaged fl r m p j with
    | none => rw [hg] at h; cases h
    | some q =>
      rw [hg] at h
      simp only at h
      have hq : q.manager = some (remember m p j) := by
        simp only [giveManaged] at hg
        cases hgg : give fl r p j with
        | none => rw [hgg] at hg; cases hg
        | some q' =>
          rw [hgg] at hg
          simp only [Option.some.injEq] at hg
          subst hg
          rfl
      have hidl : id.length > 0 := List.length_pos_iff.2 hid
      have hj : j = id → p = o := fun e => hl (p, j) (by simp) e
      have k1 : ∀ p', (remember m p j).idOf p' = some id → p' = o := by
        intro p' hp'
        simp only [remember] at hp'
        split at hp'
        · rename_i e
          split at hp'
          · simp only [Option.some.injEq] at hp'
            rw [e]; exact hj hp'
          · cases hp'
        · exact h1 p' hp'
      have k2 : (remember m p j).idOf o = some id → (remember m p j).objOf id = some o := by
        intro ho
        simp only [remember] at ho ⊢
        by_cases e : o = p
        · subst e
          rw [if_pos rfl] at ho
          by_cases hjl : j.length > 0
          · simp only [hjl, if_true, Option.some.injEq] at ho
            subst ho
            simp [hjl]
          · simp [hjl] at ho
        · rw [if_neg e] at ho
          have hne : j ≠ id := fun e' => e (hj e').symm
          have hold : m.idOf p ≠ some id := fun e' => e (h1 p e').symm
          have hbase := h2 ho
          have : (match m.idOf p with
              | some i => if i.length > 0 then (fun j => if j = i then none else m.objOf j) else m.objOf
              | none => m.objOf) id = some o := by
            cases hp : m.idOf p with
            | none => exact hbase
            | some i =>
              have : id ≠ i := fun e' => hold (by rw [hp, e'])
              simp only
              split
              · simp [this, hbase]
              · exact hbase
          split
          · simp only [hne.symm, if_false]
            exact this
          · exact this
      obtain ⟨m', hm', a1, a2⟩ := ih q r' _ hq k1 k2 (fun x hx => hl x (by simp [hx])) h
      refine ⟨m', hm', a1, ?_⟩
      rw [a2]
      by_cases e : p = o
      · subst e
        simp only [List.filter_cons, decide_true, if_true]
        cases hf : (l.filter (fun x => x.1 = p)).getLast? with
        | none =>
          have : l.filter (fun x => x.1 = p) = [] := List.getLast?_eq_none_iff.1 hf
          simp [this, remember]
        | some y => simp [List.getLast?_cons, hf]
      · simp only [List.filter_cons, e, decide_false]
        cases hf : (l.filter (fun x => x.1 = o)).getLast? with
        | none =>
          have : o ≠ p := fun h => e h.symm
          simp [remember, hf, this]
        | some y => simp [hf]

theorem setID_attr (fl : Floats F) (o x : Obj F) (id : Text) (h : setID fl o id = some x) : x.attr = o.attr := by
  simp only [setID] at h
  split at h
  · cases h
  · split at h
    · simp only [Option.some.injEq] at h; subst h; rfl
    · split at h
      · cases h
      · simp only [Option.some.injEq] at h; subst h; rfl

/-- the last text given to an object is its ID -/
theorem giveAll_has (fl : Floats F) (o : Nat) (n : String) (hn : n ∈ texts) (l : List (Nat × Text)) : ∀ (r r' : Res F), (r.obj o).attr = some (.named n) →
    giveAll fl r l = some r' → match (l.filter (fun x => x.1 = o)).getLast? with
      | none => r'.obj o = r.obj o
      | some x => HasID fl (r'.obj o) x.2 := by
  induction l with
  | nil =>
    intro r r' _ h
    simp only [giveAll, Option.some.injEq] at h
    subst h
    rfl
  | cons q l ih =>
    obtain ⟨p, id⟩ := q
    intro r r' ha h
    simp only [giveAll] at h
    cases hm : r.manager with
    | none => rw [hm] at h; cases h
    | some m =>
      rw [hm] at h
      cases hg : giveManaged fl r m p id with
      | none => simp only [hg] at h; cases h
      | some r1 =>
        simp only [hg] at h
        simp only [giveManaged] at hg
        cases hq : give fl r p id with
        | none => rw [hq] at hg; cases hg
        | some r2 =>
          rw [hq] at hg
          simp only [Option.some.injEq] at hg
          subst hg
          obtain ⟨x, e1, e2, e3, -, -⟩ := give_eq fl r r2 p id hq
          by_cases hpo : p = o
          · subst hpo
            obtain ⟨x', g1, g2⟩ := C100_text_partial fl (r.obj p) n hn ha id
            rw [e1] at g1
            simp only [Option.some.injEq] at g1
            subst g1
            have := ih _ r' (by show (r2.obj p).attr = _; rw [e2, setID_attr fl _ _ _ e1]; exact ha) h
            simp only [List.filter_cons, decide_true, if_true, List.getLast?_cons]
            cases hl : (l.filter (fun x => decide (x.1 = p))).getLast? with
            | none =>
              rw [hl] at this
              simp only [Option.getD_none]
              rw [this]
              show HasID fl (r2.obj p) id
              rw [e2]
              exact g2
            | some y =>
              rw [hl] at this
              exact this
          · have := ih _ r' (by show (r2.obj o).attr = _; rw [e3 o (Ne.symm hpo)]; exact ha) h
            have hf : ((p, id) :: l).filter (fun x => decide (x.1 = o)) = l.filter (fun x => decide (x.1 = o)) := by simp [List.filter_cons, hpo]
            rw [hf]
            cases hl : (l.filter (fun x => decide (x.1 = o))).getLast? with
            | none =>
              rw [hl] at this
              simp only at this ⊢
              rw [this]
              exact e3 o (Ne.symm hpo)
            | some y =>
              rw [hl] at this
              exact this

/-- with the ID manager: after any sequence of calls of `SetID`, an object is found by the text it was given last, if this text was given to no other object; whatever
the contents of the resource are and whatever IDs the objects then have; if its ID attribute is a text, it has this ID -/
theorem C100_managed_partial (fl : Floats F) (r r' : Res F) (hm : r.manager = some ⟨fun _ => none, fun _ => none⟩) (l : List (Nat × Text))
    (h : giveAll fl r l = some r') (o : Nat) (id : Text) (hid : id ≠ []) (hl : (l.filter (fun x => x.1 = o)).getLast? = some (o, id))
    (hu : ∀ x ∈ l, x.2 = id → x.1 = o) :
    find fl r' id = some (some o) ∧ ∀ n ∈ texts, (r.obj o).attr = some (.named n) → HasID fl (r'.obj o) id := by
  refine ⟨?_, fun n hn ha => by simpa only [hl] using giveAll_has fl o n hn l r r' ha h⟩
  obtain ⟨m', hm', a1, a2⟩ := giveAll_knows fl o id hid l r r' _ hm (by simp) (by simp) hu h
  rw [hl] at a2
  have hidl : id.length > 0 := List.length_pos_iff.2 hid
  simp only [hidl, if_true] at a2
  simp only [find, hm', a1 a2]

/-- two objects, of which one is given another ID -/
example : ∃ r', giveAll sampleFloats ⟨fun _ => ⟨some (.named "string"), none⟩, [], some ⟨fun _ => none, fun _ => none⟩⟩ [(0, [65]), (1, [66]), (0, [67])] = some r' ∧
    find sampleFloats r' [67] = some (some 0) ∧ find sampleFloats r' [66] = some (some 1) ∧ find sampleFloats r' [65] = some none := by
  refine ⟨_, by simp [giveAll, giveManaged, give, setID, setObj, createDynamic]; rfl, ?_⟩
  simp [find, remember]

/-- with the ID manager: if the ID the object then has is another text than the one that was given, the object is found by the latter, and by its ID, which
is what its URI has, it is not -/
theorem C100_manager_violated (fl : Floats F) (r r' : Res F) (m : Manager) (hm : r.manager = some m) (o : Nat) (hcons : ∀ j, m.objOf j = some o → m.idOf o = some j ∧ j ≠ [])
    (id id' : Text) (hid : id ≠ []) (h : giveManaged fl r m o id = some r') (hid' : HasID fl (r'.obj o) id') (hne : id' ≠ id) :
    find fl r' id = some (some o) ∧ find fl r' id' ≠ some (some o) := by
  simp only [giveManaged] at h
  cases hg : give fl r o id with
  | none => rw [hg] at h; cases h
  | some q =>
    rw [hg] at h
    simp only [Option.some.injEq] at h
    subst h
    have hpos : id.length > 0 := by
      cases id with
      | nil => exact absurd rfl hid
      | cons _ _ => simp
    simp only [find, remember, hpos, if_true, hne, if_false, true_and, ne_eq, Option.some.injEq]
    intro hc
    cases ho : m.idOf o with
    | none =>
      rw [ho] at hc
      simp only at hc
      have := (hcons _ hc).1
      rw [ho] at this
      cases this
    | some i =>
      rw [ho] at hc
      simp only at hc
      by_cases hil : i.length > 0
      · simp only [hil, if_true] at hc
        by_cases hi : id' = i
        · simp [hi] at hc
        · simp only [hi, if_false] at hc
          have := (hcons _ hc).1
          rw [ho] at this
          simp only [Option.some.injEq] at this
          exact hi this.symm
      · simp only [hil, if_false] at hc
        have := hcons _ hc
        rw [ho] at this
        simp only [Option.some.injEq] at this
        obtain ⟨rfl, hne'⟩ := this
        exact hil (List.length_pos_iff.2 hne')

/-- the object is given 007; it is found by this text, and has the ID 7 -/
example : ∃ r', giveManaged sampleFloats ⟨fun _ => ⟨some (.named "int"), none⟩, [0], some ⟨fun _ => none, fun _ => none⟩⟩ ⟨fun _ => none, fun _ => none⟩ 0 [48, 48, 55] = some r' ∧
    HasID sampleFloats (r'.obj 0) [55] := by
  refine ⟨_, by simp [giveManaged, give, setID, createDynamic]; rfl, ?_⟩
  simp [HasID, getID, convertDynamic, setObj, formatInt, formatNat, parseInt, parseUint, parseLoop]

end Verif.ObjectID
