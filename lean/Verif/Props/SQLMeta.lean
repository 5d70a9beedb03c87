import Verif.Proofs.SQLMeta

/-!
# C91: classes and literals in SQL databases that are opened again

`run` executes the calls on the model of the store, `Spec.run` on the specification.
-/

namespace Verif.SQLMeta

/-- Every object has the class with the URI and the name it was stored with, every enumeration attribute the value of the literal it was given,
however often the database was opened, with whatever versions of the packages, with or without the ID manager of before: the answers are
those of the specification.  Missing: attributes that are unset, the question whether one is set, an ID manager used with two databases, and packages that cannot be told
apart; see the violations below. -/
theorem C91_sessions_partial (m : Meta) (hm : Ok m) (ops : List Op) (ha : (Spec.init m).AllAllowed ops) :
    (run (init m) ops).2 = ((Spec.init m).run ops).2 :=
  (run_ok (init_inv hm) ha).2

/-- A database has at most as many rows for a package, a class or a literal as it was opened with an empty ID manager.  The claim, one row each, is proved for
one session only. -/
theorem C91_rows_partial (m : Meta) (hm : Ok m) (ops : List Op) (ha : (Spec.init m).AllAllowed ops) :
    (∀ uri, packageRows (run (init m) ops).1.db uri ≤ sessions ops) ∧
    (∀ uri name, classRows (run (init m) ops).1.db uri name ≤ sessions ops) ∧
    (∀ uri name text, literalRows (run (init m) ops).1.db uri name text ≤ sessions ops) := by
  obtain ⟨k, hk, h⟩ := run_rows (init_inv hm) (init_rows m) ha
  refine ⟨fun u => ?_, fun u nm => ?_, fun u nm t => ?_⟩
  · rcases h.p u with a | ⟨a, _⟩ <;> omega
  · rcases h.c u nm with a | ⟨a, _⟩ <;> omega
  · rcases h.l u nm t with a | ⟨a, _⟩ <;> omega

/-- two packages; the first has a class and an enumeration, the second a class of the same name -/
def library : Meta :=
  ⟨[⟨"http://a", [.cls "Book", .enum "Color" [⟨"red", 1⟩, ⟨"green", 2⟩]]⟩, ⟨"http://b", [.cls "Book"]⟩], [(0, 1)]⟩

/-- a later version: the packages, classifiers and literals in another order and with other values, and one class more -/
def library2 : Meta :=
  ⟨[⟨"http://b", [.cls "Writer", .cls "Book"]⟩, ⟨"http://a", [.enum "Color" [⟨"green", 7⟩, ⟨"blue", 1⟩, ⟨"red", 5⟩], .cls "Book"]⟩], [(1, 0)]⟩

/-- a version without the second package -/
def library3 : Meta :=
  ⟨[⟨"http://a", [.cls "Book", .enum "Color" [⟨"red", 1⟩]]⟩], [(0, 1)]⟩

def history : List Op :=
  [.create (0, 0), .create (1, 0), .set 1 0 2, .get 2 0, .open library2 false, .create (1, 1), .set 3 0 7, .get 1 0, .classOf 2, .roots,
    .open library2 true, .create (0, 0), .roots, .open library3 false, .classOf 2, .classOf 1, .get 1 0, .classOf 9]

theorem has_of {s : Spec} {o : Nat} (n : String × String) (h : s.cls o = some n) (g : hasClass s.m n = true) : s.Has o := ⟨n, h, g⟩

/-- the hypotheses are met by a history of four sessions, two with the same ID manager -/
example : Ok library ∧ (Spec.init library).AllAllowed history := by
  refine ⟨by decide, ⟨_, _, rfl⟩, ⟨_, _, rfl⟩, ⟨has_of ("http://a", "Book") rfl (by decide), ⟨"green", 2⟩, by decide, rfl⟩, has_of ("http://b", "Book") rfl (by decide),
    ⟨by decide, by decide, fun h => by cases h⟩, ⟨_, _, rfl⟩, ⟨has_of ("http://a", "Book") rfl (by decide), ⟨"green", 7⟩, by decide, rfl⟩,
    has_of ("http://a", "Book") rfl (by decide), trivial, (show ∀ n ∈ [("http://a", "Book"), ("http://b", "Book"), ("http://a", "Book")], hasClass library2 n = true by decide), ⟨by decide, rfl, fun _ => rfl⟩, ⟨_, _, rfl⟩,
    (show ∀ n ∈ [("http://a", "Book"), ("http://b", "Book"), ("http://a", "Book"), ("http://b", "Writer")], hasClass library2 n = true by decide), ⟨by decide, by decide, fun h => by cases h⟩, trivial, trivial, has_of ("http://a", "Book") rfl (by decide), trivial, trivial⟩

/-- its answers: the literal green has another value in the second version, and is missing in the third, as is the class of the second object -/
example : (run (init library) history).2 =
    [.id 1, .id 2, .none, .val 1, .none, .id 3, .none, .val 7, .cls "http://b" "Book",
      .list [("http://a", "Book"), ("http://b", "Book"), ("http://a", "Book")], .none, .id 4,
      .list [("http://a", "Book"), ("http://b", "Book"), ("http://a", "Book"), ("http://b", "Writer")], .none, .nil, .cls "http://a" "Book", .nil, .nil] := by
  decide

example : sessions history = 3 ∧ classRows (run (init library) history).1.db "http://a" "Book" = 2 ∧
    literalRows (run (init library) history).1.db "http://a" "Color" "green" = 2 := by decide

/-- In one session each package, class and literal has at most one row. -/
theorem C91_one_session_partial (m : Meta) (hm : Ok m) (ops : List Op) (ha : (Spec.init m).AllAllowed ops)
    (h : ∀ op ∈ ops, ∀ m', op ≠ .open m' false) :
    (∀ uri, packageRows (run (init m) ops).1.db uri ≤ 1) ∧
    (∀ uri name, classRows (run (init m) ops).1.db uri name ≤ 1) ∧
    (∀ uri name text, literalRows (run (init m) ops).1.db uri name text ≤ 1) := by
  have e : sessions ops = 1 := by
    clear ha
    induction ops with
    | nil => rfl
    | cons op ops ih =>
      have := ih (fun o ho => h o (by simp [ho]))
      cases op with
      | «open» m' keep =>
        cases keep with
        | false => exact absurd rfl (h _ (by simp) m')
        | true => simpa [sessions] using this
      | _ => simpa [sessions] using this
  have := C91_rows_partial m hm ops ha
  rw [e] at this
  exact this

/-- A store that is opened on the database and stores an object of a class that the database knows gives the class and the package second numbers. -/
theorem C91_rows_violated : ∃ ops, (Spec.init library).AllAllowed ops ∧
    classRows (run (init library) ops).1.db "http://a" "Book" = 2 ∧ packageRows (run (init library) ops).1.db "http://a" = 2 :=
  ⟨[.create (0, 0), .open library false, .create (0, 0)], ⟨⟨_, _, rfl⟩, ⟨by decide, rfl, fun _ => rfl⟩, ⟨_, _, rfl⟩, trivial⟩, by decide, by decide⟩

/-- Unsetting an enumeration attribute writes the value of the default literal where the number of a literal belongs: the attribute then has
the literal that happens to have this number: here it was green, is unset and is still green, and not the default value red. -/
theorem C91_unset_violated :
    (run (init library) [.create (0, 0), .set 1 0 2, .unset 1 0, .get 1 0]).2 = [.id 1, .none, .none, .val 2] ∧
    ((Spec.init library).run [.create (0, 0), .set 1 0 2, .unset 1 0, .get 1 0]).2 = [.id 1, .none, .none, .val 1] := by decide

/-- In general: when the default value is zero, as it is in enumerations that are numbered from zero, an attribute that is unset has no value any more, since no row has the
number zero. -/
theorem C91_unset_zero_violated (m : Meta) (hm : Ok m) (ops : List Op) (ha : (Spec.init m).AllAllowed ops) (o k : Nat)
    (ho : ((Spec.init m).run ops).1.Has o) (hd : ((literals ((Spec.init m).run ops).1.m k)[0]?).map Lit.value = some 0)
    (hu : ∀ p ∈ ((Spec.init m).run ops).1.m.pkgs, p.uri ≠ "") :
    (step (step (run (init m) ops).1 (.unset o k)).1 (.get o k)).2 = .nil := by
  have inv := (run_ok (init_inv hm) ha).1
  revert inv ho hd hu
  generalize (run (init m) ops).1 = s
  generalize ((Spec.init m).run ops).1 = sp
  intro ho hd hu inv
  obtain ⟨n, hn, hh⟩ := ho
  rw [inv.m] at hh hd hu
  obtain ⟨h1, h2, h3, h4, h5⟩ := decodeObject_ok inv o
  have hz : SQLMeta.default s.m k = some 0 := by
    unfold SQLMeta.default; rw [literals_attrLits]; exact hd
  simp only [step]
  generalize hq : decodeObject s o = q
  rw [hq] at h1 h2 h3 h4 h5
  obtain ⟨s', r⟩ := q
  simp only at h1 h2 h3 h4 h5
  cases r with
  | none => have := h5 rfl n hn; rw [hh] at this; cases this
  | some c =>
    have hob : ∃ c', s'.ids.objs o = some c' := by
      unfold decodeObject at hq
      split at hq
      · next c' e => cases hq; exact ⟨_, e⟩
      · split at hq
        · cases hq
        · split at hq
          · cases hq
          · cases hq; exact ⟨c, by simp [Ids.setObj, upd_eq]⟩
    obtain ⟨c', hob⟩ := hob
    simp only [h2, hz]
    unfold decodeObject
    simp only [hob, upd_eq, if_true]
    have lz : s'.ids.litFrom 0 = none := by
      cases e : s'.ids.litFrom 0 with
      | none => rfl
      | some l =>
        obtain ⟨_, _, _, _, _, _, h⟩ := h1.ids.lf _ _ e
        simp [litRow, row] at h
    have pz : s'.ids.pkgFrom 0 = none := by
      cases e : s'.ids.pkgFrom 0 with
      | none => rfl
      | some l =>
        obtain ⟨_, _, h⟩ := h1.ids.pf _ _ e
        simp [row] at h
    have gz : getPackage s'.m "" = none := by
      cases e : getPackage s'.m "" with
      | none => rfl
      | some p =>
        obtain ⟨pkg, h, h'⟩ := getPackage_some e
        rw [h2] at h
        exact absurd h' (hu _ (List.mem_of_getElem? h))
    rw [h2] at gz
    have rz : row s'.db.pkgs 0 = none := by simp [row]
    have ez : row s'.db.enums 0 = none := by simp [row]
    simp [decodeValue, decodeLiteral, lz, ez, decodePackage, pz, rz, gz]

/-- packages, an object and an attribute that meet the hypotheses -/
example : let m : Meta := ⟨[⟨"http://a", [.cls "Book", .enum "Color" [⟨"red", 0⟩, ⟨"green", 1⟩]]⟩], [(0, 1)]⟩
    Ok m ∧ (Spec.init m).AllAllowed [.create (0, 0), .set 1 0 1] ∧ ((Spec.init m).run [.create (0, 0), .set 1 0 1]).1.Has 1 ∧
      ((literals m 0)[0]?).map Lit.value = some 0 ∧ (∀ p ∈ m.pkgs, p.uri ≠ "") ∧
      (run (init m) [.create (0, 0), .set 1 0 1, .get 1 0, .unset 1 0, .get 1 0]).2 = [.id 1, .none, .val 1, .none, .nil] :=
  ⟨by decide, ⟨⟨_, _, rfl⟩, ⟨has_of ("http://a", "Book") rfl (by decide), ⟨"green", 1⟩, by decide, rfl⟩, trivial⟩, has_of ("http://a", "Book") rfl (by decide), by decide, by decide, by decide⟩

/-- An enumeration attribute that nobody gave a value is said to be set: NULL is compared with the default value. -/
theorem C91_isSet_violated :
    (run (init library) [.create (0, 0), .isSet 1 0]).2 = [.id 1, .bool true] ∧
    ((Spec.init library).run [.create (0, 0), .isSet 1 0]).2 = [.id 1, .bool false] := by decide

/-- Two packages with one URI: an object of the first one has the class of the second one when the database is opened again, if there is one of this name, and is lost
otherwise. -/
theorem C91_twin_packages_violated :
    let m : Meta := ⟨[⟨"http://a", [.cls "Book"]⟩, ⟨"http://a", [.cls "Writer"]⟩], []⟩
    (run (init m) [.create (0, 0), .roots, .open m false, .roots]).2 = [.id 1, .list [("http://a", "Book")], .none, .nil] ∧
    ((Spec.init m).run [.create (0, 0), .roots, .open m false, .roots]).2 = [.id 1, .list [("http://a", "Book")], .none, .list [("http://a", "Book")]] := by
  decide

/-- Two literals with one text: an attribute that was given the second has the first at once. -/
theorem C91_twin_literals_violated :
    let m : Meta := ⟨[⟨"http://a", [.cls "Book", .enum "Color" [⟨"red", 1⟩, ⟨"red", 2⟩]]⟩], [(0, 1)]⟩
    (run (init m) [.create (0, 0), .set 1 0 2, .get 1 0]).2 = [.id 1, .none, .val 1] := by
  decide

/-- One class that the packages do not have any more, and none of the roots is given, not even those of classes that are there. -/
theorem C91_roots_violated :
    (run (init library) [.create (0, 0), .create (1, 0), .open library3 false, .classOf 1, .roots]).2 =
      [.id 1, .id 2, .none, .cls "http://a" "Book", .nil] := by
  decide

/-- An ID manager that is used with a second database: the class is not written there, and the object is lost. -/
theorem C91_two_databases_violated :
    (run (init library) [.create (0, 0), .other, .create (0, 0), .open library false, .classOf 1]).2 = [.id 1, .none, .id 1, .none, .nil] ∧
    ((Spec.init library).run [.create (0, 0), .other, .create (0, 0), .open library false, .classOf 1]).2 =
      [.id 1, .none, .id 1, .none, .cls "http://a" "Book"] := by
  decide

end Verif.SQLMeta
