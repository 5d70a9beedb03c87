import Verif.Model.SQLMeta

/-!
# What a SQL database keeps of classes and literals

An object has the class of its name in the package of its URI, an attribute the literal with its text; it does not matter how often the database was closed
and opened.  `Spec` says nothing about numbers, tables and caches.
-/

namespace Verif.SQLMeta

/-- the literals of a classifier -/
def litsOf : Classifier → List Lit
  | .cls _ => []
  | .enum _ lits => lits

def isEnum : Classifier → Bool
  | .cls _ => false
  | .enum _ _ => true

/-- the classifier at a position, with the URI of its package -/
def at? (m : Meta) (r : Nat × Nat) : Option (String × Classifier) :=
  (m.pkgs[r.1]?).bind fun p => (p.members[r.2]?).map fun c => (p.uri, c)

/-- Packages that can be told apart: no URI, name of a classifier in a package or text of a literal in an enumeration twice; the types of the
attributes are enumerations. -/
structure Ok (m : Meta) : Prop where
  uris : (m.pkgs.map Pkg.uri).Nodup
  names : ∀ p ∈ m.pkgs, (p.members.map Classifier.name).Nodup
  texts : ∀ p ∈ m.pkgs, ∀ c ∈ p.members, ((litsOf c).map Lit.text).Nodup
  attrs : ∀ e ∈ m.attrs, (at? m e).any (fun x => isEnum x.2) = true

instance (m : Meta) : Decidable (Ok m) :=
  decidable_of_iff ((m.pkgs.map Pkg.uri).Nodup ∧ (∀ p ∈ m.pkgs, (p.members.map Classifier.name).Nodup) ∧
    (∀ p ∈ m.pkgs, ∀ c ∈ p.members, ((litsOf c).map Lit.text).Nodup) ∧ ∀ e ∈ m.attrs, (at? m e).any (fun x => isEnum x.2) = true)
    ⟨fun ⟨a, b, c, d⟩ => ⟨a, b, c, d⟩, fun ⟨a, b, c, d⟩ => ⟨a, b, c, d⟩⟩

/-- the packages have a class of this URI and name -/
def hasClass (m : Meta) (n : String × String) : Bool :=
  m.pkgs.any fun p => p.uri == n.1 && p.members.contains (.cls n.2)

/-- the literals an attribute can have -/
def literals (m : Meta) (k : Nat) : List Lit :=
  ((m.attrs[k]?).bind (at? m)).elim [] fun x => litsOf x.2

/-- the URI and the name of the types of the attributes -/
def attrNames (m : Meta) : List (Option (String × String)) :=
  m.attrs.map fun e => (at? m e).map fun x => (x.1, x.2.name)

/-- The objects stored with the URI and the name of their classes, and the texts of the literals of their attributes. -/
structure Spec where
  m : Meta
  objs : List (String × String)
  vals : Nat → Nat → Option String

namespace Spec

def init (m : Meta) : Spec := ⟨m, [], fun _ _ => none⟩

/-- the class of the object number `o`, counted from one -/
def cls (s : Spec) (o : Nat) : Option (String × String) :=
  if o = 0 then none else s.objs[o - 1]?

def step (s : Spec) : Op → Spec × Ans
  | .create c =>
    ({ s with objs := s.objs ++ [((at? s.m c).map fun x => (x.1, x.2.name)).getD ("", "")] }, .id (s.objs.length + 1))
  | .classOf o =>
    (s, match s.cls o with
      | some n => if hasClass s.m n then .cls n.1 n.2 else .nil
      | none => .nil)
  | .roots => (s, .list s.objs)
  | .set o k v =>
    ({ s with vals := fun a b =>
        if a = o ∧ b = k then ((literals s.m k).find? fun l => l.value == v).map Lit.text else s.vals a b }, .none)
  | .get o k =>
    (s, match s.vals o k with
      | none => ((literals s.m k)[0]?).elim .nil fun l => .val l.value
      | some t => ((literals s.m k).find? fun l => l.text == t).elim .nil fun l => .val l.value)
  | .unset o k => ({ s with vals := fun a b => if a = o ∧ b = k then none else s.vals a b }, .none)
  | .isSet o k => (s, .bool (s.vals o k).isSome)
  | .open m _ => ({ s with m := m }, .none)
  | .other => (init s.m, .none)

def run (s : Spec) : List Op → Spec × List Ans
  | [] => (s, [])
  | op :: ops =>
    let r := s.step op
    let q := run r.1 ops
    (q.1, r.2 :: q.2)

/-- an object that is stored and whose class the packages have -/
def Has (s : Spec) (o : Nat) : Prop :=
  ∃ n, s.cls o = some n ∧ hasClass s.m n = true

/-- What the client may do: it makes objects of classes of the packages, uses objects that are stored and have a class, gives attributes values of
literals, and opens the database again with packages that can be told apart and have the types of the attributes; the ID manager of the store before is used
with the same packages only.  Not allowed are `unset`, `isSet` and `other`. -/
def Allowed (s : Spec) : Op → Prop
  | .create c => ∃ u n, at? s.m c = some (u, .cls n)
  | .classOf _ => True
  | .roots => ∀ n ∈ s.objs, hasClass s.m n = true
  | .set o k v => s.Has o ∧ ∃ l ∈ literals s.m k, l.value = v
  | .get o _ => s.Has o
  | .open m keep => Ok m ∧ attrNames m = attrNames s.m ∧ (keep = true → m = s.m)
  | _ => False

def AllAllowed (s : Spec) : List Op → Prop
  | [] => True
  | op :: ops => s.Allowed op ∧ AllAllowed (s.step op).1 ops

end Spec

/-- how often the database is opened with an empty ID manager -/
def sessions : List Op → Nat
  | [] => 1
  | .open _ false :: ops => sessions ops + 1
  | _ :: ops => sessions ops

/-- the URI of the package that a row of the classes or literals refers to -/
def pkgOf (db : Db) (id : Nat) : Option String :=
  if id = 0 then none else db.pkgs[id - 1]?

/-- the rows of the package with a URI -/
def packageRows (db : Db) (uri : String) : Nat :=
  (db.pkgs.filter fun u => u == uri).length

/-- the rows of the class with a URI and a name -/
def classRows (db : Db) (uri name : String) : Nat :=
  (db.classes.filter fun r => pkgOf db r.1 == some uri && r.2 == name).length

/-- the rows of the literal of the enumeration with a URI and a name -/
def literalRows (db : Db) (uri name text : String) : Nat :=
  (db.enums.filter fun r => pkgOf db r.1 == some uri && r.2.1 == name && r.2.2 == text).length

end Verif.SQLMeta
