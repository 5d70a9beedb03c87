import Verif.Model.ResolveAll

/-!
# What is reachable through the references of documents
-/

namespace Verif.ResolveAll

/-- The document `d` can be read and one of its objects refers to an object of `d'`. -/
def Refers (env : Docs) (d d' : Nat) : Prop := ∃ objs, env d = some objs ∧ ∃ o ∈ objs, ∃ i, (d', i) ∈ o

/-- A document is in the list or some in the list lead to it. -/
inductive Reach (env : Docs) (start : List Nat) : Nat → Prop
  | start {d : Nat} : d ∈ start → Reach env start d
  | step {d d' : Nat} : Reach env start d → Refers env d d' → Reach env start d'

/-- There is such an object. -/
def Exists (env : Docs) (d i : Nat) : Prop := ∃ objs, env d = some objs ∧ i < objs.length

/-- The references of the object at position `i` of the document `d` are as the document says: for each reference to an object that exists the object at this place of its resource, for the others
a proxy. -/
def Settled (env : Docs) (w : World) (d i : Nat) : Prop :=
  ∀ (objs : List (List (Nat × Nat))) (o : Nat × Nat) (refs : List (Nat × Nat)), env d = some objs → (objects env w d)[i]? = some o → objs[i]? = some refs →
    (w.refs o.1 o.2).length = refs.length ∧
    ∀ (k : Nat) (r : Nat × Nat), refs[k]? = some r →
      (Exists env r.1 r.2 → ∃ t, (objects env w r.1)[r.2]? = some t ∧ (w.refs o.1 o.2)[k]? = some (.obj t.1 t.2)) ∧
      (¬ Exists env r.1 r.2 → (w.refs o.1 o.2)[k]? = some (.proxy r.1 r.2))

end Verif.ResolveAll
