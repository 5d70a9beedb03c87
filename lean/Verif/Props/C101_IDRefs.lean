import Verif.Proofs.IDRefs

/-!
# C101: References written as fragments are read as the objects they name
-/

namespace Verif.IDRefs

/-- objects 0, 1 with IDs, object 2 with a path -/
def sample (id0 id1 : String) : Res :=
  ⟨[0, 1, 2], fun o => if o = 0 then id0.toList else if o = 1 then id1.toList else [], fun _ => "//@children.1".toList,
    fun p => if p = "//@children.1".toList then some 2 else none⟩

/-- objects whose IDs are unique and are not taken for something else, and objects without ID whose paths lead to them: the reference gets exactly these
objects, in the same order and as often -/
theorem C101_restored_partial (r : Res) (l : List Nat) (hl : l ≠ []) (h : ∀ o ∈ l, (o ∈ r.contents ∧ PlainID r o) ∨ PlainPath r o) :
    read r (write r l) = some (l.map .obj, 0) := by
  have hf : ∀ o ∈ l, ' ' ∉ fragment r o ∧ getEObject r (fragment r o) = some (some o) := by
    intro o ho
    rcases h o ho with ⟨hc, h1, h2, h3, h4, h5⟩ | ⟨h1, h2, h3, h4⟩
    · have : (r.id o).length > 0 := List.length_pos_iff.2 h1
      simp only [fragment, this, if_true]
      exact ⟨h2, by rw [getEObject_plain r _ h3 h4, find_unique r o hc h5]⟩
    · have hp : (r.pathOf o).length > 0 := by
        cases hq : r.pathOf o with
        | nil => rw [hq] at h3; cases h3
        | cons _ _ => simp
      simp only [fragment, h1, List.length_nil, Nat.lt_irrefl, if_false]
      exact ⟨h2, by simp [getEObject, hp, h3, h4]⟩
  rw [read, split_write r l hl (fun o ho => (hf o ho).1)]
  clear h hl
  induction l with
  | nil => rfl
  | cons o l ih =>
    have := ih (fun p hp => hf p (by simp [hp]))
    simp only [List.map_cons, readTokens, this, show classify (getIDRef r o) = .loc (fragment r o) from classify_ref _, (hf o (by simp)).2]

/-- two objects with IDs, one of them twice, and one with a path -/
example : read (sample "a#b" "x:y") (write (sample "a#b" "x:y") [1, 2, 0, 1]) = some ([.obj 1, .obj 2, .obj 0, .obj 1], 0) ∧
    write (sample "a#b" "x:y") [1, 2, 0, 1] = "#x:y #//@children.1 #a#b #x:y".toList ∧
    PlainID (sample "a#b" "x:y") 0 ∧ PlainPath (sample "a#b" "x:y") 2 := by
  refine ⟨by decide, by decide, ⟨by decide, by decide, by decide, by decide, by decide⟩, ⟨by decide, by decide, by decide, by decide⟩⟩

/-- objects that are not found when the document is read, in a resource `q` that has only some of them: the reference gets the others, in the same
order, and there is one error for each that is missing -/
theorem C101_missing (r q : Res) (l : List Nat) (hl : l ≠ [])
    (h : ∀ o ∈ l, r.id o ≠ [] ∧ ' ' ∉ r.id o ∧ (r.id o).head? ≠ some '/' ∧ (r.id o).getLast? ≠ some '?')
    (hq : ∀ o ∈ l, ∀ p ∈ q.contents, q.id p = r.id o ↔ p = o) :
    read q (write r l) = some ((l.filter (· ∈ q.contents)).map .obj, (l.filter (· ∉ q.contents)).length) := by
  have hf : ∀ o ∈ l, ' ' ∉ fragment r o ∧ getEObject q (fragment r o) = some (if o ∈ q.contents then some o else none) := by
    intro o ho
    obtain ⟨h1, h2, h3, h4⟩ := h o ho
    have : (r.id o).length > 0 := List.length_pos_iff.2 h1
    simp only [fragment, this, if_true]
    refine ⟨h2, ?_⟩
    rw [getEObject_plain q _ h3 h4]
    by_cases hc : o ∈ q.contents
    · have e : q.id o = r.id o := (hq o ho o hc).2 rfl
      rw [if_pos hc, ← e, find_unique q o hc (fun p hp hi => (hq o ho p hp).1 (hi.trans e))]
    · rw [if_neg hc, byID, List.find?_eq_none.2]
      intro p hp hi
      simp only [decide_eq_true_eq] at hi
      exact hc ((hq o ho p hp).1 hi.symm ▸ hp)
  rw [read, split_write r l hl (fun o ho => (hf o ho).1)]
  clear h hl hq
  induction l with
  | nil => rfl
  | cons o l ih =>
    have := ih (fun p hp => hf p (by simp [hp]))
    simp only [List.map_cons, readTokens, this, show classify (getIDRef r o) = .loc (fragment r o) from classify_ref _, (hf o (by simp)).2]
    by_cases hc : o ∈ q.contents <;> simp [hc]

/-- object 1 is missing, twice -/
example : read { sample "a#b" "x:y" with contents := [0, 2] } (write (sample "a#b" "x:y") [1, 0, 1, 0]) = some ([.obj 0, .obj 0], 2) := by decide

/-- an ID with a space: a reference to the object is never read as the object, whatever other objects there are -/
theorem C101_space_violated (r : Res) (o : Nat) (hs : ' ' ∈ r.id o) (hp : (r.id o).head? ≠ some '/') : read r (write r [o]) ≠ some ([.obj o], 0) := by
  obtain ⟨a, b, e, ha⟩ := first_space _ hs
  have hlen : (r.id o).length > 0 := List.length_pos_of_mem hs
  simp only [read, write, getIDRef, fragment, hlen, if_true]
  rw [e]
  have hsp := split_append ('#' :: a) b (by simp only [List.mem_cons, not_or]; exact ⟨by decide, ha⟩)
  simp only [List.cons_append] at hsp
  rw [hsp]
  simp only [List.map_cons, classify_ref, readTokens]
  have hno : getEObject r a ≠ some (some o) := by
    intro hc
    have hp' : a.head? ≠ some '/' := by
      cases a with
      | nil => simp
      | cons c a => simpa [e] using hp
    have := (getEObject_short r a o hp' hc).length_le
    rw [e] at this
    simp at this
    omega
  cases hg : getEObject r a with
  | none => simp
  | some x =>
    simp only
    cases readTokens r ((split b).map classify) with
    | none => simp
    | some q =>
      obtain ⟨l, n⟩ := q
      cases x with
      | none => simp
      | some p =>
        simp only [ne_eq, Option.some.injEq, Prod.mk.injEq, List.cons.injEq, Target.obj.injEq, not_and]
        rintro ⟨h1, -⟩
        exact absurd (by rw [hg, h1]) hno

/-- the ID of an object is `a b`: a reference to it is read as one to object `a` and one to nothing -/
example : read (sample "a b" "a") (write (sample "a b" "a") [0]) = some ([.obj 1], 1) := by decide

/-- an ID with a slash in front is looked up as a path: what the reference gets does not depend on the IDs -/
theorem C101_slash_violated (r : Res) (o : Nat) (hs : ' ' ∉ r.id o) (hp : (r.id o).head? = some '/') :
    read r (write r [o]) = some (match r.atPath (r.id o) with | some p => ([.obj p], 0) | none => ([], 1)) := by
  have hlen : (r.id o).length > 0 := by
    cases hq : r.id o with
    | nil => rw [hq] at hp; cases hp
    | cons _ _ => simp
  have := split_write r [o] (by simp) (by simpa [fragment, hlen] using hs)
  rw [read, this]
  simp only [List.map_cons, List.map_nil, getIDRef, classify_ref, readTokens, fragment, hlen, if_true, getEObject, hp]
  cases r.atPath (r.id o) <;> rfl

example : read (sample "/a" "b") (write (sample "/a" "b") [0]) = some ([], 1) := by decide

/-- the ID `?`: reading a reference to the object panics -/
theorem C101_panic_violated (r : Res) (o : Nat) (h : r.id o = ['?']) : read r (write r [o]) = none := by
  simp [read, write, getIDRef, fragment, h, split, classify, index, List.findIdx?_cons, readTokens, getEObject]

/-- an ID with a question mark at the end and another one before: the reference is read as one to an object that has the text before the latter as its
ID, which is another one -/
theorem C101_question_violated (r : Res) (o : Nat) (x y : Text) (c : Char) (h : r.id o = x ++ '?' :: (y ++ [c] ++ ['?'])) (hy : '?' ∉ y) (hs : ' ' ∉ r.id o)
    (hp : (r.id o).head? ≠ some '/') :
    read r (write r [o]) = some (match byID r x with | some p => ([.obj p], 0) | none => ([], 1)) ∧ byID r x ≠ some o := by
  have hlen : (r.id o).length > 0 := by rw [h]; simp; omega
  have hlast : (r.id o).getLast? = some '?' := by
    rw [h, show x ++ '?' :: (y ++ [c] ++ ['?']) = (x ++ '?' :: (y ++ [c])) ++ ['?'] by simp]
    exact List.getLast?_concat
  have hl2 : ¬ (r.id o).length < 2 := by rw [h]; simp; omega
  have htake : (r.id o).take ((r.id o).length - 2) = x ++ '?' :: y := by
    rw [h, show x ++ '?' :: (y ++ [c] ++ ['?']) = (x ++ '?' :: y) ++ [c, '?'] by simp]
    exact List.take_left' (by simp; omega)
  have hx : (r.id o).take x.length = x := by rw [h]; exact List.take_left
  have hg : getEObject r (r.id o) = some (byID r x) := by
    simp only [getEObject, hlen, if_true, hp, if_false, hlast, hl2, htake, lastIndex_append '?' x y hy, hx]
  constructor
  · have := split_write r [o] (by simp) (by simpa [fragment, hlen] using hs)
    rw [read, this]
    simp only [List.map_cons, List.map_nil, getIDRef, classify_ref, readTokens, fragment, hlen, if_true, hg]
    cases byID r x <;> rfl
  · intro hc
    have := congrArg List.length (byID_sound r x o hc)
    rw [h] at this
    simp at this

example : read (sample "a?b?" "a") (write (sample "a?b?" "a") [0]) = some ([.obj 1], 0) := by decide

end Verif.IDRefs
