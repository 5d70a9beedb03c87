import Verif.Model.EContents
/-
Property C15: the contents view.
-/
namespace Verif.Spec.EContents
open Verif.EContents
variable {α : Type}

/-- The objects of one feature. -/
def ofFeature (f : Feat α) : List α :=
  match f.isSet, f.value with
  | false, _ => []
  | true, .inr xs => xs
  | true, .inl (some x) => [x]
  | true, .inl none => []

/-- The set values of the features in feature order, resolved if asked for. -/
def contents (l : L α) : List α :=
  (l.features.flatMap ofFeature).map (fun a => if l.resolve then l.res a else a)

/-- An iterator over a fixed sequence. -/
def iterate : List α → List Call → List (Ret α)
  | _, [] => []
  | s, .hasNext :: cs => .bool (!s.isEmpty) :: iterate s cs
  | [], .next :: cs => .panic :: iterate [] cs
  | x :: s, .next :: cs => .val x :: iterate s cs
end Verif.Spec.EContents

namespace Verif.EContents
open Verif.Spec
variable {α : Type}

/-- What is left to yield. -/
def rest (l : L α) (it : It α) : List α :=
  (if it.prepared = 2 then it.next.toList else []) ++ it.values.getD [] ++
    ((l.features.drop it.featureCursor).flatMap EContents.ofFeature).map l.see

/-- Reachable iterator states. -/
def Inv (l : L α) (it : It α) : Prop :=
  (it.prepared = 2 → it.next.isSome) ∧ (it.prepared = 1 → rest l it = []) ∧ it.prepared ≤ 2

theorem scan_spec (l : L α) (c : Nat) (fs : List (Feat α)) (h : l.features.drop c = fs) :
    let r := scan l c fs
    Inv l r.1 ∧ r.2 = !((fs.flatMap EContents.ofFeature).map l.see).isEmpty ∧
    rest l r.1 = (fs.flatMap EContents.ofFeature).map l.see ∧ (r.2 = true → r.1.prepared = 2) := by
  induction fs generalizing c with
  | nil => simp [scan, Inv, rest, h]
  | cons f fs ih =>
    have hd : l.features.drop (c + 1) = fs := by
      rw [← List.drop_drop, h]; rfl
    have := ih (c + 1) hd
    obtain ⟨isSet, value⟩ := f
    cases isSet with
    | false => simpa [scan, EContents.ofFeature] using this
    | true =>
      rcases value with (_ | x) | xs
      · simpa [scan, EContents.ofFeature] using this
      · simp [scan, EContents.ofFeature, Inv, rest, hd]
      · cases xs with
        | nil => simpa [scan, EContents.ofFeature] using this
        | cons x xs => simp [scan, EContents.ofFeature, Inv, rest, hd]

theorem hasNext_spec (l : L α) (it : It α) (h : Inv l it) :
    Inv l (hasNext l it).1 ∧ (hasNext l it).2 = !(rest l it).isEmpty ∧ rest l (hasNext l it).1 = rest l it ∧
    ((hasNext l it).2 = true → (hasNext l it).1.prepared = 2) := by
  obtain ⟨h1, h2, h3⟩ := h
  obtain ⟨nx, vals, prep, cur⟩ := it
  simp only [hasNext]
  split
  · rename_i hp
    subst hp
    have := h1 rfl
    refine ⟨⟨h1, h2, h3⟩, ?_, rfl, fun _ => rfl⟩
    cases nx with
    | none => simp at this
    | some x => simp [rest]
  · split
    · rename_i _ hp
      subst hp
      refine ⟨⟨h1, h2, h3⟩, ?_, rfl, by simp⟩
      rw [h2 rfl]; rfl
    · rename_i hn2 hn1
      simp only at hn1 hn2 h3
      have h0 : prep = 0 := by omega
      subst h0
      split
      · simp [Inv, rest]
      · rename_i hv
        have hv' : vals.getD [] = [] := by
          cases vals with
          | none => rfl
          | some v =>
            cases v with
            | nil => rfl
            | cons x xs => exact absurd rfl (hv x xs)
        have := scan_spec l cur (l.features.drop cur) rfl
        simpa [rest, hv'] using this

theorem next_spec (l : L α) (it : It α) (h : Inv l it) :
    Inv l (next l it).1 ∧ (next l it).2 = (rest l it).head? ∧ rest l (next l it).1 = (rest l it).tail := by
  have take : ∀ it : It α, Inv l it → it.prepared = 2 →
      Inv l { it with prepared := 0 } ∧ it.next = (rest l it).head? ∧ rest l { it with prepared := 0 } = (rest l it).tail := by
    intro it h hp
    have hs := h.1 hp
    obtain ⟨nx, vals, prep, cur⟩ := it
    simp only at hp; subst hp
    cases nx with
    | none => simp at hs
    | some x => simp [Inv, rest]
  simp only [next]
  by_cases hp : it.prepared > 1
  · rw [if_pos hp]
    have h2 : it.prepared = 2 := by have := h.2.2; omega
    exact take it h h2
  · rw [if_neg hp]
    obtain ⟨a, b, c, d⟩ := hasNext_spec l it h
    cases hb : (hasNext l it).2 with
    | true =>
      have := take _ a (d hb)
      simp only [if_true]
      rw [c] at this
      exact this
    | false =>
      simp only [Bool.false_eq_true, if_false]
      rw [hb] at b
      have hr : rest l it = [] := by simpa using b.symm
      refine ⟨a, by rw [hr]; rfl, by rw [c, hr]; rfl⟩

theorem answers_spec (l : L α) (it : It α) (h : Inv l it) (cs : List Call) :
    answers l it cs = EContents.iterate (rest l it) cs := by
  induction cs generalizing it with
  | nil => cases rest l it <;> simp [answers, EContents.iterate]
  | cons c cs ih =>
    cases c with
    | hasNext =>
      obtain ⟨a, b, c, _⟩ := hasNext_spec l it h
      simp only [answers, ih _ a, c, b]
      cases rest l it <;> simp [EContents.iterate]
    | next =>
      obtain ⟨a, b, c⟩ := next_spec l it h
      simp only [answers, ih _ a, c, b]
      cases rest l it <;> simp [EContents.iterate]

/-- A loop over a list with early exit. -/
def foldExit {σ ρ : Type} (step : σ → α → σ ⊕ ρ) (done : σ → ρ) : List α → σ → ρ
  | [], acc => done acc
  | e :: es, acc =>
    match step acc e with
    | .inr r => r
    | .inl acc' => foldExit step done es acc'

theorem loop_spec {σ ρ : Type} (l : L α) (step : σ → α → σ ⊕ ρ) (done : σ → ρ) (fuel : Nat) (it : It α) (acc : σ)
    (h : Inv l it) (hf : (rest l it).length < fuel) :
    loop l step done fuel it acc = some (some (foldExit step done (rest l it) acc)) := by
  induction fuel generalizing it acc with
  | zero => omega
  | succ fuel ih =>
    obtain ⟨a, b, c, _⟩ := hasNext_spec l it h
    obtain ⟨a', b', c'⟩ := next_spec l _ a
    rw [c] at b' c'
    simp only [loop]
    cases hr : rest l it with
    | nil => simp [b, hr, foldExit]
    | cons x xs =>
      rw [hr] at b b' c' hf
      simp only [b, List.isEmpty_cons, Bool.not_false, if_true]
      have he : next l (hasNext l it).1 = ((next l (hasNext l it).1).1, some x) := by
        rw [← List.head?_cons (a := x) (l := xs), ← b']
      rw [he]
      simp only [foldExit]
      cases step acc x with
      | inr r => rfl
      | inl acc' =>
        simp only
        rw [ih _ _ a' (by rw [c']; simp only [List.tail_cons, List.length_cons] at hf ⊢; omega), c']
        rfl

theorem iterator_inv (l : L α) : Inv l iterator ∧ rest l iterator = EContents.contents l := by
  refine ⟨by simp [Inv, iterator], ?_⟩
  have : l.see = (fun a => if l.resolve then l.res a else a) := rfl
  simp [rest, iterator, EContents.contents, this]

theorem foldExit_indexOf [DecidableEq α] (elem : α) (s : List α) (i : Nat) :
    foldExit (fun (i : Nat) e => if e = elem then .inr (i : Int) else .inl (i + 1)) (fun _ => (-1 : Int)) s i =
    if elem ∈ s then ((i + s.idxOf elem : Nat) : Int) else -1 := by
  induction s generalizing i with
  | nil => simp [foldExit]
  | cons x xs ih =>
    simp only [foldExit]
    by_cases hx : x = elem
    · subst hx; simp
    · have hb : (x == elem) = false := by simpa using hx
      simp only [hx, if_false, ih, List.mem_cons, Ne.symm hx, false_or, List.idxOf_cons, hb, cond_false]
      split
      · congr 1; omega
      · rfl

theorem foldExit_contains [DecidableEq α] (elem : α) (s : List α) :
    foldExit (fun (_ : Unit) e => if e = elem then .inr true else .inl ()) (fun _ => false) s () =
    decide (elem ∈ s) := by
  induction s with
  | nil => simp [foldExit]
  | cons x xs ih =>
    simp only [foldExit]
    by_cases hx : x = elem
    · subst hx; simp
    · simp [hx, ih, Ne.symm hx]

theorem foldExit_toArray (s acc : List α) :
    foldExit (fun acc e => (.inl (acc ++ [e]) : List α ⊕ List α)) (fun acc => acc) s acc = acc ++ s := by
  induction s generalizing acc with
  | nil => simp [foldExit]
  | cons x xs ih => simp [foldExit, ih]

theorem getFrom_spec (l : L α) (n : Nat) (it : It α) (h : Inv l it) : getFrom l n it = (rest l it)[n]? := by
  induction n generalizing it with
  | zero =>
    obtain ⟨_, b, _⟩ := next_spec l it h
    simp [getFrom, b, List.head?_eq_getElem?]
  | succ n ih =>
    obtain ⟨a, b, c⟩ := next_spec l it h
    cases hr : rest l it with
    | nil =>
      rw [hr] at b
      have he : next l it = ((next l it).1, none) := by rw [← List.head?_nil (α := α), ← b]
      simp only [getFrom]
      rw [he]; simp
    | cons x xs =>
      rw [hr] at b c
      have he : next l it = ((next l it).1, some x) := by rw [← List.head?_cons (a := x) (l := xs), ← b]
      simp only [getFrom]
      rw [he]
      simp only
      rw [ih _ a, c]; simp

theorem size_go (n : Nat) (fs : List (Feat α)) : size.go n fs = n + (fs.flatMap EContents.ofFeature).length := by
  induction fs generalizing n with
  | nil => simp [size.go]
  | cons f fs ih =>
    obtain ⟨isSet, value⟩ := f
    cases isSet with
    | false => simp [size.go, EContents.ofFeature, ih]
    | true =>
      rcases value with (_ | x) | xs <;> simp [size.go, EContents.ofFeature, ih] <;> omega

theorem empty_go (fs : List (Feat α)) : empty.go fs = (fs.flatMap EContents.ofFeature).isEmpty := by
  induction fs with
  | nil => simp [empty.go]
  | cons f fs ih =>
    obtain ⟨isSet, value⟩ := f
    cases isSet with
    | false => simp [empty.go, EContents.ofFeature, ih]
    | true =>
      rcases value with (_ | x) | xs
      · simp [empty.go, EContents.ofFeature, ih]
      · simp [empty.go, EContents.ofFeature]
      · cases xs <;> simp [empty.go, EContents.ofFeature, ih]

end Verif.EContents

namespace Verif.Props
open Verif.EContents Verif.Spec
variable {α : Type}

/-- **C15**, iterator: every sequence of `HasNext` and `Next` calls on an iterator of the view is answered like an iterator over
the contents (the set values of the features in feature order). -/
theorem C15_iterator (l : L α) (cs : List EContents.Call) :
    EContents.answers l EContents.iterator cs = EContents.iterate (EContents.contents l) cs := by
  have h := EContents.iterator_inv l
  rw [EContents.answers_spec l _ h.1 cs, h.2]

/-- **C15**, queries (partial: negative indexes of `Get` are excluded): `Size`, `Empty`, `Contains`, `IndexOf`, `ToArray`, `Get` and
`GetUnResolvedList` describe the contents, and the loops in them end. `Get` panics beyond the end. -/
theorem C15_queries_partial [DecidableEq α] (l : L α) (elem : α) (index : Nat) :
    EContents.size l = (EContents.contents l).length ∧
    EContents.empty l = (EContents.contents l).isEmpty ∧
    (∀ fuel, (EContents.contents l).length < fuel →
      EContents.contains l elem fuel = some (some (decide (elem ∈ EContents.contents l))) ∧
      EContents.indexOf l elem fuel = some (some
        (if elem ∈ EContents.contents l then ((EContents.contents l).idxOf elem : Int) else -1)) ∧
      EContents.toArray l fuel = some (some (EContents.contents l))) ∧
    EContents.get l index = (EContents.contents l)[index]? ∧
    EContents.contents (getUnResolvedList l) = l.features.flatMap EContents.ofFeature := by
  have h := EContents.iterator_inv l
  refine ⟨?_, ?_, ?_, ?_, ?_⟩
  · simp [EContents.size, size_go, EContents.contents]
  · simp [EContents.empty, empty_go, EContents.contents]
  · intro fuel hf
    rw [← h.2] at hf ⊢
    refine ⟨?_, ?_, ?_⟩
    · rw [EContents.contains, loop_spec l _ _ fuel _ _ h.1 hf, foldExit_contains]
    · rw [EContents.indexOf, loop_spec l _ _ fuel _ _ h.1 hf, foldExit_indexOf]; simp
    · rw [EContents.toArray, loop_spec l _ _ fuel _ _ h.1 hf, foldExit_toArray]; simp
  · rw [EContents.get, getFrom_spec l _ _ h.1, h.2]; simp
  · obtain ⟨fs, r, res⟩ := l
    cases r <;> simp [EContents.contents, getUnResolvedList]

/-- **C15 violated**: `Get` of a negative index does not panic but yields the first object. -/
theorem C15_get_negative_violated :
    EContents.get (⟨[⟨true, .inr [4, 5]⟩], false, id⟩ : L Nat) (-1) = some 4 := by decide

/-- Concrete case of C15, with unset, empty, nil and list features. -/
example :
    let l : L Nat := ⟨[⟨false, .inr [9]⟩, ⟨true, .inr []⟩, ⟨true, .inl none⟩, ⟨true, .inr [1, 2]⟩, ⟨true, .inl (some 3)⟩],
      true, (· + 10)⟩
    EContents.contents l = [11, 12, 13] ∧ EContents.size l = 3 ∧ EContents.indexOf l 12 4 = some (some 1) ∧
    EContents.get l 2 = some 13 ∧ EContents.get l 3 = none ∧ EContents.toArray l 4 = some (some [11, 12, 13]) := by
  decide

end Verif.Props
