import Verif.Spec.Tree
/-
Property C13: tree iteration.
-/
namespace Verif.Tree
open Verif.Spec

mutual
/-- Objects in preorder. -/
def pre : Tree → List Nat
  | .node i ks => i :: preF ks
def preF : List Tree → List Nat
  | [] => []
  | t :: ts => pre t ++ preF ts
end

mutual
/-- Positions in preorder. -/
def paths : Tree → List (List Nat)
  | .node _ ks => [] :: pathsF 0 ks
def pathsF (i : Nat) : List Tree → List (List Nat)
  | [] => []
  | t :: ts => (paths t).map (i :: ·) ++ pathsF (i + 1) ts
end

theorem pathsF_head (i : Nat) (ts : List Tree) : ∀ p ∈ pathsF i ts, ∃ j q, p = j :: q ∧ i ≤ j := by
  induction ts generalizing i with
  | nil => simp [pathsF]
  | cons t ts ih =>
    intro p hp
    simp only [pathsF, List.mem_append, List.mem_map] at hp
    rcases hp with ⟨q, _, rfl⟩ | hp
    · exact ⟨i, q, rfl, Nat.le_refl _⟩
    · obtain ⟨j, q, e, h⟩ := ih (i + 1) p hp
      exact ⟨j, q, e, by omega⟩

mutual
theorem paths_sorted : (t : Tree) → (paths t).Pairwise (· < ·)
  | .node _ ks => by
    simp only [paths, List.pairwise_cons]
    refine ⟨?_, pathsF_sorted 0 ks⟩
    intro p hp
    obtain ⟨j, q, rfl, _⟩ := pathsF_head 0 ks p hp
    exact List.nil_lt_cons _ _
theorem pathsF_sorted (i : Nat) : (ts : List Tree) → (pathsF i ts).Pairwise (· < ·)
  | [] => by simp [pathsF]
  | t :: ts => by
    simp only [pathsF, List.pairwise_append]
    refine ⟨?_, pathsF_sorted (i + 1) ts, ?_⟩
    · rw [List.pairwise_map]
      exact (paths_sorted t).imp (fun h => List.cons_lt_cons_iff.2 (Or.inr ⟨rfl, h⟩))
    · intro a ha b hb
      simp only [List.mem_map] at ha
      obtain ⟨q, _, rfl⟩ := ha
      obtain ⟨j, q', rfl, h⟩ := pathsF_head (i + 1) ts b hb
      exact List.cons_lt_cons_iff.2 (Or.inl (by omega))
end

mutual
theorem mem_paths : (t : Tree) → (p : List Nat) → (p ∈ paths t ↔ (Tree.at? t p).isSome = true)
  | .node i ks, [] => by simp [paths, Tree.at?]
  | .node i ks, k :: p => by
    simp only [paths, List.mem_cons, reduceCtorEq, false_or, Tree.at?]
    have := mem_pathsF 0 ks k p
    rw [Nat.zero_add] at this
    exact this
theorem mem_pathsF (i : Nat) : (ts : List Tree) → (k : Nat) → (p : List Nat) →
    ((i + k) :: p ∈ pathsF i ts ↔ (match ts[k]? with | none => none | some c => Tree.at? c p).isSome = true)
  | [], k, p => by simp [pathsF]
  | t :: ts, 0, p => by
    simp only [pathsF, List.mem_append, List.mem_map, List.cons.injEq, Nat.add_zero, true_and,
      List.length_cons, List.getElem?_cons_zero, exists_eq_right]
    rw [mem_paths t p]
    constructor
    · rintro (h | h)
      · exact h
      · obtain ⟨j, q, e, h⟩ := pathsF_head (i + 1) ts _ h
        simp only [List.cons.injEq] at e; omega
    · exact Or.inl
  | t :: ts, k + 1, p => by
    simp only [pathsF, List.mem_append, List.mem_map, List.cons.injEq, List.getElem?_cons_succ]
    have := mem_pathsF (i + 1) ts k p
    rw [show i + 1 + k = i + (k + 1) by omega] at this
    rw [← this]
    constructor
    · rintro (⟨q, _, h, _⟩ | h)
      · omega
      · exact h
    · exact Or.inr
end

theorem filterMap_congr' {α β : Type} {f g : α → Option β} {l : List α} (h : ∀ a ∈ l, f a = g a) :
    l.filterMap f = l.filterMap g := by
  induction l with
  | nil => rfl
  | cons a l ih =>
    rw [List.filterMap_cons, List.filterMap_cons, h a List.mem_cons_self,
      ih (fun b hb => h b (List.mem_cons_of_mem _ hb))]

mutual
theorem pre_paths : (t : Tree) → pre t = (paths t).filterMap (Tree.at? t)
  | .node i ks => by
    simp only [pre, paths, List.filterMap_cons, Tree.at?]
    congr 1
    rw [preF_paths ks []]
    apply filterMap_congr'
    intro p hp
    obtain ⟨j, q, rfl, _⟩ := pathsF_head 0 ks p hp
    simp only [List.nil_append, Tree.at?]
    cases ks[j]? <;> rfl
theorem preF_paths : (ts : List Tree) → (before : List Tree) →
    preF ts = (pathsF before.length ts).filterMap (fun p => match p with
      | [] => none
      | k :: p => match (before ++ ts)[k]? with | none => none | some c => Tree.at? c p)
  | [], before => by simp [preF, pathsF]
  | t :: ts, before => by
    simp only [preF, pathsF, List.filterMap_append, List.filterMap_map]
    rw [pre_paths t]
    have := preF_paths ts (before ++ [t])
    simp only [List.length_append, List.length_cons, List.length_nil, Nat.zero_add, List.append_assoc,
      List.singleton_append] at this
    rw [this]
    congr 1
    apply filterMap_congr'
    intro p _
    simp
end

/-- What is left to yield. -/
def rest (it : It) : List Nat :=
  match it.data with
  | none => if it.root then pre it.object else preF it.object.kids
  | some stack => (stack.map preF).flatten

/-- An exhausted iterator on top of the stack means that nothing is left. -/
def Inv (it : It) : Prop :=
  match it.data with
  | none => True
  | some [] => True
  | some (top :: below) => top = [] → (below.map preF).flatten = []

theorem preF_nil_iff (ts : List Tree) : preF ts = [] ↔ ts = [] := by
  cases ts with
  | nil => simp [preF]
  | cons t ts => cases t; simp [preF, pre]

theorem popEmpty_rest (st : List (List Tree)) : ((popEmpty st).map preF).flatten = (st.map preF).flatten := by
  induction st with
  | nil => rfl
  | cons c st ih =>
    simp only [popEmpty]
    split
    · rename_i h
      have : c = [] := by simpa using h
      subst this
      simp [preF, ih]
    · rfl

theorem popEmpty_inv (st : List (List Tree)) :
    ∀ top below, popEmpty st = top :: below → top ≠ [] := by
  induction st with
  | nil => simp [popEmpty]
  | cons c st ih =>
    intro top below h
    simp only [popEmpty] at h
    split at h
    · exact ih top below h
    · rename_i hc
      simp only [List.cons.injEq] at h
      rw [← h.1]; simpa using hc

theorem hasNext_spec (it : It) (h : Inv it) :
    (hasNext it).2 = .bool (!(rest it).isEmpty) ∧ rest (hasNext it).1 = rest it ∧ Inv (hasNext it).1 := by
  obtain ⟨obj, data, root⟩ := it
  cases data with
  | none =>
    cases root with
    | false =>
      simp only [hasNext, hasAnyChildren, rest, Inv, Option.isNone_none, Bool.not_false, Bool.and_self, if_true,
        Option.getD_none, List.map_cons, List.map_nil, List.flatten_cons, List.flatten_nil, List.append_nil]
      refine ⟨?_, by simp, by simp⟩
      have := preF_nil_iff obj.kids
      cases hk : obj.kids with
      | nil => simp [preF]
      | cons t ts => cases t; simp [preF, pre]
    | true =>
      cases obj
      simp [hasNext, hasMoreChildren, rest, Inv, pre]
  | some st =>
    cases st with
    | nil => simp [hasNext, hasMoreChildren, rest, Inv]
    | cons top below =>
      simp only [Inv] at h
      cases top with
      | nil => simp [hasNext, hasMoreChildren, rest, Inv, preF, h rfl]
      | cons t ts => cases t; simp [hasNext, hasMoreChildren, rest, Inv, preF, pre]

theorem nextOn_spec (it : It) (st : List (List Tree)) (h : Inv { it with data := some st })
    (hd : it.data = some st) :
    match (st.map preF).flatten with
    | [] => (nextOn it st).2 = .panic ∧ rest (nextOn it st).1 = [] ∧ Inv (nextOn it st).1
    | x :: xs => (nextOn it st).2 = .val x ∧ rest (nextOn it st).1 = xs ∧ Inv (nextOn it st).1 := by
  obtain ⟨obj, data, root⟩ := it
  simp only at hd
  subst hd
  cases st with
  | nil => simp [nextOn, rest, Inv]
  | cons top below =>
    cases top with
    | nil =>
      have h' : (below.map preF).flatten = [] := h rfl
      simp only [List.map_cons, preF, List.flatten_cons, List.nil_append, h', nextOn]
      exact ⟨trivial, by simp only [rest, List.map_cons, preF, List.flatten_cons, List.nil_append, h'], fun _ => h'⟩
    | cons t ts =>
      obtain ⟨i, ks⟩ := t
      simp only [List.map_cons, List.flatten_cons, preF, pre, List.cons_append, nextOn, Tree.kids, Tree.id]
      cases ks with
      | nil =>
        have hp := popEmpty_rest (ts :: below)
        have hi := popEmpty_inv (ts :: below)
        refine ⟨by simp, ?_, ?_⟩
        · simp only [List.isEmpty_nil, Bool.not_true, Bool.false_eq_true, if_false, rest, hp]
          simp [preF]
        · simp only [List.isEmpty_nil, Bool.not_true, Bool.false_eq_true, if_false, Inv]
          split
          · trivial
          · trivial
          · rename_i hs
            simp only [Option.some.injEq] at hs
            intro hc; exact absurd hc (hi _ _ hs)
      | cons k ks =>
        refine ⟨by simp, ?_, ?_⟩
        · simp [rest]
        · simp [Inv]

theorem next_spec (it : It) (h : Inv it) :
    match rest it with
    | [] => (next it).2 = .panic ∧ rest (next it).1 = [] ∧ Inv (next it).1
    | x :: xs => (next it).2 = .val x ∧ rest (next it).1 = xs ∧ Inv (next it).1 := by
  obtain ⟨obj, data, root⟩ := it
  cases data with
  | none =>
    cases root with
    | true => cases obj; simp [rest, pre, next, Tree.id, Tree.kids, Inv]
    | false =>
      have := nextOn_spec ⟨obj, some [obj.kids], false⟩ [obj.kids] (by simp [Inv]) rfl
      simp only [List.map_cons, List.map_nil, List.flatten_cons, List.flatten_nil, List.append_nil] at this
      simpa [rest, next] using this
  | some st => exact nextOn_spec ⟨obj, some st, root⟩ st h rfl

theorem answers_spec (it : It) (h : Inv it) (cs : List Call) : answers it cs = Tree.iterate (rest it) cs := by
  induction cs generalizing it with
  | nil => cases hr : rest it <;> simp [answers, Tree.iterate]
  | cons c cs ih =>
    cases c with
    | hasNext =>
      obtain ⟨h1, h2, h3⟩ := hasNext_spec it h
      simp only [answers, h1, ih _ h3, h2]
      cases rest it <;> simp [Tree.iterate]
    | next =>
      have := next_spec it h
      cases hr : rest it with
      | nil =>
        rw [hr] at this
        obtain ⟨h1, h2, h3⟩ := this
        simp only [answers, h1, ih _ h3, h2, Tree.iterate]
      | cons x xs =>
        rw [hr] at this
        obtain ⟨h1, h2, h3⟩ := this
        simp only [answers, h1, ih _ h3, h2, Tree.iterate]

end Verif.Tree

namespace Verif.Props
open Verif.Tree Verif.Spec

/-- **C13**. For every tree there is a list `l` of positions in it, in lexicographic order (parents before children, siblings
in order, each once), consisting of all its positions (without the root position when the root is not asked for), such that
every sequence of `HasNext` and `Next` calls on the tree iterator is answered like an iterator over the objects at these
positions. In particular `HasNext` does not influence the sequence, and the iteration ends. -/
theorem C13_preorder (t : Verif.Tree.Tree) (root : Bool) :
    ∃ l, Tree.IsTraversal t (fun p => root = true ∨ p ≠ []) l ∧
      ∀ cs, answers (newTreeIterator t root) cs = Tree.iterate (l.filterMap (Tree.at? t)) cs := by
  have hs := paths_sorted t
  have hm := mem_paths t
  cases root with
  | true =>
    refine ⟨paths t, ⟨hs, fun p => by simp [hm p]⟩, fun cs => ?_⟩
    rw [answers_spec (newTreeIterator _ _) trivial cs]
    simp [rest, newTreeIterator, pre_paths]
  | false =>
    obtain ⟨i, ks⟩ := t
    have hp := pre_paths (.node i ks)
    simp only [pre, paths, List.filterMap_cons, Tree.at?, List.cons.injEq, true_and] at hp
    simp only [paths, List.pairwise_cons] at hs
    refine ⟨pathsF 0 ks, ⟨hs.2, fun p => ?_⟩, fun cs => ?_⟩
    · rw [← hm p]
      simp only [paths, List.mem_cons, Bool.false_eq_true, false_or]
      constructor
      · intro h
        obtain ⟨j, q, rfl, _⟩ := pathsF_head 0 ks p h
        exact ⟨by simp, Or.inr h⟩
      · rintro ⟨h1, h2 | h2⟩
        · exact absurd h2 h1
        · exact h2
    · rw [answers_spec (newTreeIterator _ _) trivial cs]
      simp [rest, newTreeIterator, Tree.kids, hp]

/-- Concrete case of C13. -/
example :
    let t : Verif.Tree.Tree := .node 0 [.node 1 [.node 2 [], .node 3 []], .node 4 [], .node 5 [.node 6 []]]
    answers (newTreeIterator t false) [.hasNext, .hasNext, .next, .next, .next, .hasNext, .next, .next, .next, .hasNext,
      .next] = [.bool true, .bool true, .val 1, .val 2, .val 3, .bool true, .val 4, .val 5, .val 6, .bool false, .panic] ∧
    answers (newTreeIterator t true) [.next, .next, .hasNext] = [.val 0, .val 1, .bool true] := by
  decide

end Verif.Props
