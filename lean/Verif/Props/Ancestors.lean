import Verif.Proofs.Ancestors
import Verif.Props.Graph
/-!
# C70: Remove takes an object out of its tree, GetAncestor and IsAncestor look upwards
-/

namespace Verif.Ancestors
open Verif.Graph Verif.Ancestors.Spec

/-- **C70** (partial): after any sequence of well typed calls, `Remove` of an object takes it from its container and its
resource, and changes nothing else.
Missing: objects contained through a reference with an opposite (`C70_opposite_violated`, `C70_parent_violated`). -/
theorem C70_remove_partial (M : Meta) (wf : WellFormed M) (cls : Nat → Nat) (ops : List Op) (ht : ∀ op ∈ ops, Typed M cls op)
    (s : State) (hr : run M (init cls) ops = some s.graph) (rooted : Rooted s) (o : Nat)
    (hn : ∀ r : Nat, eContainingFeature M s.graph o = some r → (M.refs r).opposite = none) :
    ∃ s' : State, remove M s o = some s' ∧ Without M cls s s' o :=
  remove_without wf s (good_run wf ops _ (good_init M cls) ht _ hr) rooted o hn

/-- **C70** (partial): `IsAncestor(a, o)` comes to an end and tells whether `o` is `a` or inside of it.
Missing: containers that go round (`C70_cycle_violated`), nil (`C70_nil_violated`). -/
theorem C70_isAncestor_partial (w : World) (a o : Nat) (grounded : Grounded w o) :
    ∃ (n : Nat) (b : Bool), (∀ m : Nat, n ≤ m → isAncestor w (some a) m (some o) = some b) ∧ (b = true ↔ Inside w a o) := by
  obtain ⟨n, hn⟩ := isAncestor_ends (w := w) (some a) grounded
  have h0 := hn n (Nat.le_refl n)
  obtain ⟨b, hb⟩ := Option.ne_none_iff_exists'.1 h0
  have hs := isAncestor_sound n a o b hb
  refine ⟨n, b, fun m hm => ?_, hs⟩
  obtain ⟨b', hb'⟩ := Option.ne_none_iff_exists'.1 (hn m hm)
  have hs' := isAncestor_sound m a o b' hb'
  rw [hb']
  congr 1
  rw [Bool.eq_iff_iff, hs, hs']

/-- **C70** (partial): `GetAncestor(o, k)` comes to an end and is the nearest object of the class `k` among `o` and
the objects it is in, nil if there is none.  Missing: containers that go round. -/
theorem C70_getAncestor_partial (w : World) (k o : Nat) (grounded : Grounded w o) :
    ∃ n : Nat, ∀ m : Nat, n ≤ m →
      (∃ x : Nat, getAncestor w k m (some o) = some (some x) ∧ Inside w x o ∧ (w x).cls = k ∧
        ∀ y : Nat, Inside w y o → (w y).cls = k → Inside w y x) ∨
      (getAncestor w k m (some o) = some none ∧ ∀ y : Nat, Inside w y o → (w y).cls ≠ k) := by
  obtain ⟨n, hn⟩ := getAncestor_ends (w := w) k grounded
  refine ⟨n, fun m hm => ?_⟩
  obtain ⟨x, hx⟩ := Option.ne_none_iff_exists'.1 (hn m hm)
  have hs := getAncestor_sound k m o x hx
  cases x with
  | some x => exact Or.inl ⟨x, hx, hs⟩
  | none => exact Or.inr ⟨hx, hs⟩

/-! ## Examples -/

/-- object 1 has 2 as `main`, 2 has 3, and 4 is a child of 3; 1 and 3 are in resource 0, as 3 is in both -/
def ops : List Op := [.set 1 2 (some 2), .set 2 2 (some 3), .list 3 1 (.add 4)]

def world : World := (run sample (init fun _ => 0) ops).getD (init fun _ => 0)

def state : State := ⟨world, fun o => if o = 1 ∨ o = 3 then some 0 else none, fun r => if r = 0 then [1, 3] else []⟩

theorem state_run : run sample (init fun _ => 0) ops = some state.graph := by
  simp only [state, world]
  have : (run sample (init fun _ => 0) ops).isSome = true := by decide
  cases h : run sample (init fun _ => 0) ops with
  | none => rw [h] at this; simp at this
  | some w => rfl

theorem state_rooted : Rooted state := by
  intro r o
  by_cases hr : r = 0
  · subst hr
    by_cases h1 : o = 1 <;> by_cases h3 : o = 3 <;> simp [state, h1, h3]
  · simp only [state, if_neg hr]
    refine ⟨by simp, ?_⟩
    simp only [List.not_mem_nil, false_iff]
    split <;> simp
    omega

example : ∃ s' : State, remove sample state 3 = some s' ∧ Without sample (fun _ => 0) state s' 3 :=
  C70_remove_partial sample sample_wf (fun _ => 0) ops (by decide) state state_run state_rooted 3 (by
    intro r hr
    have : eContainingFeature sample state.graph 3 = some 2 := by decide
    rw [this] at hr
    simp only [Option.some.injEq] at hr
    subst hr
    decide)

example : (eContainer world 4, eContainer world 3, eContainer world 2, eContainer world 1) = (some 3, some 2, some 1, none) := by
  decide

theorem world_grounded : Grounded world 4 :=
  .up 4 3 (by decide) (.up 3 2 (by decide) (.up 2 1 (by decide) (.root 1 (by decide))))

example : ∃ (n : Nat) (b : Bool), (∀ m : Nat, n ≤ m → isAncestor world (some 2) m (some 4) = some b) ∧
    (b = true ↔ Inside world 2 4) := C70_isAncestor_partial world 2 4 world_grounded
example : isAncestor world (some 2) 9 (some 4) = some true ∧ isAncestor world (some 5) 9 (some 4) = some false := by decide

example := C70_getAncestor_partial world 0 4 world_grounded

/-! ## What fails -/

/-- **C70** is violated: `Remove` of an object contained through a reference with an opposite panics whenever the class of
the container does not have the opposite too: `EContainmentFeature` is the wrong one of the two (see C56), and it is
unset in the container. -/
theorem C70_opposite_violated (M : Meta) (wf : WellFormed M) (cls : Nat → Nat) (ops : List Op) (ht : ∀ op ∈ ops, Typed M cls op)
    (s : State) (hr : run M (init cls) ops = some s.graph) (o c r r' : Nat) (hc : eContainer s.graph o = some c)
    (hf : eContainingFeature M s.graph o = some r) (ho : (M.refs r).opposite = some r') (hn : r' ∉ M.features (cls c)) :
    remove M s o = none := by
  have hg := good_run wf ops _ (good_init M cls) ht _ hr
  obtain ⟨t, hp⟩ := hg.code o c hc
  have := hp.feature wf hg
  rw [hf] at this
  simp only [Option.some.injEq] at this
  subst this
  rw [remove, removeFromParent_opposite wf hg hp ho, eUnset, hg.cls_eq, featureID_none hn]
  rfl

/-- a class with `children` and a class with `parent` -/
def family : Meta := metaOf [⟨true, true, some 1, 0⟩, ⟨false, false, some 0, 0⟩] [[0], [1]]

/-- The hypotheses of `C70_opposite_violated` are met by the simplest of trees. -/
theorem C70_family_violated : ∃ w : World, run family (init fun o => o) [.list 0 0 (.add 1)] = some w ∧
    eGet family w 0 0 = [1] ∧ remove family ⟨w, fun _ => none, fun _ => []⟩ 1 = none := by
  cases h : run family (init fun o => o) [.list 0 0 (.add 1)] with
  | none =>
    have : (run family (init fun o => o) [.list 0 0 (.add 1)]).isSome = true := by decide
    rw [h] at this; simp at this
  | some w =>
    refine ⟨w, rfl, ?_, ?_⟩
    · have : (run family (init fun o => o) [.list 0 0 (.add 1)]).map (fun w => eGet family w 0 0) = some [1] := by decide
      rw [h] at this; simpa using this
    · have hc : (run family (init fun o => o) [.list 0 0 (.add 1)]).map
          (fun w => (eContainer w 1, eContainingFeature family w 1)) = some (some 0, some 0) := by decide
      rw [h] at hc
      simp only [Option.map_some, Option.some.injEq, Prod.mk.injEq] at hc
      exact C70_opposite_violated family (wellFormed_metaOf (by decide)) (fun o => o) [.list 0 0 (.add 1)] (by decide)
        ⟨w, fun _ => none, fun _ => []⟩ h 1 0 0 1 hc.1 hc.2 (by decide) (by decide)

/-- **C70** is violated: when the class of the container has the opposite too it is the container that is taken out of its
own container, and the object stays: with 2 in 1 and 3 in 2, `Remove(3)` removes 2. -/
theorem C70_parent_violated :
    ((run sample (init fun _ => 0) [.list 1 1 (.add 2), .list 2 1 (.add 3)]).bind
        fun w => remove sample ⟨w, fun _ => none, fun _ => []⟩ 3).map
      (fun s => (eGet sample s.graph 1 1, eGet sample s.graph 2 1, eContainer s.graph 2, eContainer s.graph 3)) =
    some ([], [3], none, some 2) := by decide

/-- **C70** is violated: nothing prevents two objects from containing each other, and then `IsAncestor` of any other
object has no end. -/
theorem C70_cycle_violated : ∃ w : World, run sample (init fun _ => 0) [.set 1 2 (some 2), .set 2 2 (some 1)] = some w ∧
    ∀ a : Nat, a ≠ 1 → a ≠ 2 → ∀ n : Nat, isAncestor w (some a) n (some 1) = none := by
  cases h : run sample (init fun _ => 0) [.set 1 2 (some 2), .set 2 2 (some 1)] with
  | none =>
    have : (run sample (init fun _ => 0) [.set 1 2 (some 2), .set 2 2 (some 1)]).isSome = true := by decide
    rw [h] at this; simp at this
  | some w =>
    have hc : (run sample (init fun _ => 0) [.set 1 2 (some 2), .set 2 2 (some 1)]).map
        (fun w => (eContainer w 1, eContainer w 2)) = some (some 2, some 1) := by decide
    rw [h] at hc
    simp only [Option.map_some, Option.some.injEq, Prod.mk.injEq] at hc
    have two : ∀ x : Nat, ∀ y : Nat, Inside w x y → (y = 1 ∨ y = 2) → (x = 1 ∨ x = 2) := by
      intro x y hi
      induction hi with
      | self => exact fun h => h
      | up p c hp _ ih =>
        rintro (rfl | rfl)
        · rw [hc.1] at hp; simp at hp; exact ih (Or.inr hp.symm)
        · rw [hc.2] at hp; simp at hp; exact ih (Or.inl hp.symm)
    refine ⟨w, rfl, fun a h1 h2 => isAncestor_cycle a 1 ?_ ?_⟩
    · intro x hx
      rcases two x 1 hx (Or.inl rfl) with rfl | rfl
      · exact ⟨2, hc.1⟩
      · exact ⟨1, hc.2⟩
    · intro hi
      rcases two a 1 hi (Or.inl rfl) with h | h
      · exact h1 h
      · exact h2 h

/-- **C70** is violated: nil is an ancestor of every object whose containers come to an end. -/
theorem C70_nil_violated (w : World) (o : Nat) (grounded : Grounded w o) :
    ∃ n : Nat, ∀ m : Nat, n ≤ m → isAncestor w none m (some o) = some true := by
  induction grounded with
  | root o hc =>
    refine ⟨2, fun m hm => ?_⟩
    obtain ⟨k, rfl⟩ : ∃ k, m = k + 2 := ⟨m - 2, by omega⟩
    simp [isAncestor, hc]
  | up o c hc _ ih =>
    obtain ⟨n, hn⟩ := ih
    refine ⟨n + 1, fun m hm => ?_⟩
    obtain ⟨k, rfl⟩ : ∃ k, m = k + 1 := ⟨m - 1, by omega⟩
    rw [isAncestor, if_neg (by simp), hc]
    exact hn k (by omega)

end Verif.Ancestors
