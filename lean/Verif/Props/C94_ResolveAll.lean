import Verif.Proofs.ResolveAll

/-!
# C94: resolving all references of a resource set loads what is reachable and resolves what exists
-/

namespace Verif.ResolveAll

variable {env : Docs} {fuel : Nat}

/-- After any program without unloading, when the resources of the set are loaded as far as they can be read: `ResolveAllInResourceSet` loads exactly the documents that the references lead to, after
those that were there; afterwards every reference of every object of the set is the object of the place the document says, or a proxy when there is none. -/
theorem C94_all_partial {ops : List Op} {w w' : World} (hr : run env fuel init ops = some w) (hu : ∀ d, Op.unload d ∉ ops)
    (hl : ∀ d, d ∈ w.resources → env d ≠ none → w.live d ≠ none) (hs : step env fuel w .resolveAll = some w') :
    (∃ more, w'.resources = w.resources ++ more) ∧ w'.resources.Nodup ∧ (∀ d, d ∈ w'.resources ↔ Reach env w.resources d) ∧
    (∀ d, d ∈ w'.resources → env d ≠ none → w'.live d ≠ none) ∧ ∀ d i, d ∈ w'.resources → Settled env w' d i := by
  have hi := inv_run (inv_init env) hu hr
  have ha : AllLoaded env w := fun d hd hn => Classical.byContradiction fun hne => hl d hd hne hn
  obtain ⟨hg, hd⟩ := good_resolveFrom (closed_reach env w.resources) fuel w w' 0 hi ha (fun d hd => by simp at hd) hs
  have ha' := hg.loaded ha
  refine ⟨hg.le.res, hg.inv.nodup, fun d => ⟨hg.inside (fun x hx => .start hx) d, fun hreach => ?_⟩, fun d hd' he hn => he (ha' d hd' hn),
    fun d i hd' => settled_of_done hg.inv (fun g hg' hs' => hd d hd' g i hg' hs')⟩
  induction hreach with
  | start h => exact hg.le.mem h
  | @step d d' _ href ih =>
    obtain ⟨objs, he, o, ho, j, hj⟩ := href
    obtain ⟨i, hio⟩ := List.mem_iff_getElem?.1 ho
    obtain ⟨k, hk⟩ := List.mem_iff_getElem?.1 hj
    cases hlive : w'.live d with
    | none => rw [ha' d ih hlive] at he; cases he
    | some g =>
      have hsz : i < size env d := by rw [size_some he]; exact (List.getElem?_eq_some_iff.1 hio).1
      exact (hd d ih g i hlive hsz objs o k (d', j) he hio hk).1

/-- It ends when finitely many documents hold the resources and what they refer to. -/
theorem C94_ends_partial {ops : List Op} {w : World} (D : List Nat) (hD : ∀ d d', d ∈ D → Refers env d d' → d' ∈ D) (hr : run env fuel init ops = some w) (hu : ∀ d, Op.unload d ∉ ops)
    (hin : ∀ d, d ∈ w.resources → d ∈ D) (hf : D.length < fuel) : ∃ w', step env fuel w .resolveAll = some w' :=
  ends_from D hD fuel w 0 (inv_run (inv_init env) hu hr) hin (by omega) (Nat.zero_le _)

/-- A second time it changes nothing. -/
theorem C94_again_partial {ops : List Op} {w w' w'' : World} (hr : run env fuel init ops = some w) (hu : ∀ d, Op.unload d ∉ ops)
    (hl : ∀ d, d ∈ w.resources → env d ≠ none → w.live d ≠ none) (hs : step env fuel w .resolveAll = some w') (hs' : step env fuel w' .resolveAll = some w'') : w'' = w' := by
  have hi := inv_run (inv_init env) hu hr
  have ha : AllLoaded env w := fun d hd hn => Classical.byContradiction fun hne => hl d hd hne hn
  obtain ⟨hg, hd⟩ := good_resolveFrom (closed_true env) fuel w w' 0 hi ha (fun d hd => by simp at hd) hs
  exact again_from hg.inv (hg.loaded ha) hd fuel 0 w'' hs'

/-- `ResolveAllInResource` of a loaded resource resolves the references of its objects, whatever else is loaded. -/
theorem C94_resource_partial {ops : List Op} {w w' : World} {d : Nat} (hr : run env fuel init ops = some w) (hu : ∀ d, Op.unload d ∉ ops)
    (hd : d ∈ w.resources) (hl : w.live d ≠ none) (hs : step env fuel w (.resolve d) = some w') : ∀ i, Settled env w' d i := by
  have hi := inv_run (inv_init env) hu hr
  simp only [step, hd, if_true, Option.some.injEq] at hs
  subst hs
  obtain ⟨hg, hdone⟩ := good_resolveResource (closed_true env) hi d
  intro i
  refine settled_of_done hg.inv (fun g hg' hs' => hdone ?_ g i hg' hs')
  cases h : w.live d with
  | none => exact absurd h hl
  | some g => exact ⟨g, rfl⟩

/-! ## Cases -/

/-- document 0 refers to 1 twice and to one that cannot be read, 1 to 2 and to itself, 2 to 0 and to an object that does not exist; 5 refers to 1, 6 has no references -/
def sample : Docs := fun d =>
  if d = 0 then some [[(1, 0), (3, 0)], [(1, 1), (0, 0)]]
  else if d = 1 then some [[(2, 0)], [(1, 0)]]
  else if d = 2 then some [[(0, 1), (1, 7)]]
  else if d = 5 then some [[(1, 0)]]
  else if d = 6 then some [[]]
  else none

/-- the resources and the references of the objects of a document -/
def shown (o : Option World) (d : Nat) : Option (List Nat × List (List Val)) :=
  o.map fun w => (w.resources, (objects sample w d).map fun x => w.refs x.1 x.2)

example : shown (run sample 9 init [.get 0]) 0 = some ([0], [[.proxy 1 0, .proxy 3 0], [.proxy 1 1, .obj 0 0]]) := by decide
example : shown (run sample 9 init [.get 0, .resolveAll]) 0 = some ([0, 1, 3, 2], [[.obj 1 0, .proxy 3 0], [.obj 1 1, .obj 0 0]]) := by decide
example : shown (run sample 9 init [.get 0, .resolveAll]) 2 = some ([0, 1, 3, 2], [[.obj 0 1, .proxy 1 7]]) := by decide
example : (run sample 9 init [.get 0]).all (fun w => w.resources.all fun d => sample d = none ∨ w.live d ≠ none) = true := by decide

/-- finitely many documents that the sample does not leave -/
example : ∀ d d', d ∈ [0, 1, 2, 3] → Refers sample d d' → d' ∈ [0, 1, 2, 3] := by
  rintro d d' hd ⟨objs, he, o, ho, i, hi⟩
  simp only [List.mem_cons, List.not_mem_nil, or_false] at hd
  rcases hd with rfl | rfl | rfl | rfl <;> simp [sample] at he <;> subst he <;> simp at ho <;> rcases ho with rfl | rfl <;> simp at hi <;> grind

/-- The code does not meet the full property: a resource that is in the set but not loaded is passed by; when a later one makes it load, its references stay as they are, though their objects exist.  A
second call resolves them. -/
theorem C94_order_violated :
    shown (run sample 9 init [.create 1, .get 5, .resolveAll]) 1 = some ([1, 5], [[.proxy 2 0], [.obj 1 0]]) ∧
    shown (run sample 9 init [.create 1, .get 5, .resolveAll, .resolveAll]) 1 = some ([1, 5, 2, 0, 3], [[.obj 2 0], [.obj 1 0]]) := by decide

/-- And when a resource is unloaded and loaded again, the references of others that were objects of it stay; they are not objects of the resource any more. -/
theorem C94_unload_violated :
    shown (run sample 9 init [.get 5, .resolveAll]) 5 = some ([5, 1, 2, 0, 3], [[.obj 1 0]]) ∧
    (run sample 9 init [.get 5, .resolveAll, .unload 1, .load 1, .resolveAll]).map (fun w => objects sample w 1) = some [(4, 0), (4, 1)] ∧
    shown (run sample 9 init [.get 5, .resolveAll, .unload 1, .load 1, .resolveAll]) 5 = some ([5, 1, 2, 0, 3], [[.obj 1 0]]) := by decide

end Verif.ResolveAll
