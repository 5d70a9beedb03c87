import Verif.Proofs.AttachGrows
import Verif.Spec.Attach

/-!
# C79: an object has an ID in its resource, and listeners are told, exactly while it is in the resource
-/

namespace Verif.Attach
open Verif.Graph (LOp)

section
variable {ID G : Type} [DecidableEq ID]

/-- For every program that starts with new objects and new resources: `EResource()` ends, and gives a resource exactly if the object is
in its contents, or inside an object that is.

Missing: programs with calls that are not `Plain` (see the violations below). -/
theorem C79_where_partial (c : IDManager.Cfg ID G) (good : G → Prop) (hw : Works c good) (M : List Ref) (n : Nat)
    (gen : Nat → Option G) (hg : ∀ r g, gen r = some g → good g) (listens : Nat → Bool) (ops : List Op) (w : World ID G)
    (hp : PlainRun c M n (init gen listens : World ID G) ops) (h : run c M n (init gen listens) ops = some w)
    (o : Nat) : ∃ m res, eResource w.tree m o = some res ∧ ∀ r, res = some r ↔ Member w.tree r o := by
  have hi := run_inv hw ops _ w h (init_inv M hg listens) hp
  obtain ⟨m, res, he⟩ := eResource_ends hi.full.core.rank o
  exact ⟨m, res, he, fun r => by rw [member_iff hi.full, eResource_spec hi.full.core.rank m o res he r]⟩

/-- and the manager of a resource has an ID for exactly the objects that are in the contents of the resource, or inside an object that
is. -/
theorem C79_ids_partial (c : IDManager.Cfg ID G) (good : G → Prop) (hw : Works c good) (M : List Ref) (n : Nat)
    (gen : Nat → Option G) (hg : ∀ r g, gen r = some g → good g) (listens : Nat → Bool) (ops : List Op) (w : World ID G)
    (hp : PlainRun c M n (init gen listens : World ID G) ops) (h : run c M n (init gen listens) ops = some w)
    (r o : Nat) (hr : (gen r).isSome) : (getID w r o).isSome ↔ Member w.tree r o := by
  have hi := run_inv hw ops _ w h (init_inv M hg listens) hp
  cases hm : w.mgr r with
  | none =>
    obtain ⟨g, hgr⟩ := Option.isSome_iff_exists.1 hr
    obtain ⟨ms, _, e⟩ := (grows_run_any ops _ w h).mgr r (IDManager.init g) (by simp [init, hgr])
    rw [hm] at e; simp at e
  | some m =>
    rw [member_iff hi.full, ← (hi.has.ids r m hm).ids o]
    simp [getID, hm, IDManager.getID]

/-- In particular no object has IDs in two resources. -/
theorem C79_once_partial (c : IDManager.Cfg ID G) (good : G → Prop) (hw : Works c good) (M : List Ref) (n : Nat)
    (gen : Nat → Option G) (hg : ∀ r g, gen r = some g → good g) (listens : Nat → Bool) (ops : List Op) (w : World ID G)
    (hp : PlainRun c M n (init gen listens : World ID G) ops) (h : run c M n (init gen listens) ops = some w)
    (r r' o : Nat) (h1 : (getID w r o).isSome) (h2 : (getID w r' o).isSome) : r = r' := by
  have hi := run_inv hw ops _ w h (init_inv M hg listens) hp
  have key : ∀ r, (getID w r o).isSome → In w.tree r o := by
    intro r hr
    cases hm : w.mgr r with
    | none => simp [getID, hm] at hr
    | some m => exact ((hi.has.ids r m hm).ids o).1 (by simpa [getID, hm, IDManager.getID] using hr)
  exact In.unique (key r h1) (key r' h2)

/-- A listener of the resource, that is there from the start, is told of every object attached, detached, attached, ... in turn; and what
it was told last, or nothing, says whether the object is in the resource. -/
theorem C79_told_partial (c : IDManager.Cfg ID G) (good : G → Prop) (hw : Works c good) (M : List Ref) (n : Nat)
    (gen : Nat → Option G) (hg : ∀ r g, gen r = some g → good g) (listens : Nat → Bool) (ops : List Op) (w : World ID G)
    (hp : PlainRun c M n (init gen listens : World ID G) ops) (h : run c M n (init gen listens) ops = some w)
    (r o : Nat) (hr : listens r = true) :
    ∃ events b, w.heard r = some events ∧ told o events (some false) = some b ∧ (b = true ↔ Member w.tree r o) := by
  have hi := run_inv hw ops _ w h (init_inv M hg listens) hp
  obtain ⟨l, e⟩ := (grows_run_any ops _ w h).heard r [] (by simp [init, hr])
  obtain ⟨b, h1, h2⟩ := hi.has.heard r _ e o
  exact ⟨_, b, e, h1, by rw [member_iff hi.full]; exact h2⟩

/-- The lists and the containers of the objects, and the contents of the resources, agree: an object is in at most one place. -/
theorem C79_place_partial (c : IDManager.Cfg ID G) (good : G → Prop) (hw : Works c good) (M : List Ref) (n : Nat)
    (gen : Nat → Option G) (hg : ∀ r g, gen r = some g → good g) (listens : Nat → Bool) (ops : List Op) (w : World ID G)
    (hp : PlainRun c M n (init gen listens : World ID G) ops) (h : run c M n (init gen listens) ops = some w)
    (o : Nat) : (∀ p k, o ∈ w.tree.kids p k → w.tree.box o = some (p, k) ∧ ∀ r, o ∉ w.tree.roots r) ∧
      ∀ r r', o ∈ w.tree.roots r → o ∈ w.tree.roots r' → r = r' := by
  have hi := run_inv hw ops _ w h (init_inv M hg listens) hp
  refine ⟨fun p k hk => ?_, fun r r' h1 h2 => ?_⟩
  · have hb := (hi.full.kids p k o).1 hk
    refine ⟨hb, fun r hr => ?_⟩
    have ho := (hi.full.roots r o).1 hr
    rcases hi.full.core.sep o with e | e
    · rw [e] at ho; simp at ho
    · rw [e] at hb; simp at hb
  · have e1 := (hi.full.roots r o).1 h1
    have e2 := (hi.full.roots r' o).1 h2
    rw [e1] at e2; injection e2

/-- For any program, also with calls that are not `Plain`: from a state in which an object has an ID in a resource, if the program does
not unload resources, the object has no other ID in that resource later, even if it left the resource in the meantime.

Missing: `Unload`, after which objects get new IDs; IDs that are set by the program (C11). -/
theorem C79_keeps_partial (c : IDManager.Cfg ID G) (good : G → Prop) (hw : Works c good) (hptr : ∀ a b, c.ptr a = c.ptr b → a = b)
    (M : List Ref) (n : Nat) (gen : Nat → Option G) (hg : ∀ r g, gen r = some g → good g) (listens : Nat → Bool)
    (before after : List Op) (w w' : World ID G) (h : run c M n (init gen listens) before = some w)
    (h' : run c M n w after = some w') (hu : ∀ r, Op.unload r ∉ after) (r o : Nat) (id id' : ID)
    (hid : getID w r o = some id) (hid' : getID w' r o = some id') : id' = id := by
  have g1 := grows_run_any before _ w h
  have g2 := grows_run after w w' h' hu
  cases hm : w.mgr r with
  | none => simp [getID, hm] at hid
  | some m =>
    cases hgr : gen r with
    | none => rw [g1.nomgr r (by simp [init, hgr])] at hm; simp at hm
    | some g =>
      obtain ⟨ms, hq, e⟩ := g1.mgr r (IDManager.init g) (by simp [init, hgr])
      rw [hm] at e; injection e with e
      have hv : Valid c good m := by
        rw [e]
        exact valid_run hw ms _ ⟨hg r g hgr, by simp [IDManager.init], by simp [IDManager.init]⟩ hq
      obtain ⟨ms', hq', e'⟩ := g2.mgr r m hm
      have hk : Kept c o id m := .inl (by simpa [getID, hm, IDManager.getID] using hid)
      have hk' := kept_run hw hptr ms' m hv hq' hk
      simp only [getID, e', IDManager.getID, Option.bind_some] at hid'
      rcases hk' with hk' | ⟨hk', _⟩
      · rw [hk'] at hid'; injection hid' with hid'; exact hid'.symm
      · rw [hk'] at hid'; simp at hid'

end

/-! ### Examples -/

/-- a manager that counts -/
def c0 : IDManager.Cfg Nat Nat := ⟨fun g => (g, g + 1), fun _ => true, fun id g => max (id + 1) g, id⟩

/-- it gives valid IDs -/
theorem works_c0 : Works c0 (fun _ => True) := ⟨by simp [c0], by simp⟩

/-- so does every manager for which all IDs are valid, like those of UUIDs and ULIDs (ecore/uniqueidmanager.go 126-182) -/
theorem works_all {ID G : Type} (c : IDManager.Cfg ID G) (h : ∀ id, c.isValidID id = true) : Works c (fun _ => True) :=
  ⟨fun _ _ => ⟨h _, trivial⟩, fun _ _ _ _ => trivial⟩

/-- references: a list; a single one; a list that resolves proxies; a list that does not, whose opposite does; a single one with an
opposite -/
def M0 : List Ref := [⟨true, false, none⟩, ⟨false, false, none⟩, ⟨true, true, none⟩, ⟨true, false, some true⟩, ⟨false, false, some false⟩]

/-- two resources with managers, and listeners -/
def w0 : World Nat Nat := init (fun r => if r < 2 then some 0 else none) (fun _ => true)

/-- IDs of the objects 0 to 4 in the resources 0 and 1, and the contents of the two -/
def shown (w : World Nat Nat) : List (Option Nat) × List (Option Nat) × List Nat × List Nat :=
  ((List.range 5).map (getID w 0), (List.range 5).map (getID w 1), w.tree.roots 0, w.tree.roots 1)

/-- A tree, which moves: 0 with 1 and 2 in it, in the resource 0; then 1, and what is in it, to the resource 1; 3 to the place of
nothing in 1; then 1 back to 0. -/
def moves : List Op :=
  [.list 0 0 (.add 1), .list 1 0 (.add 2), .contents 0 (.add 0), .contents 1 (.add 1), .set 1 1 (some 3), .list 0 0 (.add 1),
    .container 4 4 (some 3), .contents 1 (.add 3), .contents 0 (.clear)]

example : (run c0 M0 20 w0 (moves.take 3)).map shown = some ([some 0, some 1, some 2, none, none], [none, none, none, none, none], [0], []) := by decide
example : (run c0 M0 20 w0 (moves.take 5)).map shown = some ([some 0, none, none, none, none], [none, some 0, some 1, some 2, none], [0], [1]) := by decide
example : (run c0 M0 20 w0 (moves.take 6)).map shown = some ([some 0, some 1, some 2, some 3, none], [none, none, none, none, none], [0], []) := by decide
example : (run c0 M0 20 w0 (moves.take 8)).map shown = some ([some 0, some 1, some 2, none, none], [none, none, none, some 2, some 3], [0], [3]) := by decide
example : (run c0 M0 20 w0 moves).map shown = some ([none, none, none, none, none], [none, none, none, some 2, some 3], [], [3]) := by decide
example : (run c0 M0 20 w0 moves).map (fun w => w.heard 0) = some (some [(0, true), (1, true), (2, true), (1, false), (2, false), (1, true),
    (2, true), (3, true), (4, true), (3, false), (4, false), (0, false), (1, false), (2, false)]) := by decide

/-- whether `e` is above `x`, or is `x`; `none` if this cannot be told in `n` steps -/
def above (box : Nat → Option (Nat × Nat)) (e : Nat) : Nat → Nat → Option Bool
  | 0, _ => none
  | n + 1, x => if e = x then some true else match box x with
    | none => some false
    | some (c, _) => above box e n c

theorem above_false {box : Nat → Option (Nat × Nat)} {e : Nat} : ∀ n x, above box e n x = some false → ¬ Inside box e x := by
  intro n
  induction n with
  | zero => intro x h; simp [above] at h
  | succ n ih =>
    intro x h hi
    simp only [above] at h
    split at h
    · simp at h
    · next ne =>
      cases hi with
      | refl => exact ne rfl
      | step hb hc => simp only [hb] at h; exact ih _ h hc

/-- `Fits`, computed -/
def fitsB (M : List Ref) (t : Tree) (p k e : Nat) : Bool :=
  above t.box e 20 p = some false && (!(flag M k) || t.own e = none) && decide (k < M.length)

/-- `Plain`, computed -/
def plainB (M : List Ref) (t : Tree) : Op → Bool
  | .contents _ op => (given op).all fun e => match t.box e with
    | none => true
    | some (_, k) => !(flag M k)
  | .list p k op => (given op).all (fitsB M t p k)
  | .set p k v => v.toList.all (fitsB M t p k)
  | .container o k v => v.toList.all fun p => fitsB M t p k o && (t.kids p k).all fun q => above t.box q 20 o = some false
  | .unload _ => false

/-- `PlainRun`, computed -/
def plainRunB (c : IDManager.Cfg Nat Nat) (M : List Ref) (w : World Nat Nat) : List Op → Bool
  | [] => true
  | op :: ops => plainB M w.tree op && match step c M 20 w op with
    | none => true
    | some w' => plainRunB c M w' ops

theorem fitsB_ok {M : List Ref} {t : Tree} (h : Full M t) {p k e : Nat} (hf : fitsB M t p k e = true) : Fits M t p k e := by
  simp only [fitsB, Bool.and_eq_true, decide_eq_true_eq, Bool.or_eq_true, Bool.not_eq_true'] at hf
  refine ⟨above_false _ _ hf.1.1, fun hc r hr => ?_⟩
  rw [h.roots] at hr
  rcases hf.1.2 with hl | hl
  · exact (flag_false hf.2).1 hl hc
  · rw [hl] at hr; simp at hr

theorem plainB_ok {M : List Ref} {t : Tree} (h : Full M t) {op : Op} (hp : plainB M t op = true) : Plain M t op := by
  cases op with
  | contents r op =>
    intro e he p k hk
    have hb := (h.kids p k e).1 hk
    simp only [plainB, List.all_eq_true] at hp
    have := hp e he
    rw [hb] at this
    simp only [Bool.not_eq_true'] at this
    exact (flag_false (h.core.lt e p k hb)).1 this
  | list p k op =>
    intro e he
    simp only [plainB, List.all_eq_true] at hp
    exact fitsB_ok h (hp e he)
  | set p k v =>
    intro e he
    simp only [plainB, List.all_eq_true] at hp
    exact fitsB_ok h (hp e (by simpa using he))
  | container o k v =>
    intro p hv
    simp only [plainB, List.all_eq_true, Bool.and_eq_true, decide_eq_true_eq] at hp
    obtain ⟨h1, h2⟩ := hp p (by simpa using hv)
    exact ⟨fitsB_ok h h1, fun _ q hq => above_false _ _ (h2 q hq)⟩
  | unload r => simp [plainB] at hp

theorem plainRunB_ok {c : IDManager.Cfg Nat Nat} {good : Nat → Prop} (hw : Works c good) {M : List Ref} : ∀ (ops : List Op) (w : World Nat Nat),
    Inv c good M w → plainRunB c M w ops = true → PlainRun c M 20 w ops := by
  intro ops
  induction ops with
  | nil => intro w _ _; trivial
  | cons op ops ih =>
    intro w hi h
    simp only [plainRunB, Bool.and_eq_true] at h
    have hp := plainB_ok hi.full h.1
    refine ⟨hp, fun w' hs => ?_⟩
    rw [hs] at h
    exact ih w' (step_inv hw hs hi hp) h.2

/-- the program above meets the hypotheses of the theorems -/
example : PlainRun c0 M0 20 w0 moves := plainRunB_ok works_c0 moves w0 (init_inv M0 (by simp) _) (by decide)

/-! ### What is not so -/

/-- An object that is in a container, by a reference that resolves proxies, and in the contents of the resource 1 gets IDs in both
resources when its container is put in the resource 0, and the listeners of both are told that it is attached. -/
theorem C79_cross_violated : (run c0 M0 20 w0 [.list 0 2 (.add 1), .contents 1 (.add 1), .contents 0 (.add 0)]).map
    (fun w => (getID w 0 1, getID w 1 1, eResource w.tree 20 1, w.heard 0)) =
    some (some 1, some 0, some (some 1), some [(0, true), (1, true)]) := by rfl

/-- An object which is in the contents of the resource, and also in a container, by a reference that resolves proxies, has no ID any
more after the container is removed from the resource. -/
theorem C79_same_violated : (run c0 M0 20 w0 [.contents 0 (.add 0), .list 0 2 (.add 1), .contents 0 (.add 1), .contents 0 (.remove 0)]).map
    (fun w => (w.tree.roots 0, eResource w.tree 20 1, getID w 0 1)) = some ([1], some (some 0), none) := by decide

/-- After `Unload`, `EResource()` of an object that was in the contents still is the resource, which no longer contains it. -/
theorem C79_unload_violated : (run c0 M0 20 w0 [.contents 0 (.add 0), .unload 0]).map
    (fun w => (w.tree.roots 0, eResource w.tree 20 0, getID w 0 0, w.heard 0)) = some ([], some (some 0), none, some [(0, true)]) := by rfl

/-- and it gets another ID when it is put in the contents again. -/
theorem C79_reload_violated : (run c0 M0 20 w0 [.contents 0 (.add 0)]).map (getID · 0 0) = some (some 0) ∧
    (run c0 M0 20 w0 [.contents 0 (.add 0), .unload 0, .contents 0 (.add 0)]).map (getID · 0 0) = some (some 1) := by decide

/-- A manager that is set after the objects are in the resource has no ID for them. -/
theorem C79_late_violated : (run c0 M0 20 w0 [.contents 2 (.add 0)]).map
    (fun w => (eResource w.tree 20 0, getID (setManager w 2 0) 2 0)) = some (some (some 2), none) := by decide

/-- An object put in a reference that does not resolve proxies, but whose opposite does, stays in the contents of the resource. -/
theorem C79_flag_violated : (run c0 M0 20 w0 [.contents 1 (.add 1), .list 0 3 (.add 1)]).map
    (fun w => (w.tree.kids 0 3, w.tree.roots 1, eResource w.tree 20 1)) = some ([1], [1], some (some 1)) := by decide

/-- An object, put by setting its container in the place of an object that it was in, is attached twice. -/
theorem C79_replaced_violated : (run c0 M0 20 w0 [.contents 0 (.add 0), .set 0 4 (some 1), .list 1 0 (.add 2), .container 2 4 (some 0)]).map
    (fun w => (w.tree.kids 0 4, w.heard 0)) = some ([2], some [(0, true), (1, true), (2, true), (1, false), (2, true)]) := by decide

/-- the state after 1 is put in 0, and 0 in 1 -/
def knot : Tree := ⟨fun o k => if (o = 0 ∧ k = 0) then [1] else if (o = 1 ∧ k = 0) then [0] else [],
  fun o => if o = 1 then some (0, 0) else if o = 0 then some (1, 0) else none, fun _ => none, fun _ => []⟩

/-- Nothing keeps a program from putting an object in an object that is in it: `EResource()` of both then does not end. -/
theorem C79_cycle_violated : (run c0 M0 20 w0 [.list 0 0 (.add 1), .list 1 0 (.add 0)]).map
    (fun w => ((List.range 2).map fun o => (w.tree.kids o 0, w.tree.box o, w.tree.own o))) =
      some ((List.range 2).map fun o => (knot.kids o 0, knot.box o, knot.own o)) ∧
    ∀ n, eResource knot n 0 = none ∧ eResource knot n 1 = none := by
  refine ⟨by decide, fun n => ?_⟩
  induction n with
  | zero => exact ⟨rfl, rfl⟩
  | succ n ih => exact ⟨by simp [eResource, knot] at ih ⊢; exact ih.2, by simp [eResource, knot] at ih ⊢; exact ih.1⟩

end Verif.Attach
