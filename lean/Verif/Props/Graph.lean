import Verif.Proofs.Graph

/-!
# C19: containment, C20: opposites
-/

namespace Verif.Graph

/-- **C19** (partial): after any sequence of well typed calls, the values of a containment reference of `a` are
exactly the objects whose container is `a` and whose containing feature is this reference, and an object with a
container is a value of a containment reference of it.
Missing: `ESet` and `EUnset` of lists (`C19_unset_list_violated`), features whose ID differs from the one in the
declaring class (`C19_inheritance_violated`). -/
theorem C19_containment_partial (M : Meta) (wf : WellFormed M) (cls : Nat → Nat) (ops : List Op) (ht : ∀ op ∈ ops, Typed M cls op) (w : World)
    (hr : run M (init cls) ops = some w) : Contained M cls w :=
  (good_run wf ops _ (good_init M cls) ht w hr).contained wf

/-- **C19** (partial): an object is a value of at most one containment reference of at most one object, and no list
of a containment reference has it twice. -/
theorem C19_unique_partial (M : Meta) (wf : WellFormed M) (cls : Nat → Nat) (ops : List Op) (ht : ∀ op ∈ ops, Typed M cls op) (w : World)
    (hr : run M (init cls) ops = some w) (a r b s o : Nat) (hra : r ∈ M.features (cls a)) (hsb : s ∈ M.features (cls b))
    (hcr : (M.refs r).containment = true) (hcs : (M.refs s).containment = true) (ho : o ∈ eGet M w a r) :
    (o ∈ eGet M w b s → a = b ∧ r = s) ∧ (eGet M w a r).Nodup := by
  have hg := good_run wf ops _ (good_init M cls) ht w hr
  obtain ⟨hc, -⟩ := hg.contained wf
  constructor
  · intro ho'
    have h1 := (hc a r o hra hcr).1 ho
    have h2 := (hc b s o hsb hcs).1 ho'
    rw [h1.1, h1.2] at h2
    simpa using h2
  · have hn := wf.contNot hcr
    have hs := hg.shape a r hra hn
    simp only [eGet, hn, Bool.false_eq_true, ↓reduceIte, hg.cls_eq a, wf.featureID hra, Int.toNat_natCast]
    simp only [Shape] at hs
    split at hs
    · rcases hs with hs | ⟨l, hl, hs⟩ <;> simp [hs]
      exact hl
    · rcases hs with hs | ⟨l, hs⟩ <;> simp [hs]

/-- **C20** (partial): after any sequence of well typed calls, `b` is in the value of a reference of `a` exactly when
`a` is in the value of the opposite reference of `b`.
Missing: `ESet` and `EUnset` of lists (`C20_unset_list_violated`), features whose ID differs from the one in the
declaring class (`C20_inheritance_violated`), references that are their own opposite (`C20_self_violated`). -/
theorem C20_opposite_partial (M : Meta) (wf : WellFormed M) (cls : Nat → Nat) (ops : List Op) (ht : ∀ op ∈ ops, Typed M cls op) (w : World)
    (hr : run M (init cls) ops = some w) : Symmetric M cls w :=
  (good_run wf ops _ (good_init M cls) ht w hr).symmetric wf

/-- **C20**, **C19** (partial): `ESet` and `EUnset` of single valued references never panic. -/
theorem C20_set_total_partial (M : Meta) (wf : WellFormed M) (cls : Nat → Nat) (ops : List Op) (ht : ∀ op ∈ ops, Typed M cls op) (w : World)
    (hr : run M (init cls) ops = some w) (o f : Nat) (v : Option Nat) (h : Typed M cls (.set o f v)) :
    eSet M w o f v ≠ none ∧ eUnset M w o f ≠ none := by
  have hg := good_run wf ops _ (good_init M cls) ht w hr
  obtain ⟨w1, h1, -⟩ := good_eSet wf hg h.1 h.2.1 v h.2.2
  obtain ⟨w2, h2, -⟩ := good_eUnset wf hg h.1 h.2.1
  simp [h1, h2]

/-- **C55** (partial): after `ESet(f, v)` of a single valued reference `EGet(f)` is `v`, after `EUnset(f)` nothing. -/
theorem C55_set_partial (M : Meta) (wf : WellFormed M) (cls : Nat → Nat) (ops : List Op) (ht : ∀ op ∈ ops, Typed M cls op) (w w1 w2 : World)
    (hr : run M (init cls) ops = some w) (o f : Nat) (v : Option Nat) (h : Typed M cls (.set o f v)) (h1 : eSet M w o f v = some w1)
    (h2 : eUnset M w o f = some w2) :
    eGet M w1 o f = v.toList ∧ eGet M w2 o f = [] := by
  have hg := good_run wf ops _ (good_init M cls) ht w hr
  exact ⟨(eSet_get wf hg h.1 h.2.1 v h.2.2 h1).1, eUnset_get wf hg h.1 h.2.1 h2⟩

/-- **C55** (partial): a call on the list of a reference changes it as a sequence without duplicates (C02), and panics
if this is not possible. -/
theorem C55_list_partial (M : Meta) (wf : WellFormed M) (cls : Nat → Nat) (ops : List Op) (ht : ∀ op ∈ ops, Typed M cls op) (w : World)
    (hr : run M (init cls) ops = some w) (o f : Nat) (op : LOp) (h : Typed M cls (.list o f op)) :
    (listOp M w o f op).map (eGet M · o f) = op.after (eGet M w o f) := by
  have hg := good_run wf ops _ (good_init M cls) ht w hr
  obtain ⟨hf, hm, hn, ha⟩ := h
  rw [show eGet M w o f = dataOf M w o f from hg.eGet_data wf hf hm hn]
  obtain ⟨h1, h2⟩ := listOp_spec wf hg hf hm hn op ha
  cases hp : op.after (dataOf M w o f) with
  | none => rw [h1 hp]; rfl
  | some l =>
    obtain ⟨w', a1, a2, a3⟩ := h2 l hp
    simp only [a1, Option.map_some, Option.some.injEq]
    rw [a2.eGet_data wf hf hm hn]
    simp [dataOf, a3, Slot.data]

/-! ## Examples -/

/-- a metamodel given by its references and the features of its classes -/
def metaOf (refs : List Ref) (classes : List (List Nat)) : Meta :=
  ⟨fun r => (refs[r]?).getD ⟨false, false, none, 0⟩, fun c => (classes[c]?).getD []⟩

/-- check of `WellFormed` -/
def wellFormed (refs : List Ref) (classes : List (List Nat)) : Bool :=
  let M := metaOf refs classes
  ((List.range refs.length).all fun r => match (M.refs r).opposite with
    | none => true
    | some r' => (M.refs r').opposite = some r ∧ r' ≠ r ∧ ((M.refs r).containment → (M.refs r').containment = false ∧ (M.refs r').many = false)) &&
  (classes.all fun fs => fs.all fun r => fs[(M.refs r).declId]? = some r)

theorem wellFormed_metaOf {refs : List Ref} {classes : List (List Nat)} (h : wellFormed refs classes = true) : WellFormed (metaOf refs classes) := by
  simp only [wellFormed, Bool.and_eq_true, List.all_eq_true, List.mem_range] at h
  obtain ⟨h1, h2⟩ := h
  have h3 : ∀ r r', ((metaOf refs classes).refs r).opposite = some r' → ((metaOf refs classes).refs r').opposite = some r ∧ r' ≠ r ∧
      (((metaOf refs classes).refs r).containment = true → ((metaOf refs classes).refs r').containment = false ∧ ((metaOf refs classes).refs r').many = false) := by
    intro r r' ho
    have hl : r < refs.length := by
      apply Classical.byContradiction
      intro hc
      simp [metaOf, List.getElem?_eq_none (Nat.le_of_not_lt hc)] at ho
    have := h1 r hl
    rw [ho] at this
    simp only [ne_eq, decide_eq_true_eq] at this
    exact this
  refine ⟨fun r r' ho => ⟨(h3 r r' ho).1, (h3 r r' ho).2.1⟩, fun r r' hc ho => (h3 r r' ho).2.2 hc, ?_⟩
  intro c r hr
  simp only [metaOf] at hr ⊢
  cases hc : classes[c]? with
  | none => simp [hc] at hr
  | some fs =>
    simp only [hc, Option.getD_some] at hr ⊢
    exact of_decide_eq_true (h2 fs (List.mem_of_getElem? hc) r hr)

instance (M : Meta) (cls : Nat → Nat) (f v : Nat) : Decidable (Fits M cls f v) :=
  match h : (M.refs f).opposite with
  | none => .isTrue (by intro f' hf'; rw [h] at hf'; simp at hf')
  | some f' => if hm : f' ∈ M.features (cls v) then .isTrue (by intro x hx; rw [h] at hx; injection hx with hx; exact hx ▸ hm)
    else .isFalse (fun hh => hm (hh f' h))

instance (M : Meta) (cls : Nat → Nat) (op : Op) : Decidable (Typed M cls op) := by
  cases op with
  | set o f v =>
    cases v with
    | none => exact decidable_of_iff (f ∈ M.features (cls o) ∧ (M.refs f).many = false) (by simp [Typed])
    | some x => exact decidable_of_iff (f ∈ M.features (cls o) ∧ (M.refs f).many = false ∧ Fits M cls f x) (by simp [Typed])
  | unset o f => exact inferInstanceAs (Decidable (_ ∧ _))
  | list o f op => exact inferInstanceAs (Decidable (_ ∧ _))

/-- references 0 `parent` and 1 `children`, 2 `main` without opposite, 3 `friends` and 4 `friendOf`, 5 `boss` and 6 `staff`,
7 `spouse` and 8 `spouseOf` -/
def sampleRefs : List Ref :=
  [⟨false, false, some 1, 0⟩, ⟨true, true, some 0, 1⟩, ⟨true, false, none, 2⟩, ⟨false, true, some 4, 3⟩, ⟨false, true, some 3, 4⟩,
    ⟨false, false, some 6, 5⟩, ⟨false, true, some 5, 6⟩, ⟨false, false, some 8, 7⟩, ⟨false, false, some 7, 8⟩]

def sample : Meta := metaOf sampleRefs [[0, 1, 2, 3, 4, 5, 6, 7, 8]]

theorem sample_wf : WellFormed sample := wellFormed_metaOf (by decide)

/-- objects move between containers, by both ends; opposites are taken over -/
def sampleOps : List Op :=
  [.list 1 1 (.addAll [2, 3, 4]), .list 5 1 (.add 3), .set 4 0 (some 5), .set 1 2 (some 3), .set 1 2 (some 2), .set 3 5 (some 1), .list 2 6 (.add 3),
    .list 1 3 (.addAll [2, 3]), .list 3 4 (.clear), .set 1 7 (some 2), .set 3 8 (some 1), .list 5 1 (.set 0 5), .unset 1 2]

example : (∀ op ∈ sampleOps, Typed sample (fun _ => 0) op) := by decide

example : (run sample (init fun _ => 0) sampleOps).map (fun w => ((List.range 9).map (eGet sample w 1), (List.range 9).map (eGet sample w 3),
    (List.range 9).map (eGet sample w 5), eContainer w 2, eContainer w 5)) =
    some ([[], [], [], [2], [], [], [], [3], []], [[], [], [], [], [], [2], [], [], [1]],
      [[5], [5], [], [], [], [], [], [], []], none, some 5) := by decide

/-- **C19** is violated: after `EUnset` of a list the objects still have their container and can be seen from no list. -/
theorem C19_unset_list_violated :
    (run sample (init fun _ => 0) [.list 1 1 (.add 2), .unset 1 1]).map (fun w => (eGet sample w 1 1, eContainer w 2, eContainingFeature sample w 2)) =
      some ([], some 1, some 1) ∧
    (run sample (init fun _ => 0) [.list 1 1 (.add 2), .set 1 1 none]).map (fun w => (eGet sample w 1 1, eContainer w 2)) = some ([], some 1) := by decide

/-- class 2 has the references 0 of class 0 and 1 of class 1, both containments -/
def twoParents : Meta := metaOf [⟨true, true, none, 0⟩, ⟨true, true, none, 0⟩] [[0], [1], [0, 1]]

/-- **C19** is violated with several super classes: an object added to the second list has the first one as its
containing feature, and stays in the second one when it is added to another object. -/
theorem C19_inheritance_violated :
    (run twoParents (init fun _ => 2) [.list 1 1 (.add 2)]).map (fun w => (eGet twoParents w 1 1, eContainingFeature twoParents w 2)) = some ([2], some 0) ∧
    (run twoParents (init fun _ => 2) [.list 1 1 (.add 2), .list 3 0 (.add 2)]).map (fun w => (eGet twoParents w 1 1, eGet twoParents w 3 0, eContainer w 2)) =
      some ([2], [2], some 3) := by decide

/-- **C20** is violated: `EUnset` of a list leaves the other ends. -/
theorem C20_unset_list_violated :
    (run sample (init fun _ => 0) [.list 1 6 (.add 2), .unset 1 6]).map (fun w => (eGet sample w 1 6, eGet sample w 2 5)) = some ([], [1]) := by decide

/-- class 2 has the references 0 of class 0 and 1 and 2 of class 1, which are opposites -/
def twoParents' : Meta := metaOf [⟨false, true, none, 0⟩, ⟨false, true, some 2, 0⟩, ⟨false, true, some 1, 1⟩] [[0], [1, 2], [0, 1, 2]]

/-- **C20** is violated with several super classes: the other end of list 2 is list 0. -/
theorem C20_inheritance_violated :
    (run twoParents' (init fun _ => 2) [.list 1 2 (.add 2)]).map (fun w => (eGet twoParents' w 1 2, eGet twoParents' w 2 1, eGet twoParents' w 2 0)) =
      some ([2], [], [1]) := by decide

/-- a reference that is its own opposite -/
def selfOpposite : Meta := metaOf [⟨false, true, some 0, 0⟩] [[0]]

/-- **C20**: a reference that is its own opposite: an object added to its own list is there twice. -/
theorem C20_self_violated :
    (run selfOpposite (init fun _ => 0) [.list 1 0 (.add 1)]).map (fun w => eGet selfOpposite w 1 0) = some [1, 1] := by decide

/-! ## C56 -/

/-- **C56** (partial): `EContainmentFeature` is the containment reference, if it has no opposite. -/
theorem C56_containment_feature_partial (M : Meta) (wf : WellFormed M) (cls : Nat → Nat) (ops : List Op) (ht : ∀ op ∈ ops, Typed M cls op) (w : World)
    (hr : run M (init cls) ops = some w) (a r o : Nat) (h : r ∈ M.features (cls a)) (hc : (M.refs r).containment = true)
    (ho : o ∈ eGet M w a r) : ((M.refs r).opposite = none → eContainmentFeature M w o = some r) ∧
      ∀ r', (M.refs r).opposite = some r' → eContainmentFeature M w o = some r' := by
  have hg := good_run wf ops _ (good_init M cls) ht w hr
  rw [hg.eGet wf h (wf.contNot hc)] at ho
  have hp := (hg.own a r o h hc).1 ho
  simp only [eContainmentFeature, hp.container, hp.cfid, hg.cls_eq, code]
  constructor
  · intro hn
    simp only [hn]
    rw [if_pos (by omega), show (-1 - (-1 - ((M.refs r).declId : Int))) = (M.refs r).declId by omega, wf.feature hp.mem]
  · intro r' hr'
    simp only [hr']
    rw [if_neg (by omega), wf.feature (hp.fits r' hr')]

/-- An object contained by a reference without opposite after it was in a list, and one contained with an opposite. -/
example : (run sample (init fun _ => 0) (sampleOps.take 5)).map (fun w => (eGet sample w 1 2,
    [eContainmentFeature sample w 2, eContainer w 2, eContainmentFeature sample w 4])) = some ([2], [some 2, some 1, some 0]) ∧
    (sample.refs 2).containment = true ∧ (sample.refs 2).opposite = none := by decide

/-- **C56** is violated: an object contained through a reference with an opposite; the result is the container
reference, which is no containment. -/
theorem C56_opposite_violated :
    (run sample (init fun _ => 0) [.list 1 1 (.add 2)]).map (fun w => (eGet sample w 1 1, eContainmentFeature sample w 2)) = some ([2], some 0) ∧
    (sample.refs 0).containment = false := by decide

end Verif.Graph
