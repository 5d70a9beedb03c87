import Verif.Proofs.DeepCopyAll

/-!
# C32: copies of objects
-/

namespace Verif.DeepCopy

/-- C32, equality (partial: `Closed`, see the violations below). Whatever the order in which the map of copies is iterated,
`Copy` ends, and `Equals` of the object and its copy is true. -/
theorem C32_equals_partial (M : Meta) (w : World) (o : Nat) (order : List Nat) (depth : Nat → Nat) (hv : Valid M w) (wf : WellFormed M) (ht : Tree M w o order depth) (hc : Closed M w o)
    (n : Nat) (hn : depth o < n) :
    ∃ (w' : World) (c : Nat), copyTop M order n w o = some (w', c) ∧ ∀ k : Nat, w'.nextObj < k → DeepEqual.equals (toMeta M) (toHeap M w') k (some o) (some c) = some true := by
  obtain ⟨w1, w', c, h1, h2, hroot⟩ := copyTop_final hv wf ht hn
  refine ⟨w', c, h1, ?_⟩
  intro k hk
  have hwi := within_objects M w o
  have ht0 := tree_objects ht
  have hr0 : Ready M { w with objects := fun _ => none } (Within M { w with objects := fun _ => none } o) (· = o) order :=
    ⟨fun x hx => (ht0.mem x).2 hx, ht0.changeable, fun x f hx => by subst hx; exact hc.root f,
      fun x f z h h1 h2 h3 h4 h5 => (hwi z).2 (hc.inside x f z ((hwi x).1 h) h1 h2 h3 h4 h5), fun x f h => hc.lists x f ((hwi x).1 h)⟩
  have ho : o < w'.nextObj := Nat.lt_of_lt_of_le ht.exists_ h2.inv.str.frame.nobj
  have hcl : c < w'.nextObj := by
    rw [h2.inv.str.nobj]
    exact (h2.ctx.mem hroot).2.2
  obtain ⟨r, h3, h4⟩ := DeepEqual.C33_equals_partial (toMeta M) (toHeap M w') (List.range w'.nextObj) h2.closed o c (by simpa using ho) (by simpa using hcl) k (by simpa using hk)
  rw [h3]
  congr 1
  exact h4.2 ⟨_, h2.pairing hr0, .inl hroot⟩

/-- C32, separation: the copy and all objects it contains are new, it has no container, and no object or list that existed
before is changed. -/
theorem C32_separate (M : Meta) (w : World) (o : Nat) (order : List Nat) (depth : Nat → Nat) (hv : Valid M w) (wf : WellFormed M) (ht : Tree M w o order depth)
    (n : Nat) (hn : depth o < n) :
    ∃ (w' : World) (c : Nat), copyTop M order n w o = some (w', c) ∧ (∀ y : Nat, Within M w' c y → w.nextObj ≤ y) ∧ w'.container c = none ∧ Kept w w' := by
  obtain ⟨w1, w', c, h1, h2, hroot⟩ := copyTop_final hv wf ht hn
  have hf := h2.inv.str.frame
  refine ⟨w', c, h1, ?_, ?_, hf.cls, hf.uri, hf.slot, hf.container, hf.list⟩
  · intro y hy
    obtain ⟨x, hx⟩ := h2.within hroot hy
    exact (h2.ctx.mem hx).2.1
  · rw [h2.inv.str.container]
    exact h2.post.roots o c .root hroot rfl

/-- C32, independence (partial: not for lists of values of dynamic objects, see `C32_shared_violated`). After any sequence
of changes of objects of the copy, all objects and lists that existed before are what they were. -/
theorem C32_independent_partial (M : Meta) (w : World) (o : Nat) (order : List Nat) (depth : Nat → Nat) (hv : Valid M w) (wf : WellFormed M) (ht : Tree M w o order depth)
    (n : Nat) (hn : depth o < n) :
    ∃ (w' : World) (c : Nat), copyTop M order n w o = some (w', c) ∧ ∀ es : List Edit, (∀ e ∈ es, Within M w' c e.object) →
      (∀ y f V, Edit.fill y f V ∈ es → (M.feature f).isRef = true ∨ M.generated (w'.cls y) = true) → Kept w (es.foldl (Edit.apply M) w') := by
  obtain ⟨w1, w', c, h1, h2, hroot⟩ := copyTop_final hv wf ht hn
  have hf := h2.inv.str.frame
  refine ⟨w', c, h1, ?_⟩
  intro es he hfill
  refine edits_kept (w0 := w) (w' := w') (Y := Within M w' c) ?_ es w' ⟨hf.cls, hf.uri, hf.slot, hf.container, hf.list⟩ hf.nlist rfl ?_ he hfill
  · intro y hy
    obtain ⟨x, hx⟩ := h2.within hroot hy
    exact (h2.ctx.mem hx).2.1
  · intro y f l hy hk hl
    obtain ⟨x, hx⟩ := h2.within hroot hy
    exact h2.fresh hx hl hk

/-- C32, equality of `CopyAll` (partial: `ClosedAll`). Whatever the order in which the map of copies is iterated, `CopyAll`
ends, and `EqualsAll` of the objects and their copies is true. -/
theorem C32_all_equals_partial (M : Meta) (w : World) (l order : List Nat) (depth : Nat → Nat) (hv : Valid M w) (wf : WellFormed M) (ht : Forest M w l order depth)
    (hc : ClosedAll M w l) (n : Nat) (hn : ∀ r ∈ l, depth r < n) :
    ∃ (w' : World) (cs : List Nat), copyAllTop M order n w l = some (w', cs) ∧
      ∀ k : Nat, w'.nextObj < k → DeepEqual.equalsAll (toMeta M) (toHeap M w') k l cs = some true := by
  obtain ⟨w1, w', cs, h1, h2, hroots⟩ := copyAllTop_final hv wf ht hn
  refine ⟨w', cs, h1, ?_⟩
  intro k hk
  have ht0 := forest_objects ht
  have hr0 : Ready M { w with objects := fun _ => none } (fun x => ∃ r ∈ l, Within M { w with objects := fun _ => none } r x) (· ∈ l) order := by
    refine ⟨fun x hx => (ht0.mem x).2 hx, ht0.changeable, fun x f hx => hc.root x hx f, ?_, ?_⟩
    · intro x f z
      simp only [within_objects]
      exact hc.inside x f z
    · intro x f
      simp only [within_objects]
      exact hc.lists x f
  have ho : ∀ a ∈ l, a ∈ List.range w'.nextObj := by
    intro a ha
    simpa using Nat.lt_of_lt_of_le (ht.exists_ a ha) h2.inv.str.frame.nobj
  have hcl : ∀ c ∈ cs, c ∈ List.range w'.nextObj := by
    intro c hc
    obtain ⟨z, -, hz⟩ := forall₂_mem_right hroots hc
    rw [List.mem_range, h2.inv.str.nobj]
    exact (h2.ctx.mem hz).2.2
  obtain ⟨r, h3⟩ := DeepEqual.C33_equals_all_ends (toMeta M) (toHeap M w') (List.range w'.nextObj) h2.closed l cs ho hcl k (by simpa using hk)
  rw [h3]
  congr 1
  exact (DeepEqual.C33_equals_all_partial _ _ _ _ _ _ h3).2 ⟨_, h2.pairing hr0, hroots.imp fun _ _ => .inl⟩

/-- C32, separation for `CopyAll`: the copies, one for each object, and all objects they contain are new, they have no
container, and no object or list that existed before is changed. -/
theorem C32_all_separate (M : Meta) (w : World) (l order : List Nat) (depth : Nat → Nat) (hv : Valid M w) (wf : WellFormed M) (ht : Forest M w l order depth)
    (n : Nat) (hn : ∀ r ∈ l, depth r < n) :
    ∃ (w' : World) (cs : List Nat), copyAllTop M order n w l = some (w', cs) ∧ cs.length = l.length ∧ cs.Nodup ∧
      (∀ c ∈ cs, (∀ y : Nat, Within M w' c y → w.nextObj ≤ y) ∧ w'.container c = none) ∧ Kept w w' := by
  obtain ⟨w1, w', cs, h1, h2, hroots⟩ := copyAllTop_final hv wf ht hn
  have hf := h2.inv.str.frame
  refine ⟨w', cs, h1, hroots.length_eq.symm, ?_, ?_, hf.cls, hf.uri, hf.slot, hf.container, hf.list⟩
  · exact Forall₂.nodup hroots ht.once (fun a b b' e e' => by simpa [e] using e') (fun a a' b _ _ e e' => h2.ctx.inj a a' b e e')
  · intro c hc
    obtain ⟨z, hz, hzc⟩ := forall₂_mem_right hroots hc
    constructor
    · intro y hy
      obtain ⟨x, hx⟩ := h2.within hzc hy
      exact (h2.ctx.mem hx).2.1
    · rw [h2.inv.str.container]
      exact h2.post.roots z c ⟨z, hz, .root⟩ hzc hz

/-- C32, independence for `CopyAll` (partial, as for `Copy`). -/
theorem C32_all_independent_partial (M : Meta) (w : World) (l order : List Nat) (depth : Nat → Nat) (hv : Valid M w) (wf : WellFormed M) (ht : Forest M w l order depth)
    (n : Nat) (hn : ∀ r ∈ l, depth r < n) :
    ∃ (w' : World) (cs : List Nat), copyAllTop M order n w l = some (w', cs) ∧ ∀ es : List Edit, (∀ e ∈ es, ∃ c ∈ cs, Within M w' c e.object) →
      (∀ y f V, Edit.fill y f V ∈ es → (M.feature f).isRef = true ∨ M.generated (w'.cls y) = true) → Kept w (es.foldl (Edit.apply M) w') := by
  obtain ⟨w1, w', cs, h1, h2, hroots⟩ := copyAllTop_final hv wf ht hn
  have hf := h2.inv.str.frame
  have key : ∀ y : Nat, (∃ c ∈ cs, Within M w' c y) → ∃ x, w1.objects x = some y := by
    rintro y ⟨c, hc, hy⟩
    obtain ⟨z, -, hzc⟩ := forall₂_mem_right hroots hc
    exact h2.within hzc hy
  refine ⟨w', cs, h1, ?_⟩
  intro es he hfill
  refine edits_kept (w0 := w) (w' := w') (Y := fun y => ∃ c ∈ cs, Within M w' c y) ?_ es w' ⟨hf.cls, hf.uri, hf.slot, hf.container, hf.list⟩ hf.nlist rfl ?_ he hfill
  · intro y hy
    obtain ⟨x, hx⟩ := key y hy
    exact (h2.ctx.mem hx).2.1
  · intro y f k hy hk hl
    obtain ⟨x, hx⟩ := key y hy
    exact h2.fresh hx hl hk

/-! ### An example -/

/-- a generated class: attributes 0 and 1 (many valued), children 2 with the container 3, references 4 and 5 (many valued,
opposites), reference 6 without opposite -/
def exMeta (generated : Bool) : Meta where
  feature
    | 1 => ⟨false, true, false, none, true, false⟩
    | 2 => ⟨true, true, true, some 3, true, false⟩
    | 3 => ⟨true, false, false, some 2, true, false⟩
    | 4 => ⟨true, true, false, some 5, true, false⟩
    | 5 => ⟨true, true, false, some 4, true, false⟩
    | 6 => ⟨true, false, false, none, true, false⟩
    | _ => ⟨false, false, false, none, true, false⟩
  all := fun _ => [0, 1, 2, 3, 4, 5, 6]
  declared := fun _ => [0, 1, 2, 3, 4, 5, 6]
  generated := fun _ => generated

/-- 0 contains 1 and 2, 1 refers to 2 and to itself, 2 refers to 3 -/
def exWorld : World where
  cls := fun _ => 0
  uri := fun _ => none
  slot
    | 0, 0 => .value 7
    | 0, 1 => .list 0
    | 0, 2 => .list 1
    | 1, 4 => .list 2
    | 1, 5 => .list 3
    | 2, 5 => .list 4
    | 2, 6 => .obj 3
    | _, _ => .none
  container
    | 1 => some (0, 2)
    | 2 => some (0, 2)
    | _ => none
  list
    | 0 => ⟨[5, 5], .values⟩
    | 1 => ⟨[1, 2], .refs⟩
    | 2 => ⟨[2, 1], .refs⟩
    | 3 => ⟨[1], .refs⟩
    | 4 => ⟨[1], .refs⟩
    | _ => ⟨[], .refs⟩
  nextObj := 4
  nextList := 5
  objects := fun _ => none

theorem exMeta_wf (g : Bool) : WellFormed (exMeta g) := by
  refine ⟨?_, ?_, ?_, ?_, ?_, ?_, ?_⟩
  · intro f k h
    rcases f with _ | _ | _ | _ | _ | _ | _ | f <;> simp [exMeta] at h ⊢ <;> subst h <;> simp
  · intro f k h
    rcases f with _ | _ | _ | _ | _ | _ | _ | f <;> simp [exMeta] at h ⊢
  · intro f h
    rcases f with _ | _ | _ | _ | _ | _ | _ | f <;> simp [exMeta] at h ⊢
  · intro f k h h'
    rcases f with _ | _ | _ | _ | _ | _ | _ | f <;> simp [exMeta] at h h' ⊢ <;> subst h' <;> simp
  · intro c f h; exact h
  · intro c; simp [exMeta]
  · intro c; simp [exMeta]

theorem exWorld_valid (g : Bool) : Valid (exMeta g) exWorld := by
  refine ⟨?_, ?_, ?_, ?_, ?_, ?_, ?_, ?_⟩
  · intro o f ho h1 h2
    rcases f with _ | _ | _ | _ | _ | _ | _ | f <;> rcases o with _ | _ | _ | _ | o <;> simp [exMeta, exWorld] at h1 h2 ho ⊢
  · intro o f ho h1 h2
    rcases f with _ | _ | _ | _ | _ | _ | _ | f <;> rcases o with _ | _ | _ | _ | o <;> simp [exMeta, exWorld] at h1 h2 ho ⊢
  · intro o f ho h1
    rcases f with _ | _ | _ | _ | _ | _ | _ | f <;> rcases o with _ | _ | _ | _ | o <;> simp [exMeta, exWorld] at h1 ho ⊢
  · intro o f x ho h1 hx
    rcases f with _ | _ | _ | _ | _ | _ | _ | f <;> rcases o with _ | _ | _ | _ | o <;> simp [exMeta, exWorld, values] at h1 ho hx ⊢ <;> omega
  · intro o p r ho h
    rcases o with _ | _ | _ | _ | o <;> simp [exWorld] at ho h ⊢ <;> omega
  · intro o f ho h1
    rcases f with _ | _ | _ | _ | _ | _ | _ | f <;> rcases o with _ | _ | _ | _ | o <;> simp [exMeta, exWorld, values] at h1 ho ⊢
  · intro o f x ho h1 hx
    rcases f with _ | _ | _ | _ | _ | _ | _ | f <;> rcases o with _ | _ | _ | _ | o <;> simp [exMeta, exWorld, values] at h1 ho hx ⊢
    rcases hx with rfl | rfl <;> rfl
  · intro o f x k ho hxo h1 h2 h3 hx
    rcases f with _ | _ | _ | _ | _ | _ | _ | f <;> rcases o with _ | _ | _ | _ | o <;> simp [exMeta, exWorld, values] at h1 h2 ho hx ⊢ <;> subst h1
    all_goals first
      | (simp [exMeta] at h3; done)
      | (rcases hx with rfl | rfl <;> simp; done)
      | (subst hx; simp)

theorem exWorld_within (g : Bool) (x : Nat) : Within (exMeta g) exWorld 0 x ↔ x = 0 ∨ x = 1 ∨ x = 2 := by
  constructor
  · intro h
    induction h with
    | root => simp
    | child x f y _ h1 h2 h3 h4 ih =>
      have hf : f = 2 := by
        rcases f with _ | _ | _ | _ | _ | _ | _ | f <;> simp [exMeta] at h2 ⊢
      subst hf
      rcases ih with rfl | rfl | rfl <;> simp [exWorld, values] at h4
      rcases h4 with rfl | rfl <;> simp
  · rintro (rfl | rfl | rfl)
    · exact .root
    · exact .child 0 2 1 .root (by simp [exMeta]) rfl rfl (by simp [exWorld, values])
    · exact .child 0 2 2 .root (by simp [exMeta]) rfl rfl (by simp [exWorld, values])

theorem exWorld_tree (g : Bool) : Tree (exMeta g) exWorld 0 [1, 0, 2] (fun x => if x = 0 then 1 else 0) := by
  refine ⟨by simp [exWorld], ?_, by simp, ?_, ?_⟩
  · intro x
    rw [exWorld_within]
    simp
    omega
  · intro x f y hx hf hy
    have hf : f = 2 := by
      rcases f with _ | _ | _ | _ | _ | _ | _ | f <;> simp [exMeta] at hf ⊢
    subst hf
    rw [exWorld_within] at hx
    rcases hx with rfl | rfl | rfl <;> simp [exWorld, values] at hy
    rcases hy with rfl | rfl <;> simp
  · intro x f _ hf _ hc
    simp [exMeta] at hf
    rcases hf with rfl | rfl | rfl | rfl | rfl | rfl | rfl <;> simp [exMeta] at hc

theorem exWorld_closed : Closed (exMeta true) exWorld 0 := by
  refine ⟨?_, ?_, by simp [exMeta]⟩
  · intro f hf hc
    simp [exMeta] at hf
    rcases hf with rfl | rfl | rfl | rfl | rfl | rfl | rfl <;> simp [exMeta, Meta.isContainer, exWorld, isSet] at hc ⊢
  · intro x f z hx hf ho hc hn hz
    rw [exWorld_within] at hx ⊢
    simp [exMeta] at hf
    rcases hx with rfl | rfl | rfl <;> rcases hf with rfl | rfl | rfl | rfl | rfl | rfl | rfl <;> simp [exMeta, Meta.isContainer, exWorld, values] at ho hc hn hz ⊢ <;> omega

example : ∃ w' c, copyTop (exMeta true) [1, 0, 2] 2 exWorld 0 = some (w', c) ∧ ∀ k, w'.nextObj < k → DeepEqual.equals (toMeta (exMeta true)) (toHeap (exMeta true) w') k (some 0) (some c) = some true :=
  C32_equals_partial _ _ _ _ _ (exWorld_valid true) (exMeta_wf true) (exWorld_tree true) exWorld_closed 2 (by simp)

/-- what a result is like -/
def outcome {α : Type} (r : Option (World × Nat)) (f : World → Nat → α) : Option α := r.map fun p => f p.1 p.2

/-- the copies are 4, 5 and 6 -/
example : outcome (copyTop (exMeta true) [1, 0, 2] 2 exWorld 0) (fun w c => (c, [items w c 1, items w c 2, items w 5 4, items w 5 5, items w 6 5], w.slot 6 6, w.container 5)) =
    some (4, [[5, 5], [5, 6], [6, 5], [5], [5]], .obj 3, some (4, 2)) := by decide

/-! ### Violations -/

/-- C32, violated: copies of dynamic objects share their lists of values with the originals: adding an element to the list of
the copy changes the original. -/
theorem C32_shared_violated : outcome (copyTop (exMeta false) [0, 1, 2] 2 exWorld 0) (fun w c =>
    (c, items w 0 1, items (Edit.apply (exMeta false) w (.fill c 1 [5, 5, 6])) 0 1)) = some (4, [5, 5], [5, 5, 6]) := by decide

/-- C32, violated: the contained objects of a copy of a dynamic object have no container, and are not equal to the originals
that have a container reference. -/
theorem C32_container_violated : outcome (copyTop (exMeta false) [0, 1, 2] 2 exWorld 0) (fun w c =>
    (items w c 2, w.container 1, w.container 5, DeepEqual.equals (toMeta (exMeta false)) (toHeap (exMeta false) w) 20 (some 0) (some c))) =
    some ([5, 6], some (0, 2), none, some false) := by decide

/-- C32, violated: the containment list of the copy of a dynamic object cannot be changed any more. -/
theorem C32_immutable_violated : outcome (copyTop (exMeta false) [0, 1, 2] 2 exWorld 0) (fun w c =>
    match w.slot c 2 with
    | .list l => some (w.list l).kind
    | _ => none) = some (some .immutable) := by decide

/-- C32, violated: a contained object that has a container reference is not equal to its copy. -/
theorem C32_root_violated : outcome (copyTop (exMeta true) [2] 2 exWorld 2) (fun w c =>
    DeepEqual.equals (toMeta (exMeta true)) (toHeap (exMeta true) w) 20 (some 2) (some c)) = some (some false) := by decide

/-- a class that inherits the references of `exMeta` -/
def inheritedMeta : Meta := { exMeta true with declared := fun _ => [0, 1] }

/-- C32, violated: inherited references are not copied (`Equals` does not see it). -/
theorem C32_inherited_violated : outcome (copyTop inheritedMeta [0, 1, 2] 2 exWorld 0) (fun w c =>
    ([items w c 2, items w 1 4, items w 5 4], [w.slot 2 6, w.slot 6 6], DeepEqual.equals (toMeta inheritedMeta) (toHeap inheritedMeta w) 20 (some 0) (some c))) =
    some ([[5, 6], [2, 1], []], [.obj 3, .none], some true) := by decide

/-- the reference 4 of the contained object 1 goes to 3, which is not copied -/
def outsideWorld : World where
  cls := fun _ => 0
  uri := fun _ => none
  slot
    | 0, 0 => .value 7
    | 0, 1 => .list 0
    | 0, 2 => .list 1
    | 1, 4 => .list 2
    | 1, 5 => .list 3
    | 2, 6 => .obj 3
    | 3, 5 => .list 4
    | _, _ => .none
  container
    | 1 => some (0, 2)
    | 2 => some (0, 2)
    | _ => none
  list
    | 0 => ⟨[5, 5], .values⟩
    | 1 => ⟨[1, 2], .refs⟩
    | 2 => ⟨[3, 1], .refs⟩
    | 3 => ⟨[1], .refs⟩
    | 4 => ⟨[1], .refs⟩
    | _ => ⟨[], .refs⟩
  nextObj := 4
  nextList := 5
  objects := fun _ => none

/-- C32, violated: references with an opposite to objects outside of the tree are left out. -/
theorem C32_outside_violated : outcome (copyTop (exMeta true) [0, 1, 2] 2 outsideWorld 0) (fun w c =>
    (items w 1 4, items w 5 4, DeepEqual.equals (toMeta (exMeta true)) (toHeap (exMeta true) w) 20 (some 0) (some c))) =
    some ([3, 1], [5], some false) := by decide

/-! ### `CopyAll` -/

theorem outsideWorld_valid : Valid (exMeta true) outsideWorld := by
  refine ⟨?_, ?_, ?_, ?_, ?_, ?_, ?_, ?_⟩
  · intro o f ho h1 h2
    rcases f with _ | _ | _ | _ | _ | _ | _ | f <;> rcases o with _ | _ | _ | _ | o <;> simp [exMeta, outsideWorld] at h1 h2 ho ⊢
  · intro o f ho h1 h2
    rcases f with _ | _ | _ | _ | _ | _ | _ | f <;> rcases o with _ | _ | _ | _ | o <;> simp [exMeta, outsideWorld] at h1 h2 ho ⊢
  · intro o f ho h1
    rcases f with _ | _ | _ | _ | _ | _ | _ | f <;> rcases o with _ | _ | _ | _ | o <;> simp [exMeta, outsideWorld] at h1 ho ⊢
  · intro o f x ho h1 hx
    rcases f with _ | _ | _ | _ | _ | _ | _ | f <;> rcases o with _ | _ | _ | _ | o <;> simp [exMeta, outsideWorld, values] at h1 ho hx ⊢ <;> omega
  · intro o p r ho h
    rcases o with _ | _ | _ | _ | o <;> simp [outsideWorld] at ho h ⊢ <;> omega
  · intro o f ho h1
    rcases f with _ | _ | _ | _ | _ | _ | _ | f <;> rcases o with _ | _ | _ | _ | o <;> simp [exMeta, outsideWorld, values] at h1 ho ⊢
  · intro o f x ho h1 hx
    rcases f with _ | _ | _ | _ | _ | _ | _ | f <;> rcases o with _ | _ | _ | _ | o <;> simp [exMeta, outsideWorld, values] at h1 ho hx ⊢
    rcases hx with rfl | rfl <;> rfl
  · intro o f x k ho hxo h1 h2 h3 hx
    rcases f with _ | _ | _ | _ | _ | _ | _ | f <;> rcases o with _ | _ | _ | _ | o <;> simp [exMeta, outsideWorld, values] at h1 h2 ho hx ⊢ <;> subst h1
    all_goals first
      | (simp [exMeta] at h3; done)
      | (rcases hx with rfl | rfl <;> simp; done)
      | (subst hx; simp)

theorem outsideWorld_within (r x : Nat) (hr : r = 0 ∨ r = 3) : Within (exMeta true) outsideWorld r x ↔ x = r ∨ (r = 0 ∧ (x = 1 ∨ x = 2)) := by
  constructor
  · intro h
    induction h with
    | root => simp
    | child x f y _ h1 h2 h3 h4 ih =>
      have hf : f = 2 := by
        rcases f with _ | _ | _ | _ | _ | _ | _ | f <;> simp [exMeta] at h2 ⊢
      subst hf
      rcases hr with rfl | rfl <;> simp at ih <;> (try rcases ih with rfl | rfl | rfl) <;> (try subst ih) <;> simp [outsideWorld, values] at h4
      rcases h4 with rfl | rfl <;> simp
  · rintro (rfl | ⟨rfl, rfl | rfl⟩)
    · exact .root
    · exact .child 0 2 1 .root (by simp [exMeta]) rfl rfl (by simp [outsideWorld, values])
    · exact .child 0 2 2 .root (by simp [exMeta]) rfl rfl (by simp [outsideWorld, values])

theorem outsideWorld_all (x : Nat) : (∃ r ∈ [0, 3], Within (exMeta true) outsideWorld r x) ↔ x < 4 := by
  simp only [List.mem_cons, List.not_mem_nil, or_false, exists_eq_or_imp, exists_eq_left]
  rw [outsideWorld_within 0 x (by simp), outsideWorld_within 3 x (by simp)]
  simp
  omega

theorem outsideWorld_forest : Forest (exMeta true) outsideWorld [0, 3] [3, 1, 0, 2] (fun x => if x = 0 then 1 else 0) := by
  refine ⟨by simp [outsideWorld], by simp, ?_, ?_, by simp, ?_, ?_⟩
  · intro r hr r' hr' h
    simp only [List.mem_cons, List.not_mem_nil, or_false] at hr hr'
    rw [outsideWorld_within r r' hr] at h
    omega
  · intro x
    rw [outsideWorld_all]
    simp
    omega
  · intro x f y hx hf hy
    have hf : f = 2 := by
      rcases f with _ | _ | _ | _ | _ | _ | _ | f <;> simp [exMeta] at hf ⊢
    subst hf
    rw [outsideWorld_all] at hx
    rcases x with _ | _ | _ | _ | x <;> simp [outsideWorld, values] at hx hy
    rcases hy with rfl | rfl <;> simp
  · intro x f _ hf _ hc
    simp [exMeta] at hf
    rcases hf with rfl | rfl | rfl | rfl | rfl | rfl | rfl <;> simp [exMeta] at hc

theorem outsideWorld_closed : ClosedAll (exMeta true) outsideWorld [0, 3] := by
  refine ⟨?_, ?_, by simp [exMeta]⟩
  · intro r hr f hf hc
    simp only [List.mem_cons, List.not_mem_nil, or_false] at hr
    simp [exMeta] at hf
    rcases hr with rfl | rfl <;> rcases hf with rfl | rfl | rfl | rfl | rfl | rfl | rfl <;> simp [exMeta, Meta.isContainer, outsideWorld, isSet] at hc ⊢
  · intro x f z hx hf ho hc hn hz
    rw [outsideWorld_all] at hx ⊢
    simp [exMeta] at hf
    rcases x with _ | _ | _ | _ | x <;> rcases hf with rfl | rfl | rfl | rfl | rfl | rfl | rfl <;>
      simp [exMeta, Meta.isContainer, outsideWorld, values] at hx ho hc hn hz ⊢ <;> omega

/-- copied together with 3, the objects of `outsideWorld` are equal to their copies -/
example : ∃ w' cs, copyAllTop (exMeta true) [3, 1, 0, 2] 2 outsideWorld [0, 3] = some (w', cs) ∧
    ∀ k, w'.nextObj < k → DeepEqual.equalsAll (toMeta (exMeta true)) (toHeap (exMeta true) w') k [0, 3] cs = some true :=
  C32_all_equals_partial _ _ _ _ _ outsideWorld_valid (exMeta_wf true) outsideWorld_forest outsideWorld_closed 2 (by simp)

/-- the copies are 4 (with 5 and 6) and 7 -/
example : (copyAllTop (exMeta true) [3, 1, 0, 2] 2 outsideWorld [0, 3]).map (fun r => (r.2, [items r.1 4 2, items r.1 5 4, items r.1 7 5], r.1.slot 6 6)) =
    some ([4, 7], [[5, 6], [7, 5], [5]], .obj 7) := by decide

/-- C32, violated: an object given to `CopyAll` together with an object it contains. The contained object 2 is copied twice,
6 and 7, and 6 in the copy of its container has lost its references: they went to the other copy. -/
theorem C32_all_violated : (copyAllTop (exMeta true) [0, 1, 2] 2 exWorld [0, 2]).map (fun r =>
    (r.2, [items r.1 4 2, items r.1 5 4, items r.1 6 5, items r.1 7 5], [r.1.slot 6 6, r.1.slot 7 6],
      DeepEqual.equals (toMeta (exMeta true)) (toHeap (exMeta true) r.1) 20 (some 0) (some 4))) =
    some ([4, 7], [[5, 6], [7, 5], [], [5]], [.none, .obj 3], some false) := by decide

end Verif.DeepCopy
