import Verif.Proofs.ContentAdapter

/-!
# C31: content adapters
-/

namespace Verif.ContentAdapter

/-- Histories: the adapter is attached to a notifier, then operations change the objects and their notifications are
dispatched. -/
inductive History (k t : Nat) : World → On → Prop where
  | start (W : World) (b : Nat) (h : Nat → Nat) (on : On) : Sound W → Height W b h → b < k → addAdapter W k t (fun _ => false) = some on → History k t W on
  | step (W W' : World) (b' : Nat) (h' : Nat → Nat) (on on' : On) (es : List Event) (e : Event) : History k t W on → Sound W' → Height W' b' h' → b' < k →
      Reports W W' es e → dispatch W' false k (es ++ [e]) on = some on' → History k t W' on'

/-- C31 (partial: operations that report the removal of an object from an object that they remove too are excluded, see
`C31_add_all_violated`, and adapters that are part of another adapter, see `C31_embedded_violated`). After every history the
adapter is attached exactly to the containment tree of its target. -/
theorem C31_content_partial (k t : Nat) (W : World) (on : On) (H : History k t W on) : ∀ x : Nat, on x = true ↔ Below W t x := by
  have : Sound W ∧ (∃ b h, Height W b h) ∧ ∀ x : Nat, on x = true ↔ Below W t x := by
    induction H with
    | start W b h on hS hH hk ha =>
      obtain ⟨on', e1, e2⟩ := attach_spec hH hk t
      rw [ha] at e1
      obtain rfl : on = on' := by simpa using e1
      exact ⟨hS, ⟨b, h, hH⟩, e2⟩
    | step W W' b' h' on on' es e _ hS' hH' hk hR hd ih =>
      obtain ⟨hS, ⟨b, h, hH⟩, hon⟩ := ih
      obtain ⟨on'', e1, e2⟩ := dispatch_spec hS hS' hH hH' hR hon hk
      rw [hd] at e1
      obtain rfl : on' = on'' := by simpa using e1
      exact ⟨hS', ⟨b', h', hH'⟩, e2⟩
  exact this.2.2

/-- C31, the notifications are handled: attaching and every such operation end. -/
theorem C31_total_partial (k t : Nat) :
    (∀ (W : World) (b : Nat) (h : Nat → Nat), Height W b h → b < k → ∃ on, addAdapter W k t (fun _ => false) = some on) ∧
    (∀ (W W' : World) (b' : Nat) (h' : Nat → Nat) (on : On) (es : List Event) (e : Event), History k t W on → Sound W' → Height W' b' h' → b' < k → Reports W W' es e →
      ∃ on', dispatch W' false k (es ++ [e]) on = some on') := by
  constructor
  · intro W b h hH hk
    obtain ⟨on, e1, -⟩ := attach_spec hH hk t
    exact ⟨on, e1⟩
  · intro W W' b' h' on es e H hS' hH' hk hR
    have hon := C31_content_partial k t W on H
    have hW : Sound W ∧ ∃ b h, Height W b h := by
      cases H with
      | start _ b h _ hS hH => exact ⟨hS, b, h, hH⟩
      | step _ _ b h _ _ _ _ _ hS hH => exact ⟨hS, b, h, hH⟩
    obtain ⟨hS, b, h, hH⟩ := hW
    obtain ⟨on', e1, -⟩ := dispatch_spec hS hS' hH hH' hR hon hk
    exact ⟨on', e1⟩

/-! ### A world: a resource 0 with objects 1 and 2; 1 contains 3, 3 contains 4; then 3 moves to 2 -/

def world (cs : List (Nat × List Nat)) : World where
  kind := fun n => if n = 0 || n = 9 then .resource else .object
  contents := fun n => (cs.lookup n).getD []
  container := fun x => (cs.find? fun c => c.1 != 0 && c.1 != 9 && c.2.contains x).map (·.1)
  resource := fun x => (cs.find? fun c => (c.1 == 0 || c.1 == 9) && c.2.contains x).map (·.1)

def before : World := world [(0, [1, 2]), (1, [3]), (3, [4])]
def after : World := world [(0, [1, 2]), (2, [3]), (3, [4])]

theorem mem_before (p x : Nat) : x ∈ before.contents p ↔ (p = 0 ∧ (x = 1 ∨ x = 2)) ∨ (p = 1 ∧ x = 3) ∨ (p = 3 ∧ x = 4) := by
  by_cases h0 : p = 0
  · subst h0; simp [before, world]
  by_cases h1 : p = 1
  · subst h1; simp [before, world, List.lookup]
  by_cases h3 : p = 3
  · subst h3; simp [before, world, List.lookup]
  have : ∀ q : Nat, p ≠ q → (p == q) = false := fun q h => by simp [h]
  simp [before, world, List.lookup, this 0 h0, this 1 h1, this 3 h3, h0, h1, h3]

theorem mem_after (p x : Nat) : x ∈ after.contents p ↔ (p = 0 ∧ (x = 1 ∨ x = 2)) ∨ (p = 2 ∧ x = 3) ∨ (p = 3 ∧ x = 4) := by
  by_cases h0 : p = 0
  · subst h0; simp [after, world]
  by_cases h1 : p = 2
  · subst h1; simp [after, world, List.lookup]
  by_cases h3 : p = 3
  · subst h3; simp [after, world, List.lookup]
  have : ∀ q : Nat, p ≠ q → (p == q) = false := fun q h => by simp [h]
  simp [after, world, List.lookup, this 0 h0, this 2 h1, this 3 h3, h0, h1, h3]

theorem after_below {x y : Nat} (hx : x = 3 ∨ x = 4) (h : Below after x y) : y = 3 ∨ y = 4 := by
  induction h with
  | refl => exact hx
  | step p z _ hz ih => rw [mem_after] at hz; omega

/-- moving an object is such an operation -/
example : Reports before after [.remove 1 3] (.add 2 3) := by
  refine ⟨rfl, by simp [Event.gained], ?_, ?_, by simp, ?_⟩
  · intro p x
    rw [mem_before, mem_after]
    simp only [List.singleton_append, List.mem_cons, List.not_mem_nil, or_false, exists_eq_or_imp, exists_eq_left, Event.lost, Prod.mk.injEq]
    omega
  · intro p x
    rw [mem_before, mem_after]
    simp only [Event.gained, List.mem_singleton, Prod.mk.injEq]
    omega
  · intro r hr r' hr' p x hpx hb
    have hx : x = 3 := by
      simp only [List.singleton_append, List.mem_cons, List.not_mem_nil, or_false] at hr'
      rcases hr' with rfl | rfl <;> simp [Event.lost] at hpx
      exact hpx.2
    have := after_below (Or.inl hx) hb
    simp only [List.singleton_append, List.mem_cons, List.not_mem_nil, or_false] at hr
    rcases hr with rfl | rfl <;> simp [Event.notifier] at this

example : ((addAdapter before 5 0 fun _ => false).bind (dispatch after false 5 [.remove 1 3, .add 2 3])).map (fun on => [0, 1, 2, 3, 4, 5].filter on) = some [0, 1, 2, 3, 4] := by
  decide

/-- leaving the tree -/
example : ((addAdapter before 5 1 fun _ => false).bind (dispatch after false 5 [.remove 1 3, .add 2 3])).map (fun on => [0, 1, 2, 3, 4, 5].filter on) = some [1] := by
  decide

/-! ### Violations -/

/-- C31, violated: object 1 contains 3 and 3 contains 4. `AddAll` of 3 and 4 to another object takes 3 from 1 and 4 from 3. The
adapter leaves 3, so it does not hear that 4 leaves 3 and stays attached to 4. -/
theorem C31_add_all_violated : ∃ (W W' : World) (es : List Event) (e : Event) (on on' : On),
    Sound W ∧ Sound W' ∧ addAdapter W 5 1 (fun _ => false) = some on ∧ dispatch W' false 5 (es ++ [e]) on = some on' ∧
    (∀ p x : Nat, (x ∈ W.contents p ∧ x ∉ W'.contents p) ↔ ∃ r ∈ es ++ [e], (p, x) ∈ r.lost) ∧
    (∀ p x : Nat, (x ∉ W.contents p ∧ x ∈ W'.contents p) ↔ (p, x) ∈ e.gained) ∧ on' 4 = true ∧ ¬ Below W' 1 4 := by
  let W : World := ⟨fun _ => .object, fun n => if n = 1 then [3] else if n = 3 then [4] else [], fun x => if x = 3 then some 1 else if x = 4 then some 3 else none, fun _ => none⟩
  let W' : World := ⟨fun _ => .object, fun n => if n = 2 then [3, 4] else [], fun x => if x = 3 ∨ x = 4 then some 2 else none, fun _ => none⟩
  refine ⟨W, W', [.remove 1 3, .remove 3 4], .addMany 2 [3, 4], _, _, ?_, ?_, rfl, rfl, ?_, ?_, by decide, ?_⟩
  · refine ⟨?_, by simp [W], by simp [W], by simp [W], by simp [W]⟩
    intro p x _
    simp only [W, true_and]
    grind
  · refine ⟨?_, by simp [W'], by simp [W'], by simp [W'], by simp [W']⟩
    intro p x _
    simp only [W', true_and]
    grind
  · intro p x
    simp only [W, W', Event.lost, List.cons_append, List.nil_append, List.mem_cons, List.not_mem_nil, or_false, exists_eq_or_imp, exists_eq_left, Prod.mk.injEq]
    grind
  · intro p x
    simp only [W, W', Event.gained, List.map_cons, List.map_nil, List.mem_cons, List.not_mem_nil, or_false, Prod.mk.injEq]
    grind
  · intro hb
    have : ∀ y, Below W' 1 y → y = 1 := by
      intro y hy
      induction hy with
      | refl => rfl
      | step p x _ hx ih => subst ih; simp [W'] at hx
    simpa using this 4 hb

/-- C31, violated: an adapter that is part of another one looks for itself instead of the attached one. Object 1 of resource 0
contains 3, which also is in the contents of resource 9; the adapter is attached to the resource set 8. When 3 leaves resource
9, the adapter is removed from it although 1 still contains it. -/
theorem C31_embedded_violated : ∃ (W W' : World) (e : Event) (on on' : On),
    addAdapter W 5 8 (fun _ => false) = some on ∧ dispatch W' true 5 [e] on = some on' ∧ e = .remove 9 3 ∧ W'.contents 1 = [3] ∧ on' 1 = true ∧ on' 3 = false ∧
    W.contents 9 = [3] ∧ W'.contents 9 = [] := by
  let W (r : List Nat) : World := ⟨fun n => if n = 8 then .set else if n = 0 ∨ n = 9 then .resource else .object,
    fun n => if n = 8 then [0, 9] else if n = 0 then [1] else if n = 9 then r else if n = 1 then [3] else [],
    fun x => if x = 3 then some 1 else none, fun x => if x = 1 then some 0 else if x = 3 ∧ r = [3] then some 9 else none⟩
  exact ⟨W [3], W [], .remove 9 3, _, _, rfl, rfl, rfl, rfl, by decide, by decide, rfl, rfl⟩

end Verif.ContentAdapter
