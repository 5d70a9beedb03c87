import Verif.Proofs.Fragment

/-!
# C26 and C27: URI fragments
-/

namespace Verif.Fragment

/-- C26, paths (partial: feature names with slashes, or with dots for single values, and the model elements of C27 that have no proper segment are excluded).
An object of the tree of a resource without ID: its fragment leads back to it. -/
theorem C26_path_partial (W : World) (R : Resource) (o : Nat) (hT : InTree W R o) (hl : R.roots.length < 2 ^ 63) (hid : R.eid o = [])
    (hm : ∀ m : Manager, R.manager = some m → m.getID o = none) :
    ∃ k : Nat, ∀ n : Nat, k ≤ n → ∃ s : Str, uriFragment W R n o = some s ∧ getEObject W R n s = .obj o := by
  have hfor : idForObject R o = [] := by
    simp only [idForObject]
    split
    · exact hid
    · rename_i m hmm; rw [hm m hmm]; exact hid
  cases hin : R.inside o with
  | true =>
    have hroot : o ∈ R.roots := by
      cases hT with
      | root _ _ hr => exact hr
      | child _ _ _ hin' => simp [hin] at hin'
    refine ⟨0, fun n _ => ⟨47 :: rootSegment R o, by simp [uriFragment, hid, hfor, hin], ?_⟩⟩
    have hsp : split 47 (47 :: rootSegment R o) = [[], rootSegment R o] := by
      simp [split, split_none _ _ (rootSegment_slash R o)]
    simp [getEObject, hsp, objectByPath, follow, rootSegment_spec W R n o hroot hl]
  | false =>
    obtain ⟨k, x, segs, h1, h2, h3, h4⟩ := climb_spec W R o hT hin
    refine ⟨k, fun n hn => ⟨join 47 ([] :: rootSegment R x :: segs), ?_, ?_⟩⟩
    · have := h4 n hn []
      simp only [List.append_nil] at this
      simp [uriFragment, hid, hfor, hin, this]
    · have hsp : split 47 (join 47 ([] :: rootSegment R x :: segs)) = [] :: rootSegment R x :: segs := by
        apply split_join
        · simp
        · intro s hs
          simp at hs
          rcases hs with rfl | rfl | hs
          · simp
          · exact rootSegment_slash R x
          · exact h2 s hs
      have hhead : (join 47 ([] :: rootSegment R x :: segs)).head? = some 47 := by simp [join]
      have hlen : (join 47 ([] :: rootSegment R x :: segs)).length > 0 := by simp [join]
      simp only [getEObject, if_pos hlen, if_pos hhead, hsp, List.drop_succ_cons, List.drop_zero, objectByPath, rootSegment_spec W R n x h1 hl, h3]

/-- C26, ID attributes (partial: IDs that begin with a slash or have question marks are excluded, and ID managers). An object with an ID that no other object of
the resource has: its fragment, the ID, leads back to it. -/
theorem C26_id_partial (W : World) (R : Resource) (o : Nat) (h : Nat → Nat) (hh : ∀ c : Nat, ∀ x ∈ W.contents c, h x < h c) (hm : R.manager = none)
    (hv : Visited W R o) (hid : ProperID (R.eid o)) (hu : ∀ x : Nat, Visited W R x → R.eid x = R.eid o → x = o) :
    ∃ k : Nat, ∀ n : Nat, k ≤ n → uriFragment W R n o = some (R.eid o) ∧ getEObject W R n (R.eid o) = .obj o := by
  obtain ⟨k, hk⟩ := findID_spec W R h hh o hv hu
  refine ⟨k, fun n hn => ⟨?_, ?_⟩⟩
  · simp [uriFragment, List.length_pos_iff.mpr hid.ne]
  · rw [getEObject_id W R n _ hid]
    simp [objectByID, hm, hk n hn]

/-- C26, ID managers (partial: objects with an ID attribute too are excluded). An object the manager has an ID for, from which it finds the object:
its fragment, the ID, leads back to it. -/
theorem C26_manager_partial (W : World) (R : Resource) (o : Nat) (m : Manager) (id : Str) (hm : R.manager = some m) (hT : InTree W R o) (he : R.eid o = [])
    (hid : m.getID o = some id) (hback : m.getEObject id = some o) (hp : ProperID id) :
    ∃ k : Nat, ∀ n : Nat, k ≤ n → uriFragment W R n o = some id ∧ getEObject W R n id = .obj o := by
  have hget : ∀ n, getEObject W R n id = .obj o := by
    intro n
    rw [getEObject_id W R n _ hp]
    simp [objectByID, hm, hback]
  have hfor : idForObject R o = id := by simp [idForObject, hm, hid]
  have hlen := List.length_pos_iff.mpr hp.ne
  cases hin : R.inside o with
  | true => exact ⟨0, fun n _ => ⟨by simp [uriFragment, he, hfor, hin, hlen], hget n⟩⟩
  | false =>
    obtain ⟨k, hk⟩ := climb_id W R id hp.ne o hT hin
    refine ⟨k, fun n hn => ⟨?_, hget n⟩⟩
    obtain ⟨x, hx⟩ := hk n hn
    simp [uriFragment, he, hfor, hin, hx, hp.ne]

/-- C27, named elements (partial: names beginning with `@` are excluded, see `C27_at_violated`). The segment of a named content of a model element leads back to
it exactly if its name has none of the characters that are escaped, and does not end with a dot and a number or comes after one of the same name. -/
theorem C27_named_partial (W : World) (c o : Nat) (f : Option Nat) (name : Str) (hk : W.kind o = .named name) (ho : o ∈ W.contents c)
    (hl : (W.contents c).length < 2 ^ 63) (h64 : name.head? ≠ some 64) :
    (∃ s : Str, segmentElem W c f o = some s ∧ forSegmentElem W c s = .obj o) ↔
      (∀ b ∈ name, Plain b) ∧ ((∃ x : Nat, Earlier W c o x ∧ W.kind x = .named name) ∨ ¬ Numbered name) := by
  rw [named_iff W c o f name hk ho hl h64, hk]
  simp only [plain_iff]

/-- C27, annotations (partial: only those that come after one of the same source; the others panic, see `C27_annotation_violated`). The segment leads back whatever
the source is. -/
theorem C27_annotation_partial (W : World) (c o x : Nat) (f : Option Nat) (source : Str) (hk : W.kind o = .annotation source)
    (hl : (W.contents c).length < 2 ^ 63) (hx : Earlier W c o x) (hxk : W.kind x = .annotation source) :
    ∃ s : Str, segmentElem W c f o = some s ∧ forSegmentElem W c s = .obj o := by
  have ho : o ∈ W.contents c := by
    obtain ⟨a, b, e, -⟩ := hx
    rw [e]; simp
  obtain ⟨s, h1, -, h3⟩ := annotation_spec W c o f source hk ho hl
  refine ⟨s, h1, ?_⟩
  rw [h3, if_pos ((before_earlier W c o ho).2 ⟨x, hx, hxk.trans hk.symm⟩)]

/-- C27 does not hold for annotations: looking up the segment of the first annotation of its source panics, whatever the source is. -/
theorem C27_annotation_violated (W : World) (c o : Nat) (f : Option Nat) (source : Str) (hk : W.kind o = .annotation source) (ho : o ∈ W.contents c)
    (hl : (W.contents c).length < 2 ^ 63) (hx : ∀ x : Nat, Earlier W c o x → W.kind x ≠ .annotation source) :
    ∃ s : Str, segmentElem W c f o = some s ∧ forSegmentElem W c s = .panic := by
  obtain ⟨s, h1, -, h3⟩ := annotation_spec W c o f source hk ho hl
  refine ⟨s, h1, ?_⟩
  rw [h3, if_neg]
  rw [before_earlier W c o ho, hk]
  rintro ⟨x, h, h'⟩
  exact hx x h h'

/-- C27, other contents of a model element, and the contents of other objects. -/
theorem C27_feature_partial (W : World) (c f o : Nat) (h : Held W c f o) (he : W.elem c = true → W.kind o = .plain) :
    ∃ s : Str, segment W c (some f) o = some s ∧ forSegment W c s = .obj o := by
  obtain ⟨s, b1, -, b3, b4⟩ := base_spec W c f o h
  cases hc : W.elem c with
  | false => exact ⟨s, by simp [segment, hc, b1], by simp [forSegment, hc, b4]⟩
  | true =>
    refine ⟨s, by simp [segment, hc, segmentElem, he hc, b1], ?_⟩
    cases s with
    | nil => simp at b3
    | cons x s => simp at b3; subst b3; simpa [forSegment, hc, forSegmentElem] using b4

/-! ### A package 0 with classes 1, 2 named "a" and 3 named "b.c", annotations 4, 5 of source "x/y"; the class 1 has a feature 6 without name; a
resource with the package and another object 7 that contains 8 -/

def contentsOf : Nat → List Nat
  | 0 => [4, 5, 1, 2, 3]
  | 1 => [6]
  | 7 => [8]
  | _ => []

def world (kind : Nat → Kind) : World where
  kind := kind
  elem := fun o => decide (o < 7)
  contents := contentsOf
  feats := fun _ => [0, 1]
  fname := fun f => if f = 0 then bytes "eClassifiers" else bytes "one1"
  many := fun f => f == 0
  val := fun o f => if f = 0 then .list (contentsOf o) else if o = 7 then .obj 8 else .nil
  uniDigit := fun _ => false

def kinds : Nat → Kind
  | 1 => .named (bytes "a")
  | 2 => .named (bytes "a")
  | 3 => .named (bytes "b.c")
  | 4 => .annotation (bytes "x/y")
  | 5 => .annotation (bytes "x/y")
  | 6 => .named []
  | 0 => .named (bytes "p")
  | _ => .plain

def resource (eid : Nat → Str) (manager : Option Manager) : Resource where
  roots := [0, 7]
  container := fun o => if o = 0 ∨ o = 7 then none else if o = 6 then some 1 else if o = 8 then some 7 else some 0
  feature := fun o => some (if o = 8 then 1 else 0)
  inside := fun o => o == 0 || o == 7
  eid := eid
  manager := manager

example : uriFragment (world kinds) (resource (fun _ => []) none) 5 6 = some (bytes "/0/a/%") ∧
    getEObject (world kinds) (resource (fun _ => []) none) 5 (bytes "/0/a/%") = .obj 6 := by decide +kernel
example : uriFragment (world kinds) (resource (fun _ => []) none) 5 8 = some (bytes "/1/@one1") ∧
    uriFragment (world kinds) (resource (fun _ => []) none) 5 5 = some (bytes "/0/%x%2Fy%.1") ∧
    uriFragment (world kinds) (resource (fun _ => []) none) 5 2 = some (bytes "/0/a.1") ∧
    getEObject (world kinds) (resource (fun _ => []) none) 5 (bytes "/0/%x%2Fy%.1") = .obj 5 := by decide +kernel

/-- The hypotheses of C26 and C27 are met: the named element 6 of the class 1 of the package 0. -/
theorem example_tree : InTree (world kinds) (resource (fun _ => []) none) 6 := by
  have noNumber : ∀ (s : Str), 46 ∉ s → ¬ Numbered s := by
    rintro s h ⟨a, b, rfl, -⟩
    simp at h
  have ad1 : Addressable (world kinds) 0 1 :=
    ⟨by decide, by decide, by decide +kernel, by decide +kernel, Or.inr (noNumber _ (by decide +kernel))⟩
  have ad6 : Addressable (world kinds) 1 6 :=
    ⟨by decide, by decide, by decide +kernel, by decide +kernel, Or.inr (noNumber _ (by decide +kernel))⟩
  have held : ∀ c o : Nat, o ∈ contentsOf c → (contentsOf c).length < 2 ^ 63 → Held (world kinds) c 0 o := fun c o h hl =>
    ⟨by simp [world], (by decide +kernel : ∀ g ∈ [0, 1], (world kinds).fname g = (world kinds).fname 0 → g = 0), by decide +kernel, by simp [world], fun _ => ⟨contentsOf c, by simp [world], h, hl⟩⟩
  refine .child 6 1 0 (by decide) (by decide) (by decide) (held 1 6 (by decide) (by decide)) (fun _ => ad6) ?_
  refine .child 1 0 0 (by decide) (by decide) (by decide) (held 0 1 (by decide) (by decide)) (fun _ => ad1) ?_
  exact .root 0 (by decide) (by decide)

example : ∃ k : Nat, ∀ n : Nat, k ≤ n → ∃ s : Str, uriFragment (world kinds) (resource (fun _ => []) none) n 6 = some s ∧
    getEObject (world kinds) (resource (fun _ => []) none) n s = .obj 6 :=
  C26_path_partial _ _ 6 example_tree (by decide) rfl (by simp [resource])

/-- IDs: the object `n` has the ID `id<n>`. -/
def eid (n : Nat) : Str := bytes "id?" ++ itoa n

example : uriFragment (world kinds) (resource eid none) 9 8 = some (bytes "id?8") ∧
    getEObject (world kinds) (resource eid none) 9 (bytes "id?8") = .obj 8 := by decide +kernel
example : ProperID (bytes "id?8") := ⟨by decide +kernel, by decide +kernel, by
  intro s h
  have : (bytes "id?8").getLast? = some 63 := by rw [h]; simp
  exact absurd this (by decide +kernel)⟩

/-- The hypotheses of `C26_id_partial` are met. -/
example : ∃ k : Nat, ∀ n : Nat, k ≤ n → uriFragment (world kinds) (resource eid none) n 8 = some (bytes "id?8") ∧
    getEObject (world kinds) (resource eid none) n (bytes "id?8") = .obj 8 := by
  have hsub : ∀ c x : Nat, x ∈ contentsOf c → x < 9 ∧ contentsOf c ≠ [] := by
    intro c x h
    match c, h with
    | 0, h => simp [contentsOf] at h ⊢; omega
    | 1, h => simp [contentsOf] at h ⊢; omega
    | 7, h => simp [contentsOf] at h ⊢; omega
  have hv : ∀ x : Nat, Visited (world kinds) (resource eid none) x → x < 9 := by
    intro x hx
    cases hx with
    | root _ h => simp [resource] at h; omega
    | child _ c _ h => exact (hsub c x h).1
  have := C26_id_partial (world kinds) (resource eid none) 8 (fun x => if x = 0 then 2 else if x = 1 ∨ x = 7 then 1 else 0) (by
      intro c x h
      match c, h with
      | 0, h => simp [world, contentsOf] at h; rcases h with rfl | rfl | rfl | rfl | rfl <;> simp
      | 1, h => simp [world, contentsOf] at h; subst h; simp
      | 7, h => simp [world, contentsOf] at h; subst h; simp)
    rfl (.child 8 7 (.root 7 (by decide)) (by decide)) ⟨by decide +kernel, by decide +kernel, by
      intro s h
      have : (bytes "id?8").getLast? = some 63 := by
        rw [show bytes "id?8" = s ++ [63] from Eq.trans (by decide +kernel) h]; simp
      exact absurd this (by decide +kernel)⟩ (by
      intro x hx
      have := hv x hx
      revert x
      intro x _ hlt
      exact (by decide +kernel : ∀ x : Nat, x < 9 → (resource eid none).eid x = (resource eid none).eid 8 → x = 8) x hlt)
  simpa [show (resource eid none).eid 8 = bytes "id?8" by decide +kernel] using this

/-- An ID manager: the object `n` has the ID `n`. -/
example : ∃ k : Nat, ∀ n : Nat, k ≤ n →
    uriFragment (world kinds) (resource (fun _ => []) (some ⟨fun o => some (itoa o), fun s => some (atoi s).1.toNat⟩)) n 7 = some (bytes "7") ∧
    getEObject (world kinds) (resource (fun _ => []) (some ⟨fun o => some (itoa o), fun s => some (atoi s).1.toNat⟩)) n (bytes "7") = .obj 7 :=
  C26_manager_partial _ _ 7 _ (bytes "7") rfl (.root 7 (by decide) (by decide)) rfl (by decide +kernel) (by decide +kernel)
    ⟨by decide +kernel, by decide +kernel, by
      intro s h
      have : (bytes "7").getLast? = some 63 := by rw [h]; simp
      exact absurd this (by decide +kernel)⟩

/-- C27 does not hold for names with characters that are escaped: a class named "a b" is not found. -/
theorem C27_escaped_violated :
    let W := world fun o => if o = 1 then .named (bytes "a b") else kinds o
    segmentElem W 0 (some 0) 1 = some (bytes "a%20b") ∧ forSegmentElem W 0 (bytes "a%20b") = .nil := by decide +kernel

/-- C27 does not hold for names with a dot and a number: the segment of "a.1" leads to the second class named "a". -/
theorem C27_number_violated :
    let W := world fun o => if o = 3 then .named (bytes "a.1") else kinds o
    segmentElem W 0 (some 0) 3 = some (bytes "a.1") ∧ forSegmentElem W 0 (bytes "a.1") = .obj 2 := by decide +kernel

/-- C27 does not hold for names beginning with `@`: the segment is taken for the name of a feature and the lookup panics. -/
theorem C27_at_violated :
    let W := world fun o => if o = 3 then .named (bytes "@a") else kinds o
    segmentElem W 0 (some 0) 3 = some (bytes "@a") ∧ forSegmentElem W 0 (bytes "@a") = .panic := by decide +kernel

/-- C26 does not hold for IDs: an ID that begins with a slash is taken for a path, the ID "?" panics, an ID is cut at a question mark. -/
theorem C26_id_violated :
    (let R := resource (fun o => if o = 8 then bytes "/x" else []) none;
      uriFragment (world kinds) R 9 8 = some (bytes "/x") ∧ getEObject (world kinds) R 9 (bytes "/x") = .obj 0) ∧
    (let R := resource (fun o => if o = 8 then bytes "?" else []) none;
      uriFragment (world kinds) R 9 8 = some (bytes "?") ∧ getEObject (world kinds) R 9 (bytes "?") = .panic) ∧
    (let R := resource (fun o => if o = 8 then bytes "a?bc?" else if o = 6 then bytes "a" else []) none;
      uriFragment (world kinds) R 9 8 = some (bytes "a?bc?") ∧ getEObject (world kinds) R 9 (bytes "a?bc?") = .obj 6) := by decide +kernel

/-- C26 does not hold for a resource with an ID manager whose objects have ID attributes: the fragment is the attribute, which the manager is asked for. -/
theorem C26_manager_violated :
    let R := resource (fun o => if o = 8 then bytes "x" else [])
      (some ⟨fun o => some (itoa o), fun s => if s = bytes "8" then some 8 else none⟩);
    uriFragment (world kinds) R 9 8 = some (bytes "x") ∧ getEObject (world kinds) R 9 (bytes "x") = .nil := by decide +kernel

/-- C26 does not hold for a single feature whose name has a dot and ends with a digit: the lookup panics. -/
theorem C26_feature_violated :
    let W := { world kinds with fname := fun f => if f = 0 then bytes "eClassifiers" else bytes "one.1" }
    uriFragment W (resource (fun _ => []) none) 5 8 = some (bytes "/1/@one.1") ∧
    getEObject W (resource (fun _ => []) none) 5 (bytes "/1/@one.1") = .panic := by decide +kernel

end Verif.Fragment
