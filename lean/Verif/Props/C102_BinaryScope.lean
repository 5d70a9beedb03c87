import Verif.Proofs.BinaryScope
import Verif.Props.Binary

/-!
# C102: a binary document has the objects that are saved, and of the others only their URIs

The model of C22 (`EncodeResource`, `EncodeObject`).  `T` tells which objects are saved.  Everything that the saved objects
contain is in the document (`C102_complete_partial`), and the document does not depend on any other object
(`C102_resource_partial`, `C102_object_partial`).  Missing: references without resolution of proxies
(`C102_embedded_violated`), objects without resource (`C102_unattached_violated`), the container of an object that is written
alone (`C102_container_violated`).
-/

namespace Verif.Binary

open Spec

variable {D : Type}

/-- **C102** (partial): a document of a resource is the same whatever the objects are that the resource does not have, as long as the objects that
are referred to keep their classes and URIs.  Missing: references that leave the resource where no proxy can be read (`Within`). -/
theorem C102_resource_partial (env : Env D) (g g' : Graph D) (opt : Opt) (T : Nat → Prop) (version : Int) (depth : Nat) (contents : List (Option Nat))
    (hin : ∀ x : Nat, some x ∈ contents → T x) (hw : Within env g opt T) (hs : SameWithin T g g') :
    encodeResource env g' opt version depth contents = encodeResource env g opt version depth contents := by
  simp only [encodeResource]
  rw [Scope.contents_same hw hs depth contents hin]

/-- **C102** (partial): the same for an object that is written alone. -/
theorem C102_object_partial (env : Env D) (g g' : Graph D) (opt : Opt) (T : Nat → Prop) (version : Int) (depth : Nat) (o : Nat)
    (ho : T o) (hw : Within env g { opt with root := some o } T) (hs : SameWithin T g g') :
    encodeRoot env g' opt version depth o = encodeRoot env g opt version depth o := by
  simp only [encodeRoot]
  rw [Scope.object_same hw hs depth {} o .container ⟨(hs.inside o ho).1, .inl ho⟩]

/-- **C102**: what a resource contains at any depth is read, with its values; the hypotheses are those of C22 without proxies. -/
theorem C102_complete_partial (env : Env D) (g : Graph D) (opt : Opt) (objects : List Nat) (contents : List (Option Nat))
    (hv : Valid env g objects) (hc : ∀ x : Nat, some x ∈ contents → x ∈ objects ∧ g.proxy x = none)
    (hf : ∀ x : Nat, ¬ Foreign env g opt x) :
    ∃ (toks : List (Tok D)) (contents' : List (Option Nat)) (copies : List (Copy D)) (objs : List Nat),
      encodeResource env g opt binaryVersion (objects.length + 1) contents = some toks ∧
      decodeResource env toks = some (contents', copies) ∧ List.Forall₂ (SameRef objs) contents contents' ∧
      ∀ o : Nat, Contained env g opt contents o → ∃ (i : Nat) (c : Copy D), objs[i]? = some o ∧ copies[i]? = some c ∧ FullCopy env g opt objs o c := by
  obtain ⟨toks, contents', copies, objs, h1, h2, h3, -, -, h4⟩ := C22_complete_partial env g opt objects contents hv hc hf
  refine ⟨toks, contents', copies, objs, h1, h2, h3, ?_⟩
  have full : ∀ o : Nat, (∃ i : Nat, objs[i]? = some o) → ∃ (i : Nat) (c : Copy D), objs[i]? = some o ∧ copies[i]? = some c ∧ FullCopy env g opt objs o c := by
    intro o ⟨i, hi⟩
    obtain ⟨c, hc1, hc2⟩ := h4 i o hi
    exact ⟨i, c, hi, hc1, hc2⟩
  have mem : ∀ (l l' : List (Option Nat)) (o : Nat), List.Forall₂ (SameRef objs) l l' → some o ∈ l → ∃ i : Nat, objs[i]? = some o := by
    intro l l' o h ho
    induction h with
    | nil => simp at ho
    | cons hab _ ih =>
      rename_i a b _ _ _
      rcases List.mem_cons.1 ho with e | e
      · subst e
        cases b with
        | none => exact hab.elim
        | some j => exact ⟨j, hab⟩
      · exact ih e
  intro o ho
  induction ho with
  | top o ho => exact full o (mem _ _ o h3 ho)
  | child x i f v o _ hfi hcm hcr hk hs hh ih =>
    obtain ⟨j, c, _, _, hfc⟩ := ih
    have hslot := hfc.kept i f hfi (fun hp => absurd hp.2.1 (by simp [hcm])) hk
    refine full o ?_
    rw [hs] at hslot
    cases hc' : c.slot i with
    | none => rw [hc'] at hslot; exact hslot.elim
    | some w =>
      rw [hc'] at hslot
      cases v with
      | data d => exact hh.elim
      | datas d => exact hh.elim
      | obj a =>
        cases w with
        | obj b =>
          have hh' : a = some o := hh
          subst hh'
          have hsv : SameRef objs (some o) b := hslot
          cases b with
          | none => exact hsv.elim
          | some k => exact ⟨k, hsv⟩
        | _ => exact hslot.elim
      | objs l =>
        cases w with
        | objs l' => exact mem l l' o hslot hh
        | _ => exact hslot.elim

/-! ## A case -/

namespace Sample

/-- Objects 0 and 1 are in resource 0, object 1 in object 0; object 1 refers to object 2, which is in resource 1 and has the given values. -/
def apart (values : List (Option (Val Nat String))) : Graph String :=
  { graph [[some (.data "a"), some (.obj (some 1)), some (.objs [some 1])], [some (.data "b"), some (.obj (some 2)), none, some (.obj (some 0))], values] with
    res := fun o => some (if o = 2 then 1 else 0)
    resURI := fun r => some (if r = 1 then "other" else "a") }

theorem apart_within (values : List (Option (Val Nat String))) : Within (env features) (apart values) {} (· < 2) := by
  constructor
  · intro x i f v o hx hf _ hc hs hh
    have : x = 0 ∨ x = 1 := by omega
    simp only [env, features] at hf
    rcases this with rfl | rfl <;> rcases i with _ | _ | _ | _ | _ | _ | _ | _ | i <;> simp [apart, graph] at hf hs <;>
      (subst hf; subst hs; simp [Holds] at hc hh) <;> omega
  · intro x i f v o hx hf _ hc _ hs hh
    have : x = 0 ∨ x = 1 := by omega
    simp only [env, features] at hf
    rcases this with rfl | rfl <;> rcases i with _ | _ | _ | _ | _ | _ | _ | _ | i <;> simp [apart, graph] at hf hs <;>
      (subst hf; subst hs; simp [Holds] at hc hh) <;> (subst hh; simp [apart, graph])

theorem apart_same (a b : List (Option (Val Nat String))) : SameWithin (· < 2) (apart a) (apart b) := by
  have out : ∀ o, SameOutside (apart a) (apart b) o := fun o => ⟨rfl, rfl, rfl, rfl, rfl, fun _ _ => rfl⟩
  constructor
  · intro x hx
    refine ⟨out x, rfl, fun i => ?_⟩
    have : x = 0 ∨ x = 1 := by omega
    rcases this with rfl | rfl <;> rfl
  · intro _ _ _ o _ _ _
    exact out o

/-- Object 1 is in object 0 and refers to object 2, all in resource 0; objects 0 and 2 have the given values. -/
def inner (values : Nat → String) : Graph String :=
  graph [[some (.data (values 0)), none, some (.objs [some 1])], [some (.data "b"), some (.obj (some 2)), none, none, none, none, some (.obj (some 0))],
    [some (.data (values 2))]]

theorem inner_within (values : Nat → String) : Within (env features) (inner values) { inRoot := (· = 1), root := some 1 } (· = 1) := by
  constructor
  · intro x i f v o hx hf _ hc hs hh
    subst hx
    simp only [env, features] at hf
    rcases i with _ | _ | _ | _ | _ | _ | _ | _ | i <;> simp [inner, graph] at hf hs <;> (subst hf; subst hs; simp [Holds] at hc hh)
  · intro x i f v o hx hf _ hc _ hs hh
    subst hx
    simp only [env, features] at hf
    rcases i with _ | _ | _ | _ | _ | _ | _ | _ | i <;> simp [inner, graph] at hf hs <;>
      (subst hf; subst hs; simp [Holds] at hc hh) <;> (subst hh; simp [inner, graph])

theorem inner_same (a b : Nat → String) : SameWithin (· = 1) (inner a) (inner b) := by
  have out : ∀ o, SameOutside (inner a) (inner b) o := fun o => ⟨rfl, rfl, rfl, rfl, rfl, fun _ _ => rfl⟩
  constructor
  · intro x hx
    subst hx
    exact ⟨out 1, rfl, fun i => rfl⟩
  · intro _ _ _ o _ _ _
    exact out o

end Sample

example (a b : Nat → String) :
    encodeRoot (Sample.env Sample.features) (Sample.inner b) { inRoot := (· = 1) } binaryVersion 9 1 =
      encodeRoot (Sample.env Sample.features) (Sample.inner a) { inRoot := (· = 1) } binaryVersion 9 1 :=
  C102_object_partial _ _ _ { inRoot := (· = 1) } (· = 1) _ _ _ rfl (Sample.inner_within a) (Sample.inner_same a b)

example (a b : List (Option (Val Nat String))) :
    encodeResource (Sample.env Sample.features) (Sample.apart b) {} binaryVersion 9 [some 0] =
      encodeResource (Sample.env Sample.features) (Sample.apart a) {} binaryVersion 9 [some 0] :=
  C102_resource_partial _ _ _ _ (· < 2) _ _ _ (by simp) (Sample.apart_within a) (Sample.apart_same a b)

/-- what is read: object 2 is a proxy -/
example : Sample.trip Sample.features (Sample.apart [some (.data "c")]) {} [some 0] = some ([some 0],
    [⟨0, none, none, [some (.data "a"), some (.obj (some 1)), some (.objs [some 1]), none, none, none, none, none]⟩,
     ⟨0, none, none, [some (.data "b"), some (.obj (some 2)), none, some (.obj (some 0)), none, none, none, none]⟩,
     ⟨0, some ⟨"other", "//x"⟩, none, [none, none, none, none, none, none, none, none]⟩]) := by decide +kernel

/-- everything contained is read -/
example : Contained (Sample.env Sample.features) Sample.g' {} [some 0] 2 :=
  .child 1 2 { name := "children", containment := true, resolveProxies := true, many := true } (.objs [some 2]) 2
    (.child 0 2 { name := "children", containment := true, resolveProxies := true, many := true } (.objs [some 1]) 1 (.top 0 (by simp))
      rfl rfl rfl (.inl rfl) rfl (by simp [Holds])) rfl rfl rfl (.inl rfl) rfl (by simp [Holds])

/-! ## Violations -/

/-- **C102** is violated: an object of another resource is written with its values if it is referred to without resolution of proxies; what is
read is an object with these values that nothing contains. -/
theorem C102_embedded_violated : ∃ g : String → Graph String, ∀ v, (g v).res 0 = some 0 ∧ (g v).res 1 = some 1 ∧ (g v).resURI 1 = some "other" ∧
    (g v).slot 0 3 = some (.obj (some 1)) ∧ (g v).slot 1 0 = some (.data v) ∧
    Sample.trip Sample.features (g "b") {} [some 0] = some ([some 0],
      [⟨0, none, none, [some (.data "a"), none, none, some (.obj (some 1)), none, none, none, none]⟩,
       ⟨0, none, none, [some (.data "b"), none, none, none, none, none, none, none]⟩]) ∧
    encodeResource (Sample.env Sample.features) (g "b") {} binaryVersion 9 [some 0] ≠
      encodeResource (Sample.env Sample.features) (g "c") {} binaryVersion 9 [some 0] :=
  ⟨fun v => { Sample.graph [[some (.data "a"), none, none, some (.obj (some 1))], [some (.data v)]] with
      res := fun o => some o, resURI := fun r => some (if r = 1 then "other" else "a") },
    fun _ => ⟨rfl, rfl, rfl, rfl, rfl, by decide +kernel, by decide +kernel⟩⟩

/-- **C102** is violated: an object that is in no resource is written with its values if it is referred to; no error is reported. -/
theorem C102_unattached_violated : ∃ g : Graph String, g.res 0 = some 0 ∧ g.res 1 = none ∧ g.slot 0 1 = some (.obj (some 1)) ∧
    g.slot 1 0 = some (.data "b") ∧
    Sample.trip Sample.features g {} [some 0] = some ([some 0],
      [⟨0, none, none, [some (.data "a"), some (.obj (some 1)), none, none, none, none, none, none]⟩,
       ⟨0, none, none, [some (.data "b"), none, none, none, none, none, none, none]⟩]) :=
  ⟨{ Sample.graph [[some (.data "a"), some (.obj (some 1))], [some (.data "b")]] with res := fun o => if o = 0 then some 0 else none },
    rfl, rfl, rfl, rfl, by decide +kernel⟩

/-- **C102** is violated: `EncodeObject` of an object writes its container with its values and its other children, if they are in no resource; what
is read is contained in a copy of the container. -/
theorem C102_container_violated : ∃ g : Graph String, g.slot 0 2 = some (.objs [some 1, some 2]) ∧ g.slot 1 6 = some (.obj (some 0)) ∧
    ((encodeRoot (Sample.env Sample.features) g { inRoot := fun o => o = 1 } binaryVersion 9 1).bind fun ts =>
      (decodeRoot (Sample.env Sample.features) ts).map fun r => (r.1, r.2.map Sample.view)) = some (some 0,
        [⟨0, none, none, [some (.data "b"), none, none, none, none, none, some (.obj (some 1)), none]⟩,
         ⟨0, none, none, [some (.data "a"), none, some (.objs [some 0, some 2]), none, none, none, none, none]⟩,
         ⟨0, none, none, [some (.data "c"), none, none, none, none, none, none, none]⟩]) :=
  ⟨{ Sample.graph [[some (.data "a"), none, some (.objs [some 1, some 2])], [some (.data "b"), none, none, none, none, none, some (.obj (some 0))],
      [some (.data "c"), none, none, none, none, none, some (.obj (some 0))]] with res := fun _ => none },
    rfl, rfl, by decide +kernel⟩

end Verif.Binary
