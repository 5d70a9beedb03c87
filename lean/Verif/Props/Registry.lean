import Verif.Model.Registry
/-
Properties C29 and C30: registries.
-/
namespace Verif.Spec.Registry
open Verif.Registry

/-- The URI a call is about. -/
def uriOf (env : Env) : Op → String
  | .registerPackage p => env.nsURI p
  | .unregisterPackage p => env.nsURI p
  | .putPackage uri _ => uri
  | .putSupplier uri _ => uri
  | .remove uri => uri

/-- The package a call makes available under its URI (none for removals). -/
def gives (env : Env) : Op → Option Nat
  | .registerPackage p => some p
  | .unregisterPackage _ => none
  | .putPackage _ p => p
  | .putSupplier _ f => env.supply f
  | .remove _ => none

/-- The package registered locally at level `i` under `uri` after a history: decided by the last call on level `i` about
`uri` (`before` if there is none). -/
def registered (env : Env) (i : Nat) (uri : String) : Option Nat → List (Nat × Op) → Option Nat
  | before, [] => before
  | before, (j, op) :: h =>
    registered env i uri (if j = i ∧ uriOf env op = uri then gives env op else before) h

/-- The first level with a registered package decides. -/
def firstOf (f : Nat → Option Nat) : Nat → Nat → Option Nat
  | _, 0 => none
  | i, n + 1 => match f i with
    | some p => some p
    | none => firstOf f (i + 1) n

/-- Extension of a path: what follows its last dot. -/
def IsExtension (path ext : List Char) : Prop := '.' ∉ ext ∧ ∃ base, path = base ++ '.' :: ext
end Verif.Spec.Registry

namespace Verif.Registry
open Verif.Spec

theorem doGet_step (env : Env) (m : GoMap Entry) (op : Op) (uri : String) :
    doGetPackage env (step env m op) uri =
    if Registry.uriOf env op = uri then Registry.gives env op else doGetPackage env m uri := by
  by_cases h : Registry.uriOf env op = uri
  · cases op with
    | putPackage u p => cases p <;> simp_all [step, doGetPackage, upd, Registry.uriOf, Registry.gives]
    | _ => simp_all [step, doGetPackage, upd, Registry.uriOf, Registry.gives]
  · have h' : ¬ uri = Registry.uriOf env op := fun e => h e.symm
    cases op <;> simp_all [step, doGetPackage, upd, Registry.uriOf, Registry.gives]

/-- What level `i` of a chain knows. -/
def know (env : Env) (c : Chain) (uri : String) (i : Nat) : Option Nat :=
  match c[i]? with
  | some m => doGetPackage env m uri
  | none => none

theorem know_run (env : Env) (c : Chain) (uri : String) (h : List (Nat × Op)) (i : Nat) (hi : i < c.length) :
    know env (run env c h) uri i = Registry.registered env i uri (know env c uri i) h ∧
    (run env c h).length = c.length := by
  induction h generalizing c with
  | nil => exact ⟨rfl, rfl⟩
  | cons x h ih =>
    obtain ⟨j, op⟩ := x
    have hl : (stepAt env c j op).length = c.length := by simp [stepAt]
    have := ih (stepAt env c j op) (by rw [hl]; exact hi)
    simp only [run, Registry.registered]
    refine ⟨?_, this.2.trans hl⟩
    rw [this.1]
    congr 1
    simp only [know, stepAt, List.getElem?_modify]
    have hc : c[i]? = some c[i] := List.getElem?_eq_getElem hi
    by_cases hj : j = i
    · subst hj; simp [hc, doGet_step]
    · simp [hj, hc]

theorem getPackage_levels (env : Env) (c : Chain) (uri : String) (pre : Chain) :
    getPackage env c uri = Registry.firstOf (know env (pre ++ c) uri) pre.length c.length := by
  induction c generalizing pre with
  | nil => rfl
  | cons m c ih =>
    have := ih (pre ++ [m])
    simp only [List.append_assoc, List.singleton_append, List.length_append, List.length_cons, List.length_nil,
      Nat.zero_add] at this
    have hk : know env (pre ++ m :: c) uri pre.length = doGetPackage env m uri := by simp [know]
    simp only [getPackage, List.length_cons, Registry.firstOf, hk, this]
    cases doGetPackage env m uri <;> rfl

theorem getFactory_eq (env : Env) (c : Chain) (uri : String) :
    getFactory env c uri = (getPackage env c uri).bind env.factory := by
  induction c with
  | nil => rfl
  | cons m c ih =>
    simp only [getFactory, getPackage, ih]
    cases doGetPackage env m uri <;> rfl

theorem firstOf_congr {f g : Nat → Option Nat} (n i : Nat) (h : ∀ j, i ≤ j → j < i + n → f j = g j) :
    Registry.firstOf f i n = Registry.firstOf g i n := by
  induction n generalizing i with
  | zero => rfl
  | succ n ih =>
    simp only [Registry.firstOf]
    rw [h i (Nat.le_refl _) (by omega), ih (i + 1) (fun j h1 h2 => h j (by omega) (by omega))]

theorem notMem_takeWhile (r : List Char) : '.' ∉ r.takeWhile (· != '.') := by
  induction r with
  | nil => simp
  | cons a r ih => 
    by_cases h : a = '.'
    · simp [h]
    · have h' : ¬ '.' = a := fun e => h e.symm
      simp only [List.takeWhile_cons, bne_iff_ne, ne_eq, h, not_false_eq_true, if_true, List.mem_cons, h', false_or]
      exact ih

theorem extensionOf_spec (path ext : List Char) : extensionOf path = some ext ↔ Registry.IsExtension path ext := by
  have key : ∀ (r ext : List Char), ('.' ∈ r ∧ r.takeWhile (· != '.') = ext.reverse) ↔
      ('.' ∉ ext ∧ ∃ base, r = ext.reverse ++ '.' :: base) := by
    intro r ext
    constructor
    · rintro ⟨hm, ht⟩
      refine ⟨?_, ?_⟩
      · intro hc
        have : '.' ∈ r.takeWhile (· != '.') := by rw [ht]; simpa using hc
        have := notMem_takeWhile r this
        exact this
      · have h1 := List.takeWhile_append_dropWhile (p := (· != '.')) (l := r)
        cases hd : r.dropWhile (· != '.') with
        | nil =>
          rw [hd, List.append_nil] at h1
          rw [← h1] at hm
          exact absurd hm (notMem_takeWhile r)
        | cons x base =>
          have hx := List.head?_dropWhile_not (p := (· != '.')) r
          rw [hd] at hx
          simp only [List.head?_cons, bne_iff_ne, ne_eq, Bool.not_eq_true', bne_eq_false_iff_eq] at hx
          have hx' : x = '.' := by simpa using hx
          refine ⟨base, ?_⟩
          rw [hd, hx', ht] at h1
          exact h1.symm
    · rintro ⟨hn, base, rfl⟩
      refine ⟨by simp, ?_⟩
      have hp : ∀ c ∈ ext.reverse, (c != '.') = true := by
        intro c hc
        have : c ∈ ext := by simpa using hc
        simp only [bne_iff_ne, ne_eq]
        rintro rfl; exact hn this
      rw [List.takeWhile_append_of_pos hp]
      simp
  have hk := key path.reverse ext
  simp only [List.mem_reverse] at hk
  simp only [extensionOf]
  constructor
  · intro h
    split at h
    · rename_i hm
      simp only [Option.some.injEq] at h
      obtain ⟨h1, base, h2⟩ := hk.1 ⟨hm, by rw [← h]; simp⟩
      refine ⟨h1, base.reverse, ?_⟩
      have := congrArg List.reverse h2
      simpa using this
    · simp at h
  · rintro ⟨h1, base, h2⟩
    obtain ⟨h3, h4⟩ := hk.2 ⟨h1, base.reverse, by rw [h2]; simp⟩
    rw [if_pos h3, h4]; simp

end Verif.Registry

namespace Verif.Props
open Verif.Registry Verif.Spec

/-- **C29**. For a registry with any chain of delegates, all initially empty, after any history of calls on any of them:
`GetPackage(uri)` is the package of the first registry of the chain which has one for `uri`, each registry being decided by the
last call made on it about this URI; and `GetFactory(uri)` is the factory of that package. -/
theorem C29_lookup (env : Env) (n : Nat) (h : List (Nat × Op)) (uri : String) :
    let c := run env (List.replicate n fun _ => none) h
    getPackage env c uri = Registry.firstOf (fun i => Registry.registered env i uri none h) 0 n ∧
    getFactory env c uri = (getPackage env c uri).bind env.factory := by
  refine ⟨?_, getFactory_eq _ _ _⟩
  have hlen : (run env (List.replicate n fun _ => none) h).length = n := by
    have : ∀ (h : List (Nat × Op)) (c : Chain), (run env c h).length = c.length := by
      intro h
      induction h with
      | nil => intro c; rfl
      | cons x h ih => intro c; obtain ⟨j, op⟩ := x; simp [run, ih, stepAt]
    simp [this]
  have := getPackage_levels env (run env (List.replicate n fun _ => none) h) uri []
  simp only [List.nil_append, List.length_nil, hlen] at this
  rw [this]
  refine firstOf_congr n 0 (fun j _ hj => ?_)
  have hj' : j < n := by omega
  have hk := know_run env (List.replicate n fun _ => none) uri h j (by simpa using hj')
  rw [hk.1]
  simp [know, hj', doGetPackage]

/-- **C29**, locality: a call about another URI does not change the answers for `uri`. -/
theorem C29_local (env : Env) (c : Chain) (i : Nat) (op : Op) (uri : String) (h : Registry.uriOf env op ≠ uri) :
    getPackage env (stepAt env c i op) uri = getPackage env c uri := by
  induction c generalizing i with
  | nil => simp [stepAt]
  | cons m c ih =>
    cases i with
    | zero => simp [stepAt, getPackage, doGet_step, h]
    | succ i =>
      have := ih i
      simp only [stepAt] at this
      simp [stepAt, getPackage, this]

/-- Concrete case of C29: two levels, an override, a supplier and a removal. -/
example :
    let env : Env := ⟨fun p => if p < 10 then "a" else "b", fun p => some (p + 100), fun f => if f = 0 then none else some f⟩
    let h : List (Nat × Op) := [(1, .registerPackage 1), (1, .putSupplier "b" 20), (0, .registerPackage 2),
      (0, .putSupplier "b" 0)]
    getPackage env (run env (List.replicate 2 fun _ => none) h) "a" = some 2 ∧
    getPackage env (run env (List.replicate 2 fun _ => none) (h ++ [(0, .unregisterPackage 3)])) "a" = some 1 ∧
    getFactory env (run env (List.replicate 2 fun _ => none) h) "b" = some 120 := by
  decide

/-- **C30**. The codec of the first rule which applies: scheme, extension, default extension, delegate. -/
theorem C30_codec (r : Codecs) (delegate : List Codecs) (scheme : String) (path : List Char) :
    (∀ f, r.protocol scheme = some f → getCodec (r :: delegate) scheme path = f) ∧
    (r.protocol scheme = none →
      (∀ ext f, Registry.IsExtension path ext → r.extension (String.ofList ext) = some f →
        getCodec (r :: delegate) scheme path = f) ∧
      ((∀ ext, Registry.IsExtension path ext → r.extension (String.ofList ext) = none) →
        (∀ f, r.extension "*" = some f → getCodec (r :: delegate) scheme path = f) ∧
        (r.extension "*" = none → getCodec (r :: delegate) scheme path = getCodec delegate scheme path))) := by
  refine ⟨?_, ?_⟩
  · intro f h; simp [getCodec, h]
  · intro hp
    refine ⟨?_, ?_⟩
    · intro ext f he hf
      have := (extensionOf_spec path ext).2 he
      simp [getCodec, hp, this, hf]
    · intro hne
      have hb : (match extensionOf path with
          | some ext => r.extension (String.ofList ext)
          | none => none) = none := by
        cases he : extensionOf path with
        | none => rfl
        | some ext => exact hne ext ((extensionOf_spec path ext).1 he)
      refine ⟨?_, ?_⟩
      · intro f hf
        simp only [getCodec, hp, defaultExtension, hf]
        split
        · rename_i g hg; exact absurd (hb.symm.trans hg) (by simp)
        · rfl
      · intro hf
        simp only [getCodec, hp, defaultExtension, hf]
        split
        · rename_i g hg; exact absurd (hb.symm.trans hg) (by simp)
        · rfl

/-- Without any registry there is no codec. -/
theorem C30_none (scheme : String) (path : List Char) : getCodec [] scheme path = none := rfl

/-- Concrete case of C30. -/
example :
    let r0 : Codecs := ⟨fun _ => none, fun _ => none⟩
    let r := [COp.setProtocol "mem" (some (some 1)), .setExtension "xml" (some (some 2))].foldl cstep r0
    let d := [COp.setExtension "*" (some (some 3))].foldl cstep r0
    getCodec [r, d] "mem" "a.xml".toList = some 1 ∧ getCodec [r, d] "file" "x.y/a.xml".toList = some 2 ∧
    getCodec [r, d] "file" "a.xml.z".toList = some 3 ∧ getCodec [r] "file" "a".toList = none := by
  decide

end Verif.Props
