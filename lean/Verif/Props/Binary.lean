import Verif.Proofs.BinaryTotal

/-!
# C22: binary serialisation round-trips

Vocabulary: `Verif.Spec.Binary`.  A graph `g` of objects is written, what is written is read, and what is read is `Isomorphic`
to the graph: the objects read are, one by one, copies of the objects written, with the same class, ID and values, references
being references to the copies.  Objects that are proxies, or of other resources, or outside the root, may be read as
proxies with their URI.

Missing in the partial theorems: the bytes of an item, which are those of msgpack; references with opposites (setting one end
while reading sets the other one; see C23 for the lists); the reference to the container may be left out, it is given by the
containment.
-/

namespace Verif.Binary

open Spec

variable {D : Type}

theorem rel_start (env : Env D) : Rel env {} {} := by
  constructor <;> simp

/-- What is written of a resource is read: the contents are the copies of the contents, and the graph is isomorphic. -/
theorem C22_roundtrip_partial (env : Env D) (g : Graph D) (opt : Opt) (objects : List Nat) (contents : List (Option Nat))
    (hv : Valid env g objects) (hc : ∀ x : Nat, some x ∈ contents → x ∈ objects ∧ g.proxy x = none) :
    ∃ (toks : List (Tok D)) (contents' : List (Option Nat)) (copies : List (Copy D)) (objs : List Nat),
      encodeResource env g opt binaryVersion (objects.length + 1) contents = some toks ∧
      decodeResource env toks = some (contents', copies) ∧
      List.Forall₂ (SameRef objs) contents contents' ∧ Isomorphic env g opt objs copies := by
  have htodo : todo objects {} < objects.length + 1 := Nat.lt_succ_of_le List.countP_le_length
  obtain ⟨st, ts, h1, -, -⟩ := objects_total (object_total (opt := opt) hv objects.length) .container contents {}
    (fun p => by simp) (fun x hx => (hc x hx).1) htodo
  obtain ⟨k1, k2⟩ := objects_spec (object_spec (opt := opt) hv (objects.length + 1)) .container contents {} st ts h1
    (fun x hx => hc x hx)
  obtain ⟨r, d, more, l1, l2, l3, l4, l5, l6⟩ := k2 {} [] (ts.length + 1) (rel_start env) rfl (by omega)
  simp only [List.append_nil] at l1
  refine ⟨_, r, d.objs, st.objs, by simp only [encodeResource, h1, Option.map_some]; rfl, ?_, l5, k1.once (by simp), l4, ?_⟩
  · simp [decodeResource, l1]
  · intro i o ho
    exact l6 i o (by simp) ho

/-- If no object that is written is a proxy or belongs elsewhere, then every object is read with its values. -/
theorem C22_complete_partial (env : Env D) (g : Graph D) (opt : Opt) (objects : List Nat) (contents : List (Option Nat))
    (hv : Valid env g objects) (hc : ∀ x : Nat, some x ∈ contents → x ∈ objects ∧ g.proxy x = none)
    (hf : ∀ x : Nat, ¬ Foreign env g opt x) :
    ∃ (toks : List (Tok D)) (contents' : List (Option Nat)) (copies : List (Copy D)) (objs : List Nat),
      encodeResource env g opt binaryVersion (objects.length + 1) contents = some toks ∧
      decodeResource env toks = some (contents', copies) ∧
      List.Forall₂ (SameRef objs) contents contents' ∧ objs.Nodup ∧ copies.length = objs.length ∧
      ∀ (i o : Nat), objs[i]? = some o → ∃ c : Copy D, copies[i]? = some c ∧ FullCopy env g opt objs o c := by
  obtain ⟨toks, contents', copies, objs, h1, h2, h3, h4⟩ := C22_roundtrip_partial env g opt objects contents hv hc
  refine ⟨toks, contents', copies, objs, h1, h2, h3, h4.once, h4.size, ?_⟩
  intro i o ho
  obtain ⟨c, hc1, hc2⟩ := h4.copy i o ho
  exact ⟨c, hc1, hc2.resolve_right (fun h => hf o h.1)⟩

/-- What is written of an object is read: the copy of the object, with its values, and those of the objects reached. -/
theorem C22_object_partial (env : Env D) (g : Graph D) (opt : Opt) (objects : List Nat) (o : Nat)
    (hv : Valid env g objects) (hc : o ∈ objects ∧ g.proxy o = none) :
    ∃ (toks : List (Tok D)) (i : Nat) (copies : List (Copy D)) (objs : List Nat) (c : Copy D),
      encodeRoot env g opt binaryVersion (objects.length + 1) o = some toks ∧
      decodeRoot env toks = some (some i, copies) ∧
      objs[i]? = some o ∧ copies[i]? = some c ∧ FullCopy env g { opt with root := some o } objs o c ∧
      Isomorphic env g { opt with root := some o } objs copies := by
  have htodo : todo objects {} < objects.length + 1 := Nat.lt_succ_of_le List.countP_le_length
  obtain ⟨st, ts, h1, -, -⟩ := object_total (opt := { opt with root := some o }) hv objects.length {} (some o) .container
    (fun p => by simp) (fun x hx => by simp at hx; exact hx ▸ hc.1) htodo
  have hr : Reason env g objects .container o := hc
  have hgood := fun m => object_spec (opt := { opt with root := some o }) hv m
  obtain ⟨k1, -, k2⟩ := hgood (objects.length + 1) {} st (some o) .container ts h1
    (fun x hx => by simp at hx; exact hx ▸ hr)
  obtain ⟨r, d, more, l1, l2, l3, l4, l5, l6⟩ := k2 {} [] (ts.length + 1) (rel_start env) rfl (by omega)
  obtain ⟨d', c, m1, m2, m3⟩ := root_spec hv _ {} st o ts h1 hr hgood (by simp) {} [] (ts.length + 1) (rel_start env) rfl (by omega)
  rw [m1] at l1
  simp only [List.append_nil, Option.some.injEq, Prod.mk.injEq] at m1 l1
  obtain ⟨rfl, rfl, -⟩ := l1
  have ho : st.objs[0]? = some o := l5
  refine ⟨_, 0, d'.objs, st.objs, c, by simp only [encodeRoot, h1, Option.map_some]; rfl, ?_, ho, m2, ?_, k1.once (by simp), l4, ?_⟩
  · simp [decodeRoot, m1]
  · obtain ⟨c', hc1, hc2⟩ := l6 0 o (by simp) ho
    have hm : d'.objs[0]? = some c := m2
    rw [hm] at hc1
    simp only [Option.some.injEq] at hc1
    subst hc1
    rcases hc2 with hc2 | ⟨-, hc2⟩
    · exact hc2
    · obtain ⟨u, -, hu⟩ := hc2.proxy
      rw [m3] at hu
      simp at hu
  · intro i x hx
    exact l6 i x (by simp) hx

/-! ### Examples -/

namespace Sample

/-- class 0: a name, the next node, the children, a node that is not resolved, a colour and tags -/
def features : List Feature :=
  [{ name := "name", isReference := false, typeName := "string" },
   { name := "next", resolveProxies := true },
   { name := "children", containment := true, resolveProxies := true, many := true },
   { name := "seen" },
   { name := "color", isReference := false, isEnum := true, dataType := 1 },
   { name := "tags", isReference := false, many := true, dataType := 2 },
   { name := "parent", container := true, resolveProxies := true },
   { name := "cached", isReference := false, transient := true, typeName := "string" }]

def env (features : List Feature) : Env String where
  nsURI := fun _ => "ns"
  pkgURI := fun _ => some ⟨"pkg", "/"⟩
  classifiers := fun _ => [0]
  pkg := fun _ => 0
  name := fun _ => "Node"
  features := fun _ => features
  registry := fun s => if s = "ns" then some 0 else none
  findClass := fun _ s => if s = "Node" then some 0 else none
  findFeature := fun _ s => features.find? (·.name = s)
  wire := fun t v => if t = .string then some v else none
  toText := fun _ v => v
  fromText := fun _ s => s
  baseURI := "base"
  relativize := fun s => s
  resolve := fun s => s

def graph (slots : List (List (Option (Val Nat String)))) : Graph String where
  cls := fun _ => 0
  slot := fun o i => ((slots[o]?.getD [])[i]?).getD none
  proxy := fun _ => none
  res := fun _ => some 0
  direct := fun _ => none
  fragment := fun _ => "//x"
  id := fun o => some (100 + o)
  resURI := fun r => if r = 0 then some "a" else none

/-- Two nodes that refer to each other, one of them contained in the other; the third is a proxy, which both refer to. -/
def slots : List (List (Option (Val Nat String))) :=
  [[some (.data "a"), some (.obj (some 1)), some (.objs [some 1]), none, some (.data "red"), some (.datas ["x", "y"]), none,
      some (.data "z")],
   [some (.data "b"), some (.obj (some 2)), some (.objs [some 2]), some (.obj (some 0)), some (.data "red"), none,
      some (.obj (some 0)), none],
   []]

def g : Graph String := { graph slots with proxy := fun o => if o = 2 then some ⟨"other", "//@c"⟩ else none }

theorem valid : Valid (env features) g [0, 1, 2] := by
  constructor
  · simp [env]
  · simp [env, g, graph]
  · simp [env, g, graph]
  · intro o _ f hf
    simp only [env, features] at hf
    simp only [List.mem_cons, List.not_mem_nil, or_false] at hf
    rcases hf with rfl | rfl | rfl | rfl | rfl | rfl | rfl | rfl <;> simp [env, features]
  · simp [env, Readable]
  · intro o _ u hu
    simp only [g] at hu
    split at hu <;> simp at hu
    subst hu
    simp [Readable, env]
  · intro o _ r hr
    simp [g, graph] at hr
    subst hr
    simp [g, graph, Readable, env]
  · intro o ho i f hf v hv
    simp only [List.mem_cons, List.not_mem_nil, or_false] at ho
    simp only [env, features] at hf
    rcases ho with rfl | rfl | rfl <;> rcases i with _ | _ | _ | _ | _ | _ | _ | _ | i <;>
      simp [g, graph, slots] at hf hv <;> subst hf <;> subst hv <;> simp [Fits, kindOf, basicOf, env, g]

/-- the same without a proxy -/
def g' : Graph String := graph slots

theorem valid' : Valid (env features) g' [0, 1, 2] := by
  constructor
  · simp [env]
  · simp [env, g', graph]
  · simp [env, g', graph]
  · intro o _ f hf
    simp only [env, features] at hf
    simp only [List.mem_cons, List.not_mem_nil, or_false] at hf
    rcases hf with rfl | rfl | rfl | rfl | rfl | rfl | rfl | rfl <;> simp [env, features]
  · simp [env, Readable]
  · simp [g', graph]
  · intro o _ r hr
    simp [g', graph] at hr
    subst hr
    simp [g', graph, Readable, env]
  · intro o ho i f hf v hv
    simp only [List.mem_cons, List.not_mem_nil, or_false] at ho
    simp only [env, features] at hf
    rcases ho with rfl | rfl | rfl <;> rcases i with _ | _ | _ | _ | _ | _ | _ | _ | i <;>
      simp [g', graph, slots] at hf hv <;> subst hf <;> subst hv <;> simp [Fits, kindOf, basicOf, env, g', graph]

/-- what can be seen of a copy -/
structure View where
  cls : Nat
  proxy : Option URI
  id : Option Nat
  slots : List (Option (Val Nat String))
deriving DecidableEq

def view (c : Copy String) : View := ⟨c.cls, c.proxy, c.id, (List.range 8).map c.slot⟩

def trip (features : List Feature) (g : Graph String) (opt : Opt) (contents : List (Option Nat)) :
    Option (List (Option Nat) × List View) :=
  match encodeResource (env features) g opt binaryVersion 9 contents with
  | none => none
  | some ts => (decodeResource (env features) ts).map fun r => (r.1, r.2.map view)

end Sample

example : ∃ (toks : List (Tok String)) (contents' : List (Option Nat)) (copies : List (Copy String)) (objs : List Nat),
    encodeResource (Sample.env Sample.features) Sample.g {} binaryVersion 4 [some 0, some 1] = some toks ∧
    decodeResource (Sample.env Sample.features) toks = some (contents', copies) ∧
    List.Forall₂ (SameRef objs) [some 0, some 1] contents' ∧ Isomorphic (Sample.env Sample.features) Sample.g {} objs copies :=
  C22_roundtrip_partial _ _ _ [0, 1, 2] _ Sample.valid (by simp [Sample.g, Sample.graph])

example : ∃ (toks : List (Tok String)) (i : Nat) (copies : List (Copy String)) (objs : List Nat) (c : Copy String),
    encodeRoot (Sample.env Sample.features) Sample.g {} binaryVersion 4 0 = some toks ∧
    decodeRoot (Sample.env Sample.features) toks = some (some i, copies) ∧
    objs[i]? = some 0 ∧ copies[i]? = some c ∧
    FullCopy (Sample.env Sample.features) Sample.g { root := some 0 } objs 0 c ∧
    Isomorphic (Sample.env Sample.features) Sample.g { root := some 0 } objs copies :=
  C22_object_partial _ _ {} [0, 1, 2] 0 Sample.valid (by simp [Sample.g, Sample.graph])

example : ∃ (toks : List (Tok String)) (contents' : List (Option Nat)) (copies : List (Copy String)) (objs : List Nat),
    encodeResource (Sample.env Sample.features) Sample.g' {} binaryVersion 4 [some 0, some 1] = some toks ∧
    decodeResource (Sample.env Sample.features) toks = some (contents', copies) ∧
    List.Forall₂ (SameRef objs) [some 0, some 1] contents' ∧ objs.Nodup ∧ copies.length = objs.length ∧
    ∀ (i o : Nat), objs[i]? = some o → ∃ c : Copy String, copies[i]? = some c ∧
      FullCopy (Sample.env Sample.features) Sample.g' {} objs o c :=
  C22_complete_partial _ _ _ [0, 1, 2] _ Sample.valid' (by simp [Sample.g', Sample.graph])
    (by simp [Foreign, Sample.g', Sample.graph])

/-- the objects read -/
example : Sample.trip Sample.features Sample.g { ids := true } [some 0, some 1] = some ([some 0, some 1],
    [⟨0, none, some 100, [some (.data "a"), some (.obj (some 1)), some (.objs [some 1]), none, some (.data "red"),
        some (.datas ["x", "y"]), none, none]⟩,
     ⟨0, none, some 101, [some (.data "b"), some (.obj (some 2)), some (.objs [some 2]), some (.obj (some 0)), some (.data "red"),
        none, none, none]⟩,
     ⟨0, some ⟨"other", "//@c"⟩, none, [none, none, none, none, none, none, none, none]⟩]) := by
  decide +kernel

/-! ### Violations -/

/-- An object of the contents of a resource that is also contained by an object of this resource, through a reference which
resolves proxies, is written as a proxy only: its values are lost. -/
theorem C22_contents_violated : ∃ (g : Graph String) (objects : List Nat),
    Valid (Sample.env Sample.features) g objects ∧ 1 ∈ objects ∧
    g.proxy 1 = none ∧ g.res 1 = some 0 ∧ g.slot 1 0 = some (.data "b") ∧
    Sample.trip Sample.features g { resource := 0 } [some 0, some 1] = some ([some 0, some 1],
      [⟨0, none, none, [some (.data "a"), none, some (.objs [some 1]), none, none, none, none, none]⟩,
       ⟨0, some ⟨"a", "//x"⟩, none, [none, none, none, none, none, none, none, none]⟩]) := by
  refine ⟨{ Sample.graph [[some (.data "a"), none, some (.objs [some 1])], [some (.data "b")]] with
    direct := fun _ => some 0 }, [0, 1], ?_, by simp, rfl, rfl, rfl, by decide +kernel⟩
  constructor
  · simp [Sample.env]
  · simp [Sample.env, Sample.graph]
  · simp [Sample.env, Sample.graph]
  · intro o _ f hf
    simp only [Sample.env, Sample.features] at hf
    simp only [List.mem_cons, List.not_mem_nil, or_false] at hf
    rcases hf with rfl | rfl | rfl | rfl | rfl | rfl | rfl | rfl <;> simp [Sample.env, Sample.features]
  · simp [Sample.env, Readable]
  · simp [Sample.graph]
  · intro o _ r hr
    simp [Sample.graph] at hr
    subst hr
    simp [Sample.graph, Readable, Sample.env]
  · intro o ho i f hf v hv
    simp only [List.mem_cons, List.not_mem_nil, or_false] at ho
    simp only [Sample.env, Sample.features] at hf
    rcases ho with rfl | rfl <;> rcases i with _ | _ | _ | _ | _ | _ | _ | _ | i <;>
      simp [Sample.graph] at hf hv <;> subst hf <;> subst hv <;> simp [Fits, kindOf, basicOf, Sample.env, Sample.graph]

/-- A proxy that is reached through a reference which does not resolve proxies is read as an object that is no proxy. -/
theorem C22_proxy_violated : ∃ g : Graph String, g.proxy 1 ≠ none ∧ g.slot 0 3 = some (.obj (some 1)) ∧
    Sample.trip Sample.features g {} [some 0] = some ([some 0],
      [⟨0, none, none, [none, none, none, some (.obj (some 1)), none, none, none, none]⟩,
       ⟨0, none, none, [none, none, none, none, none, none, none, none]⟩]) :=
  ⟨{ Sample.graph [[none, none, none, some (.obj (some 1))]] with
    proxy := fun o => if o = 1 then some ⟨"other", "//@c"⟩ else none }, by simp, rfl, by decide +kernel⟩

/-- An object of a resource without URI is read as an object without values that is no proxy. -/
theorem C22_uri_violated : ∃ g : Graph String, g.proxy 1 = none ∧ g.slot 1 0 = some (.data "b") ∧
    Sample.trip Sample.features g {} [some 0] = some ([some 0],
      [⟨0, none, none, [none, some (.obj (some 1)), none, none, none, none, none, none]⟩,
       ⟨0, none, none, [none, none, none, none, none, none, none, none]⟩]) :=
  ⟨{ Sample.graph [[none, some (.obj (some 1))], [some (.data "b")]] with res := fun o => some o }, rfl, rfl, by decide +kernel⟩

/-- What is written of a feature with an empty name is not read. -/
theorem C22_name_violated : ∃ (features : List Feature) (g : Graph String), g.slot 0 0 = some (.data "a") ∧
    (encodeResource (Sample.env features) g {} binaryVersion 2 [some 0]).isSome = true ∧
    Sample.trip features g {} [some 0] = none :=
  ⟨[{ name := "", isReference := false, typeName := "string" }], Sample.graph [[some (.data "a")]], rfl, by decide +kernel,
    by decide +kernel⟩

end Verif.Binary
