import Verif.Proofs.SQLCodecLoad

/-!
# C59: a resource saved in a SQL database is loaded as it was

Vocabulary: `Verif.Spec.SQLCodec`.  A graph `g` of objects is saved with `encodeResource`, and the database is loaded with
`decodeResource`; `order` is the order in which the classes are read, which is any.  What is loaded are, one by one, copies of the objects
that were saved, with the same class, ID and values (`FullCopy`): references are references to the copies or, for references that are
resolved, may be proxies with the URI of the object.

Missing in the partial theorem: resources with more than one content (only the first one is saved: `C59_contents_violated`); features that
are not set and whose default value is not the zero of the type, and that become set (`C59_default_violated`); objects that are proxies
(`C59_proxy_violated`); names that are the same for SQL (`C59_names_violated`, `C59_idx_violated`); URIs that are numbers
(`C59_uri_violated`); objects without ID (`C59_id_violated`), and IDs along with containers (`C59_containers_violated`); floating point
numbers that are no numbers (`C59_nan_violated`), times with fractions of seconds (`C59_date_violated`).  Inverse references, and the
goroutines that read classes at the same time, are left out of the model.
-/

namespace Verif.SQLCodec

open Spec
open Verif.Convert (Text Time Value formatNat)

variable {F : Type}

/-- What is saved is loaded: every object that was saved, the contents among them, has its copy. -/
theorem C59_roundtrip_partial [DecidableEq F] (env : Env F) (g : Graph F) (opt : Opt) (objects classes : List Nat)
    (hv : Valid env g opt objects classes) (contents : List Nat) (hc : ∀ o ∈ contents, o ∈ objects) (h1 : contents.length ≤ 1)
    (depth : Nat) (hd : objects.length < depth) (order : List Nat → List Nat) (ho : ∀ l : List Nat, (order l).Perm l) :
    ∃ (db : DB F) (copies : List (Copy F)) (contents' objs : List Nat),
      encodeResource env g opt depth contents = some db ∧ decodeResource env order db = some (copies, contents') ∧
      objs.Nodup ∧ copies.length = objs.length ∧ (contents'.map fun i => objs[i]?) = contents.map some ∧
      ∀ (k o : Nat) (x : Copy F), objs[k]? = some o → copies[k]? = some x → FullCopy env g opt objs k o x := by
  cases contents with
  | nil =>
    have hs : Saved env g opt objects classes { db := ({ hasIDs := opt.ids, hasContainers := opt.containers } : DB F) } :=
      ⟨empty_inv opt, by simp⟩
    obtain ⟨copies, r1, r2, r3⟩ := saved_read hv hs ⟨rfl, rfl⟩ [] (by simp) order ho
    exact ⟨_, copies, [], [], rfl, r1, List.nodup_nil, r2, rfl, r3⟩
  | cons o rest =>
    have : rest = [] := List.length_eq_zero_iff.1 (by simp only [List.length_cons] at h1; omega)
    subst this
    have htodo : todo objects ({ db := ({ hasIDs := opt.ids, hasContainers := opt.containers } : DB F) } : St F).objs < depth :=
      Nat.lt_of_le_of_lt List.countP_le_length hd
    obtain ⟨st, id, e1, e2, e3⟩ := object_spec hv depth _ o none (empty_inv opt) (hc o (by simp)) htodo
    have hs : Saved env g opt objects classes st := ⟨e2.inv, fun k o => e2.done k o (Nat.zero_le _)⟩
    have hid : 1 ≤ id ∧ st.objs[id - 1]? = some o := by
      unfold get at e3
      split at e3
      · simp at e3
      · exact ⟨by omega, e3⟩
    have hlt := lt_of_get hid.2
    obtain ⟨copies, r1, r2, r3⟩ := saved_read hv hs e2.ext.hasIDs [id] (by simp; omega) order ho
    exact ⟨_, copies, [id - 1], st.objs, by simp only [encodeResource, e1, Option.map_some], r1, e2.inv.once, r2, by simp [hid.2], r3⟩

/-! ### A sample -/

/-- Two classes `Node` and `Sub`, its sub type.  A node has a name, children, a reference that is resolved and a list of tags.  A `Sub` has a
kind, an enumeration with the literals `A` and `B`, a reference that is not resolved, and its container.  Floating point numbers are natural
numbers, 7 is not a number. -/
def sampleEnv : Env Nat where
  nsURI p := [117, 48 + p]
  pkg _ := 0
  name c := if c = 0 then [78, 111, 100, 101] else [83, 117, 98]
  supers c := if c = 1 then [0] else []
  features c :=
    if c = 0 then
      [{ name := [110, 97, 109, 101], isReference := false, typeName := "string", default := some (.string []) },
       { name := [107, 105, 100, 115], containment := true, many := true },
       { name := [110, 101, 120, 116], resolveProxies := true },
       { name := [116, 97, 103, 115], isReference := false, many := true, unique := false }]
    else if c = 1 then
      [{ name := [107, 105, 110, 100], isReference := false, isEnum := true, dataType := 1, default := some (.int 0) },
       { name := [102, 114], refType := 0 },
       { name := [117, 112], container := true }]
    else []
  typePkg _ := 0
  typeName d := [100, 48 + d]
  literals d := if d = 1 then [[65], [66]] else []
  inst d s := if d = 1 then (if s = [66] then some (.int 1) else some (.int 0)) else none
  registry u := if u = [117, 48] then some 0 else none
  findClass p n := if p = 0 then (if n = [78, 111, 100, 101] then some 0 else if n = [83, 117, 98] then some 1 else none) else none
  findEnum p n := if p = 0 ∧ n = [100, 49] then some 1 else none
  toText d v := if d = 1 then (if v = .int 1 then [66] else [65]) else match v with
    | .string s => s
    | _ => []
  fromText d s := if d = 0 then some (.string s) else none
  zero := 0
  isNaN x := x == 7
  round32 x := x
  relativize u := u.drop 1
  resolve s := 47 :: s
  showID n := formatNat n
  readID s := if s = nilText then none else some (Convert.natOf s)

/-- Object 0 is a `Sub`, object 1 a `Node`, its child, which refers to it.  Object 0 also refers to object 2, which is elsewhere. -/
def sampleGraph : Graph Nat where
  cls o := if o = 0 then 1 else 0
  isSet o c i := (o = 0 && !(c = 1 && i = 2)) || (o = 1 && c = 0 && i = 2)
  val o c i :=
    if o = 0 then
      if c = 0 then
        if i = 0 then .one (some (.data (.string [97])))
        else if i = 1 then .list [.ref 1]
        else if i = 2 then .one (some (.ref 2))
        else .list [.data (.string [120]), .data (.string [120])]
      else if i = 0 then .one (some (.data (.int 1)))
      else .one (some (.ref 1))
    else
      if i = 0 then .one (some (.data (.string [])))
      else if i = 2 then .one (some (.ref 0))
      else .list []
  proxy _ := none
  uri o := [47, 35, 48 + o]
  id o := some (10 + o)

theorem sampleValid (opt : Opt) (h1 : opt.keepDefaults = false) (h2 : opt.containers = false) :
    Valid sampleEnv sampleGraph opt [0, 1] [0, 1] where
  size := by decide
  proxy := by intro o _; rfl
  cls := by decide
  hierarchy := by decide
  registered := by decide
  found := by decide
  tables := by decide +kernel
  columns := by decide +kernel
  lists := by
    have : ∀ c ∈ [0, 1], ∀ f ∈ sampleEnv.features c, isSaved f ∧ f.many = true ∧ ¬ isResolving f →
      lower f.name ≠ keyName sampleEnv c ∧ lower f.name ≠ idx := by decide +kernel
    intro c hc f hf a b d
    exact this c hc f hf ⟨a, b, d⟩
  parents := by decide +kernel
  ids := by
    intro _
    refine ⟨h2, ?_⟩
    intro o ho
    refine ⟨10 + o, rfl, ?_⟩
    simp only [List.mem_cons, List.not_mem_nil, or_false] at ho
    rcases ho with rfl | rfl <;> decide +kernel
  slots := by
    intro o ho c hc i f hf hs
    have key : ∀ u : Text, u = [47, 35, 48] ∨ u = [47, 35, 50] → Readable sampleEnv u := by
      rintro u (rfl | rfl)
      · exact ⟨rfl, 35, [48], rfl, Or.inr ⟨by decide, Or.inl (by decide)⟩⟩
      · exact ⟨rfl, 35, [50], rfl, Or.inr ⟨by decide, Or.inl (by decide)⟩⟩
    simp only [List.mem_cons, List.not_mem_nil, or_false] at ho
    rcases ho with rfl | rfl
    · have hc' : c = 1 ∨ c = 0 := by simpa [sampleGraph, sampleEnv] using hc
      rcases hc' with rfl | rfl
      · match i, hf with
        | 0, hf =>
          cases hf
          refine ⟨⟨rfl, rfl, ?_⟩, by decide⟩
          exact ⟨by decide, Or.inl rfl, rfl, rfl⟩
        | 1, hf => cases hf; exact ⟨⟨rfl, rfl, List.mem_cons_of_mem _ (List.mem_singleton.2 rfl)⟩, by decide⟩
        | 2, hf => cases hf; exact absurd hs (by decide)
        | i + 3, hf => cases hf
      · match i, hf with
        | 0, hf =>
          cases hf
          refine ⟨⟨rfl, rfl, ?_⟩, by decide⟩
          exact ⟨[97], rfl⟩
        | 1, hf =>
          cases hf
          refine ⟨⟨rfl, by decide, ?_⟩, by decide⟩
          intro e he
          simp only [List.mem_singleton] at he
          subst he
          exact ⟨rfl, List.mem_cons_of_mem _ (List.mem_singleton.2 rfl)⟩
        | 2, hf =>
          cases hf
          exact ⟨⟨rfl, rfl, key _ (Or.inr rfl)⟩, by decide⟩
        | 3, hf =>
          cases hf
          refine ⟨⟨rfl, by decide, ?_⟩, by decide⟩
          intro e he
          simp only [List.mem_cons, List.not_mem_nil, or_false, or_self] at he
          subst he
          exact ⟨rfl, rfl⟩
        | i + 4, hf => cases hf
    · have hc' : c = 0 := by simpa [sampleGraph, sampleEnv] using hc
      subst hc'
      match i, hf with
      | 0, hf =>
        cases hf
        refine ⟨rfl, by decide, ?_⟩
        intro _ _
        rw [if_neg (by simp [h1])]
        rfl
      | 1, hf => cases hf; exact ⟨rfl, by decide, fun h => by cases h⟩
      | 2, hf => cases hf; exact ⟨⟨rfl, rfl, key _ (Or.inl rfl)⟩, by decide⟩
      | 3, hf => cases hf; exact ⟨rfl, by decide, fun h => by cases h⟩
      | i + 4, hf => cases hf

/-- what is loaded of a resource, in an order; `show` selects what is compared -/
def roundtrip {α : Type} (env : Env Nat) (g : Graph Nat) (opt : Opt) (contents : List Nat) (show' : List (Copy Nat) × List Nat → α) :
    Option α :=
  ((encodeResource env g opt 10 contents).bind (decodeResource env List.reverse)).map show'

/-- The theorem applies to the sample: the child refers to the copy of its parent, which has a proxy for the object elsewhere. -/
example : ∃ (db : DB Nat) (copies : List (Copy Nat)) (contents' objs : List Nat),
    encodeResource sampleEnv sampleGraph { ids := .column } 3 [0] = some db ∧
    decodeResource sampleEnv List.reverse db = some (copies, contents') ∧
    objs.Nodup ∧ copies.length = objs.length ∧ (contents'.map fun i => objs[i]?) = [some 0] ∧
    ∀ (k o : Nat) (x : Copy Nat), objs[k]? = some o → copies[k]? = some x →
      FullCopy sampleEnv sampleGraph { ids := .column } objs k o x :=
  C59_roundtrip_partial sampleEnv sampleGraph { ids := .column } [0, 1] [0, 1] (sampleValid _ rfl rfl) [0] (by decide) (by decide) 3 (by decide)
    List.reverse List.reverse_perm

example : roundtrip sampleEnv sampleGraph { ids := .column } [0] (fun r => (r.2, r.1.map fun x => (x.cls, x.id))) =
    some ([0], [(1, some 10), (0, some 11)]) := by decide +kernel

example : roundtrip sampleEnv sampleGraph {} [0] (fun r => r.1.map fun x => [x.slot 0 0, x.slot 0 1, x.slot 0 2, x.slot 0 3, x.slot 1 0,
      x.slot 1 1, x.slot 1 2]) =
    some [[some (.one (some (.data (.string [97])))), some (.list [.ref (.copy 1)]), some (.one (some (.ref (.proxy [47, 35, 50] 0)))),
        some (.list [.data (.string [120]), .data (.string [120])]), some (.one (some (.data (.int 1)))), some (.one (some (.ref (.copy 1)))),
        none],
      [some (.one (some (.data (.string [])))), none, some (.one (some (.ref (.copy 0)))), none, none, none, none]] := by decide +kernel

/-! ### What is not loaded as it was -/

/-- Only the first content of a resource is saved. -/
theorem C59_contents_violated : roundtrip sampleEnv sampleGraph {} [1, 0] (fun r => (r.2, r.1.map (·.cls))) = some ([0], [0]) := by
  decide +kernel

/-- a class with one attribute -/
def attrEnv (f : Feature Nat) : Env Nat :=
  { sampleEnv with features := fun c => if c = 0 then [{ f with isReference := false }] else [], supers := fun _ => [] }

/-- an object with an attribute -/
def attrGraph (v : Option (Value Nat)) (d : Option (Value Nat)) : Graph Nat :=
  { sampleGraph with
    cls := fun _ => 0
    isSet := fun _ _ _ => v.isSome
    val := fun _ _ _ => .one ((v.or d).map .data) }

/-- An attribute that is not set, with the default value 5, is loaded as set, with the value 0. -/
theorem C59_default_violated :
    roundtrip (attrEnv { name := [120], typeName := "int", literal := true, default := some (.int 5) }) (attrGraph none (some (.int 5))) {} [0]
      (fun r => r.1.map fun x => x.slot 0 0) = some [some (.one (some (.data (.int 0))))] := by
  decide +kernel

/-- With `KEEP_DEFAULTS` the default value is loaded. -/
example :
    roundtrip (attrEnv { name := [120], typeName := "int", literal := true, default := some (.int 5) }) (attrGraph none (some (.int 5)))
      { keepDefaults := true } [0] (fun r => r.1.map fun x => x.slot 0 0) = some [some (.one (some (.data (.int 5))))] := by
  decide +kernel

/-- A floating point number that is not a number is loaded as zero. -/
theorem C59_nan_violated :
    roundtrip (attrEnv { name := [120], typeName := "float64" }) (attrGraph (some (.float64 7)) none) {} [0]
      (fun r => r.1.map fun x => x.slot 0 0) = some [some (.one (some (.data (.float64 0))))] := by
  decide +kernel

/-- The fraction of a second of a time is lost. -/
theorem C59_date_violated :
    roundtrip (attrEnv { name := [120], typeName := "java.util.Date" })
      (attrGraph (some (.date { year := 2024, month := 2, day := 29, hour := 12, minute := 30, second := 15, nano := 500000000 })) none) {} [0]
      (fun r => r.1.map fun x => x.slot 0 0) =
    some [some (.one (some (.data (.date { year := 2024, month := 2, day := 29, hour := 12, minute := 30, second := 15 }))))] := by
  decide +kernel

/-- Objects that are proxies are saved like any others: the URI is not in the database, and whatever is loaded is the same whether they are
proxies or not. -/
theorem C59_proxy_violated (env : Env F) (g : Graph F) (opt : Opt) (depth : Nat) (contents : List Nat) (proxy : Nat → Option Text) :
    encodeResource env { g with proxy := proxy } opt depth contents = encodeResource env g opt depth contents := by
  have hobj : ∀ (n : Nat) (st : St F) (o : Nat) (c : Option Nat),
      encodeObject env { g with proxy := proxy } opt n st o c = encodeObject env g opt n st o c := by
    intro n
    induction n with
    | zero => intros; rfl
    | succ n ih =>
      have : encodeObject env { g with proxy := proxy } opt n = encodeObject env g opt n := by
        funext st o c
        exact ih st o c
      have hitem : ∀ (st : St F) (id : Nat) (f : Feature F) (k : Kind) (e : Elem Nat F),
          encodeElem env { g with proxy := proxy } (encodeObject env g opt n) st id f k e = encodeElem env g (encodeObject env g opt n) st id f k e := by
        intro st id f k e
        cases k <;> cases e <;> rfl
      have hitems : ∀ (id : Nat) (f : Feature F) (t : Text) (l : List (Elem Nat F)) (i : Nat) (st : St F),
          encodeItems env { g with proxy := proxy } (encodeObject env g opt n) id f t i l st =
            encodeItems env g (encodeObject env g opt n) id f t i l st := by
        intro id f t l
        induction l with
        | nil => intros; rfl
        | cons e l ih => intro i st; simp only [encodeItems, hitem, ih]
      have hfeatures : ∀ (id o c : Nat) (l : List (Feature F)) (i : Nat) (st : St F),
          encodeFeatures env { g with proxy := proxy } opt (encodeObject env g opt n) id o c i l st =
            encodeFeatures env g opt (encodeObject env g opt n) id o c i l st := by
        intro id o c l
        induction l with
        | nil => intros; rfl
        | cons f l ih =>
          intro i st
          simp only [encodeFeatures, encodeColumn, encodeList, hitem, hitems, ih]
          rfl
      have hclasses : ∀ (id o : Nat) (l : List Nat) (st : St F),
          encodeClasses env { g with proxy := proxy } opt (encodeObject env g opt n) id o l st =
            encodeClasses env g opt (encodeObject env g opt n) id o l st := by
        intro id o l
        induction l with
        | nil => intros; rfl
        | cons c l ih => intro st; simp only [encodeClasses, hfeatures, ih]
      intro st o c
      simp only [encodeObject, this, hclasses]
      rfl
  cases contents with
  | nil => rfl
  | cons o l => simp only [encodeResource, hobj]

/-- Two classes whose names are the same but for the case cannot be saved. -/
theorem C59_names_violated :
    encodeResource { sampleEnv with name := fun c => if c = 0 then [83, 117, 98] else [115, 117, 98] } sampleGraph {} 10 [0] |>.isNone := by
  decide +kernel

/-- A resource with a list named `idx` cannot be saved. -/
theorem C59_idx_violated :
    encodeResource (attrEnv { name := [105, 100, 120], many := true }) (attrGraph none none) {} 10 [0] |>.isNone := by
  decide +kernel

/-- An object with the URI `/12` that is not saved is loaded, for a resource `/`, as the object with the number 12: loading fails, or the
reference is to another object. -/
theorem C59_uri_violated :
    roundtrip sampleEnv { sampleGraph with uri := fun o => if o = 2 then [47, 49, 50] else [47] } {} [0] (fun r => r.2) = none ∧
    roundtrip sampleEnv { sampleGraph with uri := fun o => if o = 2 then [47, 49] else [47] } {} [0] (fun r => r.1.map fun x => x.slot 0 2) =
      some [some (.one (some (.ref (.copy 0)))), some (.one (some (.ref (.copy 0))))] := by
  decide +kernel

/-- An object without ID gets the ID `<nil>`, which is no number: loading fails. -/
theorem C59_id_violated : roundtrip sampleEnv { sampleGraph with id := fun _ => none } { ids := .column } [0] (fun r => r.2) = none := by
  decide +kernel

/-- When containers are saved too, the IDs are not loaded. -/
theorem C59_containers_violated :
    roundtrip sampleEnv sampleGraph { ids := .column, containers := true } [0] (fun r => r.1.map (·.id)) = some [none, none] := by
  decide +kernel

end Verif.SQLCodec
